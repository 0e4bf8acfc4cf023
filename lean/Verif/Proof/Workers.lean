import Verif.Proof.ManyOT
import Verif.Model.Apricot
import Verif.Spec.Workers
/-
Rows spread over jobs: whatever the chunk size and the order of the jobs, every row is processed once.
-/
namespace FP

theorem flatMap_chunks {α} (g : Nat → List α) (n k : Nat) :
    ∀ t, (List.range t).flatMap (fun c => (List.range (min k (n - c * k))).flatMap fun i => g (c * k + i)) =
      (List.range (min n (t * k))).flatMap g := by
  intro t
  induction t with
  | zero => simp
  | succ t ih =>
    rw [List.range_succ, List.flatMap_append, ih]
    have e : min n ((t + 1) * k) = min n (t * k) + min k (n - t * k) := by
      rw [Nat.add_mul, Nat.one_mul]; omega
    rw [e, List.range_add, List.flatMap_append]
    congr 1
    simp only [List.flatMap_cons, List.flatMap_nil, List.append_nil, List.flatMap_map]
    by_cases h : t * k ≤ n
    · rw [Nat.min_eq_right h]
    · rw [show min k (n - t * k) = 0 by omega]; rfl

theorem ceil_cover {n k : Nat} (hk : 0 < k) : n ≤ (n + k - 1) / k * k := by
  by_contra h
  have h1 : (n + k - 1) / k < (n + k - 1) / k + 1 := Nat.lt_succ_self _
  have h2 := Nat.lt_mul_of_div_lt h1 hk
  rw [Nat.add_mul, Nat.one_mul] at h2
  omega

theorem ceil_scale {n k len : Nat} (hl : 0 < len) :
    (n * len + k * len - 1) / (k * len) = (n + k - 1) / k := by
  rw [Nat.mul_comm k len, ← Nat.div_div_eq_div_mul, Nat.mul_comm n, ← Nat.mul_add]
  congr 1
  rcases Nat.eq_zero_or_pos (n + k) with h | h
  · simp [h]
  · have : len * (n + k) - 1 = len * (n + k - 1) + (len - 1) := by
      obtain ⟨m, hm⟩ : ∃ m, n + k = m + 1 := ⟨n + k - 1, by omega⟩
      rw [hm, Nat.mul_add]; simp; omega
    rw [this, Nat.mul_add_div hl, Nat.div_eq_of_lt (by omega)]; omega

theorem min_scale (a b len : Nat) : min (a * len) (b * len) = min a b * len := by
  rcases Nat.le_total a b with h | h
  · rw [Nat.min_eq_left h, Nat.min_eq_left (Nat.mul_le_mul_right _ h)]
  · rw [Nat.min_eq_right h, Nat.min_eq_right (Nat.mul_le_mul_right _ h)]

/-- The chunks of a buffer of `n` equal rows of `len` equal entries, `k` rows to a chunk. -/
theorem chunks_rows {α : Type} (z : α) {n k len : Nat} (hk : 0 < k) (hl : 0 < len) :
    chunksR (List.replicate (n * len) z) (k * len) =
      .ok ((List.range ((n + k - 1) / k)).map fun c => List.replicate (min k (n - c * k) * len) z) := by
  unfold chunksR
  rw [if_neg (Nat.mul_pos hk hl).ne']
  refine congrArg Except.ok ?_
  rw [List.length_replicate, ceil_scale hl]
  apply List.map_congr_left
  intro c _
  rw [List.drop_replicate, List.take_replicate, ← Nat.mul_assoc, ← Nat.sub_mul, min_scale]

/-- All jobs of a buffer of `n` equal rows, in any order. -/
theorem rowJobs_ok {α : Type} (z : α) {n k len : Nat} (hk : 0 < k) (hl : 0 < len) (sched : Nat → List Nat)
    (hs : ∀ m, Spec.IsOrder m (sched m)) (job : Nat → List α → R (List α)) (g : Nat → List α)
    (hjob : ∀ c r, c * k + r ≤ n → job c (List.replicate (r * len) z) =
      .ok ((List.range r).flatMap fun i => g (c * k + i))) :
    (chunksR (List.replicate (n * len) z) (k * len) >>= fun chunks =>
      runJobs (sched chunks.length) job chunks >>= fun chunks => pure chunks.flatten) =
    (.ok ((List.range n).flatMap g) : R (List α)) := by
  rw [chunks_rows z hk hl, okb]
  set t := (n + k - 1) / k with ht
  rw [List.length_map, List.length_range]
  have hperm : (sched t).Perm (List.range t) := hs t
  have hc : ∀ c < t, c * k ≤ n := by
    intro c hc
    have h1 : (c + 1) * k ≤ t * k := Nat.mul_le_mul_right _ hc
    have h2 : t * k ≤ n + k - 1 := Nat.div_mul_le_self _ _
    rw [Nat.add_mul, Nat.one_mul] at h1
    omega
  obtain ⟨cs, h1, h2, h3⟩ := runJobs_ok (sched t) job
    ((List.range t).map fun c => List.replicate (min k (n - c * k) * len) z)
    (fun c => (List.range (min k (n - c * k))).flatMap fun i => g (c * k + i))
    (hperm.nodup_iff.mpr List.nodup_range)
    (fun c hcm => by simpa using (hperm.mem_iff.mp hcm))
    (fun c hcm x hx => by
      have hcl : c < t := by simpa using (hperm.mem_iff.mp hcm)
      have : x = List.replicate (min k (n - c * k) * len) z := by
        rw [List.getElem?_map, List.getElem?_range hcl] at hx
        simpa using hx.symm
      rw [this]
      exact hjob c _ (by have := hc c hcl; omega))
  rw [h1, okb]
  have hcs : cs = (List.range t).map fun c =>
      (List.range (min k (n - c * k))).flatMap fun i => g (c * k + i) := by
    apply List.ext_getElem?
    intro c
    rw [h3]
    by_cases hcl : c < t
    · rw [if_pos (hperm.mem_iff.mpr (by simpa using hcl))]
      simp [hcl]
    · rw [if_neg (fun h => hcl (by simpa using hperm.mem_iff.mp h))]
      simp [hcl]
  refine congrArg Except.ok ?_
  rw [hcs, ← List.flatMap_def, flatMap_chunks, Nat.min_eq_left (ceil_cover hk)]

theorem pick_pos {cores rows : Nat} (hc : 0 < cores) (hr : 0 < rows) :
    0 < pickThreads cores rows ∧ pickThreads cores rows ≤ rows := by
  unfold pickThreads
  split
  · omega
  · split
    · omega
    · exact ⟨Nat.div_pos (by omega) hc, Nat.div_le_self _ _⟩

theorem divR_ok {a b : Nat} (h : 0 < b) : divR a b = .ok (a / b) := by
  unfold divR; rw [if_neg (by omega)]

end FP
