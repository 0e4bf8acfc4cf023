import Verif.Model.Interleave
import Verif.Spec.Interleave
import Verif.Proof.Apricot
import Verif.Proof.ManyOT
/-
Every interleaving of the steps of independent rows gives the same memory.
-/
namespace FP
open Spec

/-- The result of the steps of one row, one after the other. -/
def runSteps {ρ : Type} (steps : List (ρ → R ρ)) (x : ρ) : R ρ := steps.foldlM (fun x f => f x) x

theorem runSteps_cons {ρ : Type} (f : ρ → R ρ) (l : List (ρ → R ρ)) (x : ρ) :
    runSteps (f :: l) x = f x >>= runSteps l := by
  unfold runSteps; rw [List.foldlM_cons]

/-- Memory made of `n` rows. -/
theorem interleave_ok {σ ρ : Type} (modify : Nat → (ρ → R ρ) → σ → R σ) (tasks : Nat → List (ρ → R ρ)) (n : Nat)
    (mem : (Nat → ρ) → σ) (P : ρ → Prop)
    (hmod : ∀ (g : Nat → ρ) (r : Nat) (f : ρ → R ρ) (y : ρ), r < n → (∀ i < n, P (g i)) → P y → f (g r) = .ok y →
      modify r f (mem g) = .ok (mem fun i => if i = r then y else g i))
    (hP : ∀ r < n, ∀ f ∈ tasks r, ∀ x y, P x → f x = .ok y → P y)
    (hcongr : ∀ g g' : Nat → ρ, (∀ i < n, g i = g' i) → mem g = mem g')
    (out : Nat → ρ) : ∀ (order : List Nat) (pc : Nat → Nat) (g : Nat → ρ),
      (∀ r, order.count r = if r < n then (tasks r).length - pc r else 0) → (∀ r < n, pc r ≤ (tasks r).length) →
      (∀ r < n, P (g r)) → (∀ r < n, runSteps ((tasks r).drop (pc r)) (g r) = .ok (out r)) →
      interleave modify tasks order pc (mem g) = .ok (mem out) := by
  intro order
  induction order with
  | nil =>
    intro pc g hc hpc hg hrun
    unfold interleave
    refine congrArg _ (hcongr _ _ fun r hr => ?_)
    have h0 := hc r
    rw [if_pos hr, List.count_nil] at h0
    have := hrun r hr
    rw [List.drop_eq_nil_of_le (by omega)] at this
    exact Except.ok.inj this
  | cons r order ih =>
    intro pc g hc hpc hg hrun
    have hr : r < n := by
      have := hc r
      rw [List.count_cons_self] at this
      by_contra h
      rw [if_neg h] at this
      omega
    have hlt : pc r < (tasks r).length := by
      have := hc r
      rw [List.count_cons_self, if_pos hr] at this
      omega
    have hstep := hrun r hr
    rw [List.drop_eq_getElem_cons hlt, runSteps_cons] at hstep
    cases hf : (tasks r)[pc r] (g r) with
    | error e => rw [hf] at hstep; cases hstep
    | ok y =>
      rw [hf, okb] at hstep
      have hy : P y := hP r hr _ (List.getElem_mem hlt) _ _ (hg r hr) hf
      unfold interleave
      rw [idxR_ok (List.getElem?_eq_getElem hlt), okb, hmod g r _ y hr hg hy hf, okb]
      refine ih _ _ ?_ ?_ ?_ ?_
      · intro i
        have := hc i
        by_cases hi : i = r
        · subst hi
          rw [List.count_cons_self, if_pos hr] at this
          rw [if_pos hr, if_pos rfl]
          omega
        · rw [List.count_cons_of_ne (fun h => hi h.symm)] at this
          rw [this, if_neg hi]
      · intro i hi
        by_cases h : i = r
        · subst h; rw [if_pos rfl]; omega
        · rw [if_neg h]; exact hpc i hi
      · intro i hi
        by_cases h : i = r
        · rw [if_pos h]; exact hy
        · rw [if_neg h]; exact hg i hi
      · intro i hi
        by_cases h : i = r
        · subst h; rw [if_pos rfl, if_pos rfl]; exact hstep
        · rw [if_neg h, if_neg h]; exact hrun i hi

/-- If the memory can be computed at all, every row can. -/
theorem interleave_rows_ok {σ ρ : Type} (modify : Nat → (ρ → R ρ) → σ → R σ) (tasks : Nat → List (ρ → R ρ)) (n : Nat)
    (mem : (Nat → ρ) → σ) (P : ρ → Prop)
    (hmod : ∀ (g : Nat → ρ) (r : Nat) (f : ρ → R ρ) (y : ρ), r < n → (∀ i < n, P (g i)) → P y → f (g r) = .ok y →
      modify r f (mem g) = .ok (mem fun i => if i = r then y else g i))
    (hinv : ∀ (g : Nat → ρ) (r : Nat) (f : ρ → R ρ) (m : σ), r < n → (∀ i < n, P (g i)) →
      modify r f (mem g) = .ok m → ∃ y, f (g r) = .ok y)
    (hP : ∀ r < n, ∀ f ∈ tasks r, ∀ x y, P x → f x = .ok y → P y) (m : σ) :
    ∀ (order : List Nat) (pc : Nat → Nat) (g : Nat → ρ),
      (∀ r, order.count r = if r < n then (tasks r).length - pc r else 0) → (∀ r < n, pc r ≤ (tasks r).length) →
      (∀ r < n, P (g r)) → interleave modify tasks order pc (mem g) = .ok m →
      ∀ r < n, ∃ y, runSteps ((tasks r).drop (pc r)) (g r) = .ok y := by
  intro order
  induction order with
  | nil =>
    intro pc g hc hpc hg _ r hr
    have h0 := hc r
    rw [if_pos hr, List.count_nil] at h0
    rw [List.drop_eq_nil_of_le (by omega)]
    exact ⟨_, rfl⟩
  | cons r order ih =>
    intro pc g hc hpc hg hrun
    have hr : r < n := by
      have := hc r
      rw [List.count_cons_self] at this
      by_contra h
      rw [if_neg h] at this
      omega
    have hlt : pc r < (tasks r).length := by
      have := hc r
      rw [List.count_cons_self, if_pos hr] at this
      omega
    unfold interleave at hrun
    rw [idxR_ok (List.getElem?_eq_getElem hlt), okb] at hrun
    cases hm : modify r (tasks r)[pc r] (mem g) with
    | error e => rw [hm] at hrun; cases hrun
    | ok m' =>
      obtain ⟨y, hf⟩ := hinv g r _ _ hr hg hm
      have hy : P y := hP r hr _ (List.getElem_mem hlt) _ _ (hg r hr) hf
      rw [hmod g r _ y hr hg hy hf, okb] at hrun
      have := ih _ _ (fun i => by
        have := hc i
        by_cases hi : i = r
        · subst hi
          rw [List.count_cons_self, if_pos hr] at this
          rw [if_pos hr, if_pos rfl]
          omega
        · rw [List.count_cons_of_ne (fun h => hi h.symm)] at this
          rw [this, if_neg hi]) (fun i hi => by
        by_cases h : i = r
        · subst h; rw [if_pos rfl]; omega
        · rw [if_neg h]; exact hpc i hi) (fun i hi => by
        by_cases h : i = r
        · rw [if_pos h]; exact hy
        · rw [if_neg h]; exact hg i hi) hrun
      intro i hi
      have := this i hi
      by_cases h : i = r
      · subst h
        rw [if_pos rfl, if_pos rfl] at this
        rw [List.drop_eq_getElem_cons hlt, runSteps_cons, hf, okb]
        exact this
      · rw [if_neg h, if_neg h] at this
        exact this

theorem updateRow_flat {len n r : Nat} (g : Nat → Bytes) (f : Bytes → R Bytes) (y : Bytes) (hr : r < n)
    (hg : ∀ i < n, (g i).length = len) (hf : f (g r) = .ok y) :
    updateRow ((List.range n).flatMap g) r len f =
      .ok ((List.range n).flatMap fun i => if i = r then y else g i) := by
  have hlen := flatMap_len hg
  have hmul : len * (r + 1) ≤ len * n := Nat.mul_le_mul_left _ hr
  rw [Nat.mul_add] at hmul
  have hrow : (((List.range n).flatMap g).drop (len * r)).take len = g r := row_flatMap hg hr
  have split : ∀ h : Nat → Bytes, (List.range n).flatMap h =
      (List.range r).flatMap h ++ h r ++ (List.range (n - r - 1)).flatMap (fun i => h (r + 1 + i)) := by
    intro h
    have e : List.range n = List.range r ++ r :: (List.range (n - r - 1)).map (r + 1 + ·) := by
      have h1 : n = r + (1 + (n - r - 1)) := by omega
      conv_lhs => rw [h1, List.range_add, List.range_add]
      simp [List.range_succ, Nat.add_assoc]
    rw [e]
    simp [List.flatMap_append, List.flatMap_map]
  have hpre : ((List.range r).flatMap g).length = len * r := flatMap_len fun i hi => hg i (by omega)
  have hgr := hg r hr
  unfold updateRow
  rw [if_pos (by omega), hrow, hf, okb]
  show Except.ok _ = _
  congr 1
  rw [split (fun i => if i = r then y else g i), if_pos rfl]
  have e1 : (List.range r).flatMap (fun i => if i = r then y else g i) = (List.range r).flatMap g := by
    refine List.flatMap_congr fun i hi => ?_
    rw [if_neg (by have : i < r := by simpa using hi
                   omega)]
  have e2 : (List.range (n - r - 1)).flatMap (fun i => if r + 1 + i = r then y else g (r + 1 + i)) =
      (List.range (n - r - 1)).flatMap fun i => g (r + 1 + i) := by
    refine List.flatMap_congr fun i _ => ?_
    rw [if_neg (by omega)]
  rw [e1, e2, split g]
  have t1 : List.take (len * r) ((List.range r).flatMap g ++ g r ++ (List.range (n - r - 1)).flatMap fun i => g (r + 1 + i)) =
      (List.range r).flatMap g := by
    rw [List.append_assoc, List.take_left' hpre]
  have t2 : List.drop (len * r + len) ((List.range r).flatMap g ++ g r ++ (List.range (n - r - 1)).flatMap fun i => g (r + 1 + i)) =
      (List.range (n - r - 1)).flatMap fun i => g (r + 1 + i) := by
    rw [List.drop_left' (by simp [hpre, hgr])]
  rw [t1, t2]

/-- A buffer of `n` rows of `len` zero bytes. -/
theorem interleave_flat (tasks : Nat → List (Bytes → R Bytes)) (n len : Nat) (out : Nat → Bytes) (order : List Nat)
    (ho : IsInterleaving n (fun r => (tasks r).length) order)
    (hlen : ∀ r < n, ∀ f ∈ tasks r, ∀ x y : Bytes, x.length = len → f x = .ok y → y.length = len)
    (hrun : ∀ r < n, runSteps (tasks r) (List.replicate len 0) = .ok (out r)) :
    interleave (modifyFlat len) tasks order (fun _ => 0) (List.replicate (n * len) 0) = .ok ((List.range n).flatMap out) := by
  have e : List.replicate (n * len) (0 : Byte) = (List.range n).flatMap fun _ => List.replicate len 0 := by
    clear ho hlen hrun
    induction n with
    | zero => simp
    | succ n ih => rw [List.range_succ, List.flatMap_append, ← ih]; simp [Nat.add_mul]
  rw [e]
  refine interleave_ok (modifyFlat len) tasks n (fun g => (List.range n).flatMap g) (fun x => x.length = len) ?_ hlen ?_ out
    order (fun _ => 0) _ (fun r => by rw [ho r]; simp) (fun r _ => Nat.zero_le _) (fun _ _ => by simp) hrun
  · intro g r f y hr hg _ hf
    exact updateRow_flat g f y hr hg hf
  · intro g g' h
    exact List.flatMap_congr fun i hi => h i (by simpa using hi)

theorem zero_rows (n len : Nat) : List.replicate (n * len) (0 : Byte) = (List.range n).flatMap fun _ => List.replicate len 0 := by
  induction n with
  | zero => simp
  | succ n ih => rw [List.range_succ, List.flatMap_append, ← ih]; simp [Nat.add_mul]

theorem interleave_flat_inv (tasks : Nat → List (Bytes → R Bytes)) (n len : Nat) (order : List Nat) (m : Bytes)
    (ho : IsInterleaving n (fun r => (tasks r).length) order)
    (hlen : ∀ r < n, ∀ f ∈ tasks r, ∀ x y : Bytes, x.length = len → f x = .ok y → y.length = len)
    (h : interleave (modifyFlat len) tasks order (fun _ => 0) (List.replicate (n * len) 0) = .ok m) :
    ∀ r < n, ∃ y, runSteps (tasks r) (List.replicate len 0) = .ok y := by
  rw [zero_rows] at h
  refine interleave_rows_ok (modifyFlat len) tasks n (fun g => (List.range n).flatMap g) (fun x => x.length = len) ?_ ?_ hlen m
    order (fun _ => 0) _ (fun r => by rw [ho r]; simp) (fun r _ => Nat.zero_le _) (fun _ _ => by simp) h
  · intro g r f y hr hg _ hf
    exact updateRow_flat g f y hr hg hf
  · intro g r f m hr hg hm
    have hrow : (((List.range n).flatMap g).drop (len * r)).take len = g r := row_flatMap hg hr
    unfold modifyFlat updateRow at hm
    split at hm
    · rw [hrow] at hm
      cases hf : f (g r) with
      | error e => rw [hf] at hm; cases hm
      | ok y => exact ⟨y, rfl⟩
    · cases hm

/-- A vector of `n` vectors. -/
theorem interleave_rows (tasks : Nat → List (Bytes → R Bytes)) (n : Nat) (init out : Nat → Bytes) (order : List Nat)
    (ho : IsInterleaving n (fun r => (tasks r).length) order)
    (hrun : ∀ r < n, runSteps (tasks r) (init r) = .ok (out r)) :
    interleave modifyRows tasks order (fun _ => 0) ((List.range n).map init) = .ok ((List.range n).map out) := by
  refine interleave_ok modifyRows tasks n (fun g => (List.range n).map g) (fun _ => True) ?_ (fun _ _ _ _ _ _ _ _ => trivial) ?_ out
    order (fun _ => 0) _ (fun r => by rw [ho r]; simp) (fun r _ => Nat.zero_le _) (fun _ _ => trivial) hrun
  · intro g r f y hr _ _ hf
    unfold modifyRows
    rw [idxR_ok (a := g r) (by simp [hr]), okb, hf, okb, setR_ok _ (by simpa using hr)]
    congr 1
    apply List.ext_getElem
    · simp
    · intro i h1 h2
      simp only [List.getElem_set, List.getElem_map, List.getElem_range]
      by_cases h : r = i
      · rw [if_pos h, if_pos h.symm]
      · rw [if_neg h, if_neg (fun c => h c.symm)]
  · intro g g' h
    exact List.map_congr_left fun i hi => h i (by simpa using hi)

/-- The steps of a row of "Randomize" together. -/
theorem randomizeSteps_run (X : Crypto) (delta qT : Bytes) (msg : List (Bytes × Bytes)) (ms r : Nat)
    (hd : delta.length = 16) (hq : 16 * msg.length ≤ qT.length) (hr : r < msg.length)
    (hm : ∀ m ∈ msg, m.1.length = ms ∧ m.2.length = ms) :
    runSteps (randomizeSteps X delta qT msg ms r) (List.replicate (ms * 2) 0) = .ok (apPair X delta qT msg r) := by
  rcases hmj : msg[r] with ⟨m0, m1⟩
  have hget : msg[r]? = some (m0, m1) := by rw [List.getElem?_eq_getElem hr, hmj]
  obtain ⟨hm0, hm1⟩ := hm (m0, m1) (hmj ▸ List.getElem_mem hr)
  dsimp only at hm0 hm1
  have hgd : msg.getD r ([], []) = (m0, m1) := by rw [List.getD, hget]; rfl
  have first : ∀ (a b : Bytes) (f : Bytes → R Bytes), a.length = ms →
      updateSlice (a ++ b) 0 ms f = (f a >>= fun x => .ok (x ++ b)) := fun a b f ha => by
    simpa using updateSlice_at [] a b 0 ms rfl ha f
  have second : ∀ (a b : Bytes) (f : Bytes → R Bytes), a.length = ms → b.length = ms →
      updateSlice (a ++ b) ms ms f = (f b >>= fun x => .ok (a ++ x)) := fun a b f ha hb => by
    simpa using updateSlice_at a b [] ms ms ha hb f
  unfold randomizeSteps
  rw [Nat.mul_two, ← List.replicate_append_replicate]
  rw [runSteps_cons, first _ _ _ (by simp), vectorRow_ok hq hr, okb, List.length_replicate]
  simp only [purek, okb]
  rw [runSteps_cons, first _ _ _ (fill_length ..), idxR_ok hget, okb, apXorInplace_ok _ (by rw [fill_length, hm0]), okb, okb,
    runSteps_cons, second _ _ _ (by simp [fill_length, hm0]) (by simp),
    apXor_ok _ (by rw [row_length hq hr, hd]) (by rw [row_length hq hr]; simp), okb, List.length_replicate, okb, okb,
    runSteps_cons, second _ _ _ (by simp [fill_length, hm0]) (fill_length ..), okb,
    apXorInplace_ok _ (by rw [fill_length, hm1]), okb, okb]
  show Except.ok _ = _
  refine congrArg Except.ok ?_
  unfold apPair apCipher
  rw [hgd]
  dsimp only
  rw [hm0, hm1]

theorem updateSlice_length {v : Bytes} {off len : Nat} {f : Bytes → R Bytes} {y : Bytes}
    (hf : ∀ x y : Bytes, x.length = len → f x = .ok y → y.length = len) (h : updateSlice v off len f = .ok y) :
    y.length = v.length := by
  unfold updateSlice at h
  split at h
  · rename_i hl
    cases hx : f ((v.drop off).take len) with
    | error e => rw [hx] at h; cases h
    | ok x =>
      rw [hx, okb] at h
      have := hf _ _ (by simp; omega) hx
      rw [← Except.ok.inj h]
      simp [this]
      omega
  · cases h

theorem xorLoop_length {b : Bytes} : ∀ (l : List Nat) (s t : Bytes),
    l.foldlM (fun d i => do setR d i ((← idxR d i) ^^^ (← idxR b i))) s = .ok t → t.length = s.length := by
  intro l
  induction l with
  | nil => intro s t h; rw [← Except.ok.inj h]
  | cons i l ih =>
    intro s t h
    rw [List.foldlM_cons] at h
    cases h1 : idxR s i with
    | error e => rw [h1] at h; cases h
    | ok x =>
      rw [h1] at h
      cases h2 : idxR b i with
      | error e => rw [h2] at h; cases h
      | ok z =>
        rw [h2] at h
        simp only [okb] at h
        cases h3 : setR s i (x ^^^ z) with
        | error e => rw [h3] at h; cases h
        | ok s' =>
          rw [h3, okb] at h
          rw [ih _ _ h]
          unfold setR at h3
          split at h3
          · rw [← Except.ok.inj h3]; simp
          · cases h3

theorem apXorInplace_length {dbg : Bool} {a b y : Bytes} (h : apXorInplace dbg a b = .ok y) : y.length = a.length := by
  unfold apXorInplace at h
  cases hd : debugAssertR dbg (decide (b.length = a.length)) with
  | error e => rw [hd] at h; cases h
  | ok u => rw [hd, okb] at h; exact xorLoop_length _ _ _ h

theorem xorBytesInplace_length {dbg : Bool} {a b y : Bytes} (h : xorBytesInplace dbg a b = .ok y) :
    y.length = a.length := by
  unfold xorBytesInplace at h
  cases hd : debugAssertR dbg (decide (a.length = b.length)) with
  | error e => rw [hd] at h; cases h
  | ok u => rw [hd, okb] at h; exact xorLoop_length _ _ _ h

theorem bind_ok {α β : Type} {x : R α} {f : α → R β} {y : β} (h : (x >>= f) = .ok y) : ∃ a, x = .ok a ∧ f a = .ok y := by
  cases x with
  | error e => cases h
  | ok a => exact ⟨a, rfl, h⟩

theorem randomizeSteps_length (X : Crypto) (delta qT : Bytes) (msg : List (Bytes × Bytes)) (ms r : Nat) :
    ∀ f ∈ randomizeSteps X delta qT msg ms r, ∀ x y : Bytes, x.length = ms * 2 → f x = .ok y → y.length = ms * 2 := by
  intro f hf x y hx h
  rw [← hx]
  unfold randomizeSteps at hf
  simp only [List.mem_cons, List.not_mem_nil, or_false] at hf
  rcases hf with rfl | rfl | rfl | rfl
  · refine updateSlice_length ?_ h
    intro u v hu h
    obtain ⟨a, -, h⟩ := bind_ok h
    rw [← Except.ok.inj h, fill_length, hu]
  · refine updateSlice_length ?_ h
    intro u v hu h
    obtain ⟨a, -, h⟩ := bind_ok h
    rw [apXorInplace_length h, hu]
  · refine updateSlice_length ?_ h
    intro u v hu h
    obtain ⟨a, -, h⟩ := bind_ok h
    obtain ⟨b, -, h⟩ := bind_ok h
    rw [← Except.ok.inj h, fill_length, hu]
  · refine updateSlice_length ?_ h
    intro u v hu h
    obtain ⟨a, -, h⟩ := bind_ok h
    rw [apXorInplace_length h, hu]

/-- The step of a row of "Compute v". -/
theorem vSteps_run (X : Crypto) (t : Bytes) (l r : Nat) (ht : 16 * l ≤ t.length) (hr : r < l) :
    runSteps (vSteps X t r) (List.replicate 32 0) = .ok (X.sha256 (beBytes 8 r ++ row t 16 r)).toList := by
  unfold vSteps
  rw [runSteps_cons, vectorRow_ok ht hr, okb, apXorInplace_ok _ (by simp), okb]
  show Except.ok _ = _
  refine congrArg Except.ok ?_
  have := zipWith_zero (X.sha256 (beBytes 8 r ++ row t 16 r)).toList
  simpa using this

theorem vSteps_length (X : Crypto) (t : Bytes) (r : Nat) :
    ∀ f ∈ vSteps X t r, ∀ x y : Bytes, x.length = 32 → f x = .ok y → y.length = 32 := by
  intro f hf x y hx h
  unfold vSteps at hf
  rw [List.mem_singleton] at hf
  subst hf
  obtain ⟨a, -, h⟩ := bind_ok h
  rw [apXorInplace_length h, hx]

/-- The steps of a row of "De-randomize" together. -/
theorem derandomizeSteps_run (X : Crypto) (v d packed : Bytes) (ms r : Nat) (x : Bytes) :
    runSteps (derandomizeSteps X v d packed ms r) x = apDerandomizeRow X v d packed ms r x := by
  unfold derandomizeSteps apDerandomizeRow
  rw [runSteps_cons]
  cases vectorRow v r 32 with
  | error e => rfl
  | ok a =>
    rw [okb]
    cases h : arrayFromSlice a with
    | error e => simp only [h, okb]; rfl
    | ok s =>
      simp only [h, okb, purek]
      rw [runSteps_cons]
      unfold runSteps
      simp only [List.foldlM_nil, fill_length]
      exact bind_pure _

/-- A row of "De-randomize" succeeds. -/
theorem apDerandomizeRow_some (X : Crypto) (v d packed : Bytes) (n ms r : Nat) (hv : 32 * n ≤ v.length)
    (hd : d.length = n * (ms * 2)) (hp : n ≤ 8 * packed.length) (hr : r < n) :
    ∃ y, apDerandomizeRow X v d packed ms r (List.replicate ms 0) = .ok y := by
  unfold apDerandomizeRow
  dsimp only
  rw [vectorRow_ok hv hr, okb]
  have hrow := row_length hv hr
  obtain ⟨s, hs⟩ : ∃ s, arrayFromSlice (row v 32 r) = .ok s := by
    unfold arrayFromSlice
    rw [dif_pos (by omega)]
    exact ⟨_, rfl⟩
  rw [hs, okb, idxR_getD (show (r - r % 8) / 8 < packed.length by omega), okb]
  have hc : (((packed.getD ((r - r % 8) / 8) 0) >>> (r % 8)) &&& 1 : Byte).toNat ≤ 1 := by
    generalize packed.getD ((r - r % 8) / 8) 0 >>> (r % 8) = z
    rw [BitVec.toNat_and]
    exact Nat.and_le_right
  generalize ((((packed.getD ((r - r % 8) / 8) 0) >>> (r % 8)) &&& 1 : Byte).toNat) = c at hc
  have h1 : (r + 1) * (ms * 2) ≤ n * (ms * 2) := Nat.mul_le_mul_right _ hr
  rw [Nat.add_mul, ← Nat.mul_assoc] at h1
  have h2 : c * ms ≤ 1 * ms := Nat.mul_le_mul_right _ hc
  unfold vectorSlice
  rw [if_pos (by omega), okb, apXorInplace_ok _ (by simp [fill_length]; omega)]
  exact ⟨_, rfl⟩

/-- The steps of a row of "Compute y" together. -/
theorem manySteps_run (X : Crypto) (messages : List Bytes) (keys : List (Bytes × Bytes)) (domain len r : Nat) (x : Bytes) :
    runSteps (manySteps X messages keys domain len r) x = manyRow X messages keys domain len r x := by
  unfold manySteps manyRow
  rw [runSteps_cons]
  unfold runSteps
  simp only [List.foldlM_map, bind_assoc]

theorem manySteps_length (X : Crypto) (messages : List Bytes) (keys : List (Bytes × Bytes)) (domain len r : Nat) :
    ∀ f ∈ manySteps X messages keys domain len r, ∀ x y : Bytes, x.length = len → f x = .ok y → y.length = len := by
  intro f hf x y hx h
  unfold manySteps at hf
  rw [List.mem_cons] at hf
  rcases hf with rfl | hf
  · obtain ⟨a, -, h⟩ := bind_ok h
    rw [xorBytesInplace_length h, hx]
  · obtain ⟨j, -, rfl⟩ := List.mem_map.mp hf
    obtain ⟨a, -, h⟩ := bind_ok h
    rw [xorBytesInplace_length h, hx]

end FP
