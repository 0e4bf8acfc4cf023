import Verif.Proof.Witness
import Verif.Proof.Interleave
import Verif.Props.ManyOT
/-
C61: the parallel loops of the transfers on shared memory, under every interleaving of the workers' steps.
-/
namespace FP.Props
open Spec

/-- C61: workers that share out the rows, each doing the steps of its rows one row after the other, give interleavings in
the sense of the specification, however the rows are shared out and whichever way the workers take turns. -/
theorem C61_workers (n : Nat) (steps : Nat → Nat) (workers : List (List Nat)) (order : List Nat)
    (hshare : workers.flatten.Perm (List.range n))
    (horder : order.Perm (workers.map fun rows => rows.flatMap fun r => List.replicate (steps r) r).flatten) :
    IsInterleaving n steps order := by
  intro r
  rw [horder.count_eq]
  have e : (workers.map fun rows => rows.flatMap fun r => List.replicate (steps r) r).flatten =
      workers.flatten.flatMap fun r => List.replicate (steps r) r := by
    clear hshare horder
    induction workers with
    | nil => rfl
    | cons w ws ih => rw [List.map_cons, List.flatten_cons, ih, List.flatten_cons, List.flatMap_append]
  rw [e, (hshare.flatMap_right _).count_eq]
  clear e horder hshare
  induction n with
  | zero => simp
  | succ n ih =>
    rw [List.range_succ, List.flatMap_append, List.count_append, ih, List.flatMap_singleton, List.count_replicate]
    by_cases h : r < n
    · have h' : (n == r) = false := by simp; omega
      rw [h', if_pos h, if_pos (show r < n + 1 by omega)]; rfl
    · by_cases h' : r = n
      · subst h'; simp
      · have h'' : (n == r) = false := by simp; omega
        rw [h'', if_neg h, if_neg (show ¬ r < n + 1 by omega)]; rfl

/-- C61, sender of the OT extension: every interleaving of the steps that encrypt the pairs gives what the sender of the
model sends, for every number of cores and every order of its workers. -/
theorem C61_randomize (X : Crypto) (delta qT : Bytes) (msg : List (Bytes × Bytes)) (ms : Nat) (order : List Nat)
    (hn : 0 < msg.length) (hms : 0 < ms) (hd : delta.length = 16) (hq : 16 * msg.length ≤ qT.length)
    (hm : ∀ m ∈ msg, m.1.length = ms ∧ m.2.length = ms) (ho : IsInterleaving msg.length (fun _ => 4) order)
    (cores : Nat) (sched : Nat → List Nat) (hc : 0 < cores) (hs : ∀ n, IsOrder n (sched n)) :
    interleave (modifyFlat (ms * 2)) (randomizeSteps X delta qT msg ms) order (fun _ => 0)
        (List.replicate (msg.length * (ms * 2)) 0) =
      apRandomize X cores sched delta qT msg ms := by
  rw [apRandomize_ok X cores sched delta qT msg ms hc hs hn hms hd hq hm]
  exact interleave_flat _ _ _ _ _ ho (fun r _ => randomizeSteps_length X delta qT msg ms r)
    fun r hr => randomizeSteps_run X delta qT msg ms r hd hq hr hm

/-- C61, receiver of the OT extension: every interleaving of the steps that hash the rows gives the hashes of the model. -/
theorem C61_hashes (X : Crypto) (t : Bytes) (l : Nat) (order : List Nat) (hl : 0 < l) (ht : 16 * l ≤ t.length)
    (ho : IsInterleaving l (fun _ => 1) order)
    (cores : Nat) (sched : Nat → List Nat) (hc : 0 < cores) (hs : ∀ n, IsOrder n (sched n)) :
    interleave (modifyFlat 32) (vSteps X t) order (fun _ => 0) (List.replicate (l * 32) 0) = apV X cores sched l t := by
  rw [apV_ok X cores sched l t hc hs hl ht]
  exact interleave_flat _ _ _ _ _ ho (fun r _ => vSteps_length X t r) fun r hr => vSteps_run X t l r ht hr

example := C61_hashes (Witness.crypto true) (List.replicate 128 3) 8 (List.range 8).reverse (by meets) (by meets)
    (fun r => by simp [List.count_range]) 4 List.range (by meets) (by meets)

/-- C61, receiver of the OT extension: every interleaving of the steps that decrypt the chosen messages gives the result
of the model. -/
theorem C61_derandomize (X : Crypto) (v d packed : Bytes) (n ms : Nat) (order : List Nat) (hn : 0 < n)
    (hv : 32 * n ≤ v.length) (hd : d.length = n * (ms * 2)) (hp : n ≤ 8 * packed.length)
    (ho : IsInterleaving n (fun _ => 2) order)
    (cores : Nat) (sched : Nat → List Nat) (hc : 0 < cores) (hs : ∀ n, IsOrder n (sched n)) :
    interleave modifyRows (derandomizeSteps X v d packed ms) order (fun _ => 0)
        (List.replicate n (List.replicate ms 0)) =
      apDerandomize X cores sched v d packed n (List.replicate n (List.replicate ms 0)) := by
  have h : ∀ r : Fin n, ∃ y, apDerandomizeRow X v d packed ms r (List.replicate ms 0) = .ok y :=
    fun r => apDerandomizeRow_some X v d packed n ms r hv hd hp r.2
  choose out hout using h
  have hout' : ∀ r < n, apDerandomizeRow X v d packed ms r (List.replicate ms 0) =
      .ok (if h : r < n then out ⟨r, h⟩ else []) := fun r hr => by rw [dif_pos hr]; exact hout ⟨r, hr⟩
  rw [apDerandomize_ok X cores sched v d packed n ms (fun r => if h : r < n then out ⟨r, h⟩ else []) hc hs hn hd hout']
  have e : List.replicate n (List.replicate ms (0 : Byte)) = (List.range n).map fun _ => List.replicate ms 0 := by simp
  rw [e]
  exact interleave_rows _ _ _ _ _ ho fun r hr => by rw [derandomizeSteps_run]; exact hout' r hr

/-- C61, sender of 1-out-of-n OT: every interleaving of the steps that mask the messages gives the buffer of the model,
whenever the rows divide evenly over the workers (which C44 shows to be necessary for the program to work at all). -/
theorem C61_masked (X : Crypto) (messages : List Bytes) (keys : Nat → WireBytes × WireBytes) (domain len : Nat)
    (order : List Nat) (hdom : domain < 64) (hlen : ∀ m ∈ messages, m.length = len) (hn : 2 ^ domain = messages.length)
    (hsize : 2 ^ domain * len < 2 ^ 64) (ho : IsInterleaving (2 ^ domain) (fun _ => domain + 1) order)
    (cores : Nat) (jobs : List Nat) (hc : 0 < cores)
    (hpar : 2 < domain → 0 < len ∧ CleanSplit X.dbg cores (2 ^ domain) ∧ IsOrder (workers cores (2 ^ domain)) jobs) :
    interleave (modifyFlat len)
        (manySteps X messages ((List.range domain).map fun j => ((keys j).1.toList, (keys j).2.toList)) domain len) order
        (fun _ => 0) (List.replicate (2 ^ domain * len) 0) =
      manyY X cores jobs messages ((List.range domain).map fun j => ((keys j).1.toList, (keys j).2.toList)) domain := by
  have h := manyY_ok X cores jobs messages keys domain len hdom hc hlen (by omega) hsize fun h2 => by
    obtain ⟨h0, ⟨h1, h2⟩, h3⟩ := hpar h2
    rw [threads_eq, rows_eq]
    have hj : manyJobs cores domain len = workers cores (2 ^ domain) := jobs_eq cores domain len h0 hc
    exact ⟨h0, h2, h1, by rw [hj]; exact h3⟩
  unfold keyList at h
  rw [h]
  refine interleave_flat _ _ _ _ _ ?_ (fun r _ => manySteps_length X messages _ domain len r) fun r hr => ?_
  · intro r
    rw [ho r]
    simp [manySteps]
  · rw [manySteps_run]
    exact manyRow_ok X messages keys domain len r (messages.getD r []) (by
      have : r < messages.length := by omega
      simp [this]) (by
      have : r < messages.length := by omega
      have e : messages.getD r [] = messages[r] := by simp [this]
      rw [e]; exact hlen _ (List.getElem_mem _))

/-- C61, faults: whatever the steps of the rows of a buffer are (as long as they keep the length of a row), an
interleaving runs to its end without a fault exactly if every row does on its own; the contents of a row are then what
its own steps make of it. -/
theorem C61_faults (tasks : Nat → List (Bytes → R Bytes)) (n len : Nat) (order : List Nat)
    (ho : IsInterleaving n (fun r => (tasks r).length) order)
    (hlen : ∀ r < n, ∀ f ∈ tasks r, ∀ x y : Bytes, x.length = len → f x = .ok y → y.length = len) (m : Bytes) :
    interleave (modifyFlat len) tasks order (fun _ => 0) (List.replicate (n * len) 0) = .ok m ↔
      ∃ out : Nat → Bytes, m = (List.range n).flatMap out ∧
        ∀ r < n, (tasks r).foldlM (fun x f => f x) (List.replicate len 0) = .ok (out r) := by
  constructor
  · intro h
    have hrows := interleave_flat_inv tasks n len order m ho hlen h
    have h' : ∀ r : Fin n, ∃ y, runSteps (tasks r) (List.replicate len 0) = .ok y := fun r => hrows r r.2
    choose out hout using h'
    have hout' : ∀ r < n, runSteps (tasks r) (List.replicate len 0) = .ok (if h : r < n then out ⟨r, h⟩ else []) :=
      fun r hr => by rw [dif_pos hr]; exact hout ⟨r, hr⟩
    rw [interleave_flat tasks n len _ order ho hlen hout'] at h
    exact ⟨_, (Except.ok.inj h).symm, hout'⟩
  · rintro ⟨out, rfl, hout⟩
    exact interleave_flat tasks n len out order ho hlen hout

/-- Two workers of two rows each, the second one first, then taking turns: an interleaving. -/
example : IsInterleaving 4 (fun _ => 2) [2, 0, 2, 0, 3, 1, 3, 1] :=
  C61_workers 4 (fun _ => 2) [[0, 1], [2, 3]] _ (by decide) (by decide)

/-- Eight pairs of messages of five bytes, one step of every row in turn. -/
example (X : Crypto) : interleave (modifyFlat (5 * 2))
      (randomizeSteps X (List.replicate 16 3) (List.replicate 128 9) (List.replicate 8 ([1, 2, 3, 4, 5], [6, 7, 8, 9, 10])) 5)
      ((List.range 4).flatMap fun _ => List.range 8) (fun _ => 0) (List.replicate (8 * (5 * 2)) 0) =
    apRandomize X 4 List.range (List.replicate 16 3) (List.replicate 128 9)
      (List.replicate 8 ([1, 2, 3, 4, 5], [6, 7, 8, 9, 10])) 5 :=
  C61_randomize X (List.replicate 16 3) (List.replicate 128 9) (List.replicate 8 ([1, 2, 3, 4, 5], [6, 7, 8, 9, 10])) 5 _
    (by decide) (by decide) (by simp) (by simp) (by decide)
    (C61_workers 8 (fun _ => 4) [[0, 1, 2, 3], [4, 5, 6, 7]] _ (by decide) (by decide))
    4 List.range (by decide) fun _ => List.Perm.refl _

end FP.Props
