import Verif.Spec.Traffic
import Verif.Proof.Post
import Verif.Proof.ManyOT
import Verif.Proof.ApricotRun
/-
Sizes of messages.
-/
namespace FP
open Spec

/-- Sends messages of the given sizes, and returns values with `P`. -/
def Shape {α : Type} (P : α → Prop) : Proc α → List Nat → Prop
  | .ret a, L => L = [] ∧ P a
  | .fail _, _ => True
  | .send m k, L => ∃ L', L = m.length :: L' ∧ Shape P k L'
  | .recv k, L => ∀ m, Shape P (k m) L

namespace Shape
variable {α β : Type} {P : α → Prop} {Q : β → Prop}

theorem bind {p : Proc α} {f : α → Proc β} {L L' : List Nat} (h : Shape P p L) (hf : ∀ a, P a → Shape Q (f a) L') :
    Shape Q (p >>= f) (L ++ L') := by
  induction p generalizing L with
  | ret a => obtain ⟨rfl, h⟩ := h; exact hf a h
  | fail e => exact trivial
  | send m k ih =>
    obtain ⟨L1, rfl, h⟩ := h
    exact ⟨L1 ++ L', rfl, ih h⟩
  | recv k ih => exact fun m => ih m (h m)

theorem mono {P' : α → Prop} {p : Proc α} {L : List Nat} (h : Shape P p L) (hP : ∀ a, P a → P' a) : Shape P' p L := by
  induction p generalizing L with
  | ret a => exact ⟨h.1, hP _ h.2⟩
  | fail e => exact trivial
  | send m k ih => obtain ⟨L1, e, h⟩ := h; exact ⟨L1, e, ih h⟩
  | recv k ih => exact fun m => ih m (h m)

theorem any {p : Proc α} {L : List Nat} (h : Shape P p L) : Shape (fun _ => True) p L := h.mono fun _ _ => trivial

/-- A computation. -/
theorem lift {r : R α} (h : Post P r) : Shape P (liftM r : Proc α) [] := by
  cases r with
  | ok a => exact ⟨rfl, h.out a rfl⟩
  | error e => exact trivial

theorem lifted (r : R α) : Shape (fun _ => True) (liftM r : Proc α) [] := lift (.any r)

/-- A computation, then more. -/
theorem step {r : R α} {f : α → Proc β} {L : List Nat} (h : Post P r) (hf : ∀ a, P a → Shape Q (f a) L) :
    Shape Q ((liftM r : Proc α) >>= f) L := (lift h).bind hf

theorem skip {r : R α} {f : α → Proc β} {L : List Nat} (hf : ∀ a, Shape Q (f a) L) :
    Shape Q ((liftM r : Proc α) >>= f) L := step (.any r) fun a _ => hf a

theorem send {m : Bytes} {f : Unit → Proc β} {s : Nat} {L : List Nat} (hm : m.length = s) (hf : Shape Q (f ()) L) :
    Shape Q (sendP m >>= f) (s :: L) := ⟨L, by rw [hm], hf⟩

theorem sendLast {m : Bytes} {s : Nat} (hm : m.length = s) : Shape (fun _ => True) (sendP m) [s] :=
  ⟨[], by rw [hm], rfl, trivial⟩

theorem recv {f : Bytes → Proc β} {L : List Nat} (hf : ∀ m, Shape Q (f m) L) : Shape Q (recvP >>= f) L := hf

theorem err {e : ErrKind} {L : List Nat} : Shape P (liftM (errR e : R α) : Proc α) L := trivial

theorem ret {a : α} (h : P a) : Shape P (pure a : Proc α) [] := ⟨rfl, h⟩

theorem traffic {p : Proc α} {L : List Nat} (h : Shape P p L) : Traffic p L := by
  intro inp
  induction p generalizing L inp with
  | ret a => obtain ⟨rfl, -⟩ := h; exact ⟨List.nil_prefix, fun _ _ => rfl⟩
  | fail e => exact ⟨List.nil_prefix, fun a e => by cases e⟩
  | send m k ih =>
    obtain ⟨L', rfl, h⟩ := h
    obtain ⟨h1, h2⟩ := ih h inp
    refine ⟨?_, fun a e => ?_⟩
    · show m.length :: _ <+: _
      exact List.cons_prefix_cons.mpr ⟨rfl, h1⟩
    · show m.length :: _ = _
      exact congrArg _ (h2 a e)
  | recv k ih =>
    cases inp with
    | nil => exact ⟨List.nil_prefix, fun a e => by cases e⟩
    | cons m inp => exact ih m (h m) inp

theorem cast {p : Proc α} {L L' : List Nat} (h : Shape P p L) (e : L = L') : Shape P p L' := e ▸ h

end Shape

/-! ### Lengths of computed buffers -/

theorem Post.mapM {α β : Type} {f : α → R β} {P : β → Prop} (l : List α) (h : ∀ a ∈ l, Post P (f a)) :
    Post (fun bs => bs.length = l.length ∧ ∀ b ∈ bs, P b) (l.mapM f) := by
  induction l with
  | nil => exact .ok ⟨rfl, by simp⟩
  | cons a l ih =>
    rw [List.mapM_cons]
    refine (h a (by simp)).bind fun b hb => (ih fun a ha => h a (by simp [ha])).bind fun bs hbs => .ok ⟨by simp [hbs.1], ?_⟩
    intro c hc
    rcases List.mem_cons.mp hc with rfl | hc
    · exact hb
    · exact hbs.2 c hc

/-- Pointwise version. -/
theorem Post.mapM_map {α β γ : Type} {f : α → R β} (g : β → γ) (g' : α → γ) (l : List α) (h : ∀ a ∈ l, Post (fun b => g b = g' a) (f a)) :
    Post (fun bs => bs.map g = l.map g') (l.mapM f) := by
  induction l with
  | nil => exact .ok rfl
  | cons a l ih =>
    rw [List.mapM_cons]
    refine (h a (by simp)).bind fun b hb => (ih fun a ha => h a (by simp [ha])).bind fun bs hbs => .ok (by simp [hb, hbs])

theorem idxR_post {α : Type} (l : List α) (i : Nat) : Post (fun a => a ∈ l) (idxR l i) := by
  unfold idxR
  split
  · next h => exact .ok (List.mem_of_getElem? h)
  · exact .err

theorem sliceR_post {α : Type} (l : List α) (a b : Nat) : Post (fun s => s.length = b - a ∧ ∀ x ∈ s, x ∈ l) (sliceR l a b) := by
  unfold sliceR
  split
  · next h =>
    refine .ok ⟨by simp; omega, fun x hx => ?_⟩
    exact List.mem_of_mem_drop (List.mem_of_mem_take hx)
  · exact .err

theorem updateRow_post {v : Bytes} {r w : Nat} {f : Bytes → R Bytes}
    (hf : ∀ row : Bytes, row.length = w → Post (fun r' => r'.length = w) (f row)) :
    Post (fun v' => v'.length = v.length) (updateRow v r w f) := by
  unfold updateRow
  split
  · refine (hf _ (by simp; omega)).bind fun r' hr' => .ok ?_
    simp
    omega
  · exact .err

theorem updateSlice_post {v : Bytes} {o w : Nat} {f : Bytes → R Bytes}
    (hf : ∀ row : Bytes, row.length = w → Post (fun r' => r'.length = w) (f row)) :
    Post (fun v' => v'.length = v.length) (updateSlice v o w f) := by
  unfold updateSlice
  split
  · refine (hf _ (by simp; omega)).bind fun r' hr' => .ok ?_
    simp
    omega
  · exact .err

theorem apXorInplace_post (dbg : Bool) (a b : Bytes) : Post (fun r => r.length = a.length) (apXorInplace dbg a b) := by
  unfold apXorInplace
  refine (Post.any _).bind fun _ _ => Post.foldlM (P := fun r : Bytes => r.length = a.length) _ _ rfl fun s hs i _ => ?_
  exact (Post.any _).bind fun _ _ => (Post.any _).bind fun _ _ => setR_post (by simp [hs])

theorem apXor_post (dbg : Bool) (d a b : Bytes) : Post (fun r => r.length = d.length) (apXor dbg d a b) := by
  unfold apXor
  refine (Post.any _).bind fun _ _ => (Post.any _).bind fun _ _ =>
    Post.foldlM (P := fun r : Bytes => r.length = d.length) _ _ rfl fun s hs i _ => ?_
  exact (Post.any _).bind fun _ _ => (Post.any _).bind fun _ _ => setR_post (by simp [hs])

theorem xorBytesInplace_post (dbg : Bool) (a b : Bytes) : Post (fun r => r.length = a.length) (xorBytesInplace dbg a b) := by
  unfold xorBytesInplace
  refine (Post.any _).bind fun _ _ => Post.foldlM (P := fun r : Bytes => r.length = a.length) _ _ rfl fun s hs i _ => ?_
  exact (Post.any _).bind fun _ _ => (Post.any _).bind fun _ _ => setR_post (by simp [hs])

theorem xorBytes_post (dbg : Bool) (a b : Bytes) : Post (fun r => r.length = a.length) (xorBytes dbg a b) := by
  unfold xorBytes
  refine (Post.any _).bind fun _ _ => (Post.mapM (P := fun _ => True) _ fun _ _ => .any _).mono fun r h => by simpa using h.1

theorem runJobs_post {α : Type} (order : List Nat) {work : Nat → List α → R (List α)} (chunks : List (List α))
    (hw : ∀ c a, Post (fun b => b.length = a.length) (work c a)) :
    Post (fun cs => cs.map List.length = chunks.map List.length) (runJobs order work chunks) := by
  unfold runJobs
  refine Post.foldlM (P := fun cs : List (List α) => cs.map List.length = chunks.map List.length) _ _ rfl fun cs hcs c _ => ?_
  unfold idxR
  split
  · next a e =>
    rw [okb]
    refine (hw c a).bind fun b hb => setR_post ?_
    rw [← hcs]
    refine List.ext_getElem? fun i => ?_
    rw [List.getElem?_map, List.getElem?_map, List.getElem?_set]
    split
    · next h =>
      subst h
      rw [e]
      obtain ⟨hlt, -⟩ := List.getElem?_eq_some_iff.mp e
      rw [if_pos hlt]
      simp [hb]
    · rfl
  · exact .err

theorem chunks_flatten {α : Type} (v : List α) {k : Nat} (hk : 0 < k) (m : Nat) (hm : v.length ≤ m * k) :
    ((List.range m).map fun i => (v.drop (i * k)).take k).flatten = v := by
  induction m generalizing v with
  | zero => simp at hm; simp [hm]
  | succ m ih =>
    rw [List.range_succ_eq_map, List.map_cons, List.flatten_cons, List.map_map, Nat.zero_mul, List.drop_zero]
    have e : ((fun i => (v.drop (i * k)).take k) ∘ Nat.succ) = fun i => ((v.drop k).drop (i * k)).take k := by
      funext i
      simp only [Function.comp, List.drop_drop]
      rw [Nat.succ_mul, Nat.add_comm]
    rw [e, ih (v.drop k) (by rw [Nat.succ_mul] at hm; simp; omega), List.take_append_drop]

theorem chunksR_post {α : Type} (v : List α) (k : Nat) : Post (fun cs => cs.flatten = v) (chunksR v k) := by
  unfold chunksR
  split
  · exact .err
  · next hk =>
    refine .ok (chunks_flatten v (by omega) _ ?_)
    have hk : 0 < k := by omega
    have := Nat.div_add_mod (v.length + k - 1) k
    have := Nat.mod_lt (v.length + k - 1) hk
    rw [Nat.mul_comm]
    omega

theorem jobs_post {α : Type} (order : Nat → List Nat) {work : Nat → List α → R (List α)} (v : List α) (k : Nat)
    (hw : ∀ c a, Post (fun b => b.length = a.length) (work c a)) :
    Post (fun r => r.length = v.length) (do
      let cs ← chunksR v k
      let cs ← runJobs (order cs.length) work cs
      return cs.flatten) := by
  refine (chunksR_post v k).bind fun cs hcs => (runJobs_post _ cs hw).bind fun cs' h => .ok ?_
  rw [← hcs, List.length_flatten, List.length_flatten, h]

end FP
