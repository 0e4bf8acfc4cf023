import Verif.Model.Basic
import Mathlib.Data.List.Forall2
/-
Lemmas about loops in the result monad.
-/
namespace FP

theorem okb {ε α β} (a : α) (f : α → Except ε β) : (Except.ok a >>= f) = f a := rfl
theorem errb {ε α β} (e : ε) (f : α → Except ε β) : (Except.error e >>= f) = .error e := rfl
theorem purek {ε α} (a : α) : (pure a : Except ε α) = .ok a := rfl

theorem idxR_ok {α} {l : List α} {i : Nat} {a : α} (h : l[i]? = some a) : idxR l i = .ok a := by
  simp [idxR, h]

theorem setR_ok {α} {l : List α} {i : Nat} (a : α) (h : i < l.length) :
    setR l i a = .ok (l.set i a) := by simp [setR, h]

theorem HMap.getR_ok {K V} [BEq K] {m : HMap K V} {k : K} {v : V} (h : List.lookup k m = some v) :
    m.getR k = .ok v := by simp [HMap.getR, h]

theorem mapM_exists {α β} {f : α → R β} {P : α → β → Prop} {l : List α}
    (h : ∀ a ∈ l, ∃ b, f a = .ok b ∧ P a b) :
    ∃ bs, l.mapM f = .ok bs ∧ List.Forall₂ P l bs := by
  induction l with
  | nil => exact ⟨[], rfl, .nil⟩
  | cons a l ih =>
    obtain ⟨b, hb, hp⟩ := h a (by simp)
    obtain ⟨bs, hbs, hps⟩ := ih (fun a ha => h a (by simp [ha]))
    refine ⟨b :: bs, ?_, .cons hp hps⟩
    rw [List.mapM_cons, hb, okb, hbs]; rfl

theorem mapM_ok {α β} {f : α → R β} {g : α → β} {l : List α}
    (h : ∀ a ∈ l, f a = .ok (g a)) : l.mapM f = .ok (l.map g) := by
  induction l with
  | nil => rfl
  | cons a l ih =>
    rw [List.mapM_cons, h a (by simp), okb, ih (fun a ha => h a (by simp [ha]))]; rfl

theorem mapM_length {α β} {f : α → R β} {l : List α} {bs : List β} (h : l.mapM f = .ok bs) :
    bs.length = l.length := by
  induction l generalizing bs with
  | nil => cases h; rfl
  | cons a l ih =>
    rw [List.mapM_cons] at h
    cases hf : f a with
    | error e => rw [hf, errb] at h; cases h
    | ok b =>
      rw [hf, okb] at h
      cases hl : l.mapM f with
      | error e => rw [hl, errb] at h; cases h
      | ok bs' => rw [hl, okb, purek] at h; cases h; simp [ih hl]

theorem mapM_getElem? {α β} {f : α → R β} {l : List α} {bs : List β} (h : l.mapM f = .ok bs)
    (i : Nat) (a : α) (ha : l[i]? = some a) : ∃ b, bs[i]? = some b ∧ f a = .ok b := by
  induction l generalizing bs i with
  | nil => simp at ha
  | cons c l ih =>
    rw [List.mapM_cons] at h
    cases hf : f c with
    | error e => rw [hf, errb] at h; cases h
    | ok b =>
      rw [hf, okb] at h
      cases hl : l.mapM f with
      | error e => rw [hl, errb] at h; cases h
      | ok bs' =>
        rw [hl, okb, purek] at h; cases h
        cases i with
        | zero => simp at ha; subst ha; exact ⟨b, rfl, hf⟩
        | succ i => simpa using ih hl i (by simpa using ha)

/-- Invariant rule for `foldlM`. -/
theorem foldlM_inv {α σ} {f : σ → α → R σ} {l : List α} {s : σ} (P : Nat → σ → Prop)
    (h0 : P 0 s)
    (hs : ∀ i a t, l[i]? = some a → P i t → ∃ t', f t a = .ok t' ∧ P (i + 1) t') :
    ∃ t, l.foldlM f s = .ok t ∧ P l.length t := by
  induction l generalizing s P with
  | nil => exact ⟨s, rfl, h0⟩
  | cons a l ih =>
    obtain ⟨t, ht, hp⟩ := hs 0 a s rfl h0
    obtain ⟨u, hu, hpu⟩ := ih (fun i => P (i + 1)) hp
      (fun i b t hb hp => hs (i + 1) b t (by simpa using hb) hp)
    refine ⟨u, ?_, by simpa using hpu⟩
    rw [List.foldlM_cons, ht, okb, hu]

end FP
