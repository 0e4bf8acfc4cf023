import Verif.Proof.ApricotRun
import Verif.Proof.Classic
import Verif.Proof.Broadcast
import Verif.Proof.Against
import Verif.Spec.Secrecy
/-
The receiver of an OT extension with other choices, other bonus bits and other hidden streams sends the
same messages.
-/
namespace FP
open Spec

attribute [local irreducible] Spec.modulus

theorem packed_exists (w : Nat) (e : Nat → Bool) :
    ∃ E : Bytes, E.length = w ∧ ∀ k < 8 * w, bitAt E k = e k := by
  obtain ⟨E, -, h1, h2⟩ := apPack_ok ((List.range (8 * w)).map e)
  rw [List.length_map, List.length_range, Nat.mul_div_cancel_left _ (by decide)] at h1 h2
  exact ⟨E, h1, fun k hk => by rw [h2 k hk]; simp [List.getD, hk]⟩

/-- Reprogramming the hidden seeds of the columns. -/
def rehide (delta : Bytes) (s0 s1 : Nat → WireBytes) (E : Nat → Byte) (f : WireBytes → Nat → Byte) :
    WireBytes → Nat → Byte :=
  reprogram (hiddenSeed delta s0 s1) (fun _ k => E k) (List.range 128) f

theorem rehide_invol (delta : Bytes) (s0 s1 : Nat → WireBytes) (E : Nat → Byte) (f : WireBytes → Nat → Byte) :
    rehide delta s0 s1 E (rehide delta s0 s1 E f) = f := reprogram_invol ..

theorem rehide_known (delta : Bytes) (s0 s1 : Nat → WireBytes) (E : Nat → Byte) (f : WireBytes → Nat → Byte) :
    SameKnown delta s0 s1 f (rehide delta s0 s1 E f) := by
  intro s hs
  exact reprogram_other _ _ _ f s fun i hi he => hs i (by simpa using hi) he.symm

theorem rehide_at {delta : Bytes} {s0 s1 : Nat → WireBytes} {seed : WireBytes} (hA : HiddenApart delta s0 s1 seed)
    (E : Nat → Byte) (f : WireBytes → Nat → Byte) (i : Nat) (hi : i < 128) (k : Nat) :
    rehide delta s0 s1 E f (hiddenSeed delta s0 s1 i) k = f (hiddenSeed delta s0 s1 i) k ^^^ E k :=
  reprogram_at _ _ _ f i (by simpa using hi)
    (fun i' hi' he => hA.apart i' (by simpa using hi') i hi he) k

theorem rehide_opened {delta : Bytes} {s0 s1 : Nat → WireBytes} {seed : WireBytes} (hA : HiddenApart delta s0 s1 seed)
    (E : Nat → Byte) (f : WireBytes → Nat → Byte) (i : Nat) (hi : i < 128) :
    rehide delta s0 s1 E f (openedSeed delta s0 s1 i) = f (openedSeed delta s0 s1 i) :=
  rehide_known delta s0 s1 E f _ fun j hj h => hA.opened j hj i hi h.symm

theorem rehide_agreed {delta : Bytes} {s0 s1 : Nat → WireBytes} {seed : WireBytes} (hA : HiddenApart delta s0 s1 seed)
    (E : Nat → Byte) (f : WireBytes → Nat → Byte) : rehide delta s0 s1 E f seed = f seed :=
  rehide_known delta s0 s1 E f _ fun j hj h => hA.agreed j hj h.symm

/-- The choices and the bonus bits, each with the difference added. -/
theorem shift_bits {n m : Nat} {choices choices' bonus : List Bool} {e : Nat → Bool} (hn : choices.length = n)
    (hn' : choices'.length = n) (hb : bonus.length = m)
    (he : ∀ j < n, e j = (choices.getD j false ^^ choices'.getD j false)) (j : Nat) (hj : j < n + m) :
    (choices' ++ (List.range m).map fun k => bonus.getD k false ^^ e (n + k)).getD j false =
      ((choices ++ bonus).getD j false ^^ e j) := by
  subst hn
  by_cases h : j < choices.length
  · rw [List.getD_eq_getElem?_getD, List.getD_eq_getElem?_getD, List.getElem?_append_left (by omega),
      List.getElem?_append_left h, he j h, List.getD_eq_getElem?_getD, List.getD_eq_getElem?_getD]
    cases choices[j]?.getD false <;> cases choices'[j]?.getD false <;> rfl
  · rw [List.getD_eq_getElem?_getD, List.getD_eq_getElem?_getD, List.getElem?_append_right (by omega),
      List.getElem?_append_right (by omega), hn']
    simp only [List.getD, List.getElem?_map, List.getElem?_range (show j - choices.length < m by omega), Option.map_some,
      Option.getD_some]
    rw [show choices.length + (j - choices.length) = j by omega]

/-- A change of the rows by multiples of delta does not show in the sums if the coefficients it selects
add up to zero. -/
theorem sums_shift {l : Nat} (t t' c : Nat → GF) (x x' e : Nat → Bool) (d : GF)
    (hx : ∀ j < l, x' j = (x j ^^ e j)) (ht : ∀ j < l, t' j = t j + if e j then d else 0)
    (hz : (∑ j ∈ Finset.range l, if e j then c j else 0) = 0) :
    (∑ j ∈ Finset.range l, if x' j then c j else 0) = (∑ j ∈ Finset.range l, if x j then c j else 0) ∧
    (∑ j ∈ Finset.range l, t' j * c j) = ∑ j ∈ Finset.range l, t j * c j := by
  constructor
  · have : (∑ j ∈ Finset.range l, if x' j then c j else 0) =
        (∑ j ∈ Finset.range l, if x j then c j else 0) + ∑ j ∈ Finset.range l, if e j then c j else 0 := by
      rw [← Finset.sum_add_distrib]
      apply Finset.sum_congr rfl
      intro j hj
      rw [hx j (by simpa using hj)]
      cases x j <;> cases e j <;> simp [gf_add_self]
    rw [this, hz, add_zero]
  · have : (∑ j ∈ Finset.range l, t' j * c j) =
        (∑ j ∈ Finset.range l, t j * c j) + d * ∑ j ∈ Finset.range l, if e j then c j else 0 := by
      rw [Finset.mul_sum, ← Finset.sum_add_distrib]
      apply Finset.sum_congr rfl
      intro j hj
      rw [ht j (by simpa using hj)]
      cases e j <;> simp [add_mul]
    rw [this, hz, mul_zero, add_zero]

theorem compensated_shift {c : Nat → GF} {n l : Nat} {x x' : Nat → Bool} (hn : n ≤ l) (h : Compensated c n l x x') :
    ∃ e : Nat → Bool, (∀ j < n, e j = (x j ^^ x' j)) ∧ (∑ j ∈ Finset.range l, if e j then c j else 0) = 0 := by
  obtain ⟨e, he⟩ := h
  refine ⟨fun j => if j < n then (x j ^^ x' j) else e j, fun j hj => by simp [hj], ?_⟩
  rw [Finset.range_eq_Ico, ← Finset.sum_Ico_consecutive _ (Nat.zero_le n) hn, ← Finset.range_eq_Ico]
  have h1 : (∑ j ∈ Finset.range n, if (if j < n then (x j ^^ x' j) else e j) then c j else 0) =
      selected c (Finset.range n) (fun j => x j ^^ x' j) := by
    apply Finset.sum_congr rfl
    intro j hj
    have hj : j < n := by simpa using hj
    rw [if_pos hj]
  have h2 : (∑ j ∈ Finset.Ico n l, if (if j < n then (x j ^^ x' j) else e j) then c j else 0) =
      selected c (Finset.Ico n l) e := by
    apply Finset.sum_congr rfl
    intro j hj
    have hj : ¬ j < n := by simp at hj; omega
    rw [if_neg hj]
  rw [h1, h2, he, gf_add_self]

theorem compensated_of_sums {c : Nat → GF} {n l : Nat} {x x' : Nat → Bool} (hn : n ≤ l)
    (h : (∑ j ∈ Finset.range l, if x j then c j else 0) = ∑ j ∈ Finset.range l, if x' j then c j else 0) :
    Compensated c n l x x' := by
  refine ⟨fun j => x j ^^ x' j, ?_⟩
  have key : ∀ s : Finset Nat, selected c s (fun j => x j ^^ x' j) = selected c s x + selected c s x' := by
    intro s
    unfold selected
    rw [← Finset.sum_add_distrib]
    apply Finset.sum_congr rfl
    intro j _
    cases hx : x j <;> cases hx' : x' j <;> simp [hx, hx', gf_add_self]
  have hsplit : ∀ y : Nat → Bool, (∑ j ∈ Finset.range l, if y j then c j else 0) =
      selected c (Finset.range n) y + selected c (Finset.Ico n l) y := by
    intro y
    unfold selected
    rw [Finset.range_eq_Ico, ← Finset.sum_Ico_consecutive _ (Nat.zero_le n) hn, ← Finset.range_eq_Ico]
  rw [hsplit, hsplit] at h
  rw [key, key]
  linear_combination h + (selected c (Finset.range n) x' - selected c (Finset.Ico n l) x) * gf_two

theorem fill_shift {f g : WireBytes → Nat → Byte} {X : Crypto} {s : WireBytes} {E : Bytes} {w : Nat} (hE : E.length = w)
    (h : ∀ k, g s k = f s k ^^^ E.getD k 0) :
    ({ X with chacha20 := g } : Crypto).fill s w =
      List.zipWith (· ^^^ ·) (({ X with chacha20 := f } : Crypto).fill s w) E := by
  subst hE
  apply List.ext_getElem
  · simp [Crypto.fill]
  · intro k h1 h2
    have hk : k < E.length := by simpa [Crypto.fill] using h1
    simp only [Crypto.fill, List.getElem_map, List.getElem_range, List.getElem_zipWith]
    rw [h k]
    simp [hk]

theorem fill_same {f g : WireBytes → Nat → Byte} {X : Crypto} {s : WireBytes} {w : Nat} (h : g s = f s) :
    ({ X with chacha20 := g } : Crypto).fill s w = ({ X with chacha20 := f } : Crypto).fill s w := by
  simp only [Crypto.fill, h]

/-- The messages the receiver sends after the bootstrap, and that it sends no others. -/
theorem receiverExtend_sent (X : Crypto) (arm : Bool) (cores : Nat) (sched1 sched2 : Nat → List Nat) (seed : WireBytes)
    (s0 s1 : Nat → WireBytes) (bonus choices : List Bool) (ms w : Nat)
    (hw : choices.length + 256 = 8 * w) (hb : bonus.length = 256) (hc : 0 < cores)
    (hs : ∀ n, IsOrder n (sched1 n)) :
    ∃ packed t x ts, Honest X [] w (choices ++ bonus) s0 s1 packed t ∧ x.length = 16 ∧ ts.length = 16 ∧
      elt x = (∑ j ∈ Finset.range (8 * w),
        if (choices ++ bonus).getD j false then chi (X.fill seed (16 * (8 * w))) j else 0) ∧
      elt ts = (∑ j ∈ Finset.range (8 * w), elt (row t 16 j) * chi (X.fill seed (16 * (8 * w))) j) ∧
      ∀ inp, ((apricotReceiverExtend X arm cores sched1 sched2 seed ((List.range 128).map fun i => (s0 i).toList)
        ((List.range 128).map fun i => (s1 i).toList) bonus choices ms).against inp).1 =
        [honestU X w packed s0 s1, x, ts] := by
  obtain ⟨packed, t, x, ts, H, h1, h2, h3, h4, h5⟩ := receiverExtend_eq X arm cores sched1 sched2 seed
    ((List.range 128).map fun i => (s0 i).toList) ((List.range 128).map fun i => (s1 i).toList) s0 s1 bonus choices ms w
    [] hw hb hc hs (fun i hi => by simp [hi]) (fun i hi => by simp [hi])
  refine ⟨packed, t, x, ts, H, h1, h2, h3, h4, fun inp => ?_⟩
  rw [h5]
  simp only [against_send]
  have : ∀ g : Bytes → R (List Bytes), ((Proc.recv fun d => Proc.ofR (g d)).against inp).1 = [] := by
    intro g
    cases inp with
    | nil => rfl
    | cons d inp =>
      show ((Proc.ofR (g d)).against inp).1 = []
      cases g d <;> rfl
  rw [this]

theorem getD_row_elt {t : Bytes} {w j : Nat} (ht : t.length = 16 * (8 * w)) (hj : j < 8 * w) :
    elt (row t 16 j) = bitsElt (bitAt (row t 16 j)) := elt_bits _ (row_length (n := 8 * w) (by omega) hj)

/-- The receiver with other choices, shifted bonus bits and shifted hidden streams sends the same. -/
theorem receiver_same (X : Crypto) (arm : Bool) (cores : Nat) (sched1 sched2 : Nat → List Nat) (seed : WireBytes)
    (s0 s1 : Nat → WireBytes) (delta : Bytes) (choices choices' bonus : List Bool) (ms w : Nat) (e : Nat → Bool) (E : Bytes)
    (hw : choices.length + 256 = 8 * w) (hlen : choices'.length = choices.length) (hb : bonus.length = 256)
    (hc : 0 < cores) (hs : ∀ n, IsOrder n (sched1 n)) (hd : delta.length = 16)
    (hA : HiddenApart delta s0 s1 seed) (hE : E.length = w) (hEb : ∀ k < 8 * w, bitAt E k = e k)
    (he : ∀ j < choices.length, e j = (choices.getD j false ^^ choices'.getD j false))
    (f : WireBytes → Nat → Byte)
    (hz : (∑ j ∈ Finset.range (8 * w), if e j then
      chi (({ X with chacha20 := f } : Crypto).fill seed (16 * (8 * w))) j else 0) = 0) (inp : List Bytes) :
    ((apricotReceiverExtend { X with chacha20 := rehide delta s0 s1 (fun k => E.getD k 0) f } arm cores sched1 sched2 seed
        ((List.range 128).map fun i => (s0 i).toList) ((List.range 128).map fun i => (s1 i).toList)
        ((List.range 256).map fun k => bonus.getD k false ^^ e (choices.length + k)) choices' ms).against inp).1 =
    ((apricotReceiverExtend { X with chacha20 := f } arm cores sched1 sched2 seed
        ((List.range 128).map fun i => (s0 i).toList) ((List.range 128).map fun i => (s1 i).toList)
        bonus choices ms).against inp).1 := by
  set g := rehide delta s0 s1 (fun k => E.getD k 0) f with hg
  obtain ⟨packed, t, x, ts, H, h1, h2, h3, h4, h5⟩ := receiverExtend_sent { X with chacha20 := f } arm cores sched1 sched2
    seed s0 s1 bonus choices ms w hw hb hc hs
  obtain ⟨packed', t', x', ts', H', h1', h2', h3', h4', h5'⟩ := receiverExtend_sent { X with chacha20 := g } arm cores
    sched1 sched2 seed s0 s1 ((List.range 256).map fun k => bonus.getD k false ^^ e (choices.length + k)) choices' ms w
    (by omega) (by simp) hc hs
  rw [h5, h5']
  have hbits : ∀ j < 8 * w, (choices' ++ (List.range 256).map fun k => bonus.getD k false ^^ e (choices.length + k)).getD j
      false = ((choices ++ bonus).getD j false ^^ e j) :=
    fun j hj => shift_bits (n := choices.length) (m := 256) rfl hlen hb he j (by omega)
  have hseed : ({ X with chacha20 := g } : Crypto).fill seed (16 * (8 * w)) =
      ({ X with chacha20 := f } : Crypto).fill seed (16 * (8 * w)) := fill_same (rehide_agreed hA _ f)
  have hT : ∀ i < 128, ∀ k < 8 * w,
      bitAt (({ X with chacha20 := g } : Crypto).fill (s0 i) w) k =
        (bitAt (({ X with chacha20 := f } : Crypto).fill (s0 i) w) k ^^ (e k && bitAt delta i)) ∧
      bitAt (({ X with chacha20 := g } : Crypto).fill (s1 i) w) k =
        (bitAt (({ X with chacha20 := f } : Crypto).fill (s1 i) w) k ^^ (e k && !bitAt delta i)) := by
    intro i hi k hk
    have ho := rehide_opened hA (fun k => E.getD k 0) f i hi
    have hh := rehide_at hA (fun k => E.getD k 0) f i hi
    have hxor : ∀ s : WireBytes, bitAt (List.zipWith (· ^^^ ·) (({ X with chacha20 := f } : Crypto).fill s w) E) k =
        (bitAt (({ X with chacha20 := f } : Crypto).fill s w) k ^^ e k) := by
      intro s
      rw [bitAt_xor _ _ (by rw [fill_length, hE]), hEb k hk]
    unfold openedSeed at ho
    unfold hiddenSeed at hh
    cases hdi : bitAt delta i with
    | true =>
      rw [hdi] at ho hh
      simp only [if_true] at ho hh
      rw [fill_shift hE hh, fill_same ho, hxor]
      simp
    | false =>
      rw [hdi] at ho hh
      simp only [Bool.false_eq_true, if_false] at ho hh
      rw [fill_shift hE hh, fill_same ho, hxor]
      simp
  have hu : honestU { X with chacha20 := g } w packed' s0 s1 = honestU { X with chacha20 := f } w packed s0 s1 := by
    unfold honestU
    apply List.flatMap_congr
    intro i hi
    have hi : i < 128 := by simpa using hi
    apply bytes_ext
    · simp [uRow, fill_length, H.packedLen, H'.packedLen]
    · intro k hk
      have hk : k < 8 * w := by simpa [uRow, fill_length, H'.packedLen] using hk
      unfold uRow
      rw [bitAt_xor _ _ (by simp [fill_length, H'.packedLen]), bitAt_xor _ _ (by simp [fill_length]),
        bitAt_xor _ _ (by simp [fill_length, H.packedLen]), bitAt_xor _ _ (by simp [fill_length]),
        (hT i hi k hk).1, (hT i hi k hk).2, H'.packedBits k hk, H.packedBits k hk, hbits k hk]
      cases e k <;> cases bitAt delta i <;> cases (choices ++ bonus).getD k false <;>
        cases bitAt (({ X with chacha20 := f } : Crypto).fill (s0 i) w) k <;>
        cases bitAt (({ X with chacha20 := f } : Crypto).fill (s1 i) w) k <;> rfl
  have ht : ∀ j < 8 * w, elt (row t' 16 j) = elt (row t 16 j) + if e j then elt delta else 0 := by
    intro j hj
    rw [getD_row_elt H'.tLen hj, getD_row_elt H.tLen hj]
    have : (if e j then elt delta else 0) = bitsElt (fun i => e j && bitAt delta i) := by
      cases e j
      · simp [bitsElt_false]
      · simp [elt_bits delta hd]
    rw [this, ← bitsElt_xor]
    refine bitsElt_congr fun i hi => ?_
    rw [H'.tBits j hj i hi, H.tBits j hj i hi, (hT i hi j hj).1]
  obtain ⟨e1, e2⟩ := sums_shift (fun j => elt (row t 16 j)) (fun j => elt (row t' 16 j))
    (chi (({ X with chacha20 := f } : Crypto).fill seed (16 * (8 * w))))
    (fun j => (choices ++ bonus).getD j false) (fun j => (choices' ++ (List.range 256).map fun k =>
      bonus.getD k false ^^ e (choices.length + k)).getD j false) e (elt delta) hbits ht hz
  rw [hseed] at h3' h4'
  rw [hu, elt_inj h1' h1 (by rw [h3', h3]; exact e1), elt_inj h2' h2 (by rw [h4', h4]; exact e2)]

/-! ### The whole exchange against an arbitrary sender -/

/-- The first part of a process against a list of messages: it comes to an end after some of them, or the
second part is never reached. -/
theorem against_bind {α : Type} (p : Proc α) (inp : List Bytes) :
    (∃ pre a r, ∀ (β : Type) (k : α → Proc β),
      ((p >>= k).against inp).1 = pre ++ ((k a).against (inp.drop r)).1) ∨
    ∃ pre, ∀ (β : Type) (k : α → Proc β), ((p >>= k).against inp).1 = pre := by
  induction p generalizing inp with
  | ret a => exact .inl ⟨[], a, 0, fun _ _ => rfl⟩
  | fail e => exact .inr ⟨[], fun _ _ => rfl⟩
  | send m p ih =>
    rcases ih inp with ⟨pre, a, r, h⟩ | ⟨pre, h⟩
    · exact .inl ⟨m :: pre, a, r, fun β k => congrArg (m :: ·) (h β k)⟩
    · exact .inr ⟨m :: pre, fun β k => congrArg (m :: ·) (h β k)⟩
  | recv k ih =>
    cases inp with
    | nil => exact .inr ⟨[], fun _ _ => rfl⟩
    | cons m inp =>
      rcases ih m inp with ⟨pre, a, r, h⟩ | ⟨pre, h⟩
      · exact .inl ⟨pre, a, r + 1, fun β k => h β k⟩
      · exact .inr ⟨pre, fun β k => h β k⟩

theorem xorAt_ok (a b : Bytes) (h : b.length = a.length) : xorAt a b = .ok (List.zipWith (· ^^^ ·) a b) := by
  unfold xorAt
  rw [mapM_ok (g := fun i => a.getD i 0 ^^^ b.getD i 0)]
  · refine congrArg Except.ok ?_
    apply List.ext_getElem
    · simp [h]
    · intro i h1 h2
      have : i < a.length := by simpa using h1
      simp [this, show i < b.length by omega]
  · intro i hi
    have hi : i < a.length := by simpa using hi
    rw [idxR_getD hi, okb, idxR_getD (by omega), okb]
    rfl

theorem agreed_ok (coin : WireBytes) (u : Bytes) (h : u.length = 32) :
    (List.zipWith (· ^^^ ·) coin.toList u : Bytes) = (agreed coin u).toList := by
  apply List.ext_getElem
  · simp [h]
  · intro k h1 h2
    have hk : k < 32 := by simpa using h2
    simp [agreed, show k < u.length by omega]

/-- The coin flip of the receiver against a list of messages. -/
theorem against_coinflip (E : Env) (coin : WireBytes) (inp : List Bytes) :
    (∃ u rest, inp = u :: rest ∧ ∀ (β : Type) (k : WireBytes → Proc β),
      ((coinflipSender E coin.toList >>= fun s => (liftM (toArray32 s) : Proc WireBytes) >>= k).against inp).1 =
        (E.sha256 coin.toList).toList :: coin.toList :: ((k (agreed coin u)).against rest).1) ∨
    (∃ pre, ∀ (β : Type) (k : WireBytes → Proc β),
      ((coinflipSender E coin.toList >>= fun s => (liftM (toArray32 s) : Proc WireBytes) >>= k).against inp).1 = pre) := by
  cases inp with
  | nil => exact .inr ⟨[(E.sha256 coin.toList).toList], fun β k => rfl⟩
  | cons u rest =>
    by_cases hu : u.length = 32
    · refine .inl ⟨u, rest, rfl, fun β k => ?_⟩
      have hf : (coinflipSender E coin.toList >>= fun s => (liftM (toArray32 s) : Proc WireBytes) >>= k) =
          .send (E.sha256 coin.toList).toList (.recv fun u => (if u.length ≠ coin.toList.length then errR .coinflipLength
            else do sendP coin.toList; xorAt coin.toList u : Proc Bytes) >>= fun s =>
              (liftM (toArray32 s) : Proc WireBytes) >>= k) := rfl
      rw [hf]
      simp only [Proc.against]
      rw [if_neg (by simp [hu]), bind_assocP, sendP_bind, xorAt_ok _ _ (by simp [hu]), liftM_ok, ret_bind, agreed_ok coin u hu,
        toArray32_toList, liftM_ok, ret_bind]
      rfl
    · refine .inr ⟨[(E.sha256 coin.toList).toList], fun β k => ?_⟩
      have hf : (coinflipSender E coin.toList >>= fun s => (liftM (toArray32 s) : Proc WireBytes) >>= k) =
          .send (E.sha256 coin.toList).toList (.recv fun u => (if u.length ≠ coin.toList.length then errR .coinflipLength
            else do sendP coin.toList; xorAt coin.toList u : Proc Bytes) >>= fun s =>
              (liftM (toArray32 s) : Proc WireBytes) >>= k) := rfl
      rw [hf]
      simp only [Proc.against]
      rw [if_pos (by simp [hu])]
      rfl

theorem seeds_list (v : Vector WireBytes 128) :
    v.toList.map (·.toList) = (List.range 128).map fun i => (seedAt v i).toList := by
  apply List.ext_getElem
  · simp
  · intro i h1 h2
    have hi : i < 128 := by simpa using h2
    simp [seedAt, hi]

/-- Everything an `apricotReceiver` sends does not depend on its choices, bonus bits and streams until the
extension; which is run with the agreed seed. -/
theorem receiver_reach (X : Crypto) (arm : Bool) (cores : Nat) (sched1 sched2 : Nat → List Nat) (coin : WireBytes)
    (seed0 seed1 : Vector WireBytes 128) (inner : List (Bytes × Bytes) → Proc Unit) (n : Nat) (h8 : n % 8 = 0)
    (inp : List Bytes) :
    (∃ pre ms rest, ∀ (f : WireBytes → Nat → Byte) (bonus : Vector Bool 256) (choices : List Bool), choices.length = n →
      ((apricotReceiver { X with chacha20 := f } arm cores sched1 sched2 coin bonus seed0 seed1 inner choices).against
        inp).1 = pre ++ ((apricotReceiverExtend { X with chacha20 := f } arm cores sched1 sched2 (agreed coin (inp.getD 1 []))
          ((List.range 128).map fun i => (seedAt seed0 i).toList) ((List.range 128).map fun i => (seedAt seed1 i).toList)
          bonus.toList choices ms).against rest).1) ∨
    (∃ pre, ∀ (f : WireBytes → Nat → Byte) (bonus : Vector Bool 256) (choices : List Bool), choices.length = n →
      ((apricotReceiver { X with chacha20 := f } arm cores sched1 sched2 coin bonus seed0 seed1 inner choices).against
        inp).1 = pre) := by
  unfold apricotReceiver
  have hdbg : ∀ choices : List Bool, choices.length = n → debugAssertR X.dbg (choices.length % 8 = 0) = .ok () :=
    fun choices h => debugAssertR_true (by simp [h, h8])
  rcases against_validate ⟨n, "Apricot"⟩ (List Bytes) inp with ⟨m, rest, rfl, -, hv⟩ | ⟨r, -, hv⟩
  rotate_left
  · refine .inr ⟨[Codec.properties.enc ⟨n, "Apricot"⟩], fun f bonus choices hn => ?_⟩
    rw [hdbg choices hn, liftM_ok, ret_bind, hn, hv]
  rcases against_coinflip X.toEnv coin rest with ⟨u, rest, rfl, hcf⟩ | ⟨pre, hcf⟩
  rotate_left
  · refine .inr ⟨Codec.properties.enc ⟨n, "Apricot"⟩ :: pre, fun f bonus choices hn => ?_⟩
    rw [hdbg choices hn, liftM_ok, ret_bind, hn, hv, hcf]
  rcases against_bind (do
      let sizeBytes ← recvP
      let hi ← idxR sizeBytes 0
      let lo ← idxR sizeBytes 1
      inner (List.zipWith (fun a b => (a.toList, b.toList)) seed0.toList seed1.toList)
      return (hi.toNat <<< 8) ||| lo.toNat) rest with ⟨pre, ms, r, h⟩ | ⟨pre, h⟩
  · refine .inl ⟨Codec.properties.enc ⟨n, "Apricot"⟩ :: (X.sha256 coin.toList).toList :: coin.toList :: pre, ms, rest.drop r, fun f bonus choices hn => ?_⟩
    rw [hdbg choices hn, liftM_ok, ret_bind, hn, hv, hcf]
    have := h _ (fun ms => apricotReceiverExtend { X with chacha20 := f } arm cores sched1 sched2
      (agreed coin ((m :: u :: rest).getD 1 [])) (seed0.toList.map (·.toList)) (seed1.toList.map (·.toList))
      bonus.toList choices ms)
    simp only [bind_assocP] at this
    rw [seeds_list, seeds_list] at this
    rw [seeds_list, seeds_list]
    exact congrArg (fun l => _ :: _ :: _ :: l) this
  · refine .inr ⟨Codec.properties.enc ⟨n, "Apricot"⟩ :: (X.sha256 coin.toList).toList :: coin.toList :: pre, fun f bonus choices hn => ?_⟩
    rw [hdbg choices hn, liftM_ok, ret_bind, hn, hv, hcf]
    have := h _ (fun ms => apricotReceiverExtend { X with chacha20 := f } arm cores sched1 sched2
      (agreed coin ((m :: u :: rest).getD 1 [])) (seed0.toList.map (·.toList)) (seed1.toList.map (·.toList))
      bonus.toList choices ms)
    simp only [bind_assocP] at this
    exact congrArg (fun l => _ :: _ :: _ :: l) this

/-! ### The older extension -/

/-- The error of the streams of the older extension, which uses every fourth byte. -/
def spread (E : Bytes) (k : Nat) : Byte := if k % 4 = 0 then E.getD (k / 4) 0 else 0

theorem gen_shift {f g : WireBytes → Nat → Byte} {X : Crypto} {s : WireBytes} {E : Bytes} {w : Nat} (hE : E.length = w)
    (h : ∀ k, g s k = f s k ^^^ spread E k) :
    ({ X with chacha20 := g } : Crypto).genBytes s w =
      List.zipWith (· ^^^ ·) (({ X with chacha20 := f } : Crypto).genBytes s w) E := by
  subst hE
  apply List.ext_getElem
  · simp [Crypto.genBytes]
  · intro k h1 h2
    have hk : k < E.length := by simpa [Crypto.genBytes] using h1
    simp only [Crypto.genBytes, List.getElem_map, List.getElem_range, List.getElem_zipWith]
    rw [h (4 * k)]
    simp [spread, hk]

theorem gen_same {f g : WireBytes → Nat → Byte} {X : Crypto} {s : WireBytes} {w : Nat} (h : g s = f s) :
    ({ X with chacha20 := g } : Crypto).genBytes s w = ({ X with chacha20 := f } : Crypto).genBytes s w := by
  simp only [Crypto.genBytes, h]

theorem recv2_nosend {α β : Type} (f : Bytes → R α) (g : α → Bytes → R β) (inp : List Bytes) :
    ((recvP >>= fun m => (liftM (f m) : Proc α) >>= fun a => recvP >>= fun m => (liftM (g a m) : Proc β)).against inp).1 =
      [] := by
  cases inp with
  | nil => rfl
  | cons m inp =>
    show (((liftM (f m) : Proc α) >>= fun a => recvP >>= fun m => (liftM (g a m) : Proc β)).against inp).1 = []
    cases f m with
    | error e => rfl
    | ok a =>
      rw [liftM_ok, ret_bind]
      exact against_recv_nosend inp

/-- The check values the receiver sends, and that it sends nothing afterwards. -/
theorem clReceiverFinish_sent (X : Crypto) (arch : Arch) (seed : WireBytes) (w : Nat) (t : BitMatrix)
    (padded choices : List Bool) (hl : padded.length = 8 * w) (ht : t.length = 8 * w) (htr : Rectangular t 16) :
    ∃ x ts : Bytes, x.length = 16 ∧ ts.length = 16 ∧
      elt x = (∑ j ∈ Finset.range (8 * w), if padded.getD j false then coeff (X.chacha20 seed) j else 0) ∧
      elt ts = (∑ j ∈ Finset.range (8 * w), elt (t.getD j []) * coeff (X.chacha20 seed) j) ∧
      ∀ inp, ((clReceiverFinish X arch seed t padded choices).against inp).1 =
        [Codec.bytes.enc x, Codec.bytes.enc ts] := by
  obtain ⟨x, ts, h1, h2, h3, h4, h5⟩ := clReceiverSums_ok arch X.dbg padded t (clChiRow X seed) htr (by omega)
    (clChiRow_length X seed)
  rw [hl] at h1 h4 h5
  refine ⟨x, ts, h2, h3, h4, h5, fun inp => ?_⟩
  unfold clReceiverFinish
  rw [clChi_eq, hl, h1, liftM_ok, ret_bind, sendP_bind, sendP_bind]
  simp only [against_send]
  refine List.cons_eq_cons.mpr ⟨rfl, List.cons_eq_cons.mpr ⟨rfl, ?_⟩⟩
  unfold clReceiverDeRot
  dsimp only
  have := recv2_nosend Codec.bytesList.deserialize (fun d0 m => Codec.bytesList.deserialize m >>= fun d1 =>
    clDecryptAll X (t.zipIdx.map fun p => X.sha256 (leBytes 8 p.2 ++ p.1)) choices d0 d1) inp
  rw [← this]
  congr 1
  congr 1
  congr 1
  funext m
  congr 1
  funext d0
  congr 1
  funext m1
  cases Codec.bytesList.deserialize m1 <;> rfl

/-- Everything a `classicReceiver` sends does not depend on its choices, bonus bits and streams until the
extension. -/
theorem classic_reach (X : Crypto) (arch : Arch) (coin : WireBytes)
    (seed0 seed1 : Vector WireBytes 128) (inner : List (Bytes × Bytes) → Proc Unit) (n : Nat) (h8 : n % 8 = 0)
    (hn8 : 8 ≤ n) (inp : List Bytes) :
    (∃ pre r, ∀ (f : WireBytes → Nat → Byte) (bonus : Vector Bool 192) (choices : List Bool), choices.length = n →
      ((classicReceiver { X with chacha20 := f } arch coin bonus seed0 seed1 inner choices).against
        inp).1 = pre ++ ((classicReceiverExtend { X with chacha20 := f } arch coin
          ((List.range 128).map (seedAt seed0)) ((List.range 128).map (seedAt seed1))
          bonus.toList choices).against (inp.drop r)).1) ∨
    (∃ pre, ∀ (f : WireBytes → Nat → Byte) (bonus : Vector Bool 192) (choices : List Bool), choices.length = n →
      ((classicReceiver { X with chacha20 := f } arch coin bonus seed0 seed1 inner choices).against
        inp).1 = pre) := by
  unfold classicReceiver
  have hsl : ∀ v : Vector WireBytes 128, v.toList = (List.range 128).map (seedAt v) := by
    intro v
    apply List.ext_getElem
    · simp
    · intro i h1 h2
      have hi : i < 128 := by simpa using h2
      simp [seedAt, hi]
  have ha1 : assertR (8 ≤ n) = .ok () := by unfold assertR; rw [if_pos (by simpa using hn8)]
  have ha2 : assertR (n % 8 = 0) = .ok () := by unfold assertR; rw [if_pos (by simpa using h8)]
  rcases against_bind (do
      validateProperties ⟨n, "Apricot"⟩
      inner (List.zipWith (fun a b => (a.toList, b.toList)) seed0.toList seed1.toList)) inp with
    ⟨pre, a, r, h⟩ | ⟨pre, h⟩
  · refine .inl ⟨pre, r, fun f bonus choices hn => ?_⟩
    have := h _ (fun _ => classicReceiverExtend { X with chacha20 := f } arch coin
          seed0.toList seed1.toList bonus.toList choices)
    simp only [bind_assocP] at this
    rw [hn, ha1, ha2]
    simp only [liftM_ok, ret_bind]
    rw [this, ← hsl, ← hsl]
  · refine .inr ⟨pre, fun f bonus choices hn => ?_⟩
    have := h _ (fun _ => classicReceiverExtend { X with chacha20 := f } arch coin
          seed0.toList seed1.toList bonus.toList choices)
    simp only [bind_assocP] at this
    rw [hn, ha1, ha2]
    simp only [liftM_ok, ret_bind]
    exact this

/-- The older receiver with other choices, shifted bonus bits and shifted hidden streams sends the same. -/
theorem classic_same (X : Crypto) (arch : Arch) (coin : WireBytes)
    (s0 s1 : Nat → WireBytes) (delta : Bytes) (choices choices' bonus : List Bool) (w : Nat) (e : Nat → Bool) (E : Bytes)
    (hw : choices.length + 192 = 8 * w) (hlen : choices'.length = choices.length) (hb : bonus.length = 192)
    (hd : delta.length = 16) (inp : List Bytes)
    (hA : HiddenApart delta s0 s1 (agreed coin (inp.getD 0 []))) (hE : E.length = w)
    (hEb : ∀ k < 8 * w, bitAt E k = e k)
    (he : ∀ j < choices.length, e j = (choices.getD j false ^^ choices'.getD j false))
    (f : WireBytes → Nat → Byte)
    (hz : (∑ j ∈ Finset.range (8 * w), if e j then coeff (f (agreed coin (inp.getD 0 []))) j else 0) = 0) :
    ((classicReceiverExtend { X with chacha20 := rehide delta s0 s1 (spread E) f } arch coin
        ((List.range 128).map s0) ((List.range 128).map s1)
        ((List.range 192).map fun k => bonus.getD k false ^^ e (choices.length + k)) choices').against inp).1 =
    ((classicReceiverExtend { X with chacha20 := f } arch coin
        ((List.range 128).map s0) ((List.range 128).map s1) bonus choices).against inp).1 := by
  set g := rehide delta s0 s1 (spread E) f with hg
  obtain ⟨packed, t, H, h1⟩ := clReceiverExtend_eq { X with chacha20 := f } arch coin s0 s1 bonus choices w hw hb
  obtain ⟨packed', t', H', h1'⟩ := clReceiverExtend_eq { X with chacha20 := g } arch coin s0 s1
    ((List.range 192).map fun k => bonus.getD k false ^^ e (choices.length + k)) choices' w (by omega) (by simp)
  rw [h1, h1']
  have hbits : ∀ j < 8 * w, (choices' ++ (List.range 192).map fun k => bonus.getD k false ^^ e (choices.length + k)).getD j
      false = ((choices ++ bonus).getD j false ^^ e j) :=
    fun j hj => shift_bits (n := choices.length) (m := 192) rfl hlen hb he j (by omega)
  have hT : ∀ i < 128, ∀ k < 8 * w,
      bitAt (({ X with chacha20 := g } : Crypto).genBytes (s0 i) w) k =
        (bitAt (({ X with chacha20 := f } : Crypto).genBytes (s0 i) w) k ^^ (e k && bitAt delta i)) ∧
      bitAt (({ X with chacha20 := g } : Crypto).genBytes (s1 i) w) k =
        (bitAt (({ X with chacha20 := f } : Crypto).genBytes (s1 i) w) k ^^ (e k && !bitAt delta i)) := by
    intro i hi k hk
    have ho := rehide_opened hA (spread E) f i hi
    have hh := rehide_at hA (spread E) f i hi
    have hxor : ∀ s : WireBytes, bitAt (List.zipWith (· ^^^ ·) (({ X with chacha20 := f } : Crypto).genBytes s w) E) k =
        (bitAt (({ X with chacha20 := f } : Crypto).genBytes s w) k ^^ e k) := by
      intro s
      rw [bitAt_xor _ _ (by rw [genBytes_length', hE]), hEb k hk]
    unfold openedSeed at ho
    unfold hiddenSeed at hh
    cases hdi : bitAt delta i with
    | true =>
      rw [hdi] at ho hh
      simp only [if_true] at ho hh
      rw [gen_shift hE hh, gen_same ho, hxor]
      simp
    | false =>
      rw [hdi] at ho hh
      simp only [Bool.false_eq_true, if_false] at ho hh
      rw [gen_shift hE hh, gen_same ho, hxor]
      simp
  have hu : ((List.range 128).map (clURow packed' (fun i => ({ X with chacha20 := g } : Crypto).genBytes (s0 i) w)
        (fun i => ({ X with chacha20 := g } : Crypto).genBytes (s1 i) w))) =
      (List.range 128).map (clURow packed (fun i => ({ X with chacha20 := f } : Crypto).genBytes (s0 i) w)
        (fun i => ({ X with chacha20 := f } : Crypto).genBytes (s1 i) w)) := by
    apply List.map_congr_left
    intro i hi
    have hi : i < 128 := by simpa using hi
    apply bytes_ext
    · simp [clURow, genBytes_length', H.packedLen, H'.packedLen]
    · intro k hk
      have hk : k < 8 * w := by simpa [clURow, genBytes_length', H'.packedLen] using hk
      unfold clURow
      rw [bitAt_xor _ _ (by simp [genBytes_length', H'.packedLen]), bitAt_xor _ _ (by simp [genBytes_length', H'.packedLen]),
        bitAt_xor _ _ (by simp [genBytes_length', H.packedLen]), bitAt_xor _ _ (by simp [genBytes_length', H.packedLen]),
        (hT i hi k hk).1, (hT i hi k hk).2, H'.packedBits k hk, H.packedBits k hk, hbits k hk]
      cases e k <;> cases bitAt delta i <;> cases (choices ++ bonus).getD k false <;>
        cases bitAt (({ X with chacha20 := f } : Crypto).genBytes (s0 i) w) k <;>
        cases bitAt (({ X with chacha20 := f } : Crypto).genBytes (s1 i) w) k <;> rfl
  have ht : ∀ j < 8 * w, elt (t'.getD j []) = elt (t.getD j []) + if e j then elt delta else 0 := by
    intro j hj
    rw [elt_bits _ (rect_getD H'.tRect (by rw [H'.tLen]; exact hj)), elt_bits _ (rect_getD H.tRect (by rw [H.tLen]; exact hj))]
    have : (if e j then elt delta else 0) = bitsElt (fun i => e j && bitAt delta i) := by
      cases e j
      · simp [bitsElt_false]
      · simp [elt_bits delta hd]
    rw [this, ← bitsElt_xor]
    refine bitsElt_congr fun i hi => ?_
    have a1 := H'.tBits j hj i hi
    have a2 := H.tBits j hj i hi
    unfold rowsBit at a1 a2
    rw [a1, a2, (hT i hi j hj).1]
  simp only [against_send]
  rw [hu]
  refine List.cons_eq_cons.mpr ⟨rfl, ?_⟩
  rcases against_coinflip X.toEnv coin inp with ⟨u, rest, rfl, h⟩ | ⟨pre, h⟩
  · rw [h, h]
    refine List.cons_eq_cons.mpr ⟨rfl, List.cons_eq_cons.mpr ⟨rfl, ?_⟩⟩
    have hseed : g (agreed coin u) = f (agreed coin u) := rehide_agreed hA (spread E) f
    obtain ⟨x, ts, g1, g2, g3, g4, g5⟩ := clReceiverFinish_sent { X with chacha20 := f } arch (agreed coin u) w t
      (choices ++ bonus) choices (by rw [List.length_append, hb, hw]) H.tLen H.tRect
    obtain ⟨x', ts', g1', g2', g3', g4', g5'⟩ := clReceiverFinish_sent { X with chacha20 := g } arch (agreed coin u) w t'
      (choices' ++ (List.range 192).map fun k => bonus.getD k false ^^ e (choices.length + k)) choices'
      (by rw [List.length_append]; simp; omega) H'.tLen H'.tRect
    rw [g5, g5']
    simp only at g3 g4 g3' g4'
    rw [hseed] at g3' g4'
    obtain ⟨e1, e2⟩ := sums_shift (fun j => elt (t.getD j [])) (fun j => elt (t'.getD j []))
      (coeff (f (agreed coin u)))
      (fun j => (choices ++ bonus).getD j false) (fun j => (choices' ++ (List.range 192).map fun k =>
        bonus.getD k false ^^ e (choices.length + k)).getD j false) e (elt delta) hbits ht hz
    rw [elt_inj g1' g1 (by rw [g3', g3]; exact e1), elt_inj g2' g2 (by rw [g4', g4]; exact e2)]
  · rw [h, h]

end FP
