import Verif.Proof.Unchosen
import Verif.Props.BaseOT
/-
C54: what the receiver of an oblivious transfer learns about the messages it did not choose.
-/
namespace FP.Props
open Spec

attribute [local irreducible] Spec.modulus

/-! ### The base transfer -/

/-- C54, src/ot/chou_orlandi.rs, against an arbitrary receiver.  Fix the messages `inp` the receiver sends
and for each pair the choice `c i` of one of its messages, `B i` being the point the receiver sends for pair
`i`.  If the masks of the messages that are not chosen are made from seeds of their own, then for every two
lists of pairs that agree on the chosen messages there is a bijection (an involution) of stream generators
which changes no stream but those of these masks and under which the sender with one list sends
exactly what the sender with the other list sends. -/
theorem C54_base_hidden (C : Curve) (X : Crypto) (a : Nat → Nat) (msg msg' : List (Bytes × Bytes)) (c : Nat → Bool)
    (B : Nat → C.Pt) (inp : List Bytes)
    (hB : ∀ i < msg.length, ∀ p P, inp[i + 1]? = some p.toList → C.decompress p = some P → B i = P)
    (hm : SameChosenAll c msg msg') (used : WireBytes → Prop)
    (hA : PadsApart (fun i => baseSeed C X.sha256 (a i) (B i) (!c i)) (fun i => baseSeed C X.sha256 (a i) (B i) (c i))
      used msg.length) :
    ∃ Φ : (WireBytes → Nat → Byte) → (WireBytes → Nat → Byte), (∀ f, Φ (Φ f) = f) ∧
      (∀ f, SameBut (fun i => baseSeed C X.sha256 (a i) (B i) (!c i)) msg.length f (Φ f)) ∧
      (∀ f s, used s → Φ f s = f s) ∧
      ∀ f, (coSender C { X with chacha20 := Φ f } a msg').against inp =
        (coSender C { X with chacha20 := f } a msg).against inp := by
  obtain ⟨h1, h2, h3, h4⟩ := repad_exists hA fun j => spread (otherDiff c msg msg' j)
  exact ⟨_, h1, h2, h4,
    fun f => coSender_same C X a msg msg' c hm B inp hB (h3 f)⟩

/-- C54: the mask of the chosen message is the one the receiver can compute, from its own secret scalar `b`. -/
theorem C54_base_known (C : Curve) (sha : Bytes → WireBytes) (a b : Nat) (c : Bool) :
    baseSeed C sha a (if c then a • C.base + b • C.base else b • C.base) c =
      sha (C.compress (b • a • C.base)).toList := by
  unfold baseSeed
  refine congrArg (fun P => sha (C.compress P).toList) ?_
  cases c with
  | false => simp only [Bool.false_eq_true, if_false]; rw [← mul_nsmul', ← mul_nsmul', Nat.mul_comm]
  | true => simp only [if_true, add_sub_cancel_left]; rw [← mul_nsmul', ← mul_nsmul', Nat.mul_comm]

/-- C54: and that of the other message is made from the point that differs from it by `a² G`. -/
theorem C54_base_other (C : Curve) (sha : Bytes → WireBytes) (a b : Nat) (c : Bool) :
    baseSeed C sha a (if c then a • C.base + b • C.base else b • C.base) (!c) =
      sha (C.compress (if c then b • a • C.base + (a * a) • C.base else b • a • C.base - (a * a) • C.base)).toList := by
  unfold baseSeed
  refine congrArg (fun P => sha (C.compress P).toList) ?_
  have e : a • b • C.base = b • a • C.base := by rw [← mul_nsmul', ← mul_nsmul', Nat.mul_comm]
  have e2 : a • a • C.base = (a * a) • C.base := by rw [← mul_nsmul']
  cases c with
  | false => simp only [Bool.false_eq_true, if_false, Bool.not_false, if_true]; rw [nsmul_sub, e, e2]
  | true => simp only [Bool.false_eq_true, if_false, Bool.not_true, if_true]; rw [nsmul_add, e, e2, add_comm]

/-! ### The newer extension -/

/-- C54, src/ot/apricot.rs after the bootstrap, against an arbitrary receiver that first sends a matrix `u` of
full size.  `s i` are the seeds the sender received, `t j` is the key of the message of pair `j` that `c j`
selects.  If the masks of the other messages are made from seeds of their own, then for every two lists of
pairs that agree on the selected messages there is an involution of stream generators which changes
only the streams of these masks and under which the sender with one list does exactly what the sender with the
other list does, whatever the receiver sends next. -/
theorem C54_apricot_extend (X : Crypto) (arm : Bool) (cores : Nat) (sched : Nat → List Nat) (delta : Bytes)
    (seed : WireBytes) (msg msg' : List (Bytes × Bytes)) (ms : Nat) (payloads : List Bytes) (s : Nat → WireBytes)
    (u : Bytes) (c : Nat → Bool) (t : Nat → Bytes) (used : WireBytes → Prop)
    (hc : 0 < cores) (hs : ∀ n, IsOrder n (sched n)) (hd : delta.length = 16)
    (hn : 0 < msg.length) (h8 : msg.length % 8 = 0) (hms : 0 < ms)
    (hsz : ∀ m ∈ msg, m.1.length = ms ∧ m.2.length = ms) (hm : SameChosenAll c msg msg')
    (hp : ∀ i < 128, payloads[i]? = some (s i).toList) (hu : 128 * ((msg.length + 256) / 8) ≤ u.length)
    (ht : KeysOf t delta (fun i => X.fill (s i) ((msg.length + 256) / 8)) (flatBit u ((msg.length + 256) / 8)) c msg.length)
    (hA : PadsApart (fun j => padSeed X.sha256 j (bytesXor (t j) delta)) (fun j => padSeed X.sha256 j (t j)) used msg.length)
    (hused : used seed) (huseds : ∀ i < 128, used (s i)) :
    ∃ Φ : (WireBytes → Nat → Byte) → (WireBytes → Nat → Byte), (∀ f, Φ (Φ f) = f) ∧
      (∀ f, SameBut (fun j => padSeed X.sha256 j (bytesXor (t j) delta)) msg.length f (Φ f)) ∧
      (∀ f s, used s → Φ f s = f s) ∧
      ∀ f, (∀ s, used s → f s = X.chacha20 s) → ∀ rest,
        (apricotSenderExtend { X with chacha20 := Φ f } arm cores sched delta seed msg' ms payloads).against (u :: rest) =
        (apricotSenderExtend { X with chacha20 := f } arm cores sched delta seed msg ms payloads).against (u :: rest) := by
  obtain ⟨w, hw⟩ : ∃ w, msg.length + 256 = 8 * w := ⟨msg.length / 8 + 32, by omega⟩
  rw [hw, Nat.mul_div_cancel_left w (by decide)] at hu ht
  obtain ⟨h1, h2, h3, h4⟩ := repad_exists hA fun j k => (otherDiff c msg msg' j).getD k 0
  refine ⟨_, h1, h2, h4, fun f hf rest => ?_⟩
  refine sender_same X arm cores sched delta seed msg msg' ms payloads s w hw hd hp u (by omega) hc hs hn hms hsz c hm t
    ?_ (h3 f) (h4 f _ hused) (fun i hi => h4 f _ (huseds i hi)) rest
  intro j hj
  refine ⟨(ht j hj).1, fun i hi => ?_⟩
  dsimp only
  rw [fill_same (X := X) (f := X.chacha20) (hf _ (huseds i hi))]
  exact (ht j hj).2 i hi

/-- C54: a receiver that follows the protocol holds the keys of the messages it chose: row `j` of the
matrix made from the first seeds. -/
theorem C54_apricot_known (delta : Bytes) (T0 T1 : Nat → Bytes) (u : Bytes) (w : Nat) (c : Nat → Bool) (t : Nat → Bytes)
    (l : Nat) (ht : RowsOf t T0 l)
    (hu : ∀ i < 128, ∀ j < l, flatBit u w i j = (c j ^^ bitAt (T0 i) j ^^ bitAt (T1 i) j)) :
    KeysOf t delta (fun i => if bitAt delta i then T1 i else T0 i) (flatBit u w) c l := by
  intro j hj
  refine ⟨(ht j hj).1, fun i hi => ?_⟩
  rw [(ht j hj).2 i hi, hu i hi j hj]
  cases h : bitAt delta i <;> simp [h] <;> cases c j <;> cases bitAt (T0 i) j <;> cases bitAt (T1 i) j <;> rfl

/-- C54, src/ot/apricot.rs, the whole exchange against an arbitrary receiver: from some message on, the
sender runs the extension with an agreed seed and bootstrap payloads that do not depend on its messages; under
the same conditions as before two lists of pairs that agree on the selected messages look the same. -/
theorem C54_apricot_whole (X : Crypto) (arm : Bool) (cores : Nat) (sched : Nat → List Nat) (coin : WireBytes)
    (delta : Vector Byte 16) (inner : List Bool → Proc (List Bytes)) (n ms : Nat)
    (hc : 0 < cores) (hs : ∀ n, IsOrder n (sched n)) (hn : 0 < n) (h8 : n % 8 = 0) (hms : 0 < ms) (inp : List Bytes) :
    ∃ (seed : WireBytes) (payloads : List Bytes) (r : Nat),
      ∀ (msg msg' : List (Bytes × Bytes)) (s : Nat → WireBytes) (c : Nat → Bool) (t : Nat → Bytes) (used : WireBytes → Prop),
      msg.length = n → (∀ m ∈ msg, m.1.length = ms ∧ m.2.length = ms) → SameChosenAll c msg msg' →
      (∀ i < 128, payloads[i]? = some (s i).toList) → 128 * ((n + 256) / 8) ≤ (inp.getD r []).length →
      KeysOf t delta.toList (fun i => X.fill (s i) ((n + 256) / 8)) (flatBit (inp.getD r []) ((n + 256) / 8)) c n →
      PadsApart (fun j => padSeed X.sha256 j (bytesXor (t j) delta.toList)) (fun j => padSeed X.sha256 j (t j)) used n →
      used seed → (∀ i < 128, used (s i)) →
      ∃ Φ : (WireBytes → Nat → Byte) → (WireBytes → Nat → Byte), (∀ f, Φ (Φ f) = f) ∧
        (∀ f, SameBut (fun j => padSeed X.sha256 j (bytesXor (t j) delta.toList)) n f (Φ f)) ∧
        (∀ f s, used s → Φ f s = f s) ∧
        ∀ f, (∀ s, used s → f s = X.chacha20 s) →
          ((apricotSender { X with chacha20 := Φ f } arm cores sched coin delta inner msg').against inp).1 =
          ((apricotSender { X with chacha20 := f } arm cores sched coin delta inner msg).against inp).1 := by
  rcases sender_reach X arm cores sched coin delta inner n ms h8 hn inp with ⟨pre, seed, payloads, r, h⟩ | ⟨pre, h⟩
  · refine ⟨seed, payloads, r, fun msg msg' s c t used hl hsz hm hp hu ht hA hus huss => ?_⟩
    subst hl
    obtain ⟨Φ, h1, h2, h3, h4⟩ := C54_apricot_extend X arm cores sched delta.toList seed msg msg' ms payloads s (inp.getD r []) c t
      used hc hs (by simp) hn h8 hms hsz hm hp hu ht hA hus huss
    refine ⟨Φ, h1, h2, h3, fun f hf => ?_⟩
    rw [h _ _ hm.1 (sizes_same hm hsz), h _ _ rfl hsz]
    have hr : r < inp.length := by
      by_contra hr
      rw [List.getD_eq_getElem?_getD, List.getElem?_eq_none (by omega)] at hu
      simp at hu; omega
    have hdrop : inp.drop r = inp.getD r [] :: inp.drop (r + 1) := by
      rw [List.drop_eq_getElem_cons hr, List.getD_eq_getElem?_getD, List.getElem?_eq_getElem hr]; rfl
    rw [hdrop, h4 f hf]
  · refine ⟨coin, [], 0, fun msg msg' s c t used hl hsz hm hp hu ht hA hus huss => ⟨id, fun _ => rfl, fun f s _ => rfl,
      fun f s _ => rfl, fun f hf => ?_⟩⟩
    rw [h _ _ (by rw [hm.1, hl]) (sizes_same hm hsz), h _ _ hl hsz]

/-! ### The older extension -/

/-- C54, src/ot/apricot_classic.rs after the bootstrap, against an arbitrary receiver that first sends a
usable matrix `u`.  The masks of the older extension come from a generator that nothing else uses, so it
is enough that the masks of the messages that are not selected are made from seeds of their own. -/
theorem C54_classic_extend (X : Crypto) (arch : Arch) (coin : WireBytes) (delta : Bytes)
    (msg msg' : List (Bytes × Bytes)) (s : Nat → WireBytes) (m : Bytes) (u : List Bytes) (c : Nat → Bool) (t : Nat → Bytes)
    (used : WireBytes → Prop) (hd : delta.length = 16) (h8 : msg.length % 8 = 0)
    (hu : Codec.bytesList.deserialize m = .ok u) (huse : Usable delta u ((msg.length + 192) / 8))
    (hm : SameChosenAll c msg msg')
    (ht : KeysOf t delta (fun i => X.genBytes (s i) ((msg.length + 192) / 8)) (rowsBit u) c msg.length)
    (hA : PadsApart (fun j => padSeedLE X.sha256 j (bytesXor (t j) delta)) (fun j => padSeedLE X.sha256 j (t j)) used
      msg.length) :
    ∃ Φ : (WireBytes → Nat → Byte) → (WireBytes → Nat → Byte), (∀ f, Φ (Φ f) = f) ∧
      (∀ f, SameBut (fun j => padSeedLE X.sha256 j (bytesXor (t j) delta)) msg.length f (Φ f)) ∧
      (∀ f s, used s → Φ f s = f s) ∧
      ∀ f rest,
        (classicSenderExtend { X with chacha8 := Φ f } arch coin delta msg'
          ((List.range 128).map fun i => (s i).toList)).against (m :: rest) =
        (classicSenderExtend { X with chacha8 := f } arch coin delta msg
          ((List.range 128).map fun i => (s i).toList)).against (m :: rest) := by
  obtain ⟨w, hw⟩ : ∃ w, msg.length + 192 = 8 * w := ⟨msg.length / 8 + 24, by omega⟩
  rw [hw, Nat.mul_div_cancel_left w (by decide)] at ht huse
  obtain ⟨h1, h2, h3, h4⟩ := repad_exists hA fun j => spread (otherDiff c msg msg' j)
  exact ⟨_, h1, h2, h4,
    fun f rest => clSender_same X arch coin delta msg msg' s w hw hd m u hu huse c hm t ht (h3 f) rest⟩

/-- C54, src/ot/apricot_classic.rs, the whole exchange against an arbitrary receiver. -/
theorem C54_classic_whole (X : Crypto) (arch : Arch) (coin : WireBytes) (delta : Vector Byte 16)
    (inner : List Bool → Proc (List Bytes)) (n : Nat) (h8 : n % 8 = 0) (hn8 : 8 ≤ n) (inp : List Bytes) :
    ∃ (payloads : List Bytes) (r : Nat),
      ∀ (msg msg' : List (Bytes × Bytes)) (s : Nat → WireBytes) (u : List Bytes) (c : Nat → Bool) (t : Nat → Bytes)
        (used : WireBytes → Prop),
      msg.length = n → SameChosenAll c msg msg' → payloads = ((List.range 128).map fun i => (s i).toList) →
      (∃ m, inp[r]? = some m ∧ Codec.bytesList.deserialize m = .ok u) → Usable delta.toList u ((n + 192) / 8) →
      KeysOf t delta.toList (fun i => X.genBytes (s i) ((n + 192) / 8)) (rowsBit u) c n →
      PadsApart (fun j => padSeedLE X.sha256 j (bytesXor (t j) delta.toList)) (fun j => padSeedLE X.sha256 j (t j)) used n →
      ∃ Φ : (WireBytes → Nat → Byte) → (WireBytes → Nat → Byte), (∀ f, Φ (Φ f) = f) ∧
        (∀ f, SameBut (fun j => padSeedLE X.sha256 j (bytesXor (t j) delta.toList)) n f (Φ f)) ∧
        (∀ f s, used s → Φ f s = f s) ∧
        ∀ f, ((classicSender { X with chacha8 := Φ f } arch coin delta inner msg').against inp).1 =
          ((classicSender { X with chacha8 := f } arch coin delta inner msg).against inp).1 := by
  rcases clSender_reach X arch coin delta inner n h8 hn8 inp with ⟨pre, payloads, r, h⟩ | ⟨pre, h⟩
  · refine ⟨payloads, r, fun msg msg' s u c t used hl hm hp hu huse ht hA => ?_⟩
    subst hl
    obtain ⟨m, hr, hu⟩ := hu
    obtain ⟨Φ, h1, h2, h3, h4⟩ := C54_classic_extend X arch coin delta.toList msg msg' s m u c t used (by simp) h8 hu huse hm ht hA
    refine ⟨Φ, h1, h2, h3, fun f => ?_⟩
    rw [h _ _ hm.1, h _ _ rfl, hp]
    obtain ⟨hlt, rfl⟩ := List.getElem?_eq_some_iff.mp hr
    rw [List.drop_eq_getElem_cons hlt, h4 f]
  · refine ⟨[], 0, fun msg msg' s u c t used hl hm hp hu huse ht hA => ⟨id, fun _ => rfl, fun f s _ => rfl,
      fun f s _ => rfl, fun f => ?_⟩⟩
    rw [h _ _ (by rw [hm.1, hl]), h _ _ hl]

/-- C54: a receiver of the older extension that follows the protocol holds the keys of the messages it chose. -/
theorem C54_classic_known (delta : Bytes) (T0 T1 : Nat → Bytes) (u : List Bytes) (c : Nat → Bool) (t : Nat → Bytes)
    (l : Nat) (ht : RowsOf t T0 l)
    (hu : ∀ i < 128, ∀ j < l, rowsBit u i j = (c j ^^ bitAt (T0 i) j ^^ bitAt (T1 i) j)) :
    KeysOf t delta (fun i => if bitAt delta i then T1 i else T0 i) (rowsBit u) c l := by
  intro j hj
  refine ⟨(ht j hj).1, fun i hi => ?_⟩
  rw [(ht j hj).2 i hi, hu i hi j hj]
  cases h : bitAt delta i <;> simp [h] <;> cases c j <;> cases bitAt (T0 i) j <;> cases bitAt (T1 i) j <;> rfl

/-! ### The hypotheses can be met -/

/-- A hash that keeps the first thirty-two bytes. -/
private def keep (b : Bytes) : WireBytes := Vector.ofFn fun i => b.getD i 0

/-- Eight rows with different keys and a secret that is not zero. -/
example : PadsApart (fun j => padSeed keep j (bytesXor (List.replicate 16 (BitVec.ofNat 8 (3 * j))) (List.replicate 16 1)))
    (fun j => padSeed keep j (List.replicate 16 (BitVec.ofNat 8 (3 * j)))) (fun s => s[31] = 1) 8 := by
  have h1 : ∀ p : Fin 8 × Fin 8,
      padSeed keep p.1 (bytesXor (List.replicate 16 (BitVec.ofNat 8 (3 * p.1))) (List.replicate 16 1)) =
        padSeed keep p.2 (bytesXor (List.replicate 16 (BitVec.ofNat 8 (3 * p.2))) (List.replicate 16 1)) → p.1 = p.2 := by
    decide +kernel
  have h2 : ∀ p : Fin 8 × Fin 8,
      padSeed keep p.1 (bytesXor (List.replicate 16 (BitVec.ofNat 8 (3 * p.1))) (List.replicate 16 1)) ≠
        padSeed keep p.2 (List.replicate 16 (BitVec.ofNat 8 (3 * p.2))) := by
    decide +kernel
  have h3 : ∀ p : Fin 8,
      (padSeed keep p (bytesXor (List.replicate 16 (BitVec.ofNat 8 (3 * p))) (List.replicate 16 1)))[31] ≠ (1 : Byte) := by
    decide +kernel
  exact ⟨fun j hj k hk h => congrArg Fin.val (h1 (⟨j, hj⟩, ⟨k, hk⟩) h), fun j hj k hk => h2 (⟨j, hj⟩, ⟨k, hk⟩),
    fun j hj => h3 ⟨j, hj⟩⟩

/-- Two lists that agree on what is chosen and differ in everything else. -/
example : SameChosenAll (fun j => j == 1) [([1, 2], [3, 4]), ([5, 6], [7, 8])] [([1, 2], [9, 9]), ([0, 0], [7, 8])] := by
  refine ⟨rfl, fun j hj => ?_⟩
  have : ∀ j : Fin 2, SameChosen (j.val == 1) ([([1, 2], [3, 4]), ([5, 6], [7, 8])].getD j.val ([], []))
      ([([1, 2], [9, 9]), ([0, 0], [7, 8])].getD j.val ([], [])) := by
    intro j
    match j with
    | 0 => exact ⟨rfl, rfl, rfl⟩
    | 1 => exact ⟨rfl, rfl, rfl⟩
  exact this ⟨j, hj⟩

/-- Two pairs of the base transfer over a toy curve, the first message chosen in both. -/
example : PadsApart (fun i => baseSeed toyCurve keep (2 * i + 1) (4 : ZMod 14) true)
    (fun i => baseSeed toyCurve keep (2 * i + 1) (4 : ZMod 14) false) (fun _ => False) 2 := by
  have h1 : ∀ p : Fin 2 × Fin 2, baseSeed toyCurve keep (2 * p.1 + 1) (4 : ZMod 14) true =
      baseSeed toyCurve keep (2 * p.2 + 1) (4 : ZMod 14) true → p.1 = p.2 := by decide +kernel
  have h2 : ∀ p : Fin 2 × Fin 2, baseSeed toyCurve keep (2 * p.1 + 1) (4 : ZMod 14) true ≠
      baseSeed toyCurve keep (2 * p.2 + 1) (4 : ZMod 14) false := by decide +kernel
  exact ⟨fun j hj k hk h => congrArg Fin.val (h1 (⟨j, hj⟩, ⟨k, hk⟩) h), fun j hj k hk => h2 (⟨j, hj⟩, ⟨k, hk⟩),
    fun j hj h => h⟩

end FP.Props
