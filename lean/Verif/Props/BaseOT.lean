import Verif.Proof.Against
import Mathlib.Data.ZMod.Basic
import Verif.Proof.Witness
/-
C18-C21, C28, C43: the property check, the coin flip and the base oblivious transfer.
-/
namespace FP.Props

/-! ### Coin flip -/

/-- C18: for all contributions of the same length, under every schedule, both parties finish with
the xor of the two contributions. -/
theorem C18_agreement (E : Env) (v u : Bytes) (h : u.length = v.length) :
    Spec.Completes (coinflipSender E v) (coinflipReceiver E u)
      (List.zipWith (· ^^^ ·) v u) (List.zipWith (· ^^^ ·) v u) :=
  (coinflip_ends E v u h).completes

example := C18_agreement (Witness.crypto true).toEnv [1, 2, 3] [7, 8, 9] (by meets)

/-- C19, acceptance: against any peer whatsoever, the receiver returns a value only if the peer sent
a commitment and then an opening of the right length that hashes to it; the value is the xor of the
opening with the receiver's own contribution. -/
theorem C19_receiver_accepts (E : Env) (u : Bytes) (inp : List Bytes) (w : Bytes) :
    ((coinflipReceiver E u).against inp).2 = some (.ok w) ↔
      ∃ commit v rest, inp = commit :: v :: rest ∧ v.length = u.length ∧
        commit = (E.sha256 v).toList ∧ w = List.zipWith (· ^^^ ·) u v := by
  unfold coinflipReceiver
  simp only [recvP_bind, sendP_bind]
  rcases inp with - | ⟨commit, - | ⟨v, rest⟩⟩
  · simp [Proc.against]
  · simp [Proc.against]
  · simp only [Proc.against]
    by_cases h1 : v.length = u.length
    · rw [if_neg (by simpa using h1)]
      by_cases h2 : commit = (E.sha256 v).toList
      · rw [if_neg (by simpa using h2), xorAt_eq u v h1.symm]
        constructor
        · intro h
          refine ⟨commit, v, rest, rfl, h1, h2, ?_⟩
          simpa [Proc.against, eq_comm] using h
        · rintro ⟨c, v', r, h, -, -, hw⟩
          cases h
          rw [hw]; rfl
      · rw [if_pos h2]
        constructor
        · intro h; exact absurd h (by simp [errR, Proc.against])
        · rintro ⟨c, v', r, h, -, hc, -⟩
          cases h
          exact absurd hc h2
    · rw [if_pos h1]
      constructor
      · intro h; exact absurd h (by simp [errR, Proc.against])
      · rintro ⟨c, v', r, h, hl, -, -⟩
        cases h
        exact absurd hl h1

/-- C19, order: the receiver says nothing before it has a commitment, and afterwards reveals exactly
its contribution. -/
theorem C19_receiver_reveals_after_commitment (E : Env) (u : Bytes) :
    (coinflipReceiver E u).against [] = ([], none) ∧
    ∀ commit rest, ((coinflipReceiver E u).against (commit :: rest)).1 = [u] := by
  refine ⟨rfl, fun commit rest => ?_⟩
  unfold coinflipReceiver
  simp only [recvP_bind, sendP_bind, Proc.against]
  rcases rest with - | ⟨v, rest⟩
  · rfl
  · simp only [Proc.against]
    by_cases h1 : v.length = u.length
    · rw [if_neg (by simpa using h1)]
      by_cases h2 : commit = (E.sha256 v).toList
      · rw [if_neg (by simpa using h2), xorAt_eq u v h1.symm]; rfl
      · rw [if_pos h2]; rfl
    · rw [if_pos h1]; rfl

/-- C19, binding: two runs that accept different openings of one commitment exhibit a hash
collision. -/
theorem C19_binding (E : Env) (u u' commit v v' : Bytes) (rest rest' : List Bytes) (w w' : Bytes)
    (h : ((coinflipReceiver E u).against (commit :: v :: rest)).2 = some (.ok w))
    (h' : ((coinflipReceiver E u').against (commit :: v' :: rest')).2 = some (.ok w')) :
    E.sha256 v = E.sha256 v' := by
  rw [C19_receiver_accepts] at h h'
  obtain ⟨c, x, r, e, -, hc, -⟩ := h
  obtain ⟨c', x', r', e', -, hc', -⟩ := h'
  cases e
  cases e'
  rw [hc] at hc'
  exact Vector.toList_inj.mp hc'

example := C19_binding (Witness.crypto true).toEnv [1, 2, 3] [4, 5, 6] ((Witness.crypto true).sha256 [7, 8, 9]).toList [7, 8, 9]
    [7, 8, 9] [] [[1]] _ _
    ((C19_receiver_accepts _ _ _ _).mpr ⟨_, _, _, rfl, rfl, rfl, rfl⟩)
    ((C19_receiver_accepts _ _ _ _).mpr ⟨_, _, _, rfl, rfl, rfl, rfl⟩)

/-- C19, rejection: a contribution of the wrong length makes the sender fail before it opens its
commitment. -/
theorem C19_sender_rejects (E : Env) (v u : Bytes) (rest : List Bytes) (h : u.length ≠ v.length) :
    (coinflipSender E v).against (u :: rest) =
      ([(E.sha256 v).toList], some (.error (.err .coinflipLength))) := by
  unfold coinflipSender
  simp only [recvP_bind, sendP_bind, Proc.against]
  rw [if_pos h]; rfl

example := C19_sender_rejects (Witness.crypto true).toEnv [1, 2, 3] [7, 8] [] (by meets)

/-- C19, rejection: the receiver reports wrong lengths and wrong openings with the two errors. -/
theorem C19_receiver_rejects (E : Env) (u commit v : Bytes) (rest : List Bytes) :
    (v.length ≠ u.length → ((coinflipReceiver E u).against (commit :: v :: rest)).2 =
      some (.error (.err .coinflipLength))) ∧
    (v.length = u.length → commit ≠ (E.sha256 v).toList →
      ((coinflipReceiver E u).against (commit :: v :: rest)).2 =
        some (.error (.err .coinflipCommitment))) := by
  unfold coinflipReceiver
  simp only [recvP_bind, sendP_bind, Proc.against]
  refine ⟨fun h => ?_, fun h1 h2 => ?_⟩
  · rw [if_pos h]; rfl
  · rw [if_neg (by simpa using h1), if_pos h2]; rfl

example := (C19_receiver_rejects (Witness.crypto true).toEnv [1, 2, 3] [4] [7, 8, 9] []).2 rfl (by decide)

theorem xor_solve (u w : Bytes) (h : w.length = u.length) :
    List.zipWith (· ^^^ ·) (List.zipWith (· ^^^ ·) w u) u = w := zipWith_xor_cancel h

/-- C19, uniformity: with one contribution fixed, every result of that length comes from exactly
one contribution of the other party. -/
theorem C19_bijective (E : Env) (u w : Bytes) (h : w.length = u.length) :
    (∃! v : Bytes, v.length = u.length ∧
      Spec.Completes (coinflipSender E v) (coinflipReceiver E u) w w) ∧
    (∃! v : Bytes, v.length = u.length ∧
      Spec.Completes (coinflipSender E u) (coinflipReceiver E v) w w) := by
  have hx : (List.zipWith (· ^^^ ·) w u : Bytes).length = u.length := by simp [h]
  have hcomm : ∀ a b : Bytes, (List.zipWith (· ^^^ ·) a b : Bytes) = List.zipWith (· ^^^ ·) b a := by
    intro a b; rw [List.zipWith_comm]; simp only [BitVec.xor_comm]
  refine ⟨⟨List.zipWith (· ^^^ ·) w u, ⟨hx, ?_⟩, ?_⟩, ⟨List.zipWith (· ^^^ ·) w u, ⟨hx, ?_⟩, ?_⟩⟩
  · have := C18_agreement E (List.zipWith (· ^^^ ·) w u) u hx.symm
    rwa [xor_solve u w h] at this
  · rintro v ⟨hl, hc⟩
    have := (hc.unique (C18_agreement E v u hl.symm)).1
    rw [this]
    exact (zipWith_xor_cancel hl).symm
  · have := C18_agreement E u (List.zipWith (· ^^^ ·) w u) hx
    rwa [hcomm u, xor_solve u w h] at this
  · rintro v ⟨hl, hc⟩
    have := (hc.unique (C18_agreement E u v hl)).1
    rw [this, hcomm u v]
    exact (zipWith_xor_cancel hl).symm

example := C19_bijective (Witness.crypto true).toEnv [1, 2, 3] [7, 8, 9] (by meets)

/-! ### The property check -/

/-- C28: any two exchanges that announce different properties both fail with `BadProperties`, under
every schedule and whatever they would have done afterwards. -/
theorem C28_mismatch {α β : Type} (pb pb' : TransactionProperties) (h : pb.Fits) (h' : pb'.Fits)
    (hne : pb ≠ pb') (k : Unit → Proc α) (l : Unit → Proc β) :
    Spec.BothFail (validateProperties pb >>= k) (validateProperties pb' >>= l)
      (.err .badProperties) (.err .badProperties) :=
  ((validate_fails h h' hne).bind k l).bothFail

example := C28_mismatch ⟨3, "Chou-Orlandi"⟩ ⟨3, "Apricot"⟩ (by unfold TransactionProperties.Fits; decide)
    (by unfold TransactionProperties.Fits; decide) (by decide) (fun _ => sendP [1]) (fun _ => recvP)

/-- C28 for the base OT: a sender and a receiver with different numbers of items both fail. -/
theorem C28_base_ot (C : Curve) (X : Crypto) (a b : Nat → Nat) (msg : List (Bytes × Bytes))
    (choices : List Bool) (h : msg.length ≠ choices.length) (hn : msg.length < 2 ^ 64)
    (hn' : choices.length < 2 ^ 64) :
    Spec.BothFail (coSender C X a msg) (coReceiver C X b choices)
      (.err .badProperties) (.err .badProperties) :=
  C28_mismatch ⟨msg.length, "Chou-Orlandi"⟩ ⟨choices.length, "Chou-Orlandi"⟩ ⟨hn, co_name⟩ ⟨hn', co_name⟩
    (fun e => h (congrArg TransactionProperties.msgSize e)) _ _

example := C28_base_ot Witness.curve (Witness.crypto true) (· + 3) (· + 5) Witness.messages [true, false] (by meets) (by meets)
    (by meets)

/-- C28, against any peer: an exchange gets past the check only if the peer announced the same
properties. -/
theorem C28_only_if_equal {α : Type} (pb : TransactionProperties) (k : Unit → Proc α)
    (inp : List Bytes) (a : α) (h : ((validateProperties pb >>= k).against inp).2 = some (.ok a)) :
    ∃ m rest, inp = m :: rest ∧ Codec.properties.deserialize m = .ok pb := by
  rcases against_validate pb α inp with ⟨m, rest, h1, h2, -⟩ | ⟨r, hr, hk⟩
  · exact ⟨m, rest, h1, h2⟩
  · rw [hk] at h
    exact absurd h (hr a)

example := C28_only_if_equal ⟨3, "Chou-Orlandi"⟩ (fun _ => sendP [1]) [Codec.properties.enc ⟨3, "Chou-Orlandi"⟩] () (by decide)

/-! ### Base OT -/

/-- C20: for every curve group, all secret scalars, all pairs of messages of any lengths and all
choice bits, under every schedule, both exchanges return and the receiver has exactly the chosen
messages. -/
theorem C20_base_ot (C : Curve) (X : Crypto) (a b : Nat → Nat) (msg : List (Bytes × Bytes))
    (choices : List Bool) (h : msg.length = choices.length) (hn : msg.length < 2 ^ 64)
    (hm : ∀ m ∈ msg, m.1.length < 2 ^ 64 ∧ m.2.length < 2 ^ 64) :
    Spec.Completes (coSender C X a msg) (coReceiver C X b choices) () (Spec.chosen msg choices) :=
  (co_ends C X a b msg choices h hn hm).completes

example := C20_base_ot Witness.curve (Witness.crypto true) (· + 3) (· + 3) Witness.messages Witness.choices (by meets)
    (by meets) (by meets)

/-- C21: for a sender key `A` and an answer `B` in the group generated by the base point, and for
either value of the choice bit, exactly one secret scalar makes the receiver send `B`. -/
theorem C21_unique_scalar (C : Curve) (X : Crypto) (hfin : IsOfFinAddOrder C.base) (A B : C.Pt)
    (hA : A ∈ AddSubgroup.zmultiples C.base) (hB : B ∈ AddSubgroup.zmultiples C.base) (c : Bool) :
    ∃! b : Fin (addOrderOf C.base),
      ((coReceiver C X (fun _ => b) [c]).against
        [Codec.properties.enc ⟨1, "Chou-Orlandi"⟩, (C.compress A).toList]).1 =
      [Codec.properties.enc ⟨1, "Chou-Orlandi"⟩, (C.compress B).toList] := by
  have hsent := fun b : Fin (addOrderOf C.base) => coReceiver_sent_one C X A c b
  have hinj : ∀ P Q : C.Pt, (C.compress P).toList = (C.compress Q).toList ↔ P = Q :=
    fun P Q => ⟨fun h => compress_inj C (Vector.toList_inj.mp h), fun h => by rw [h]⟩
  obtain ⟨b, hb, hu⟩ := coAnswer_unique C hfin hA c hB
  refine ⟨b, ?_, fun b' hb' => hu b' ?_⟩
  · simp only at hb ⊢
    rw [hsent, hb]
  · simp only at hb' ⊢
    rw [hsent] at hb'
    simp only [List.cons.injEq, and_true, true_and] at hb'
    exact (hinj _ _).mp hb'

example := C21_unique_scalar Witness.curve (Witness.crypto true) (by meets) (4 : ZMod 14) (6 : ZMod 14)
    ⟨2, (by decide : (2 : ℤ) • (2 : ZMod 14) = 4)⟩ ⟨3, (by decide : (3 : ℤ) • (2 : ZMod 14) = 6)⟩ true

/-- Secret scalars below the order of the base point, one per item. -/
def scalars {C : Curve} {n : Nat} (s : Fin n → Fin (addOrderOf C.base)) (i : Nat) : Nat :=
  if h : i < n then s ⟨i, h⟩ else 0

/-- Every curve point in the messages that a base-OT receiver takes as the sender's keys is a
multiple of the base point.  This holds in particular for an honest sender. -/
def KeysInSubgroup (C : Curve) (n : Nat) (inp : List Bytes) : Prop :=
  ∀ m ∈ (inp.drop 1).take n, ∀ v P, fromSlice m = .ok v → C.decompress v = some P →
    P ∈ AddSubgroup.zmultiples C.base

/-- C21, whole exchange: whatever messages the sender delivers, as long as its keys are multiples of
the base point, changing the choice bits amounts to a permutation of the secret scalars: the
receiver's messages are distributed identically for any two choice vectors. -/
theorem C21_view_independent (C : Curve) (X : Crypto) (hfin : IsOfFinAddOrder C.base) (n : Nat)
    (c c' : List Bool) (hc : c.length = n) (hc' : c'.length = n) (inp : List Bytes)
    (hkeys : KeysInSubgroup C n inp) :
    ∃ φ : (Fin n → Fin (addOrderOf C.base)) ≃ (Fin n → Fin (addOrderOf C.base)), ∀ s,
      ((coReceiver C X (scalars s) c).against inp).1 =
      ((coReceiver C X (scalars (φ s)) c').against inp).1 := by
  rcases coReceiver_sent C X n inp with ⟨s, hs⟩ | ⟨m, rest, theirs, rfl, hle, -, hth, hdec, hsent⟩
  · exact ⟨Equiv.refl _, fun t => by rw [hs _ _ hc, hs _ _ hc']⟩
  · have hlen : theirs.length = n := by
      rw [mapM_length hth, List.length_take]; omega
    have hA : ∀ i : Fin n, pointAt C theirs i ∈ AddSubgroup.zmultiples C.base := by
      intro i
      have hi : (i : Nat) < theirs.length := by rw [hlen]; exact i.2
      obtain ⟨P, hP⟩ := Option.isSome_iff_exists.mp (hdec theirs[i] (by simp))
      have : pointAt C theirs i = P := by
        unfold pointAt
        rw [List.getElem?_eq_getElem hi]
        simp only [Option.bind_some]
        have : C.decompress theirs[(i : Nat)] = some P := hP
        rw [this]; rfl
      rw [this]
      obtain ⟨mm, hmm, hf⟩ := mapM_mem hth (b := theirs[i]) (by simp)
      exact hkeys mm (by simpa using hmm) _ P hf hP
    have he : ∀ i : Fin n, ∃ e : Fin (addOrderOf C.base) ≃ Fin (addOrderOf C.base),
        ∀ b : Fin (addOrderOf C.base), coAnswer C (pointAt C theirs i) (c.getD i false) b =
          coAnswer C (pointAt C theirs i) (c'.getD i false) (e b) :=
      fun i => coAnswer_equiv C hfin (hA i) _ _
    choose e he using he
    refine ⟨Equiv.piCongrRight e, fun s => ?_⟩
    rw [hsent _ _ hc, hsent _ _ hc']
    congr 1
    apply List.map_congr_left
    intro i hi
    rw [List.mem_range] at hi
    have h1 : scalars s i = (s ⟨i, hi⟩ : Nat) := by simp [scalars, hi]
    have h2 : scalars (Equiv.piCongrRight e s) i = (e ⟨i, hi⟩ (s ⟨i, hi⟩) : Nat) := by simp [scalars, hi]
    rw [h1, h2, he ⟨i, hi⟩ (s ⟨i, hi⟩)]

/-- C21: the keys of an honest sender are multiples of the base point. -/
theorem C21_honest_keys (C : Curve) (a : Nat → Nat) (n : Nat) (pre : Bytes) (post : List Bytes) :
    KeysInSubgroup C n (pre :: ((List.range n).map fun i => (C.compress (a i • C.base)).toList) ++ post) := by
  intro m hm v P hv hP
  have : ((pre :: ((List.range n).map fun i => (C.compress (a i • C.base)).toList) ++ post).drop 1).take n =
      (List.range n).map fun i => (C.compress (a i • C.base)).toList := by
    rw [List.cons_append, List.drop_succ_cons, List.drop_zero, List.take_append_of_le_length (by simp),
      List.take_of_length_le (by simp)]
  rw [this] at hm
  obtain ⟨i, -, rfl⟩ := List.mem_map.mp hm
  rw [fromSlice_toList] at hv
  injection hv with hv
  subst hv
  rw [C.decompress_compress] at hP
  injection hP with hP
  subst hP
  exact AddSubgroup.nsmul_mem _ (AddSubgroup.mem_zmultiples _) _

example := C21_view_independent Witness.curve (Witness.crypto true) (by meets) 3 [true, false, true] [false, false, true] rfl
    rfl _ (C21_honest_keys Witness.curve (fun i => i + 1) 3 [1, 2] [])

/-- C43: the choice bit is hidden exactly from senders whose key is a multiple of the base point: for
any two choices and any scalar there is a scalar producing the same messages if and only if `A` lies
in the group generated by the base point.  (The receiver accepts any curve point `A`.) -/
theorem C43_hidden_iff (C : Curve) (X : Crypto) (hfin : IsOfFinAddOrder C.base) (A : C.Pt) :
    (∀ c c' : Bool, ∀ b : Nat, ∃ b' : Nat,
      ((coReceiver C X (fun _ => b) [c]).against
        [Codec.properties.enc ⟨1, "Chou-Orlandi"⟩, (C.compress A).toList]).1 =
      ((coReceiver C X (fun _ => b') [c']).against
        [Codec.properties.enc ⟨1, "Chou-Orlandi"⟩, (C.compress A).toList]).1) ↔
      A ∈ AddSubgroup.zmultiples C.base := by
  have hmul : ∀ b : Nat, b • C.base ∈ AddSubgroup.zmultiples C.base :=
    fun b => AddSubgroup.nsmul_mem _ (AddSubgroup.mem_zmultiples _) b
  simp only [coReceiver_sent_one]
  constructor
  · intro h
    obtain ⟨b', hb'⟩ := h true false 0
    simp only [List.cons.injEq, and_true, true_and] at hb'
    have : A + 0 • C.base = b' • C.base := compress_inj C (Vector.toList_inj.mp hb')
    rw [zero_nsmul, add_zero] at this
    rw [this]
    exact hmul b'
  · intro hA c c' b
    obtain ⟨b', hb', -⟩ := coAnswer_unique C hfin hA c' (coAnswer_mem C hA c b)
    exact ⟨b', by rw [hb']⟩

example := C43_hidden_iff Witness.curve (Witness.crypto true) (by meets) (1 : ZMod 14)

/-- C43, in terms of what is sent: with a key outside the subgroup the messages of a receiver with
choice 0 and of one with choice 1 never coincide, whatever scalars they draw. -/
theorem C43_leak (C : Curve) (X : Crypto) (A : C.Pt) (hA : A ∉ AddSubgroup.zmultiples C.base)
    (b b' : Nat) :
    ((coReceiver C X (fun _ => b) [false]).against
        [Codec.properties.enc ⟨1, "Chou-Orlandi"⟩, (C.compress A).toList]).1 ≠
    ((coReceiver C X (fun _ => b') [true]).against
        [Codec.properties.enc ⟨1, "Chou-Orlandi"⟩, (C.compress A).toList]).1 := by
  rw [coReceiver_sent_one, coReceiver_sent_one]
  intro h
  simp only [List.cons.injEq, and_true, true_and] at h
  have h := compress_inj C (Vector.toList_inj.mp h)
  have h : b • C.base = A + b' • C.base := by simpa [coAnswer] using h
  apply hA
  have : A = b • C.base - b' • C.base := by rw [h]; abel
  rw [this]
  exact AddSubgroup.sub_mem _ (AddSubgroup.nsmul_mem _ (AddSubgroup.mem_zmultiples _) _)
    (AddSubgroup.nsmul_mem _ (AddSubgroup.mem_zmultiples _) _)

/-! ### The hypotheses can be met -/

/-- A toy curve with cofactor 2: the integers modulo 14 with base point 2, of order 7. -/
def toyCurve : Curve where
  Pt := ZMod 14
  base := 2
  compress x := Vector.replicate 32 (BitVec.ofNat 8 x.val)
  decompress v := some ((v[0].toNat : ℕ) : ZMod 14)
  decompress_compress := by decide

example : IsOfFinAddOrder toyCurve.base := by
  rw [isOfFinAddOrder_iff_nsmul_eq_zero]
  exact ⟨7, by decide, (by decide : 7 • (2 : ZMod 14) = 0)⟩

example : (4 : ZMod 14) ∈ AddSubgroup.zmultiples toyCurve.base := ⟨2, (by decide : (2 : ℤ) • (2 : ZMod 14) = 4)⟩

/-- The key 1 is a point of the toy curve outside the subgroup. -/
example : (1 : ZMod 14) ∉ AddSubgroup.zmultiples toyCurve.base := by
  rintro ⟨k, hk⟩
  have h7 : (7 : ZMod 14) * ((k : ZMod 14) * 2) = 0 := by
    have : ∀ x : ZMod 14, 7 * (x * 2) = 0 := by decide
    exact this _
  have hk' : (k : ZMod 14) * 2 = 1 := by
    have : k • (2 : ZMod 14) = 1 := hk
    rwa [zsmul_eq_mul] at this
  rw [hk'] at h7
  exact absurd h7 (by decide)

example : Spec.chosen [([1], [2, 3]), ([4], [])] [true, false] = [[2, 3], [4]] := rfl

example : (⟨3, "Chou-Orlandi"⟩ : TransactionProperties).Fits ∧
    (⟨3, "Chou-Orlandi"⟩ : TransactionProperties) ≠ ⟨3, "Apricot"⟩ :=
  ⟨⟨by decide, co_name⟩, by decide⟩

end FP.Props
