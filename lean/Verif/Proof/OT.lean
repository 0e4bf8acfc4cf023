import Verif.Model.OT
import Verif.Proof.Run
import Verif.Proof.Bincode
import Verif.Proof.Util
import Mathlib.Algebra.Module.NatInt
import Mathlib.Algebra.Group.Action.Defs
/-
Correctness of the property check, the coin flip and the base oblivious transfer.
-/
namespace FP

variable {α β γ δ : Type}

def TransactionProperties.Fits (p : TransactionProperties) : Prop :=
  p.msgSize < 2 ^ 64 ∧ p.protocol.utf8ByteSize < 2 ^ 64

theorem validate_eq {pb pb' : TransactionProperties} (h : pb'.Fits) :
    validateProperties pb = .send (Codec.properties.enc pb) (.recv fun m =>
      (Proc.ofR (Codec.properties.deserialize m) >>= fun pb2 =>
        if pb2 ≠ pb then .fail (.err .badProperties) else .ret ())) := rfl

theorem validate_recv {pb pb' : TransactionProperties} (h : pb'.Fits) :
    (Proc.ofR (Codec.properties.deserialize (Codec.properties.enc pb')) >>= fun pb2 =>
        if pb2 ≠ pb then .fail (.err .badProperties) else .ret ()) =
    if pb' ≠ pb then (.fail (.err .badProperties) : Proc Unit) else .ret () := by
  rw [deserialize_ok properties_rt h]; rfl

theorem validate_ends {pb : TransactionProperties} (h : pb.Fits) :
    Ends (validateProperties pb) (validateProperties pb) () () := by
  rw [validate_eq h]
  apply Ends.cross
  rw [validate_recv h, if_neg (by simp)]
  exact .ret _ _

theorem validate_fails {pb pb' : TransactionProperties} (h : pb.Fits) (h' : pb'.Fits) (hne : pb ≠ pb') :
    EndsErr (validateProperties pb) (validateProperties pb') (.err .badProperties)
      (.err .badProperties) := by
  rw [validate_eq h, validate_eq h']
  refine .head (.sendL _ _ _ [] []) (.head (.sendR _ _ _ _ [])
    (.head (.recvL _ _ _ _ []) (.head (.recvR _ _ _ [] []) ?_)))
  rw [validate_recv h, validate_recv h', if_pos hne, if_pos (Ne.symm hne)]
  exact .refl _

/-! ### Coin flip -/

theorem xorAt_eq (a b : Bytes) (h : a.length = b.length) :
    xorAt a b = .ok (List.zipWith (· ^^^ ·) a b) := by
  have := xorBytes_ok false h
  unfold xorBytes at this
  exact this

theorem coinflip_ends (E : Env) (v u : Bytes) (h : u.length = v.length) :
    Ends (coinflipSender E v) (coinflipReceiver E u) (List.zipWith (· ^^^ ·) v u)
      (List.zipWith (· ^^^ ·) v u) := by
  unfold coinflipSender coinflipReceiver
  simp only [sendP_bind, recvP_bind]
  refine .sendRecv (.recvSend ?_)
  rw [if_neg (by simpa using h)]
  refine .sendRecv ?_
  rw [if_neg (by simpa using h.symm), if_neg (by simp), xorAt_eq v u h.symm, xorAt_eq u v h]
  rw [show List.zipWith (fun x1 x2 : Byte => x1 ^^^ x2) u v = List.zipWith (· ^^^ ·) v u by
    rw [List.zipWith_comm]; simp only [BitVec.xor_comm]]
  exact .ret _ _

/-! ### Chou-Orlandi -/

theorem Ends.recvEach {f : Bytes → R α} (ms : List Bytes) (as : List α)
    (h : List.Forall₂ (fun m a => f m = .ok a) ms as) :
    Ends (FP.sendAll ms) (FP.recvEach ms.length f) () as := by
  induction h with
  | nil => exact .ret _ _
  | @cons m a ms as hm _ ih =>
    show Ends (sendP m >>= fun _ => FP.sendAll ms)
      (recvP >>= fun m => Proc.ofR (f m) >>= fun a => FP.recvEach ms.length f >>= fun as => pure (a :: as)) _ _
    rw [sendP_bind, recvP_bind]
    refine .sendRecv ?_
    rw [hm, ofR_ok, ret_bind]
    exact .bindR ih rfl

/-- The same with the number of messages given separately. -/
theorem Ends.recvEach' {f : Bytes → R α} {n : Nat} (ms : List Bytes) (as : List α) (hn : ms.length = n)
    (h : List.Forall₂ (fun m a => f m = .ok a) ms as) :
    Ends (FP.sendAll ms) (FP.recvEach n f) () as := by
  subst hn; exact .recvEach ms as h

/-- The ciphertext of `m` under the point `P`. -/
def coCipher (C : Curve) (X : Crypto) (P : C.Pt) (m : Bytes) : Bytes :=
  List.zipWith (· ^^^ ·) m (X.genBytes (X.sha256 (C.compress P).toList) m.length)

theorem genBytes_length (X : Crypto) (s : WireBytes) (n : Nat) : (X.genBytes s n).length = n := by
  simp [Crypto.genBytes]

theorem coCrypt_ok (C : Curve) (X : Crypto) (P : C.Pt) (m : Bytes) :
    coCrypt C X P m = .ok (coCipher C X P m) :=
  xorBytes_ok _ (by rw [genBytes_length])

theorem coCipher_length (C : Curve) (X : Crypto) (P : C.Pt) (m : Bytes) :
    (coCipher C X P m).length = m.length := by simp [coCipher, genBytes_length]

/-- Public key number `i` of the sender and answer number `i` of the receiver. -/
def coA (C : Curve) (a : Nat → Nat) (i : Nat) : C.Pt := a i • C.base
def coB (C : Curve) (a b : Nat → Nat) (c : Nat → Bool) (i : Nat) : C.Pt :=
  if c i then coA C a i + b i • C.base else b i • C.base

theorem co_shared (C : Curve) (a b : Nat → Nat) (c : Nat → Bool) (i : Nat) :
    a i • (if c i then coB C a b c i - coA C a i else coB C a b c i) = b i • coA C a i := by
  unfold coB
  have : a i • b i • C.base = b i • coA C a i := by
    unfold coA
    rw [← mul_nsmul', ← mul_nsmul', Nat.mul_comm]
  cases h : c i with
  | false => simpa using this
  | true => simp only [if_true, add_sub_cancel_left]; exact this

theorem mem_zipIdx_iff {l : List α} {x : α} {i : Nat} : (x, i) ∈ l.zipIdx ↔ l[i]? = some x := by
  rw [List.mem_zipIdx_iff_getElem?]

theorem coEncrypt_ok (C : Curve) (X : Crypto) (a b : Nat → Nat) (c : Nat → Bool)
    (msg : List (Bytes × Bytes)) :
    coEncrypt C X ((List.range msg.length).map fun i => C.compress (coA C a i))
      ((List.range msg.length).map fun i => C.compress (coB C a b c i)) a msg =
    .ok (msg.zipIdx.map fun p => (coCipher C X (a p.2 • coB C a b c p.2) p.1.1,
      coCipher C X (a p.2 • (coB C a b c p.2 - coA C a p.2)) p.1.2)) := by
  unfold coEncrypt
  apply mapM_ok
  rintro ⟨m, i⟩ hm
  rw [mem_zipIdx_iff] at hm
  have hi : i < msg.length := (List.getElem?_eq_some_iff.mp hm).1
  unfold coEncryptPair
  rw [idxR_ok (a := C.compress (coB C a b c i)) (by simp [hi]), okb, C.decompress_compress, unwrapR, okb,
    idxR_ok (a := C.compress (coA C a i)) (by simp [hi]), okb, C.decompress_compress, unwrapR, okb,
    coCrypt_ok, okb, coCrypt_ok]
  rfl

theorem coRespond_ok (C : Curve) (X : Crypto) (a b : Nat → Nat) (choices : List Bool) :
    coRespondAll C X choices b ((List.range choices.length).map fun i => C.compress (coA C a i)) =
    .ok ((List.range choices.length).map fun i =>
      (C.compress (coB C a b (fun i => choices.getD i false) i),
        X.sha256 (C.compress (b i • coA C a i)).toList)) := by
  unfold coRespondAll
  rw [mapM_ok (g := fun p => (C.compress (coB C a b (fun i => choices.getD i false) p.2),
        X.sha256 (C.compress (b p.2 • coA C a p.2)).toList))]
  · refine congrArg Except.ok ?_
    apply List.ext_getElem (by simp)
    intro i h1 h2
    simp
  · rintro ⟨p, i⟩ hp
    rw [mem_zipIdx_iff] at hp
    have hi : i < choices.length := by
      have := (List.getElem?_eq_some_iff.mp hp).1; simpa using this
    have hp' : p = C.compress (coA C a i) := by
      rw [List.getElem?_map, List.getElem?_range hi] at hp; simpa using hp.symm
    subst hp'
    unfold coRespond
    rw [C.decompress_compress, unwrapR, okb, idxR_ok (a := choices[i]) (by simp [hi]), okb]
    simp [coB, hi, purek]

theorem coDecrypt_ok (C : Curve) (X : Crypto) (a b : Nat → Nat) (msg : List (Bytes × Bytes))
    (choices : List Bool) (h : msg.length = choices.length) :
    coDecryptAll X choices ((List.range choices.length).map fun i =>
        X.sha256 (C.compress (b i • coA C a i)).toList)
      (msg.zipIdx.map fun p =>
        (coCipher C X (a p.2 • coB C a b (fun i => choices.getD i false) p.2) p.1.1,
         coCipher C X (a p.2 • (coB C a b (fun i => choices.getD i false) p.2 - coA C a p.2)) p.1.2)) =
    .ok (Spec.chosen msg choices) := by
  unfold coDecryptAll
  rw [mapM_ok (g := fun p => (Spec.chosen msg choices).getD p.2 [])]
  · refine congrArg Except.ok ?_
    apply List.ext_getElem (by simp [Spec.chosen, h])
    intro i h1 h2
    simp [h2]
  · rintro ⟨e, i⟩ he
    rw [mem_zipIdx_iff, List.getElem?_map] at he
    cases hm : msg.zipIdx[i]? with
    | none => rw [hm] at he; cases he
    | some p =>
      rw [List.getElem?_zipIdx, Option.map_eq_some_iff] at hm
      obtain ⟨m, hm, rfl⟩ := hm
      rw [List.getElem?_zipIdx, hm] at he
      simp only [Option.map_some, Option.some.injEq, Nat.zero_add] at he
      have hi : i < msg.length := (List.getElem?_eq_some_iff.mp hm).1
      have hi' : i < choices.length := by omega
      have hs := co_shared C a b (fun i => choices.getD i false) i
      have hg : choices.getD i false = choices[i] := by simp [hi']
      have hch : (Spec.chosen msg choices).getD i [] = if choices[i] then m.2 else m.1 := by
        have : msg[i] = m := by
          rw [List.getElem?_eq_getElem hi] at hm; simpa using hm
        have e : (Spec.chosen msg choices)[i]? = some (if choices[i] then m.2 else m.1) := by
          unfold Spec.chosen
          rw [List.getElem?_zipWith, List.getElem?_eq_getElem hi, List.getElem?_eq_getElem hi', this]
        rw [List.getD, e]; rfl
      simp only [hch]
      unfold coDecrypt
      rw [idxR_ok (a := choices[i]) (by simp [hi']), okb, idxR_ok
        (a := X.sha256 (C.compress (b i • coA C a i)).toList) (by simp [hi']), okb]
      subst he
      cases hc : choices[i] with
      | false =>
        simp only [hg, hc, Bool.false_eq_true, if_false] at hs ⊢
        rw [hs, coCipher_length, xorBytes_ok _ (by rw [coCipher_length, genBytes_length])]
        unfold coCipher
        rw [zipWith_xor_cancel]
        rw [genBytes_length]
      | true =>
        simp only [hg, hc, if_true] at hs ⊢
        rw [hs, coCipher_length, xorBytes_ok _ (by rw [coCipher_length, genBytes_length])]
        unfold coCipher
        rw [zipWith_xor_cancel]
        rw [genBytes_length]

theorem fromSlice_forall (l : List WireBytes) :
    List.Forall₂ (fun m a => fromSlice m = .ok a) (l.map (·.toList)) l := by
  induction l with
  | nil => exact .nil
  | cons a l ih => exact .cons (fromSlice_toList a) ih

theorem co_name : "Chou-Orlandi".utf8ByteSize < 2 ^ 64 := by decide +kernel

theorem co_ends (C : Curve) (X : Crypto) (a b : Nat → Nat) (msg : List (Bytes × Bytes))
    (choices : List Bool) (h : msg.length = choices.length) (hn : msg.length < 2 ^ 64)
    (hm : ∀ m ∈ msg, m.1.length < 2 ^ 64 ∧ m.2.length < 2 ^ 64) :
    Ends (coSender C X a msg) (coReceiver C X b choices) () (Spec.chosen msg choices) := by
  unfold coSender coReceiver
  rw [h]
  refine .bind (validate_ends ⟨by simpa [← h] using hn, co_name⟩) ?_
  dsimp only
  refine .bind (.recvEach' _ ((List.range choices.length).map fun i => C.compress (coA C a i)) (by simp)
    (fromSlice_forall ((List.range choices.length).map fun i => C.compress (coA C a i)))) ?_
  rw [debugAssertR_true (by simp), liftM_ok, ret_bind, coRespond_ok, liftM_ok, ret_bind]
  have hr := (Ends.recvEach' (((List.range choices.length).map fun i =>
      C.compress (coB C a b (fun i => choices.getD i false) i)).map (·.toList)) _ (n := choices.length) (by simp)
    (fromSlice_forall _)).swap
  rw [List.map_map (f := fun i => (C.compress (coB C a b (fun i => choices.getD i false) i),
        X.sha256 (C.compress (b i • coA C a i)).toList)),
    List.map_map (f := fun i => (C.compress (coB C a b (fun i => choices.getD i false) i),
        X.sha256 (C.compress (b i • coA C a i)).toList))]
  refine .bind hr ?_
  have ha : assertR (((List.range choices.length).map fun i => C.compress (a i • C.base)).length ==
      ((List.range choices.length).map fun i =>
        C.compress (coB C a b (fun i => choices.getD i false) i)).length) = .ok () := by
    simp [assertR]
  have he := coEncrypt_ok C X a b (fun i => choices.getD i false) msg
  rw [h] at he
  rw [ha, liftM_ok, ret_bind]
  erw [he]
  rw [liftM_ok, ret_bind, recvP_bind]
  refine .sendRecv ?_
  rw [deserialize_ok payload_rt, liftM_ok, ret_bind]
  · have hd := coDecrypt_ok C X a b msg choices h
    erw [hd]
    exact .ret _ _
  · refine ⟨by simpa using hn, ?_⟩
    intro p hp
    obtain ⟨⟨m, i⟩, hmi, rfl⟩ := List.mem_map.mp hp
    rw [mem_zipIdx_iff] at hmi
    simp only [coCipher_length]
    exact hm m (List.mem_of_getElem? hmi)

end FP
