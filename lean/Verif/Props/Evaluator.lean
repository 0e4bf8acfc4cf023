import Verif.Props.Secrecy
import Verif.Props.BaseOT
import Verif.Proof.Evaluator
import Verif.Proof.ManyFpake
import Verif.Model.Fpake
/-
C63: what the evaluating party, and the party that asks for an entry of a list, reveal.
-/
namespace FP.Props
open Spec

attribute [local irreducible] Spec.modulus

/-- The transfer as it is used by the key exchanges: C53 over the base transfer, with the same stream generator
in both. -/
theorem recv_hidden (C : Curve) (X : Crypto) (o : OTRecv) (delta : Bytes) (choices choices' : List Bool)
    (inp : List Bytes) (h8 : choices.length % 8 = 0) (hlen : choices'.length = choices.length) (hc : 0 < o.cores)
    (hs : ∀ n, IsOrder n (o.sched1 n)) (hd : delta.length = 16)
    (hA : HiddenApart delta (seedAt o.seed0) (seedAt o.seed1) (agreed o.coin (inp.getD 1 [])))
    (hB : BootstrapApart C X.sha256 o.base delta (seedAt o.seed0) (seedAt o.seed1) inp)
    (hsp : Spanning (chi (X.fill (agreed o.coin (inp.getD 1 [])) (16 * (choices.length + 256))))
      choices.length (choices.length + 256)) :
    ∃ (Φ : (WireBytes → Nat → Byte) → (WireBytes → Nat → Byte)) (B : Vector Bool 256 → Vector Bool 256),
      (∀ f, Φ (Φ f) = f) ∧ (∀ b, B (B b) = b) ∧ (∀ f, SameKnown delta (seedAt o.seed0) (seedAt o.seed1) f (Φ f)) ∧
      ∀ f, f (agreed o.coin (inp.getD 1 [])) = X.chacha20 (agreed o.coin (inp.getD 1 [])) → ∀ bonus,
        (({ o with bonus := B bonus }.run C { X with chacha20 := Φ f } choices').upTo inp).1 =
        (({ o with bonus := bonus }.run C { X with chacha20 := f } choices).upTo inp).1 := by
  obtain ⟨Φ, B, h1, h2, h3, h4⟩ := C53_apricot_spanning X o.arm o.cores o.sched1 o.sched2 o.coin o.seed0 o.seed1 delta
    choices choices' inp h8 hlen hc hs hd hA hsp
  refine ⟨Φ, B, h1, h2, h3, fun f hf bonus => ?_⟩
  have := h4 f hf (coSender C { X with chacha20 := f } o.base) bonus
  rw [against_upTo, against_upTo] at this
  unfold OTRecv.run
  rw [← this]
  refine congrArg Prod.fst (apricotReceiver_inner _ _ _ _ _ _ _ _ _ _ _ _ _ fun msg hm rest hr => ?_)
  refine coSender_upTo C X o.base msg rest fun j hj P hP second => h3 f _ fun i hi he => ?_
  exact hB i hi j (by omega) P (hP.mono hr.subset) second he.symm

/-- C63, src/fpake.rs:63-97: whatever the garbling party sends, the evaluating party sends the same messages
for every two passwords of the same length, up to a bijection of its bonus bits and of the streams of the
seeds that the garbling party did not receive.  So nothing the garbling party sees in this half of the
exchange depends on the password, not even on whether it is close. -/
theorem C63_evaluator (C : Curve) (X : Crypto) (o : OTRecv) (delta : Bytes) (password password' : Bytes)
    (inp : List Bytes) (hlen : password'.length = password.length) (hc : 0 < o.cores)
    (hs : ∀ n, IsOrder n (o.sched1 n)) (hd : delta.length = 16)
    (hA : HiddenApart delta (seedAt o.seed0) (seedAt o.seed1) (agreed o.coin (inp.getD 1 [])))
    (hB : BootstrapApart C X.sha256 o.base delta (seedAt o.seed0) (seedAt o.seed1) inp)
    (hsp : Spanning (chi (X.fill (agreed o.coin (inp.getD 1 [])) (16 * (8 * password.length + 256))))
      (8 * password.length) (8 * password.length + 256)) :
    ∃ (Φ : (WireBytes → Nat → Byte) → (WireBytes → Nat → Byte)) (B : Vector Bool 256 → Vector Bool 256),
      (∀ f, Φ (Φ f) = f) ∧ (∀ b, B (B b) = b) ∧ (∀ f, SameKnown delta (seedAt o.seed0) (seedAt o.seed1) f (Φ f)) ∧
      ∀ f, f (agreed o.coin (inp.getD 1 [])) = X.chacha20 (agreed o.coin (inp.getD 1 [])) → ∀ bonus,
        ((HalfKey.evaluator C { X with chacha20 := Φ f } { o with bonus := B bonus } password').against inp).1 =
        ((HalfKey.evaluator C { X with chacha20 := f } { o with bonus := bonus } password).against inp).1 := by
  have hl : (u8VecToBoolVec password).length = 8 * password.length := unpack_length _
  have hl' : (u8VecToBoolVec password').length = 8 * password'.length := unpack_length _
  obtain ⟨Φ, B, h1, h2, h3, h4⟩ := recv_hidden C X o delta (u8VecToBoolVec password) (u8VecToBoolVec password') inp
    (by omega) (by omega) hc hs hd hA hB (by rw [hl]; exact hsp)
  refine ⟨Φ, B, h1, h2, h3, fun f hf bonus => ?_⟩
  have hk : ∀ (E : Env) (ot : List Bool → Proc (List Bytes)) (pw : Bytes),
      ((halfEvaluator E ot pw).upTo inp).1 = ((ot (u8VecToBoolVec pw)).upTo inp).1 := by
    intro E ot pw
    unfold halfEvaluator
    refine upTo_mute _ _ _ fun a => ?_
    exact .bind (.lift _) fun _ => .bind .recv fun _ => .bind (.lift _) fun _ => .bind .recv fun _ =>
      .bind (.lift _) fun _ => .lift _
  rw [against_upTo, against_upTo]
  unfold HalfKey.evaluator
  rw [hk, hk]
  exact h4 f hf bonus

/-- What the evaluating server sends is what it sends in its transfer, if it gets there. -/
theorem server_sends (C : Curve) (inp : List Bytes) :
    (∃ rest, rest = inp.drop 2 ∧ ∀ (Y : Crypto) (o : OTRecv) (pws : List Bytes) (fst m : Bytes),
      pws[0]? = some fst → m.length = fst.length →
      ((evaluatorServerV3 C Y o pws m).upTo inp).1 = ((o.run C Y (u8VecToBoolVec m)).upTo rest).1) ∨
    (∀ (Y : Crypto) (o : OTRecv) (pws : List Bytes) (fst m : Bytes),
      pws[0]? = some fst → m.length = fst.length → ((evaluatorServerV3 C Y o pws m).upTo inp).1 = []) := by
  cases inp with
  | nil =>
    refine .inr fun Y o pws fst m hf hm => ?_
    unfold evaluatorServerV3
    rw [idxR_ok hf, liftM_ok, ret_bind]
    rfl
  | cons g inp =>
    cases hg : deserializeGarbled g with
    | error e =>
      refine .inr fun Y o pws fst m hf hm => ?_
      unfold evaluatorServerV3
      rw [idxR_ok hf, liftM_ok, ret_bind, recvP_bind]
      simp only [Proc.upTo]
      rw [hg]
      rfl
    | ok gc =>
      cases inp with
      | nil =>
        refine .inr fun Y o pws fst m hf hm => ?_
        unfold evaluatorServerV3
        rw [idxR_ok hf, liftM_ok, ret_bind, recvP_bind]
        simp only [Proc.upTo]
        rw [hg]
        rfl
      | cons c rest =>
        cases hw : Codec.wires.deserialize c with
        | error e =>
          refine .inr fun Y o pws fst m hf hm => ?_
          unfold evaluatorServerV3
          rw [idxR_ok hf, liftM_ok, ret_bind, recvP_bind]
          simp only [Proc.upTo]
          rw [hg, liftM_ok, ret_bind, recvP_bind]
          simp only [Proc.upTo]
          rw [hw]
          rfl
        | ok ws =>
          refine .inl ⟨rest, rfl, fun Y o pws fst m hf hm => ?_⟩
          unfold evaluatorServerV3
          rw [idxR_ok hf, liftM_ok, ret_bind, recvP_bind]
          simp only [Proc.upTo]
          rw [hg, liftM_ok, ret_bind, recvP_bind]
          simp only [Proc.upTo]
          rw [hw, liftM_ok, ret_bind, bitsUpTo_ok hm, liftM_ok, ret_bind]
          refine upTo_mute _ _ _ fun a => ?_
          exact .bind .recv fun _ => .bind (.lift _) fun _ => .bind (.lift _) fun _ => .bind (.lift _) fun _ => .lift _

/-- C63, src/many_fpake.rs:358-421: the same for the server when it evaluates.  Whatever the client sends, the
server's messages are the same for every two databases of passwords of one length and every two masks, up to
bijections as above. -/
theorem C63_server (C : Curve) (X : Crypto) (o : OTRecv) (delta : Bytes) (passwords passwords' : List Bytes)
    (first first' mask mask' : Bytes) (inp : List Bytes)
    (hp : passwords[0]? = some first) (hp' : passwords'[0]? = some first') (hlen : first'.length = first.length)
    (hm : mask.length = first.length) (hm' : mask'.length = first.length) (hc : 0 < o.cores)
    (hs : ∀ n, IsOrder n (o.sched1 n)) (hd : delta.length = 16)
    (hA : HiddenApart delta (seedAt o.seed0) (seedAt o.seed1) (agreed o.coin (inp.getD 3 [])))
    (hB : BootstrapApart C X.sha256 o.base delta (seedAt o.seed0) (seedAt o.seed1) inp)
    (hsp : Spanning (chi (X.fill (agreed o.coin (inp.getD 3 [])) (16 * (8 * first.length + 256))))
      (8 * first.length) (8 * first.length + 256)) :
    ∃ (Φ : (WireBytes → Nat → Byte) → (WireBytes → Nat → Byte)) (B : Vector Bool 256 → Vector Bool 256),
      (∀ f, Φ (Φ f) = f) ∧ (∀ b, B (B b) = b) ∧ (∀ f, SameKnown delta (seedAt o.seed0) (seedAt o.seed1) f (Φ f)) ∧
      ∀ f, f (agreed o.coin (inp.getD 3 [])) = X.chacha20 (agreed o.coin (inp.getD 3 [])) → ∀ bonus,
        ((evaluatorServerV3 C { X with chacha20 := Φ f } { o with bonus := B bonus } passwords' mask').against inp).1 =
        ((evaluatorServerV3 C { X with chacha20 := f } { o with bonus := bonus } passwords mask).against inp).1 := by
  have hl : (u8VecToBoolVec mask).length = 8 * first.length := by rw [unpack_length, hm]
  have hl' : (u8VecToBoolVec mask').length = 8 * first.length := by rw [unpack_length, hm']
  have hg : (inp.drop 2).getD 1 [] = inp.getD 3 [] := by
    rw [List.getD_eq_getElem?_getD, List.getD_eq_getElem?_getD, List.getElem?_drop]
  obtain ⟨Φ, B, h1, h2, h3, h4⟩ := recv_hidden C X o delta (u8VecToBoolVec mask) (u8VecToBoolVec mask') (inp.drop 2)
    (by omega) (by omega) hc hs hd (by rw [hg]; exact hA)
    (fun i hi j hj P hP => hB i hi j hj P (hP.mono (List.drop_subset _ _))) (by rw [hg, hl]; exact hsp)
  rw [hg] at h4
  refine ⟨Φ, B, h1, h2, h3, fun f hf bonus => ?_⟩
  rw [against_upTo, against_upTo]
  rcases server_sends C inp with ⟨rest, rfl, h⟩ | h
  · rw [h _ _ _ _ _ hp' (by omega), h _ _ _ _ _ hp hm]
    exact h4 f hf bonus
  · rw [h _ _ _ _ _ hp' (by omega), h _ _ _ _ _ hp hm]

/-! ### The index -/

theorem manyChoices_shape (dbg : Bool) (domain : Nat) :
    (∃ e, ∀ choice, manyChoices dbg choice domain = .error e) ∨
    (∀ choice, ∃ l, manyChoices dbg choice domain = .ok l ∧ l.length = domain) := by
  have : ∀ is : List Nat, (∃ e, ∀ choice : Nat, is.mapM (fun i => (do
        let m ← shlOneR dbg 32 i
        return (choice &&& m) >>> (i % 32) == 1 : R Bool)) = .error e) ∨
      (∀ choice : Nat, ∃ l, is.mapM (fun i => (do
        let m ← shlOneR dbg 32 i
        return (choice &&& m) >>> (i % 32) == 1 : R Bool)) = .ok l ∧ l.length = is.length) := by
    intro is
    induction is with
    | nil => exact .inr fun _ => ⟨[], rfl, rfl⟩
    | cons i is ih =>
      cases hs : shlOneR dbg 32 i with
      | error e => exact .inl ⟨e, fun choice => by rw [List.mapM_cons, hs]; rfl⟩
      | ok m =>
        rcases ih with ⟨e, he⟩ | h
        · exact .inl ⟨e, fun choice => by rw [List.mapM_cons, hs, okb, he]; rfl⟩
        · refine .inr fun choice => ?_
          obtain ⟨l, hl, hll⟩ := h choice
          exact ⟨_ :: l, by rw [List.mapM_cons, hs, okb, hl]; rfl, by simp [hll]⟩
  unfold manyChoices
  simpa using this (List.range domain)

/-- C63, src/ot/one_of_many.rs:155-206 over src/ot/chou_orlandi.rs:106-172: the holder of an index sends the
same messages for every two indices, up to a bijection of its secret scalars, whatever the other party
sends, as long as the keys in it are multiples of the base point. -/
theorem C63_index (C : Curve) (X : Crypto) (hfin : IsOfFinAddOrder C.base) (domain index index' : Nat)
    (inp : List Bytes) (hkeys : KeysInSubgroup C domain (inp.drop 1)) :
    ∃ φ : (Fin domain → Fin (addOrderOf C.base)) ≃ (Fin domain → Fin (addOrderOf C.base)), ∀ s,
      ((manyRecv C X (scalars s) index domain).against inp).1 =
      ((manyRecv C X (scalars (φ s)) index' domain).against inp).1 := by
  have hk : ∀ (base : Nat → Nat) (i : Nat) (l : List Bool), manyChoices X.dbg i domain = .ok l → l.length = domain →
      ((manyRecv C X base i domain).upTo inp).1 = match inp with
        | [] => []
        | _ :: rest => ((coReceiver C X base l).upTo rest).1 := by
    intro base i l h hl
    unfold manyRecv manyReceiver
    rw [h, liftM_ok, ret_bind, recvP_bind]
    match inp with
    | [] => rfl
    | y :: rest =>
      simp only [Proc.upTo]
      rw [upTo_mute _ _ _ fun a => .bind (.lift _) fun _ => .lift _]
  rcases manyChoices_shape X.dbg domain with ⟨e, he⟩ | h
  · refine ⟨Equiv.refl _, fun s => ?_⟩
    unfold manyRecv manyReceiver
    rw [he, he, liftM_error, fail_bind, fail_bind]
  · obtain ⟨l, hl, hll⟩ := h index
    obtain ⟨l', hl', hll'⟩ := h index'
    match inp, hkeys, hk with
    | [], _, hk => exact ⟨Equiv.refl _, fun s => by rw [against_upTo, against_upTo, hk _ _ _ hl hll, hk _ _ _ hl' hll']⟩
    | y :: rest, hkeys, hk =>
      obtain ⟨φ, hφ⟩ := C21_view_independent C X hfin domain l l' hll hll' rest hkeys
      refine ⟨φ, fun s => ?_⟩
      have := hφ s
      rw [against_upTo, against_upTo] at this ⊢
      rw [hk _ _ _ hl hll, hk _ _ _ hl' hll']
      exact this

theorem recvEach_replicate {β : Type} (n : Nat) (v : WireBytes) (k : List WireBytes → Proc β) :
    ((recvEach n fromSlice >>= k).against (List.replicate n v.toList)) = (k (List.replicate n v)).against [] := by
  induction n generalizing k with
  | zero => rfl
  | succ n ih =>
    have e : (recvEach (n + 1) fromSlice >>= k).against (List.replicate (n + 1) v.toList) =
        ((Proc.ofR (fromSlice v.toList) >>= fun a => recvEach n fromSlice >>= fun as => (pure (a :: as) : Proc _)) >>= k).against
          (List.replicate n v.toList) := rfl
    rw [e, fromSlice_toList, ofR_ok, ret_bind, bind_assocP]
    exact ih fun as => k (v :: as)

theorem against_validate_ok {β : Type} {pb : TransactionProperties} {m : Bytes} (h : Codec.properties.deserialize m = .ok pb)
    (rest : List Bytes) (k : Unit → Proc β) : (validateProperties pb >>= k).against (m :: rest) =
      (Codec.properties.enc pb :: ((k ()).against rest).1, ((k ()).against rest).2) := by
  have e : (validateProperties pb >>= k).against (m :: rest) =
        (Codec.properties.enc pb :: (((Proc.ofR (Codec.properties.deserialize m) >>= fun pb2 =>
          if pb2 ≠ pb then .fail (.err .badProperties) else .ret ()) >>= k).against rest).1,
          (((Proc.ofR (Codec.properties.deserialize m) >>= fun pb2 =>
          if pb2 ≠ pb then .fail (.err .badProperties) else .ret ()) >>= k).against rest).2) := rfl
  rw [e, h, ofR_ok, ret_bind, if_neg (by simp), ret_bind]

/-- What the receiver of the base transfer answers to the same key, over and over. -/
theorem coReceiver_keys (C : Curve) (X : Crypto) (A : C.Pt) (n : Nat) (hn : n < 2 ^ 64) (b : Nat → Nat) (choices : List Bool)
    (hc : choices.length = n) :
    ((coReceiver C X b choices).against (Codec.properties.enc ⟨n, "Chou-Orlandi"⟩ ::
      List.replicate n (C.compress A).toList)).1 = Codec.properties.enc ⟨n, "Chou-Orlandi"⟩ ::
      (List.range n).map fun j => (C.compress (coAnswer C A (choices.getD j false) (b j))).toList := by
  have hd : Codec.properties.deserialize (Codec.properties.enc ⟨n, "Chou-Orlandi"⟩) =
      .ok ⟨n, "Chou-Orlandi"⟩ := deserialize_ok properties_rt ⟨hn, co_name⟩
  have hv : ∀ k : Unit → Proc (List Bytes), ((validateProperties ⟨n, "Chou-Orlandi"⟩ >>= k).against
      (Codec.properties.enc ⟨n, "Chou-Orlandi"⟩ :: List.replicate n (C.compress A).toList)).1 =
      Codec.properties.enc ⟨n, "Chou-Orlandi"⟩ :: ((k ()).against (List.replicate n (C.compress A).toList)).1 := by
    intro k
    rw [against_validate_ok hd]
  rw [coReceiver_eq, hc, hv, recvEach_replicate]
  refine congrArg _ ?_
  obtain ⟨pk, hpk, hfst⟩ := coRespondAll_points C X choices b (List.replicate n (C.compress A)) (by simp [hc]) (by
    intro v hv
    rw [(List.mem_replicate.mp hv).2, C.decompress_compress]
    rfl)
  unfold coCont
  rw [debugAssertR_true (by simp [hc]), hpk, liftM_ok, ret_bind, liftM_ok, ret_bind, against_sendAll, hfst, hc]
  show _ ++ [] = _
  rw [List.append_nil, List.map_map]
  refine List.map_congr_left fun j hj => ?_
  rw [List.mem_range] at hj
  have : pointAt C (List.replicate n (C.compress A)) j = A := by
    unfold pointAt
    rw [List.getElem?_replicate, if_pos hj]
    simp [C.decompress_compress]
  rw [Function.comp, this]

/-- C63, the limit of this: a party that sends a key outside the group generated by the base point learns the
index.  Two runs with different indices then never send the same messages. -/
theorem C63_index_leaks (C : Curve) (X : Crypto) (A : C.Pt) (hA : A ∉ AddSubgroup.zmultiples C.base)
    (domain index index' : Nat) (hd : domain ≤ 32) (hi : index < 2 ^ domain) (hi' : index' < 2 ^ domain)
    (hne : index ≠ index') (y : Bytes) (base base' : Nat → Nat) :
    ((manyRecv C X base index domain).against (y :: Codec.properties.enc ⟨domain, "Chou-Orlandi"⟩ ::
      List.replicate domain (C.compress A).toList)).1 ≠
    ((manyRecv C X base' index' domain).against (y :: Codec.properties.enc ⟨domain, "Chou-Orlandi"⟩ ::
      List.replicate domain (C.compress A).toList)).1 := by
  have hk : ∀ (b : Nat → Nat) (i : Nat), ((manyRecv C X b i domain).upTo (y :: Codec.properties.enc ⟨domain, "Chou-Orlandi"⟩ ::
      List.replicate domain (C.compress A).toList)).1 = Codec.properties.enc ⟨domain, "Chou-Orlandi"⟩ ::
      (List.range domain).map fun j => (C.compress (coAnswer C A ((i >>> j) % 2 == 1) (b j))).toList := by
    intro b i
    unfold manyRecv manyReceiver
    rw [manyChoices_ok _ _ _ hd, liftM_ok, ret_bind, recvP_bind]
    simp only [Proc.upTo]
    rw [upTo_mute _ _ _ fun a => .bind (.lift _) fun _ => .lift _, ← against_upTo]
    rw [coReceiver_keys C X A domain (by omega) b _ (by simp)]
    refine congrArg _ (List.map_congr_left fun j hj => ?_)
    rw [List.mem_range] at hj
    rw [List.getD_eq_getElem?_getD, List.getElem?_map, List.getElem?_range hj]
    rfl
  intro h
  rw [against_upTo, against_upTo, hk, hk] at h
  injection h with _ h
  apply hne
  apply Nat.eq_of_testBit_eq
  intro j
  by_cases hj : j < domain
  · have := congrArg (·[j]?) h
    simp only [List.getElem?_map, List.getElem?_range hj, Option.map_some, Option.some.injEq] at this
    have := compress_inj C (Vector.toList_inj.mp this)
    have hbit : ∀ x : Nat, x.testBit j = ((x >>> j) % 2 == 1) := fun x => by
      rw [Nat.testBit, Nat.and_comm, Nat.and_one_is_mod]
      rcases Nat.mod_two_eq_zero_or_one (x >>> j) with h | h <;> rw [h] <;> rfl
    rw [hbit, hbit]
    have hout : ∀ b b' : Nat, A + b • C.base ≠ b' • C.base := by
      intro b b' h
      apply hA
      have : A = b' • C.base - b • C.base := by rw [← h]; abel
      rw [this]
      exact AddSubgroup.sub_mem _ (AddSubgroup.nsmul_mem _ (AddSubgroup.mem_zmultiples _) _)
        (AddSubgroup.nsmul_mem _ (AddSubgroup.mem_zmultiples _) _)
    cases h1 : ((index >>> j) % 2 == 1) <;> cases h2 : ((index' >>> j) % 2 == 1)
    · rfl
    · rw [h1, h2] at this
      exact absurd this.symm (hout _ _)
    · rw [h1, h2] at this
      exact absurd this (hout _ _)
    · rfl
  · rw [Nat.testBit_lt_two_pow, Nat.testBit_lt_two_pow]
    · exact hi'.trans_le (Nat.pow_le_pow_right (by omega) (by omega))
    · exact hi.trans_le (Nat.pow_le_pow_right (by omega) (by omega))

/-! ### The hypotheses can be met -/

/-- Distinct seeds that are no value of the hash function, which here never starts with a zero byte. -/
example (C : Curve) (inp : List Bytes) (delta : Bytes) :
    BootstrapApart C (fun b => (Vector.replicate 32 0).set 0 (BitVec.ofNat 8 (b.length % 7 + 1))) (fun j => j + 3) delta
      (fun i => (Vector.replicate 32 0).set 1 (BitVec.ofNat 8 i)) (fun i => (Vector.replicate 32 0).set 2 (BitVec.ofNat 8 i))
      inp := by
  intro i _ j _ P _ second h
  have h0 := congrArg (fun v : WireBytes => v[0].toNat) h
  unfold hiddenSeed baseSeed at h0
  dsimp only at h0
  split at h0 <;> simp at h0 <;> omega

/-- Indices 5 and 6 of eight entries, an honest sender's keys on the toy curve, and the key 1 outside the group. -/
example (X : Crypto) : ∃ φ : (Fin 3 → Fin (addOrderOf toyCurve.base)) ≃ (Fin 3 → Fin (addOrderOf toyCurve.base)), ∀ s,
      ((manyRecv toyCurve X (scalars s) 5 3).against ([1, 2] :: Codec.properties.enc ⟨3, "Chou-Orlandi"⟩ ::
        ((List.range 3).map fun i => (toyCurve.compress ((i + 1) • toyCurve.base)).toList) ++ [])).1 =
      ((manyRecv toyCurve X (scalars (φ s)) 6 3).against ([1, 2] :: Codec.properties.enc ⟨3, "Chou-Orlandi"⟩ ::
        ((List.range 3).map fun i => (toyCurve.compress ((i + 1) • toyCurve.base)).toList) ++ [])).1 :=
  C63_index toyCurve X (by
      rw [isOfFinAddOrder_iff_nsmul_eq_zero]
      exact ⟨7, by decide, (by decide : 7 • (2 : ZMod 14) = 0)⟩) 3 5 6 _ (C21_honest_keys toyCurve (fun i => i + 1) 3 _ [])

end FP.Props
