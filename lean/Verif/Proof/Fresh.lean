import Verif.Spec.Fresh
import Verif.Proof.Separate
import Verif.Props.Separate
import Verif.Proof.KeyOf
import Verif.Proof.TrafficParties
/-
Which lengths are hashed by the transfers, and where the keys come from.
-/
namespace FP
open Spec Props

theorem bind_congr_ok {α β : Type} {x : R α} {f g : α → R β} (h : ∀ a, x = .ok a → f a = g a) : (x >>= f) = (x >>= g) := by
  cases x with
  | error e => rfl
  | ok a => exact h a rfl

theorem vectorRow_length {v r : Bytes} {i w : Nat} (h : vectorRow v i w = .ok r) : r.length = w := by
  unfold vectorRow at h
  split at h
  · cases h; simp; omega
  · cases h

variable {X : Crypto} {sha' : Bytes → WireBytes} (h : AgreeBut42 X.sha256 sha')
include h

theorem coinflipReceiver_re {u : Bytes} (hu : u.length ≠ 42) :
    coinflipReceiver (rehash X sha').toEnv u = coinflipReceiver X.toEnv u := by
  unfold coinflipReceiver
  refine congrArg _ (funext fun commit => congrArg _ (funext fun _ => congrArg _ (funext fun v => ?_)))
  split
  · rfl
  · rename_i hv
    rw [show (rehash X sha').sha256 v = X.sha256 v from h v (by omega)]

theorem coinflipSender_re {u : Bytes} (hu : u.length ≠ 42) :
    coinflipSender (rehash X sha').toEnv u = coinflipSender X.toEnv u := by
  unfold coinflipSender
  rw [show (rehash X sha').sha256 u = X.sha256 u from h u hu]

theorem coCrypt_re (C : Curve) : coCrypt C (rehash X sha') = coCrypt C X := by
  funext P m
  unfold coCrypt
  rw [show (rehash X sha').sha256 (C.compress P).toList = X.sha256 (C.compress P).toList from h _ (by simp)]
  rfl

theorem coRespond_re (C : Curve) : coRespond C (rehash X sha') = coRespond C X := by
  funext c s i p
  unfold coRespond
  simp only [show ∀ P, (rehash X sha').sha256 (C.compress P).toList = X.sha256 (C.compress P).toList from fun P => h _ (by simp)]

theorem coSender_re (C : Curve) : coSender C (rehash X sha') = coSender C X := by
  funext s m
  unfold coSender coEncrypt coEncryptPair
  rw [coCrypt_re h]

theorem coReceiver_re (C : Curve) : coReceiver C (rehash X sha') = coReceiver C X := by
  funext s m
  unfold coReceiver coRespondAll
  rw [coRespond_re h]
  rfl

theorem apRandomizeRow_re : apRandomizeRow (rehash X sha') = apRandomizeRow X := by
  funext delta qT msg s r i chunk
  unfold apRandomizeRow
  refine bind_congr_ok fun q hq => ?_
  have := vectorRow_length hq
  dsimp only
  rw [show (rehash X sha').sha256 (beBytes 8 r ++ q) = X.sha256 (beBytes 8 r ++ q) from h _ (by simp [beBytes]; omega)]
  refine bind_congr fun m => bind_congr fun c => bind_congr_ok fun b hb => ?_
  have hb := (apXor_post ..).out b hb
  rw [show (rehash X sha').sha256 (beBytes 8 r ++ b) = X.sha256 (beBytes 8 r ++ b) from
    h _ (by rw [List.length_append, hb]; simp [beBytes])]
  rfl

theorem apV_re : apV (rehash X sha') = apV X := by
  funext cores sched l t
  unfold apV
  have : ∀ (k : Nat) (row : Bytes), (do
      let tRow ← vectorRow t k 16
      apXorInplace (rehash X sha').dbg row ((rehash X sha').sha256 (beBytes 8 k ++ tRow)).toList) = (do
      let tRow ← vectorRow t k 16
      apXorInplace X.dbg row (X.sha256 (beBytes 8 k ++ tRow)).toList) := fun k row => bind_congr_ok fun q hq => by
    have := vectorRow_length hq
    rw [show (rehash X sha').sha256 (beBytes 8 k ++ q) = X.sha256 (beBytes 8 k ++ q) from h _ (by simp [beBytes]; omega)]
    rfl
  simp only [this]

theorem apricotSender_re : apricotSender (rehash X sha') = apricotSender X := by
  funext arm cores sched coin delta inner msg
  unfold apricotSender apricotSenderExtend apRandomize
  rw [coinflipReceiver_re h (by simp), apRandomizeRow_re h]
  rfl

theorem apricotReceiver_re : apricotReceiver (rehash X sha') = apricotReceiver X := by
  funext arm cores sched s2 coin bonus s0 s1 inner ch
  unfold apricotReceiver apricotReceiverExtend
  rw [coinflipSender_re h (by simp), apV_re h]
  rfl

theorem sendRun_re (C : Curve) (o : OTSend) : o.run C (rehash X sha') = o.run C X := by
  unfold OTSend.run
  rw [apricotSender_re h, coReceiver_re h]

theorem recvRun_re (C : Curve) (o : OTRecv) : o.run C (rehash X sha') = o.run C X := by
  unfold OTRecv.run
  rw [apricotReceiver_re h, coSender_re h]

theorem gates_re (c : Circuit) : SameForGates c X.sha256 sha' :=
  ⟨fun p _ w => h _ (by rw [(C83_lengths p.2 0 0 w).1]; decide),
    fun g _ _ w => h _ (by rw [(C83_lengths 0 g.output 0 w).2.1]; decide)⟩

theorem evaluate_re (gc : GarbledCircuit) (x : List Wire) : evaluate (rehash X sha').toEnv gc x = evaluate X.toEnv gc x :=
  C83_evaluate X.toEnv sha' gc (gates_re h _) x

omit h in
theorem forget_congr {α β : Type} {p : Proc α} {f g : α → Proc β} (e : ∀ a, Forget (f a) = Forget (g a)) :
    Forget (p >>= f) = Forget (p >>= g) := by
  unfold Forget at e ⊢
  rw [bindP_assoc, bindP_assoc]
  exact congrArg _ (funext e)

omit h in
theorem forget_bind {α β : Type} [Inhabited α] {p p' : Proc α} {f g : α → Proc β} (e : Forget p = Forget p')
    (e' : ∀ a b, Forget (f a) = Forget (g b)) : Forget (p >>= f) = Forget (p' >>= g) := by
  have e1 : ∀ a, Forget (f a) = Forget (g default) := fun a => e' a default
  have e2 : ∀ a, Forget (g a) = Forget (g default) := fun a => (e' default a).symm.trans (e' default default)
  unfold Forget at e e1 e2 ⊢
  rw [bindP_assoc, bindP_assoc]
  simp only [e1, e2]
  have := congrArg (fun r : Proc Unit => r >>= fun _ => (g default >>= fun _ => Proc.ret ())) e
  simpa only [bindP_assoc, ret_bind] using this

omit h in
theorem forget_pure {α : Type} (a b : α) : Forget (pure a : Proc α) = Forget (pure b : Proc α) := rfl

theorem halfEvaluator_re (C : Curve) (o : OTRecv) (q : Bytes) :
    Forget (HalfKey.evaluator C (rehash X sha') o q) = Forget (HalfKey.evaluator C X o q) := by
  unfold HalfKey.evaluator halfEvaluator
  rw [recvRun_re h]
  refine forget_congr fun enc => forget_congr fun own => forget_congr fun m => forget_congr fun gc => forget_congr fun m' =>
    forget_congr fun their => ?_
  unfold evaluatedKey
  rw [evaluate_re h]
  cases evaluate X.toEnv gc (their ++ own) with
  | error e => rfl
  | ok z =>
    simp only [okb]
    show Forget (liftM (subR X.dbg (2 ^ 64) gc.circuit.numWires 1 >>= _)) = _
    cases subR X.dbg (2 ^ 64) gc.circuit.numWires 1 with
    | error e => rfl
    | ok i =>
      simp only [okb]
      cases idxR z 0 with
      | error e => rfl
      | ok w => rfl

omit h in
/-- The two inputs whose hashes are the keys. -/
theorem half_points (X : Crypto) (rnd : GarbleRand) {c : Circuit} (hc : WellTyped c)
    (hbin : ∀ d ∈ c.inputDomains, d = 2) (hpos : 0 < c.numInputs) (hone : c.numOutputs = 1)
    (hdom : (c.inputDomains ++ c.gates.map Gate.outputDomain)[c.numWires - 1]? = some 2) :
    ∃ a b : Bytes, a.length = 42 ∧ b.length = 42 ∧ a ≠ b ∧ ∀ sha', AgreeBut42 X.sha256 sha' →
      ∃ run z d, garbleRun (rehash X sha').toEnv rnd c = .ok run ∧
      garbleBinary (rehash X sha').toEnv rnd c = .ok (⟨c, run.state.f, run.state.fHalf⟩, z, d) ∧ z.length = c.numInputs ∧
      (∀ p ∈ z, p.1.domain = .binary ∧ p.2.domain = .binary) ∧ outputKey d = .ok (sha' a) ∧
      ∀ bits : List Bool, bits.length = c.numInputs →
        (meaning c (bitsNat bits) = [1] →
          evaluatedKey (rehash X sha').toEnv ⟨c, run.state.f, run.state.fHalf⟩ (pick z bits) = .ok (sha' a)) ∧
        (meaning c (bitsNat bits) = [0] →
          evaluatedKey (rehash X sha').toEnv ⟨c, run.state.f, run.state.fHalf⟩ (pick z bits) = .ok (sha' b)) := by
  obtain ⟨run, z, d, zl, w1, hrun, hgb, hzlen, hbz, hK, hzl, hlab, hw1, ⟨δ, hδ, hδi⟩, hev⟩ :=
    half_labels X.toEnv rnd hc hbin hpos hone hdom
  refine ⟨beBytes 8 (c.numWires - 1) ++ beBytes 2 1 ++ w1.bytes, beBytes 8 (c.numWires - 1) ++ beBytes 2 1 ++ zl.bytes,
    by simp [beBytes, Wire.bytes], by simp [beBytes, Wire.bytes], fun heq => ?_, fun sha' h => ?_⟩
  · have hb : w1.bytes = zl.bytes := List.append_cancel_left heq
    have hv : w1 = zl := by
      have h1 := hw1.lab.dom
      have h2 := hlab.dom
      have hb : w1.values = zl.values := Vector.toList_inj.mp hb
      rw [h1] at h2
      injection h2 with h2
      cases w1
      cases zl
      simp_all
    subst hv
    have := carries_inj hδi hδ (carries_zero (delta := run.delta) hlab) hw1
    omega
  · obtain ⟨run', z', d', zl', w1', hrun', hgb', hzlen', hbz', hK', hzl', hlab', hw1', -, hev'⟩ :=
      half_labels (rehash X sha').toEnv rnd hc hbin hpos hone hdom
    rcases mapR_inv (garbleRun_bare (E := X.toEnv) (sha' := sha') rnd (gates_re h c)) with ⟨e, e1, e2⟩ | ⟨r1, r2, e1, e2, e3⟩
    · rw [hrun] at e2; cases e2
    · have e1 : garbleRun (rehash X sha').toEnv rnd c = .ok r1 := e1
      rw [hrun'] at e1
      rw [hrun] at e2
      cases e1
      cases e2
      simp only [Prod.mk.injEq] at e3
      obtain ⟨b1, b2, -, -⟩ := e3
      have hws : run'.state.wires = run.state.wires := show run'.state.bare.wires = run.state.bare.wires by rw [b1]
      rw [hws, hzl] at hzl'
      cases hzl'
      rw [b2] at hw1'
      have : w1' = w1 := label_ext hw1'.lab hw1.lab fun i => by rw [hw1'.eq δ hδ, hw1.eq δ hδ]
      subst this
      exact ⟨run', z', d', hrun', hgb', hzlen', hbz', hK', hev'⟩

theorem garbleBinary_re (rnd : GarbleRand) (c : Circuit) :
    mapR (fun r => (r.1, r.2.1)) (garbleBinary (rehash X sha').toEnv rnd c) =
      mapR (fun r => (r.1, r.2.1)) (garbleBinary X.toEnv rnd c) := by
  have := garble_bare (E := X.toEnv) rnd (gates_re h c)
  have := congrArg (fun r => r >>= fun b => (do
    let z ← (← BinaryEncodingKey.ofKey X.dbg b.2).zipped
    pure (b.1, z) : R _)) this
  unfold garbleBinary
  simp only [mapR, bind_assoc, pure_bind] at this ⊢
  exact this

theorem garble_forms (rnd : GarbleRand) (c : Circuit) {r r' : GarbledCircuit × EncodingKey × DecodingKey}
    (h1 : garble X.toEnv rnd c = .ok r) (h2 : garble (rehash X sha').toEnv rnd c = .ok r') :
    r'.2.2.hashes.map List.length = r.2.2.hashes.map List.length := by
  have s1 := garble_shape (gc := r.1) (e := r.2.1) (d := r.2.2) h1
  have s2 := garble_shape (gc := r'.1) (e := r'.2.1) (d := r'.2.2) h2
  rw [s1.2.2.2.2, s2.2.2.2.2]
  have : r'.2.2.offset = r.2.2.offset := by
    unfold garble at h1 h2
    obtain ⟨run, e1, h1⟩ := bind_inv h1
    obtain ⟨run', e2, h2⟩ := bind_inv h2
    cases h1
    cases h2
    unfold garbleRun at e1 e2
    obtain ⟨dl, -, e1⟩ := bind_inv e1
    obtain ⟨ws, -, e1⟩ := bind_inv e1
    obtain ⟨enc, -, e1⟩ := bind_inv e1
    obtain ⟨k, h4, e1⟩ := bind_inv e1
    obtain ⟨s, -, e1⟩ := bind_inv e1
    cases e1
    obtain ⟨dl', -, e2⟩ := bind_inv e2
    obtain ⟨ws', -, e2⟩ := bind_inv e2
    obtain ⟨enc', -, e2⟩ := bind_inv e2
    obtain ⟨k', h4', e2⟩ := bind_inv e2
    obtain ⟨s', -, e2⟩ := bind_inv e2
    cases e2
    exact Except.ok.inj (h4'.symm.trans h4)
  rw [this]

omit h in
theorem outputKey_forms {d d' : DecodingKey} (e : d'.hashes.map List.length = d.hashes.map List.length) :
    Forget (liftM (outputKey d') : Proc WireBytes) = Forget (liftM (outputKey d) : Proc WireBytes) := by
  obtain ⟨l, o⟩ := d
  obtain ⟨l', o'⟩ := d'
  unfold outputKey
  simp only at e ⊢
  cases l with
  | nil =>
    cases l' with
    | nil => rfl
    | cons _ _ => simp at e
  | cons a l =>
    cases l' with
    | nil => simp at e
    | cons b l' =>
      simp only [List.map_cons, List.cons.injEq] at e
      obtain ⟨e, -⟩ := e
      match a, b, e with
      | [], [], _ => rfl
      | [_], [_], _ => rfl
      | _ :: _ :: _, _ :: _ :: _, _ => rfl

/-- What follows the garbling is the same if it does not look at the decoding key. -/
theorem garbling_re {β : Type} (rnd : GarbleRand) (c : Circuit) {f g : GarbledCircuit × List (Wire × Wire) × DecodingKey → Proc β}
    (hfg : ∀ gc z d d', d'.hashes.map List.length = d.hashes.map List.length → Forget (f (gc, z, d')) = Forget (g (gc, z, d))) :
    Forget ((liftM (garbleBinary (rehash X sha').toEnv rnd c) : Proc _) >>= f) =
      Forget ((liftM (garbleBinary X.toEnv rnd c) : Proc _) >>= g) := by
  have e := garble_bare (E := X.toEnv) rnd (gates_re h c)
  rcases mapR_inv e with ⟨er, e1, e2⟩ | ⟨r', r, e1, e2, e3⟩
  · unfold garbleBinary
    rw [show garble (rehash X sha').toEnv rnd c = _ from e1, e2]
    rfl
  · have hd := garble_forms h rnd c e2 e1
    obtain ⟨gc', k', d'⟩ := r'
    obtain ⟨gc, k, d⟩ := r
    simp only [Prod.mk.injEq] at e3
    obtain ⟨rfl, rfl⟩ := e3
    unfold garbleBinary
    rw [show garble (rehash X sha').toEnv rnd c = _ from e1, e2]
    simp only [okb]
    show Forget ((liftM (BinaryEncodingKey.ofKey X.dbg k' >>= _) : Proc _) >>= f) = _
    cases BinaryEncodingKey.ofKey X.dbg k' with
    | error e => rfl
    | ok b =>
      simp only [okb]
      cases b.zipped with
      | error e => rfl
      | ok z => exact hfg gc' z d d' hd

theorem halfGarbler_re (C : Curve) (g : GarblerDraws) (p : Bytes) (t : Nat) :
    Forget (HalfKey.garbler C (rehash X sha') g p t) = Forget (HalfKey.garbler C X g p t) := by
  unfold HalfKey.garbler halfGarbler
  dsimp only
  rw [sendRun_re h]
  refine forget_congr fun c => garbling_re h _ _ fun gc z d d' hd => ?_
  exact forget_congr fun own => forget_congr fun their => forget_congr fun _ => forget_congr fun _ => forget_congr fun _ =>
    forget_congr fun _ => outputKey_forms hd

end FP
