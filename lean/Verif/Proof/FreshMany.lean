import Verif.Proof.Fresh
import Verif.Model.Legacy
import Verif.Props.KeyOf
/-
The parties of the implementations with many passwords when the hash function changes at inputs of 42 bytes.
-/
namespace FP
open Spec Props

variable {X : Crypto} {sha' : Bytes → WireBytes} (h : AgreeBut42 X.sha256 sha')
include h

theorem fk_re {key : Bytes} (hk : key.length ≠ 38) (choice len : Nat) : fk (rehash X sha') key choice len = fk X key choice len := by
  unfold fk
  have : (rehash X sha').sha256 (beBytes 4 choice ++ key) = X.sha256 (beBytes 4 choice ++ key) := h _ (by
    rw [List.length_append, beBytes_length]
    omega)
  rw [this]
  rfl

theorem manyRow_re {keys : List (Bytes × Bytes)} (hk : ∀ k ∈ keys, k.1.length = 32 ∧ k.2.length = 32) (messages : List Bytes)
    (domain len i : Nat) : manyRow (rehash X sha') messages keys domain len i = manyRow X messages keys domain len i := by
  funext row
  unfold manyRow
  refine bind_congr fun _ => bind_congr fun row => foldlM_congr' _ _ _ _ ?_
  intro row j _
  refine bind_congr_ok fun k hkj => ?_
  have := hk k (List.mem_of_getElem? (idxR_some hkj))
  dsimp only
  rw [fk_re h (by split <;> omega)]
  rfl

theorem manyY_re {keys : List (Bytes × Bytes)} (hk : ∀ k ∈ keys, k.1.length = 32 ∧ k.2.length = 32) (cores : Nat) (order : List Nat)
    (messages : List Bytes) (domain : Nat) :
    manyY (rehash X sha') cores order messages keys domain = manyY X cores order messages keys domain := by
  unfold manyY manyJob
  simp only [manyRow_re h hk]
  rfl

theorem manySend_re (C : Curve) (o : ManySend) : o.run C (rehash X sha') = o.run C X := by
  funext messages domain
  unfold ManySend.run manySender
  rw [coSender_re h]
  dsimp only
  rw [manyY_re h]
  intro k hk
  simp only [List.mem_map] at hk
  obtain ⟨j, -, rfl⟩ := hk
  simp

theorem manyRecv_re (hdbg : X.dbg = true) (C : Curve) (base : Nat → Nat) : manyRecv C (rehash X sha') base = manyRecv C X base := by
  funext index domain
  unfold manyRecv manyReceiver
  rw [coReceiver_re h, show (rehash X sha').dbg = X.dbg from rfl]
  refine congrArg _ (funext fun choices => congrArg _ (funext fun y => congrArg _ (funext fun messages => ?_)))
  cases hm : manyKeys X.dbg messages domain with
  | error e => rfl
  | ok keys =>
    rw [liftM_ok, ret_bind, ret_bind]
    have hk : ∀ k ∈ keys, k.length % 32 = 0 := by
      unfold manyKeys at hm
      intro k hk
      obtain ⟨i, -, hi⟩ := mapM_mem hm hk
      obtain ⟨m, -, hi⟩ := bind_inv hi
      obtain ⟨_, ha, hi⟩ := bind_inv hi
      cases hi
      unfold debugAssertR at ha
      rw [hdbg] at ha
      by_contra hc
      simp [hc, assertR, panicR] at ha
    unfold manyUnmask
    refine congrArg _ (bind_congr fun dm => bind_congr fun x => foldlM_congr' _ _ _ _ ?_)
    intro row j _
    refine bind_congr_ok fun k hkj => ?_
    have := hk k (List.mem_of_getElem? (idxR_some hkj))
    rw [fk_re h (by omega)]
    rfl

omit h in
theorem evaluatedKey_forms (h : AgreeBut42 X.sha256 sha') (gc : GarbledCircuit) (x : List Wire) :
    Forget (liftM (evaluatedKey (rehash X sha').toEnv gc x) : Proc WireBytes) = Forget (liftM (evaluatedKey X.toEnv gc x) : Proc WireBytes) := by
  unfold evaluatedKey
  rw [evaluate_re h]
  cases evaluate X.toEnv gc x with
  | error e => rfl
  | ok z =>
    simp only [okb]
    show Forget (liftM (subR X.dbg (2 ^ 64) gc.circuit.numWires 1 >>= _)) = _
    cases subR X.dbg (2 ^ 64) gc.circuit.numWires 1 with
    | error e => rfl
    | ok i =>
      simp only [okb]
      cases idxR z 0 with
      | error e => rfl
      | ok w => rfl

theorem mfpakeMany_re (C : Curve) (r : ManyDraws) (ps : List Bytes) (t : Nat) :
    Forget (mfpakeMany C (rehash X sha') r ps t) = Forget (mfpakeMany C X r ps t) := by
  unfold mfpakeMany
  dsimp only
  rw [manySend_re h]
  exact forget_congr fun _ => forget_congr fun _ => forget_congr fun _ => forget_congr fun _ =>
    forget_bind (halfGarbler_re h C _ _ _) fun _ _ => forget_bind (halfEvaluator_re h C _ _) fun _ _ => forget_pure _ _

theorem mfpakeSingle_re (hdbg : X.dbg = true) (C : Curve) (r : SingleDraws) (pw : Bytes) (index number t : Nat) :
    Forget (mfpakeSingle C (rehash X sha') r pw index number t) = Forget (mfpakeSingle C X r pw index number t) := by
  unfold mfpakeSingle
  rw [manyRecv_re h hdbg]
  exact forget_congr fun _ => forget_congr fun _ => forget_congr fun _ =>
    forget_bind (halfEvaluator_re h C _ _) fun _ _ => forget_bind (halfGarbler_re h C _ _ _) fun _ _ => forget_pure _ _

theorem garblerServerV3_re (C : Curve) (r : ServerDraws) (ps : List Bytes) (t : Nat) :
    Forget (garblerServerV3 C (rehash X sha') r ps t) = Forget (garblerServerV3 C X r ps t) := by
  unfold garblerServerV3
  dsimp only
  rw [sendRun_re h, sendRun_re h, manySend_re h]
  refine forget_congr fun _ => forget_congr fun _ => garbling_re h _ _ fun gc z d d' hd => ?_
  exact forget_congr fun _ => forget_congr fun _ => forget_congr fun _ => forget_congr fun _ =>
    forget_congr fun _ => forget_congr fun _ => forget_congr fun _ => forget_congr fun _ => forget_congr fun _ => forget_congr fun _ =>
    forget_bind (outputKey_forms hd) fun _ _ => forget_pure _ _

theorem evaluatorClientV3_re (hdbg : X.dbg = true) (C : Curve) (r : ClientDraws) (pw : Bytes) (number index : Nat) :
    Forget (evaluatorClientV3 C (rehash X sha') r pw number index) = Forget (evaluatorClientV3 C X r pw number index) := by
  unfold evaluatorClientV3
  dsimp only
  rw [recvRun_re h, recvRun_re h, manyRecv_re h hdbg]
  exact forget_congr fun _ => forget_congr fun _ => forget_congr fun _ => forget_congr fun _ =>
    forget_congr fun _ => forget_congr fun _ => forget_congr fun _ => forget_congr fun _ => forget_congr fun _ => forget_congr fun _ =>
    forget_congr fun _ => forget_congr fun _ => forget_congr fun _ =>
    forget_bind (evaluatedKey_forms h _ _) fun _ _ => forget_pure _ _

theorem garblerClientV3_re (C : Curve) (r : GarblerDraws) (pw m : Bytes) (index number t : Nat) :
    Forget (garblerClientV3 C (rehash X sha') r pw m index number t) = Forget (garblerClientV3 C X r pw m index number t) := by
  unfold garblerClientV3
  dsimp only
  rw [sendRun_re h]
  refine forget_congr fun _ => garbling_re h _ _ fun gc z d d' hd => ?_
  exact forget_congr fun _ => forget_congr fun _ => forget_congr fun _ => forget_congr fun _ =>
    forget_congr fun _ => forget_congr fun _ => forget_congr fun _ => forget_congr fun _ => forget_congr fun _ => outputKey_forms hd

theorem evaluatorServerV3_re (C : Curve) (r : OTRecv) (ps : List Bytes) (m : Bytes) :
    Forget (evaluatorServerV3 C (rehash X sha') r ps m) = Forget (evaluatorServerV3 C X r ps m) := by
  unfold evaluatorServerV3
  dsimp only
  rw [recvRun_re h]
  exact forget_congr fun _ => forget_congr fun _ => forget_congr fun _ => forget_congr fun _ => forget_congr fun _ =>
    forget_congr fun _ => forget_congr fun _ => forget_congr fun _ => forget_congr fun _ => forget_congr fun _ => forget_congr fun _ =>
    evaluatedKey_forms h _ _

theorem garblerServerV2_re (C : Curve) (r : ServerDraws) (ps : List Bytes) (t : Nat) :
    Forget (garblerServerV2 C (rehash X sha') r ps t) = Forget (garblerServerV2 C X r ps t) := by
  unfold garblerServerV2
  dsimp only
  rw [sendRun_re h, sendRun_re h, manySend_re h]
  refine forget_congr fun _ => forget_congr fun _ => garbling_re h _ _ fun gc z d d' hd => ?_
  exact forget_congr fun _ => forget_congr fun _ => forget_congr fun _ => forget_congr fun _ =>
    forget_congr fun _ => forget_congr fun _ => forget_congr fun _ => forget_congr fun _ => forget_congr fun _ => forget_congr fun _ =>
    outputKey_forms hd

theorem evaluatorClientV2_re (hdbg : X.dbg = true) (C : Curve) (r : ClientDraws) (pw : Bytes) (number index : Nat) :
    Forget (evaluatorClientV2 C (rehash X sha') r pw number index) = Forget (evaluatorClientV2 C X r pw number index) := by
  unfold evaluatorClientV2
  dsimp only
  rw [recvRun_re h, recvRun_re h, manyRecv_re h hdbg]
  exact forget_congr fun _ => forget_congr fun _ => forget_congr fun _ => forget_congr fun _ =>
    forget_congr fun _ => forget_congr fun _ => forget_congr fun _ => forget_congr fun _ => forget_congr fun _ => forget_congr fun _ =>
    forget_congr fun _ => forget_congr fun _ => forget_congr fun _ => evaluatedKey_forms h _ _

theorem garblerClientV2_re (hdbg : X.dbg = true) (C : Curve) (r : ClientGarbler2) (pw : Bytes) (index number t : Nat) :
    Forget (garblerClientV2 C (rehash X sha') r pw index number t) = Forget (garblerClientV2 C X r pw index number t) := by
  unfold garblerClientV2
  dsimp only
  rw [sendRun_re h, manyRecv_re h hdbg]
  refine forget_congr fun _ => garbling_re h _ _ fun gc z d d' hd => ?_
  exact forget_congr fun _ => forget_congr fun _ => forget_congr fun _ => forget_congr fun _ =>
    forget_congr fun _ => forget_congr fun _ => forget_congr fun _ => forget_congr fun _ => forget_congr fun _ => forget_congr fun _ =>
    forget_congr fun _ => outputKey_forms hd

theorem evaluatorServerV2_re (C : Curve) (r : ServerEvaluator2) (ps : List Bytes) :
    Forget (evaluatorServerV2 C (rehash X sha') r ps) = Forget (evaluatorServerV2 C X r ps) := by
  unfold evaluatorServerV2
  dsimp only
  rw [recvRun_re h, manySend_re h]
  exact forget_congr fun _ => forget_congr fun _ => forget_congr fun _ => forget_congr fun _ => forget_congr fun _ =>
    forget_congr fun _ => forget_congr fun _ => forget_congr fun _ => forget_congr fun _ => forget_congr fun _ => forget_congr fun _ =>
    forget_congr fun _ => forget_congr fun _ => forget_congr fun _ => evaluatedKey_forms h _ _

theorem garblerServerV1_re (C : Curve) (r : ServerDraws1) (ps : List Bytes) (t : Nat) :
    Forget (garblerServerV1 C (rehash X sha') r ps t) = Forget (garblerServerV1 C X r ps t) := by
  unfold garblerServerV1
  dsimp only
  rw [sendRun_re h, manySend_re h]
  refine forget_congr fun _ => forget_congr fun _ => garbling_re h _ _ fun gc z d d' hd => ?_
  exact forget_congr fun _ => forget_congr fun _ => forget_congr fun _ => forget_congr fun _ =>
    forget_congr fun _ => forget_congr fun _ => outputKey_forms hd

theorem evaluatorClientV1_re (hdbg : X.dbg = true) (C : Curve) (r : ClientDraws1) (pw : Bytes) (number index : Nat) :
    Forget (evaluatorClientV1 C (rehash X sha') r pw number index) = Forget (evaluatorClientV1 C X r pw number index) := by
  unfold evaluatorClientV1
  rw [recvRun_re h, manyRecv_re h hdbg]
  exact forget_congr fun _ => forget_congr fun _ => forget_congr fun _ => forget_congr fun _ =>
    forget_congr fun _ => forget_congr fun _ => forget_congr fun _ => forget_congr fun _ => evaluatedKey_forms h _ _

theorem garblerClientV1_re (C : Curve) (r : ClientGarbler1) (pw : Bytes) (index number t : Nat) :
    Forget (garblerClientV1 C (rehash X sha') r pw index number t) = Forget (garblerClientV1 C X r pw index number t) := by
  unfold garblerClientV1
  dsimp only
  rw [sendRun_re h]
  refine forget_congr fun _ => garbling_re h _ _ fun gc z d d' hd => ?_
  exact forget_congr fun _ => forget_congr fun _ => forget_congr fun _ => forget_congr fun _ =>
    forget_congr fun _ => forget_congr fun _ => forget_congr fun _ => forget_congr fun _ => outputKey_forms hd

theorem evaluatorServerV1_re (C : Curve) (r : OTRecv) (ps : List Bytes) :
    Forget (evaluatorServerV1 C (rehash X sha') r ps) = Forget (evaluatorServerV1 C X r ps) := by
  unfold evaluatorServerV1
  dsimp only
  rw [recvRun_re h]
  exact forget_congr fun _ => forget_congr fun _ => forget_congr fun _ => forget_congr fun _ => forget_congr fun _ =>
    forget_congr fun _ => forget_congr fun _ => forget_congr fun _ => forget_congr fun _ => evaluatedKey_forms h _ _


omit h in
theorem half2_points (X : Crypto) (rnd : GarbleRand) {n t D : Nat} (hn : 0 < n)
    (hfit : 4 * n + 2 < 2 ^ 64) (hbuild : buildCircuit X.dbg n t = .ok (thrCircuit n D (t + 1))) (hD : GoodDomain D)
    (ht : t < 65535) :
    ∃ a b : Bytes, (a.length = 42 ∧ b.length = 42 ∧ a ≠ b) ∧ ∀ sha', AgreeBut42 X.sha256 sha' → ∃ z gc d, ∀ ord : MapOrder, ord.Valid →
      ∃ gc', Held2 (rehash X sha').toEnv rnd ord n t (thrCircuit n D (t + 1)) z (sha' a) gc gc' d ∧
      ∀ u v : List Bool, u.length = n → v.length = n →
        evaluatedKey (rehash X sha').toEnv gc' (pick ((z.drop 0).take n) u ++ pick ((z.drop n).take n) v) =
          .ok (if hamming u v % D ≤ t then sha' a else sha' b) := by
  obtain ⟨a, b, ha, hb, hab, H⟩ := half_points X rnd
    (thr_typedD (T := t + 1) hn good2 hD)
    (by intro d hd; exact (List.mem_replicate.mp hd).2) (by show 0 < n * 2; omega) rfl (thr_last n D (t + 1))
  refine ⟨a, b, ⟨ha, hb, hab⟩, fun sha' h => ?_⟩
  obtain ⟨run, z, d, hrun, hgb, hzl, hzb, hK, hev⟩ := H sha' h
  change z.length = n * 2 at hzl
  refine ⟨z, ⟨thrCircuit n D (t + 1), run.state.f, run.state.fHalf⟩, d, fun ord hord => ?_⟩
  obtain ⟨gc', H, he⟩ := held2 (E := (rehash X sha').toEnv) (rnd := rnd) hord hbuild (by unfold GoodDomain at hD; omega) (by omega) hfit hrun hgb hzl hzb hK
  refine ⟨gc', H, fun u v hu hv => ?_⟩
  obtain ⟨h1, h0⟩ := hev (u ++ v) (by simp [hu, hv, thrCircuit]; omega)
  rw [meaning_thr hu hv, weight_mod, ← hamming_eq_weight] at h1 h0
  rw [he u v hu hv]
  split
  · exact h1 (by rw [if_pos (by omega)])
  · exact h0 (by rw [if_neg (by omega)])

omit h in
theorem half3_points (X : Crypto) (rnd : GarbleRand) {n t D : Nat} (hn : 0 < n)
    (hfit : 5 * n + 2 < 2 ^ 64) (hbuild : buildCircuitV2 X.dbg n t = .ok (thrCircuit3 n D (t + 1))) (hD : GoodDomain D)
    (ht : t < 65535) :
    ∃ a b : Bytes, (a.length = 42 ∧ b.length = 42 ∧ a ≠ b) ∧ ∀ sha', AgreeBut42 X.sha256 sha' → ∃ z gc d, ∀ ord : MapOrder, ord.Valid →
      ∃ gc', Held3 (rehash X sha').toEnv rnd ord n t (thrCircuit3 n D (t + 1)) z (sha' a) gc gc' d ∧
      ∀ u v w : List Bool, u.length = n → v.length = n → w.length = n →
        evaluatedKey (rehash X sha').toEnv gc' (pick (z.take n) u ++ pick ((z.drop n).take n) v ++ pick (z.drop (n * 2)) w) =
          .ok (if weight (xorBits (xorBits u v) w) % D ≤ t then sha' a else sha' b) := by
  obtain ⟨a, b, ha, hb, hab, H⟩ := half_points X rnd
    (thr3_typedD (T := t + 1) hn good2 hD)
    (by intro d hd; exact (List.mem_replicate.mp hd).2) (by show 0 < n * 3; omega) rfl (thr3_last n D (t + 1))
  refine ⟨a, b, ⟨ha, hb, hab⟩, fun sha' h => ?_⟩
  obtain ⟨run, z, d, hrun, hgb, hzl, hzb, hK, hev⟩ := H sha' h
  change z.length = n * 3 at hzl
  refine ⟨z, ⟨thrCircuit3 n D (t + 1), run.state.f, run.state.fHalf⟩, d, fun ord hord => ?_⟩
  obtain ⟨gc', H, he⟩ := held3 (E := (rehash X sha').toEnv) (rnd := rnd) hord hbuild (by unfold GoodDomain at hD; omega) (by omega) hfit hrun hgb hzl hzb hK
  refine ⟨gc', H, fun u v w hu hv hw => ?_⟩
  obtain ⟨h1, h0⟩ := hev (u ++ v ++ w) (by simp [hu, hv, hw, thrCircuit3]; omega)
  rw [meaning_thr3 hu hv hw, weight_mod] at h1 h0
  rw [he u v w hu hv hw]
  split
  · exact h1 (by rw [if_pos (by omega)])
  · exact h0 (by rw [if_neg (by omega)])

end FP
