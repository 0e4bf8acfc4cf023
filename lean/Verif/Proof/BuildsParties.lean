import Verif.Proof.Builds
/-
The parties of all protocols in builds with and without assertions.
-/
namespace FP
open Spec

/-! ### Base transfer and 1-out-of-n transfer -/

theorem same_updateRow (v : Bytes) (r w : Nat) {f g : Bytes → R Bytes} (h : ∀ x, SameOrPanic (f x) (g x)) :
    SameOrPanic (updateRow v r w f) (updateRow v r w g) := by
  unfold updateRow
  dips
  exact h _

theorem same_updateSlice (v : Bytes) (o l : Nat) {f g : Bytes → R Bytes} (h : ∀ x, SameOrPanic (f x) (g x)) :
    SameOrPanic (updateSlice v o l f) (updateSlice v o l g) := by
  unfold updateSlice
  dips
  exact h _

theorem same_runJobs {α : Type} (order : List Nat) (cs : List α) {f g : Nat → α → R α} (h : ∀ c x, SameOrPanic (f c x) (g c x)) :
    SameOrPanic (runJobs order f cs) (runJobs order g cs) := by
  unfold runJobs
  dips
  exact h _ _

macro_rules | `(tactic| dips_step) => `(tactic| with_reducible refine same_updateRow _ _ _ ?_)
macro_rules | `(tactic| dips_step) => `(tactic| with_reducible refine same_updateSlice _ _ _ ?_)
macro_rules | `(tactic| dips_step) => `(tactic| with_reducible refine same_runJobs _ _ ?_)

theorem fk_release (X : Crypto) : fk X.release = fk X := rfl
theorem clChi_release (X : Crypto) : clChi X.release = clChi X := rfl
theorem clRows_release (X : Crypto) : clRows X.release = clRows X := rfl
theorem apRows_release (X : Crypto) : apRows X.release = apRows X := rfl
theorem coRespond_release (C : Curve) (X : Crypto) : coRespond C X.release = coRespond C X := rfl
theorem coRespondAll_release (C : Curve) (X : Crypto) : coRespondAll C X.release = coRespondAll C X := rfl
theorem coinflipSender_release (E : Env) : coinflipSender E.release = coinflipSender E := rfl
theorem coinflipReceiver_release (E : Env) : coinflipReceiver E.release = coinflipReceiver E := rfl

/-- Replaces everything that does not look at the assertions. -/
macro "rel" : tactic => `(tactic| try simp only [release_fill, release_genBytes, release_gen8, fk_release, clChi_release,
  clRows_release, apRows_release, coRespond_release, coRespondAll_release, coinflipSender_release, coinflipReceiver_release,
  hashHalf_release, hashOut_release])

theorem same_coCrypt (C : Curve) (X : Crypto) (P : C.Pt) (m : Bytes) : SameOrPanic (coCrypt C X P m) (coCrypt C X.release P m) := by
  unfold coCrypt
  rel
  dips

macro_rules | `(tactic| dips_step) => `(tactic| with_reducible exact same_coCrypt _ _ _ _)

theorem same_coEncrypt (C : Curve) (X : Crypto) (ps ts : List WireBytes) (s : Nat → Nat) (msg : List (Bytes × Bytes)) :
    SameOrPanic (coEncrypt C X ps ts s msg) (coEncrypt C X.release ps ts s msg) := by
  unfold coEncrypt coEncryptPair
  dips

macro_rules | `(tactic| dips_step) => `(tactic| with_reducible exact same_coEncrypt _ _ _ _ _ _)

theorem dips_coSender (C : Curve) (X : Crypto) (s : Nat → Nat) (msg : List (Bytes × Bytes)) :
    Dips (coSender C X s msg) (coSender C X.release s msg) := by
  unfold coSender
  dsimp only
  dips

theorem same_coDecryptAll (X : Crypto) (cs : List Bool) (ks : List WireBytes) (p : List (Bytes × Bytes)) :
    SameOrPanic (coDecryptAll X cs ks p) (coDecryptAll X.release cs ks p) := by
  unfold coDecryptAll coDecrypt
  rel
  dips

macro_rules | `(tactic| dips_step) => `(tactic| with_reducible exact same_coDecryptAll _ _ _ _)

theorem dips_coReceiver (C : Curve) (X : Crypto) (s : Nat → Nat) (cs : List Bool) :
    Dips (coReceiver C X s cs) (coReceiver C X.release s cs) := by
  unfold coReceiver
  dsimp only
  rel
  dips

macro_rules | `(tactic| dips_step) => `(tactic| with_reducible exact dips_coSender _ _ _ _)
macro_rules | `(tactic| dips_step) => `(tactic| with_reducible exact dips_coReceiver _ _ _ _)

theorem same_manyRow (X : Crypto) (m : List Bytes) (k : List (Bytes × Bytes)) (d l i : Nat) (row : Bytes) :
    SameOrPanic (manyRow X m k d l i row) (manyRow X.release m k d l i row) := by
  unfold manyRow
  rel
  dips

macro_rules | `(tactic| dips_step) => `(tactic| with_reducible exact same_manyRow _ _ _ _ _ _ _)

theorem same_manyY (X : Crypto) (cores : Nat) (order : List Nat) (m : List Bytes) (k : List (Bytes × Bytes)) (d : Nat) :
    SameOrPanic (manyY X cores order m k d) (manyY X.release cores order m k d) := by
  unfold manyY manyJob
  dsimp only
  dips

macro_rules | `(tactic| dips_step) => `(tactic| with_reducible exact same_manyY _ _ _ _ _ _)

theorem dips_manySender (X : Crypto) (cores : Nat) (order : List Nat) (keys : Nat → WireBytes × WireBytes)
    {inner inner' : List (Bytes × Bytes) → Proc Unit} (h : ∀ m, Dips (inner m) (inner' m)) (m : List Bytes) (d : Nat) :
    Dips (manySender X cores order keys inner m d) (manySender X.release cores order keys inner' m d) := by
  unfold manySender
  dsimp only
  dips
  exact h _

theorem dips_manyReceiver (X : Crypto) {inner inner' : List Bool → Proc (List Bytes)} (h : ∀ c, Dips (inner c) (inner' c))
    (i d : Nat) : Dips (manyReceiver X inner i d) (manyReceiver X.release inner' i d) := by
  unfold manyReceiver manyChoices manyKeys manyUnmask
  rel
  dips
  exact h _

macro_rules | `(tactic| dips_step) => `(tactic| with_reducible refine dips_manySender _ _ _ _ ?_ _ _)
macro_rules | `(tactic| dips_step) => `(tactic| with_reducible refine dips_manyReceiver _ ?_ _ _)

/-! ### The two extensions -/

theorem same_apXor (dbg : Bool) (d l r : Bytes) : SameOrPanic (apXor dbg d l r) (apXor false d l r) := by
  unfold apXor
  dips

theorem same_apXorInplace (dbg : Bool) (d r : Bytes) : SameOrPanic (apXorInplace dbg d r) (apXorInplace false d r) := by
  unfold apXorInplace
  dips

theorem same_apEq (dbg : Bool) (l r : Bytes) : SameOrPanic (apEq dbg l r) (apEq false l r) := by
  unfold apEq
  dips

macro_rules | `(tactic| dips_step) => `(tactic| with_reducible exact same_apXor _ _ _ _)
macro_rules | `(tactic| dips_step) => `(tactic| with_reducible exact same_apXorInplace _ _ _)
macro_rules | `(tactic| dips_step) => `(tactic| with_reducible exact same_apEq _ _ _)

theorem same_apQ (dbg : Bool) (w : Nat) (d t u : Bytes) : SameOrPanic (apQ dbg w d t u) (apQ false w d t u) := by
  unfold apQ
  dsimp only
  dips

theorem same_apRandomizeRow (X : Crypto) (delta qT : Bytes) (msg : List (Bytes × Bytes)) (ms r i : Nat) (chunk : Bytes) :
    SameOrPanic (apRandomizeRow X delta qT msg ms r i chunk) (apRandomizeRow X.release delta qT msg ms r i chunk) := by
  unfold apRandomizeRow
  dsimp only
  rel
  dips

macro_rules | `(tactic| dips_step) => `(tactic| with_reducible exact same_apQ _ _ _ _ _)
macro_rules | `(tactic| dips_step) => `(tactic| with_reducible exact same_apRandomizeRow _ _ _ _ _ _ _ _)

theorem same_apRandomize (X : Crypto) (cores : Nat) (sched : Nat → List Nat) (delta qT : Bytes) (msg : List (Bytes × Bytes))
    (ms : Nat) : SameOrPanic (apRandomize X cores sched delta qT msg ms) (apRandomize X.release cores sched delta qT msg ms) := by
  unfold apRandomize
  dsimp only
  dips

macro_rules | `(tactic| dips_step) => `(tactic| with_reducible exact same_apRandomize _ _ _ _ _ _ _)

theorem dips_apricotSender (X : Crypto) (arm : Bool) (cores : Nat) (sched : Nat → List Nat) (coin : WireBytes)
    (delta : Vector Byte 16) {inner inner' : List Bool → Proc (List Bytes)} (h : ∀ c, Dips (inner c) (inner' c))
    (msg : List (Bytes × Bytes)) :
    Dips (apricotSender X arm cores sched coin delta inner msg) (apricotSender X.release arm cores sched coin delta inner' msg) := by
  unfold apricotSender apricotSenderExtend
  dsimp only
  rel
  dips
  exact h _

theorem same_apU (dbg : Bool) (w : Nat) (t0 t1 p : Bytes) : SameOrPanic (apU dbg w t0 t1 p) (apU false w t0 t1 p) := by
  unfold apU
  dips

theorem same_apReceiverSums (dbg arm : Bool) (l : Nat) (p : List Bool) (t chi : Bytes) :
    SameOrPanic (apReceiverSums dbg arm l p t chi) (apReceiverSums false arm l p t chi) := by
  unfold apReceiverSums
  dips

theorem same_apV (X : Crypto) (cores : Nat) (sched : Nat → List Nat) (l : Nat) (t : Bytes) :
    SameOrPanic (apV X cores sched l t) (apV X.release cores sched l t) := by
  unfold apV
  dsimp only
  dips

theorem same_apDerandomize (X : Crypto) (cores : Nat) (sched : Nat → List Nat) (v d p : Bytes) (n : Nat) (y : List Bytes) :
    SameOrPanic (apDerandomize X cores sched v d p n y) (apDerandomize X.release cores sched v d p n y) := by
  unfold apDerandomize apDerandomizeRow
  dsimp only
  rel
  dips

macro_rules | `(tactic| dips_step) => `(tactic| with_reducible exact same_apU _ _ _ _ _)
macro_rules | `(tactic| dips_step) => `(tactic| with_reducible exact same_apReceiverSums _ _ _ _ _ _)
macro_rules | `(tactic| dips_step) => `(tactic| with_reducible exact same_apV _ _ _ _ _)
macro_rules | `(tactic| dips_step) => `(tactic| with_reducible exact same_apDerandomize _ _ _ _ _ _ _ _)

theorem dips_apricotReceiver (X : Crypto) (arm : Bool) (cores : Nat) (sched1 sched2 : Nat → List Nat) (coin : WireBytes)
    (bonus : Vector Bool 256) (seed0 seed1 : Vector WireBytes 128) {inner inner' : List (Bytes × Bytes) → Proc Unit}
    (h : ∀ m, Dips (inner m) (inner' m)) (cs : List Bool) :
    Dips (apricotReceiver X arm cores sched1 sched2 coin bonus seed0 seed1 inner cs)
      (apricotReceiver X.release arm cores sched1 sched2 coin bonus seed0 seed1 inner' cs) := by
  unfold apricotReceiver apricotReceiverExtend
  dsimp only
  rel
  dips
  exact h _

macro_rules | `(tactic| dips_step) => `(tactic| with_reducible refine dips_apricotSender _ _ _ _ _ _ ?_ _)
macro_rules | `(tactic| dips_step) => `(tactic| with_reducible refine dips_apricotReceiver _ _ _ _ _ _ _ _ _ ?_ _)

theorem same_gf128MulAcc (arch : Arch) (dbg : Bool) (r a b : Bytes) :
    SameOrPanic (gf128MulAcc arch dbg r a b) (gf128MulAcc arch false r a b) := by
  unfold gf128MulAcc mulAccArm64 mulAccGeneric
  cases arch <;> dsimp only <;> dips

theorem same_asPolynomial (dbg : Bool) (v : Bytes) : SameOrPanic (asPolynomial dbg v) (asPolynomial false v) := by
  unfold asPolynomial
  dips

theorem same_bitVectorXorAssign (dbg : Bool) (a b : Bytes) :
    SameOrPanic (bitVectorXorAssign dbg a b) (bitVectorXorAssign false a b) := by
  unfold bitVectorXorAssign
  dips

theorem same_polynomialFrom (dbg : Bool) (v : Bytes) : SameOrPanic (polynomialFrom dbg v) (polynomialFrom false v) := by
  unfold polynomialFrom
  dips

macro_rules | `(tactic| dips_step) => `(tactic| with_reducible exact same_gf128MulAcc _ _ _ _ _)
macro_rules | `(tactic| dips_step) => `(tactic| with_reducible exact same_asPolynomial _ _)
macro_rules | `(tactic| dips_step) => `(tactic| with_reducible exact same_bitVectorXorAssign _ _ _)

theorem same_clSum (arch : Arch) (dbg : Bool) (q chi : BitMatrix) :
    SameOrPanic (clSum arch dbg q chi) (clSum arch false q chi) := by
  unfold clSum
  dips

theorem same_clEncryptAll (X : Crypto) (delta : Bytes) (q : BitMatrix) (msg : List (Bytes × Bytes)) :
    SameOrPanic (clEncryptAll X delta q msg) (clEncryptAll X.release delta q msg) := by
  unfold clEncryptAll clEncrypt
  dsimp only
  rel
  dips

theorem same_clU (dbg : Bool) (x t0 t1 : BitMatrix) : SameOrPanic (clU dbg x t0 t1) (clU false x t0 t1) := by
  unfold clU
  dips

theorem same_clReceiverSums (arch : Arch) (dbg : Bool) (cs : List Bool) (t chi : BitMatrix) :
    SameOrPanic (clReceiverSums arch dbg cs t chi) (clReceiverSums arch false cs t chi) := by
  unfold clReceiverSums
  dips

theorem same_clDecryptAll (X : Crypto) (v : List WireBytes) (cs : List Bool) (d0 d1 : List Bytes) :
    SameOrPanic (clDecryptAll X v cs d0 d1) (clDecryptAll X.release v cs d0 d1) := by
  unfold clDecryptAll
  dsimp only
  rel
  dips

macro_rules | `(tactic| dips_step) => `(tactic| with_reducible exact same_clSum _ _ _ _)
macro_rules | `(tactic| dips_step) => `(tactic| with_reducible exact same_clEncryptAll _ _ _ _)
macro_rules | `(tactic| dips_step) => `(tactic| with_reducible exact same_clU _ _ _ _)
macro_rules | `(tactic| dips_step) => `(tactic| with_reducible exact same_clReceiverSums _ _ _ _ _)
macro_rules | `(tactic| dips_step) => `(tactic| with_reducible exact same_clDecryptAll _ _ _ _ _)

theorem dips_classicSender (X : Crypto) (arch : Arch) (coin : WireBytes) (delta : Vector Byte 16)
    {inner inner' : List Bool → Proc (List Bytes)} (h : ∀ c, Dips (inner c) (inner' c)) (msg : List (Bytes × Bytes)) :
    Dips (classicSender X arch coin delta inner msg) (classicSender X.release arch coin delta inner' msg) := by
  unfold classicSender classicSenderExtend clSenderCheck clSenderDeRot
  dsimp only
  rel
  dips
  exact h _

theorem dips_classicReceiver (X : Crypto) (arch : Arch) (coin : WireBytes) (bonus : Vector Bool 192)
    (seed0 seed1 : Vector WireBytes 128) {inner inner' : List (Bytes × Bytes) → Proc Unit} (h : ∀ m, Dips (inner m) (inner' m))
    (cs : List Bool) : Dips (classicReceiver X arch coin bonus seed0 seed1 inner cs)
      (classicReceiver X.release arch coin bonus seed0 seed1 inner' cs) := by
  unfold classicReceiver classicReceiverExtend clReceiverCheck clReceiverDeRot
  dsimp only
  rel
  dips
  exact h _

/-! ### Key exchanges -/

theorem dips_otSend (C : Curve) (X : Crypto) (o : OTSend) (m : List (Bytes × Bytes)) : Dips (o.run C X m) (o.run C X.release m) := by
  unfold OTSend.run
  dips

theorem dips_otRecv (C : Curve) (X : Crypto) (o : OTRecv) (c : List Bool) : Dips (o.run C X c) (o.run C X.release c) := by
  unfold OTRecv.run
  dips

theorem dips_manySend (C : Curve) (X : Crypto) (o : ManySend) (m : List Bytes) (d : Nat) :
    Dips (o.run C X m d) (o.run C X.release m d) := by
  unfold ManySend.run
  dips

theorem dips_manyRecv (C : Curve) (X : Crypto) (b : Nat → Nat) (i d : Nat) :
    Dips (manyRecv C X b i d) (manyRecv C X.release b i d) := by
  unfold manyRecv
  dips

macro_rules | `(tactic| dips_step) => `(tactic| with_reducible exact dips_otSend _ _ _ _)
macro_rules | `(tactic| dips_step) => `(tactic| with_reducible exact dips_otRecv _ _ _ _)
macro_rules | `(tactic| dips_step) => `(tactic| with_reducible exact dips_manySend _ _ _ _ _)
macro_rules | `(tactic| dips_step) => `(tactic| with_reducible exact dips_manyRecv _ _ _ _ _)

theorem same_garbleBinary (E : Env) (rnd : GarbleRand) (c : Circuit) :
    SameOrPanic (garbleBinary E rnd c) (garbleBinary E.release rnd c) := by
  unfold garbleBinary
  dips

theorem same_evaluatedKey (E : Env) (gc : GarbledCircuit) (x : List Wire) :
    SameOrPanic (evaluatedKey E gc x) (evaluatedKey E.release gc x) := by
  unfold evaluatedKey
  rel
  dips

theorem same_labelsOf (dbg : Bool) (l : List Bytes) : SameOrPanic (labelsOf dbg l) (labelsOf false l) := by
  unfold labelsOf
  dips

theorem same_payloadToEncoding (dbg : Bool) (p : List Bytes) (n : Nat) :
    SameOrPanic (payloadToEncoding dbg p n) (payloadToEncoding false p n) := by
  unfold payloadToEncoding
  dips

theorem same_bytesToEncoding (dbg : Bool) (p : Bytes) (n s : Nat) :
    SameOrPanic (bytesToEncoding dbg p n s) (bytesToEncoding false p n s) := by
  unfold bytesToEncoding
  dips

theorem same_encodeRows (dbg : Bool) (e : List (Wire × Wire)) (o n : Nat) (b : Bytes) :
    SameOrPanic (encodeRows dbg e o n b) (encodeRows false e o n b) := by
  unfold encodeRows
  dips

theorem same_maskPasswords (dbg : Bool) (m : Bytes) (l : Nat) (ps : List Bytes) :
    SameOrPanic (maskPasswords dbg m l ps) (maskPasswords false m l ps) := by
  unfold maskPasswords
  dips

theorem same_wiresFromBytes (dbg : Bool) (b : Bytes) (d : Domain) :
    SameOrPanic (wiresFromBytes dbg b d) (wiresFromBytes false b d) := by
  unfold wiresFromBytes
  dips

theorem same_blindingKeys (dbg : Bool) (rk : Nat → Nat → WireBytes) (n b : Nat) :
    SameOrPanic (blindingKeys dbg rk n b) (blindingKeys false rk n b) := by
  unfold blindingKeys
  dips

theorem same_unblind (dbg : Bool) (r : List Bytes) (c b : Nat) : SameOrPanic (unblind dbg r c b) (unblind false r c b) := by
  unfold unblind
  dips

macro_rules | `(tactic| dips_step) => `(tactic| with_reducible exact same_garbleBinary _ _ _)
macro_rules | `(tactic| dips_step) => `(tactic| with_reducible exact same_evaluatedKey _ _ _)
macro_rules | `(tactic| dips_step) => `(tactic| with_reducible exact same_labelsOf _ _)
macro_rules | `(tactic| dips_step) => `(tactic| with_reducible exact same_payloadToEncoding _ _ _)
macro_rules | `(tactic| dips_step) => `(tactic| with_reducible exact same_bytesToEncoding _ _ _ _)
macro_rules | `(tactic| dips_step) => `(tactic| with_reducible exact same_encodeRows _ _ _ _ _)
macro_rules | `(tactic| dips_step) => `(tactic| with_reducible exact same_maskPasswords _ _ _ _)
macro_rules | `(tactic| dips_step) => `(tactic| with_reducible exact same_wiresFromBytes _ _ _)
macro_rules | `(tactic| dips_step) => `(tactic| with_reducible exact same_blindingKeys _ _ _ _)
macro_rules | `(tactic| dips_step) => `(tactic| with_reducible exact same_unblind _ _ _ _)

theorem dips_garbler (C : Curve) (X : Crypto) (g : GarblerDraws) (p : Bytes) (t : Nat) :
    Dips (HalfKey.garbler C X g p t) (HalfKey.garbler C X.release g p t) := by
  unfold HalfKey.garbler halfGarbler
  dsimp only
  dips

theorem dips_evaluator (C : Curve) (X : Crypto) (o : OTRecv) (p : Bytes) :
    Dips (HalfKey.evaluator C X o p) (HalfKey.evaluator C X.release o p) := by
  unfold HalfKey.evaluator halfEvaluator
  dsimp only
  dips

macro_rules | `(tactic| dips_step) => `(tactic| with_reducible exact dips_garbler _ _ _ _ _)
macro_rules | `(tactic| dips_step) => `(tactic| with_reducible exact dips_evaluator _ _ _ _)

theorem dips_fpakeFirst (C : Curve) (X : Crypto) (g : GarblerDraws) (o : OTRecv) (p : Bytes) (t : Nat) :
    Dips (fpakeFirst C X g o p t) (fpakeFirst C X.release g o p t) := by
  unfold fpakeFirst
  dips

theorem dips_fpakeSecond (C : Curve) (X : Crypto) (o : OTRecv) (g : GarblerDraws) (p : Bytes) (t : Nat) :
    Dips (fpakeSecond C X o g p t) (fpakeSecond C X.release o g p t) := by
  unfold fpakeSecond
  dips

theorem dips_garblerServerV3 (C : Curve) (X : Crypto) (r : ServerDraws) (ps : List Bytes) (t : Nat) :
    Dips (garblerServerV3 C X r ps t) (garblerServerV3 C X.release r ps t) := by
  unfold garblerServerV3
  dsimp only
  dips

theorem dips_evaluatorClientV3 (C : Curve) (X : Crypto) (r : ClientDraws) (p : Bytes) (n i : Nat) :
    Dips (evaluatorClientV3 C X r p n i) (evaluatorClientV3 C X.release r p n i) := by
  unfold evaluatorClientV3
  dsimp only
  dips

theorem dips_garblerClientV3 (C : Curve) (X : Crypto) (r : GarblerDraws) (p m : Bytes) (i n t : Nat) :
    Dips (garblerClientV3 C X r p m i n t) (garblerClientV3 C X.release r p m i n t) := by
  unfold garblerClientV3
  dsimp only
  dips

theorem dips_evaluatorServerV3 (C : Curve) (X : Crypto) (r : OTRecv) (ps : List Bytes) (m : Bytes) :
    Dips (evaluatorServerV3 C X r ps m) (evaluatorServerV3 C X.release r ps m) := by
  unfold evaluatorServerV3
  dsimp only
  dips

theorem dips_mfpakeSingle (C : Curve) (X : Crypto) (r : SingleDraws) (p : Bytes) (i n t : Nat) :
    Dips (mfpakeSingle C X r p i n t) (mfpakeSingle C X.release r p i n t) := by
  unfold mfpakeSingle
  dips

theorem dips_mfpakeMany (C : Curve) (X : Crypto) (r : ManyDraws) (ps : List Bytes) (t : Nat) :
    Dips (mfpakeMany C X r ps t) (mfpakeMany C X.release r ps t) := by
  unfold mfpakeMany
  dsimp only
  dips

theorem dips_garblerServerV1 (C : Curve) (X : Crypto) (r : ServerDraws1) (ps : List Bytes) (t : Nat) :
    Dips (garblerServerV1 C X r ps t) (garblerServerV1 C X.release r ps t) := by
  unfold garblerServerV1
  dsimp only
  dips

theorem dips_evaluatorClientV1 (C : Curve) (X : Crypto) (r : ClientDraws1) (p : Bytes) (n i : Nat) :
    Dips (evaluatorClientV1 C X r p n i) (evaluatorClientV1 C X.release r p n i) := by
  unfold evaluatorClientV1
  dips

theorem dips_garblerServerV2 (C : Curve) (X : Crypto) (r : ServerDraws) (ps : List Bytes) (t : Nat) :
    Dips (garblerServerV2 C X r ps t) (garblerServerV2 C X.release r ps t) := by
  unfold garblerServerV2
  dsimp only
  dips

theorem dips_evaluatorClientV2 (C : Curve) (X : Crypto) (r : ClientDraws) (p : Bytes) (n i : Nat) :
    Dips (evaluatorClientV2 C X r p n i) (evaluatorClientV2 C X.release r p n i) := by
  unfold evaluatorClientV2
  dsimp only
  dips

theorem dips_garblerClientV1 (C : Curve) (X : Crypto) (r : ClientGarbler1) (p : Bytes) (i n t : Nat) :
    Dips (garblerClientV1 C X r p i n t) (garblerClientV1 C X.release r p i n t) := by
  unfold garblerClientV1
  dsimp only
  dips

theorem dips_evaluatorServerV1 (C : Curve) (X : Crypto) (r : OTRecv) (ps : List Bytes) :
    Dips (evaluatorServerV1 C X r ps) (evaluatorServerV1 C X.release r ps) := by
  unfold evaluatorServerV1
  dsimp only
  dips

theorem dips_garblerClientV2 (C : Curve) (X : Crypto) (r : ClientGarbler2) (p : Bytes) (i n t : Nat) :
    Dips (garblerClientV2 C X r p i n t) (garblerClientV2 C X.release r p i n t) := by
  unfold garblerClientV2
  dsimp only
  dips

theorem dips_evaluatorServerV2 (C : Curve) (X : Crypto) (r : ServerEvaluator2) (ps : List Bytes) :
    Dips (evaluatorServerV2 C X r ps) (evaluatorServerV2 C X.release r ps) := by
  unfold evaluatorServerV2
  dsimp only
  dips

/-! ### The programs -/

theorem Dips.overTags {α : Type} (tag : Bytes → Bytes) (check : Bytes → Bytes → R Unit) {p q : Proc α} (h : Dips p q) :
    Dips (p.overTags tag check) (q.overTags tag check) := by
  induction h with
  | panic q => exact .panic _
  | ret a => exact .ret a
  | fail e => exact .fail e
  | send m _ ih => exact Dips.bind (Dips.refl _) fun _ => ih
  | recv _ ih => exact Dips.bind (Dips.refl _) fun m => ih m

theorem Dips.overAuth {α : Type} (M : ChannelCrypto) (ks kr : WireBytes) {p q : Proc α} (h : Dips p q) :
    Dips (p.overAuth M ks kr) (q.overAuth M ks kr) := Dips.overTags _ _ h

theorem Dips.overSigned {α : Type} (S : SigScheme) (k : S.Keypair) (t : Bytes) {p q : Proc α} (h : Dips p q) :
    Dips (p.overSigned S k t) (q.overSigned S k t) := Dips.overTags _ _ h

macro_rules | `(tactic| dips_step) => `(tactic| with_reducible refine Dips.overAuth _ _ _ ?_)
macro_rules | `(tactic| dips_step) => `(tactic| with_reducible exact dips_fpakeFirst _ _ _ _ _ _)
macro_rules | `(tactic| dips_step) => `(tactic| with_reducible exact dips_fpakeSecond _ _ _ _ _ _)
macro_rules | `(tactic| dips_step) => `(tactic| with_reducible exact dips_mfpakeSingle _ _ _ _ _ _ _)
macro_rules | `(tactic| dips_step) => `(tactic| with_reducible exact dips_mfpakeMany _ _ _ _ _)

theorem dips_serverMain (C : Curve) (X : Crypto) (M : ChannelCrypto) (s : M.Secret) (r : ManyDraws) (file : Bytes)
    (n t : Nat) : Dips (serverMain C X M s r file n t) (serverMain C X.release M s r file n t) := by
  unfold serverMain
  dips

theorem dips_clientMain (C : Curve) (X : Crypto) (M : ChannelCrypto) (s : M.Secret) (r : SingleDraws) (p : Bytes)
    (i n t : Nat) : Dips (clientMain C X M s r p i n t) (clientMain C X.release M s r p i n t) := by
  unfold clientMain
  dips

theorem dips_vanillaServer (C : Curve) (X : Crypto) (M : ChannelCrypto) (s : M.Secret) (g : GarblerDraws) (o : OTRecv)
    (p : Bytes) (t : Nat) : Dips (vanillaServer C X M s g o p t) (vanillaServer C X.release M s g o p t) := by
  unfold vanillaServer
  dips

theorem dips_vanillaClient (C : Curve) (X : Crypto) (M : ChannelCrypto) (s : M.Secret) (o : OTRecv) (g : GarblerDraws)
    (p : Bytes) (t : Nat) : Dips (vanillaClient C X M s o g p t) (vanillaClient C X.release M s o g p t) := by
  unfold vanillaClient
  dips

/-! ### Runs -/

variable {α β : Type}

theorem Dips.party {p q : Proc α} (h : Dips p q) : PartySameOrPanic p q := by
  induction h with
  | panic q => exact fun inp => .inr ⟨rfl, List.nil_prefix⟩
  | ret a => exact fun inp => .inl rfl
  | fail e => exact fun inp => .inl rfl
  | send m _ ih =>
    intro inp
    rcases ih inp with h | ⟨h1, h2⟩
    · refine .inl ?_
      unfold Proc.against
      dsimp only
      rw [h]
    · refine .inr ⟨h1, ?_⟩
      unfold Proc.against
      exact List.cons_prefix_cons.mpr ⟨rfl, h2⟩
  | recv _ ih =>
    intro inp
    cases inp with
    | nil => exact .inl rfl
    | cons m inp => exact ih m inp

theorem party_dips {p : Proc α} : ∀ {q : Proc α}, PartySameOrPanic p q → Dips p q := by
  induction p with
  | ret a =>
    intro q h
    cases q with
    | ret b =>
      rcases h [] with h | ⟨h, -⟩
      · have := congrArg Prod.snd h
        simp only [Proc.against, Option.some.injEq, Except.ok.injEq] at this
        rw [this]; exact .ret _
      · simp [Proc.against] at h
    | fail e => rcases h [] with h | ⟨h, -⟩ <;> simp [Proc.against] at h
    | send m q => rcases h [] with h | ⟨h, -⟩ <;> simp [Proc.against] at h
    | recv k => rcases h [] with h | ⟨h, -⟩ <;> simp [Proc.against] at h
  | fail e =>
    intro q h
    by_cases he : e = .panic
    · rw [he]; exact .panic _
    · rcases h [] with h | ⟨h, -⟩
      · cases q with
        | fail e' => simp [Proc.against] at h; rw [h]; exact .fail _
        | ret b => simp [Proc.against] at h
        | send m q => simp [Proc.against] at h
        | recv k => simp [Proc.against] at h
      · simp [Proc.against] at h; exact absurd h he
  | send m p ih =>
    intro q h
    cases q with
    | ret b => rcases h [] with h | ⟨-, h⟩ <;> simp [Proc.against] at h
    | fail e => rcases h [] with h | ⟨-, h⟩ <;> simp [Proc.against] at h
    | recv k => rcases h [] with h | ⟨-, h⟩ <;> simp [Proc.against] at h
    | send m' q =>
      have hm : m = m' := by
        rcases h [] with h | ⟨-, h⟩
        · exact (List.cons.inj (congrArg Prod.fst h)).1
        · exact (List.cons_prefix_cons.mp h).1
      subst hm
      refine .send m (ih fun inp => ?_)
      rcases h inp with h | ⟨h1, h2⟩
      · exact .inl (Prod.ext (List.cons.inj (congrArg Prod.fst h)).2 (congrArg Prod.snd h :))
      · exact .inr ⟨h1, (List.cons_prefix_cons.mp h2).2⟩
  | recv k ih =>
    intro q h
    cases q with
    | ret b => rcases h [] with h | ⟨h, -⟩ <;> simp [Proc.against] at h
    | fail e => rcases h [] with h | ⟨h, -⟩ <;> simp [Proc.against] at h
    | send m q => rcases h [] with h | ⟨h, -⟩ <;> simp [Proc.against] at h
    | recv l => exact .recv fun m => ih m fun inp => h (m :: inp)

/-- Two configurations whose parties differ in assertions only. -/
def ConfDips (c c' : Conf α β) : Prop :=
  Dips c.left c'.left ∧ Dips c.right c'.right ∧ c.toRight = c'.toRight ∧ c.toLeft = c'.toLeft

theorem ConfDips.step {c c' d : Conf α β} (h : ConfDips c c') (hs : Step c d) : ∃ d', Step c' d' ∧ ConfDips d d' := by
  obtain ⟨l, r, pq, qp⟩ := c'
  obtain ⟨h1, h2, h3, h4⟩ := h
  cases hs with
  | sendL m p q x y =>
    cases h1 with
    | send _ h1 => cases h3; cases h4; exact ⟨_, .sendL _ _ _ _ _, h1, h2, rfl, rfl⟩
  | sendR m p q x y =>
    cases h2 with
    | send _ h2 => cases h3; cases h4; exact ⟨_, .sendR _ _ _ _ _, h1, h2, rfl, rfl⟩
  | recvL m k q x y =>
    cases h1 with
    | recv h1 => cases h3; cases h4; exact ⟨_, .recvL _ _ _ _ _, h1 m, h2, rfl, rfl⟩
  | recvR m p k x y =>
    cases h2 with
    | recv h2 => cases h3; cases h4; exact ⟨_, .recvR _ _ _ _ _, h1, h2 m, rfl, rfl⟩

theorem ConfDips.steps {n : Nat} {c c' d : Conf α β} (h : ConfDips c c') (hs : StepsN n c d) :
    ∃ d', StepsN n c' d' ∧ ConfDips d d' := by
  induction hs generalizing c' with
  | refl c => exact ⟨c', .refl _, h⟩
  | step hs _ ih =>
    obtain ⟨e, he, hd⟩ := h.step hs
    obtain ⟨f, hf, hd⟩ := ih hd
    exact ⟨f, .step he hf, hd⟩

theorem ConfDips.stuck {c c' : Conf α β} (h : ConfDips c c') (h1 : c.left ≠ .fail .panic) (h2 : c.right ≠ .fail .panic)
    (hs : Stuck c) : Stuck c' := by
  obtain ⟨l, r, pq, qp⟩ := c
  obtain ⟨d1, d2, d3, d4⟩ := h
  intro e he
  cases he with
  | sendL m p q x y =>
    cases d1 with
    | panic => exact h1 rfl
    | send _ _ => exact hs _ (.sendL _ _ _ _ _)
  | sendR m p q x y =>
    cases d2 with
    | panic => exact h2 rfl
    | send _ _ => exact hs _ (.sendR _ _ _ _ _)
  | recvL m k q x y =>
    cases d1 with
    | panic => exact h1 rfl
    | recv _ => cases d4; exact hs _ (.recvL _ _ _ _ _)
  | recvR m p k x y =>
    cases d2 with
    | panic => exact h2 rfl
    | recv _ => cases d3; exact hs _ (.recvR _ _ _ _ _)

theorem Dips.at {p q : Proc α} (h : Dips p q) {e : End α} (he : e ≠ .fails .panic) (ha : At e p) : At e q := by
  cases e with
  | returns a => cases ha; cases h; rfl
  | fails e =>
    cases ha
    cases h with
    | panic => exact absurd rfl he
    | fail => rfl
  | waits => obtain ⟨k, rfl⟩ := ha; cases h; exact ⟨_, rfl⟩

theorem at_not_panic {p : Proc α} {e : End α} (he : e ≠ .fails .panic) (ha : At e p) : p ≠ .fail .panic := by
  rintro rfl
  cases e with
  | returns a => cases ha
  | fails e => cases ha; exact he rfl
  | waits => obtain ⟨k, hk⟩ := ha; cases hk

theorem Dips.outcome {p p' : Proc α} {q q' : Proc β} (hp : Dips p p') (hq : Dips q q') {a : End α} {b : End β}
    (ha : a ≠ .fails .panic) (hb : b ≠ .fails .panic) (h : Outcome p q a b) : Outcome p' q' a b := by
  obtain ⟨d, ⟨n, hd⟩, hs⟩ := exists_stuck (start p q)
  obtain ⟨d', hd', hc⟩ := ConfDips.steps (c := start p q) (c' := start p' q') ⟨hp, hq, rfl, rfl⟩ hd
  obtain ⟨m, hm⟩ := h
  obtain ⟨h1, h2⟩ := (hm _ _ hd).2 hs
  exact Outcome.of_steps ⟨n, hd'⟩ (hc.stuck (at_not_panic ha h1) (at_not_panic hb h2) hs) (hc.1.at ha h1) (hc.2.1.at hb h2)

theorem Dips.completes {p p' : Proc α} {q q' : Proc β} (hp : Dips p p') (hq : Dips q q') {a : α} {b : β}
    (h : Completes p q a b) : Completes p' q' a b := by
  obtain ⟨n, hn⟩ := h.ends
  obtain ⟨d', hd', hc⟩ := ConfDips.steps (c := start p q) (c' := start p' q') ⟨hp, hq, rfl, rfl⟩ hn
  obtain ⟨l, r, pq, qp⟩ := d'
  obtain ⟨h1, h2, h3, h4⟩ := hc
  cases h1; cases h2; cases h3; cases h4
  exact Ends.completes ⟨n, hd'⟩

end FP
