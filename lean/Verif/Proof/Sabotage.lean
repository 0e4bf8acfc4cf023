import Verif.Proof.MemoryParties
import Verif.Proof.Impostor
import Verif.Props.ManyFpake
import Verif.Proof.Channel
/-
Parties that drive their peer to an access out of bounds.
-/
namespace FP
open Spec

attribute [local irreducible] Spec.modulus

variable {α β γ δ : Type}

/-- The left party returns `a`, the right one fails. -/
def Breaks (p : Proc α) (q : Proc β) (a : α) (e : Fault) : Prop := Steps (start p q) ⟨.ret a, .fail e, [], []⟩

theorem Breaks.fail (a : α) (e : Fault) : Breaks (.ret a) (.fail e : Proc β) a e := .refl _

theorem Breaks.after {p : Proc α} {q : Proc β} {a : α} {b : β} {k : α → Proc γ} {l : β → Proc δ} {c : γ} {e : Fault}
    (h1 : Ends p q a b) (h2 : Breaks (k a) (l b) c e) : Breaks (p >>= k) (q >>= l) c e :=
  (h1.andThen k l).trans h2

theorem Breaks.afterR {p : Proc α} {q : Proc β} {a : α} {b : β} {l : β → Proc δ} {e : Fault}
    (h1 : Ends p q a b) (h2 : l b = .fail e) : Breaks p (q >>= l) a e := by
  have := Breaks.after (k := Proc.ret) (l := l) h1 (c := a) (e := e) (by rw [h2]; exact .fail _ _)
  rwa [bindP_ret] at this

theorem Breaks.sendRecv {m : Bytes} {p : Proc α} {k : Bytes → Proc β} {a : α} {e : Fault}
    (h : Breaks p (k m) a e) : Breaks (.send m p) (.recv k) a e :=
  .head (.sendL m p _ [] []) (.head (.recvR m p k [] []) h)

theorem Breaks.faults {p : Proc α} {q : Proc β} {a : α} {e : Fault} (h : Breaks p q a e) : RightFaults p q e := by
  obtain ⟨n, h⟩ := h
  refine ⟨n, fun m d hd => ?_⟩
  obtain ⟨k, hk, hs⟩ := stuck_unique h (fun _ h => nomatch h) hd
  refine ⟨by omega, fun hst => ?_⟩
  cases hs with
  | refl => exact ⟨⟨a, rfl⟩, rfl⟩
  | step h _ => exact absurd h (hst _)

/-- A run in which the right party fails gives messages that make it fail. -/
theorem against_of_steps {n : Nat} {c d : Conf α β} {e : Fault} (h : StepsN n c d) (hd : d.right = .fail e) :
    ∃ more, (c.right.against (c.toRight ++ more)).2 = some (.error e) := by
  induction h with
  | refl c => exact ⟨[], by rw [hd]; rfl⟩
  | step hs _ ih =>
    obtain ⟨more, ih⟩ := ih hd
    cases hs with
    | sendL m p q pq qp => exact ⟨m :: more, by simpa using ih⟩
    | sendR m p q pq qp => exact ⟨more, ih⟩
    | recvL m k q pq qp => exact ⟨more, ih⟩
    | recvR m p k pq qp => exact ⟨more, ih⟩

theorem not_memorySafe {p : Proc α} {q : Proc β} (h : RightFaults p q .ub) : ¬ MemorySafe q := by
  obtain ⟨n, h⟩ := h
  obtain ⟨d, ⟨m, hm⟩, hst⟩ := exists_stuck (start p q)
  obtain ⟨inputs, hi⟩ := against_of_steps hm ((h m d hm).2 hst).2
  exact fun hs => hs _ hi

theorem evaluate_self (E : Env) {n : Nat} {f : HMap Nat (List Wire)} {fh : HMap Nat (Wire × Wire)} {X : List Wire}
    (hX : X.length = n) : evaluate E ⟨selfReading n, f, fh⟩ X = .error .ub := by
  obtain ⟨ev, e1, e2, -, e4⟩ := loadInputs (N := n + 1) hX (by omega)
  have h0 : ev[n]? = some none := by rw [e4 n (by omega)]; simp
  unfold evaluate
  have hni : (selfReading n).numInputs = n := rfl
  have hnw : (selfReading n).numWires = n + 1 := rfl
  have hgs : (selfReading n).gates = [⟨n, 2, [n], .add⟩] := rfl
  dsimp only
  rw [hni, hnw, hgs, e1, debugAssertR_ok (by simp [hX])]
  have hr : readInit ev n = .error .ub := by
    unfold readInit
    rw [idxR_ok h0]
    rfl
  have hgate : evalGate E ⟨selfReading n, f, fh⟩ ev 0 ⟨n, 2, [n], .add⟩ = .error .ub := by
    simp only [evalGate, List.mapM_cons, hr]
    rfl
  simp only [List.foldlM_cons, okb, hgate]
  rfl

theorem oneGate_ok {n i : Nat} (hn : n < 2 ^ 63) (hi : i ≤ n) :
    deserializeGarbled (serializeGarbled ⟨⟨n + 1, n, 1, [⟨n, 2, [i], .add⟩], List.replicate n 2⟩, [], []⟩ [] []) =
      .ok ⟨⟨n + 1, n, 1, [⟨n, 2, [i], .add⟩], List.replicate n 2⟩, hmapOfEntries [], hmapOfEntries []⟩ := by
  refine deserializeGarbled_ok ⟨⟨?_, ?_, ?_, ?_, ?_, ?_, ?_⟩, by simp, by simp, by simp, by simp⟩
  · show n + 1 < 2 ^ 64; omega
  · show n < 2 ^ 64; omega
  · show 1 < 2 ^ 64; omega
  · show 1 < 2 ^ 64; omega
  · intro g hg
    have hg : g ∈ [(⟨n, 2, [i], .add⟩ : Gate)] := hg
    rw [List.mem_singleton] at hg
    subst hg
    refine ⟨?_, ?_, ?_, ?_, trivial⟩
    · show n < 2 ^ 64; omega
    · show 2 < 65536; omega
    · show 1 < 2 ^ 64; omega
    · intro j hj
      rw [List.mem_singleton] at hj
      omega
  · show (List.replicate n 2).length < 2 ^ 64; rw [List.length_replicate]; omega
  · intro d hd
    have := (List.mem_replicate.mp hd).2
    omega

theorem replicate_fits (label : WireBytes) (n : Nat) : ∀ m ∈ List.replicate n (label.toList, label.toList),
    m.1.length = 32 ∧ m.2.length = 32 := by
  intro m hm
  rw [(List.mem_replicate.mp hm).2]
  simp

theorem saboteur_breaks (E : Env) {S : List (Bytes × Bytes) → Proc Unit} {V : List Bool → Proc (List Bytes)} (p : Bytes) (n : Nat)
    (hn : n = 8 * p.length) (hfit : n < 2 ^ 62) (hot : CorrectOT 32 n S V) (label : WireBytes) :
    Breaks (saboteur S n label) (halfEvaluator E V p) () .ub := by
  have hpl : (u8VecToBoolVec p).length = n := by rw [unpack_length, hn]
  unfold saboteur halfEvaluator
  refine .after (hot _ (u8VecToBoolVec p) (by simp) hpl (replicate_fits label n)).ends ?_
  rw [chosen_same label _ hpl, labelsOf_ok E.dbg (by intro w hw; rw [(List.mem_replicate.mp hw).2]), liftM_ok, ret_bind, sendP_bind, recvP_bind]
  refine .sendRecv ?_
  have hgc := oneGate_ok (n := 2 * n) (i := 2 * n) (by omega) (by omega)
  unfold selfReading
  rw [hgc, liftM_ok, ret_bind, recvP_bind]
  refine .sendRecv (p := .ret ()) ?_
  rw [deserialize_ok wires_rt ⟨by rw [List.length_replicate]; omega, fun w hw => by
    rw [(List.mem_replicate.mp hw).2]; exact binary_fits rfl⟩, liftM_ok, ret_bind]
  unfold evaluatedKey
  have := evaluate_self E (n := 2 * n) (f := hmapOfEntries []) (fh := hmapOfEntries [])
    (X := List.replicate n (⟨.binary, label⟩ : Wire) ++ List.replicate n (⟨.binary, label⟩ : Wire)) (by simp; omega)
  unfold selfReading at this
  rw [this]
  exact .fail _ _

theorem bytesToEncoding_nil (dbg : Bool) {n w : Nat} (hn : 0 < n) (hw : 0 < w) : bytesToEncoding dbg [] n w = .error .ub := by
  obtain ⟨m, rfl⟩ : ∃ m, n = m + 1 := ⟨n - 1, by omega⟩
  unfold bytesToEncoding
  rw [List.range_succ_eq_map, List.mapM_cons]
  have : vectorRow ([] : Bytes) 0 w = .error .ub := by
    unfold vectorRow
    rw [if_neg (by simp; omega)]
    rfl
  rw [this]
  rfl

theorem shortServer_breaks (C : Curve) (X : Crypto) (s s2 : OTSend) (many : ManySend) (c : ClientDraws) (hs : s.Valid) (hs2 : s2.Valid)
    (hc : c.ot.Valid) (hc2 : c.ot2.Valid) (password : Bytes) (count index : Nat) (hp : 0 < password.length)
    (hfit : password.length < 2 ^ 32) (hk : ∃ k, count = 2 ^ k) (hcount : count < 2 ^ 32) (hi : index < count)
    (hm : many.Valid X.dbg count) (label : WireBytes) {f : WireBytes → Bytes → Proc α} :
    Breaks (shortServer C X s many s2 password.length count label) (do
      let n := password.length * 8
      let gc ← deserializeGarbled (← recvP)
      let choices ← bitsUpTo password password.length
      let clientEncoding ← c.ot.run C X choices
      let encodedMask ← recvP
      let domain ← log2R X.dbg 32 count
      let masked ← manyRecv C X c.many index domain
      let maskedChoices ← bitsUpTo masked password.length
      let maskedEncoding ← c.ot2.run C X maskedChoices
      let rowLength := (← idxR maskedEncoding 0).length
      let client ← payloadToEncoding X.dbg clientEncoding n
      let mask ← bytesToEncoding X.dbg encodedMask n rowLength
      let server ← payloadToEncoding X.dbg maskedEncoding n
      let k ← evaluatedKey X.toEnv gc (client ++ mask ++ server)
      f k masked) () .ub := by
  have hn : 0 < password.length * 8 := by omega
  have hot := ot_correct C X hs hc (n := password.length * 8) hn (by omega) (by omega)
  have hot2 := ot_correct C X hs2 hc2 (n := password.length * 8) hn (by omega) (by omega)
  have hpl : (u8VecToBoolVec password).length = password.length * 8 := by rw [unpack_length]; omega
  have hdb : Database (List.replicate count (List.replicate password.length (0 : Byte))) password.length :=
    ⟨by simpa using hk, by simpa using hcount, fun p hp => by rw [(List.mem_replicate.mp hp).2]; simp⟩
  obtain ⟨domain, d1, d2, hmany⟩ := manyRun_ends C X (base := c.many) hdb (by simpa using hm) (index := index) (by simpa using hi) hp hfit
  rw [List.length_replicate] at d1 d2
  rw [List.getElem_replicate] at hmany
  unfold shortServer
  rw [sendP_bind, recvP_bind]
  refine .sendRecv ?_
  unfold firstInput
  rw [oneGate_ok (by omega) (by omega), liftM_ok, ret_bind, bitsUpTo_ok rfl, liftM_ok, ret_bind]
  refine .after (hot _ _ (by simp) hpl (replicate_fits label _)).ends ?_
  rw [sendP_bind, recvP_bind]
  refine .sendRecv ?_
  rw [d1, d2, liftM_ok, ret_bind, ret_bind]
  refine .after hmany ?_
  rw [bitsUpTo_ok (by simp), liftM_ok, ret_bind]
  have hzl : (u8VecToBoolVec (List.replicate password.length (0 : Byte))).length = password.length * 8 := by rw [unpack_length]; simp; omega
  refine .afterR (hot2 _ _ (by simp) hzl (replicate_fits label _)).ends ?_
  rw [chosen_same label _ hpl, chosen_same label _ hzl]
  rw [idxR_ok (a := label.toList) (by simp [hn]; rfl), liftM_ok, ret_bind]
  dsimp only
  rw [payloadToEncoding_ok X.dbg (by intro w hw; rw [(List.mem_replicate.mp hw).2]) (by simp), liftM_ok, ret_bind,
    bytesToEncoding_nil X.dbg hn (by simp)]
  rfl

theorem wiresNil : Codec.wires.deserialize (Codec.wires.enc []) = .ok [] :=
  deserialize_ok wires_rt ⟨by simp, by simp⟩

theorem shortClient_breaks (C : Curve) (X : Crypto) (s : OTSend) (o : OTRecv) (hs : s.Valid) (ho : o.Valid) (passwords : List Bytes)
    (mask : Bytes) (h0 : 0 < passwords.length) (hp : 0 < mask.length) (hfit : mask.length < 2 ^ 32)
    (hm : passwords[0].length = mask.length) (label : WireBytes) :
    Breaks (shortClient C X s mask.length label) (evaluatorServerV3 C X o passwords mask) () .ub := by
  have hn : 0 < mask.length * 8 := by omega
  have hot := ot_correct C X hs ho (n := mask.length * 8) hn (by omega) (by omega)
  have hpl : (u8VecToBoolVec mask).length = mask.length * 8 := by rw [unpack_length]; omega
  unfold shortClient evaluatorServerV3
  rw [idxR_ok (a := passwords[0]) (List.getElem?_eq_getElem h0), liftM_ok, ret_bind]
  dsimp only
  rw [hm, sendP_bind, recvP_bind]
  refine .sendRecv ?_
  unfold firstInput
  rw [oneGate_ok (by omega) (by omega), liftM_ok, ret_bind, sendP_bind, recvP_bind]
  refine .sendRecv ?_
  rw [wiresNil, liftM_ok, ret_bind, bitsUpTo_ok rfl, liftM_ok, ret_bind]
  refine .after (hot _ _ (by simp) hpl (replicate_fits label _)).ends ?_
  rw [recvP_bind]
  refine .sendRecv (p := .ret ()) ?_
  rw [chosen_same label _ hpl, idxR_ok (a := label.toList) (by simp [hn]; rfl), liftM_ok, ret_bind]
  rw [payloadToEncoding_ok X.dbg (by intro w hw; rw [(List.mem_replicate.mp hw).2]) (by simp), liftM_ok, ret_bind,
    bytesToEncoding_nil X.dbg hn (by simp)]
  exact .fail _ _

theorem shortClient2_breaks (C : Curve) (X : Crypto) (s : OTSend) (many : Nat → Nat) (r : ServerEvaluator2) (hs : s.Valid)
    (hr : r.ot.Valid) (passwords : List Bytes) (len : Nat) (hdb : Database passwords len) (hlen : 0 < len) (hfit : len < 2 ^ 32)
    (h0 : 0 < passwords.length) (hm : r.many.Valid X.dbg passwords.length) (label : WireBytes) :
    Breaks (shortClient2 C X s many len passwords.length label) (evaluatorServerV2 C X r passwords) () .ub := by
  have hn : 0 < len * 8 := by omega
  have hot := ot_correct C X hs hr (n := len * 8) hn (by omega) (by omega)
  have hml := Props.drawMask_length r.mask len
  generalize hmm : drawMask r.mask len = mask at hml
  have hpl : (u8VecToBoolVec mask).length = len * 8 := by rw [unpack_length]; omega
  obtain ⟨domain, d1, d2, hmany⟩ := manyRun_ends C X (base := many) (Props.Database.map hdb hml) (by simpa using hm)
    (index := 0) (by simpa using h0) hlen hfit
  rw [List.length_map] at d1 d2
  have h00 : passwords[0].length = len := hdb.lengths _ (List.getElem_mem h0)
  unfold shortClient2 evaluatorServerV2
  rw [idxR_ok (a := passwords[0]) (List.getElem?_eq_getElem h0), liftM_ok, ret_bind]
  dsimp only
  rw [h00, sendP_bind, recvP_bind]
  refine .sendRecv ?_
  unfold firstInput
  rw [oneGate_ok (by omega) (by omega), liftM_ok, ret_bind, sendP_bind, recvP_bind]
  refine .sendRecv ?_
  rw [wiresNil, liftM_ok, ret_bind, hmm, bitsUpTo_ok hml, liftM_ok, ret_bind, maskPasswords_ok X.dbg hml hdb.lengths, liftM_ok, ret_bind]
  refine .after (hot _ _ (by simp) hpl (replicate_fits label _)).ends ?_
  rw [d1, d2, liftM_ok, ret_bind, ret_bind]
  refine .after hmany.swap ?_
  rw [recvP_bind]
  refine .sendRecv (p := .ret ()) ?_
  rw [chosen_same label _ hpl, idxR_ok (a := label.toList) (by simp [hn]; rfl), liftM_ok, ret_bind]
  rw [payloadToEncoding_ok X.dbg (by intro w hw; rw [(List.mem_replicate.mp hw).2]) (by simp), liftM_ok, ret_bind,
    bytesToEncoding_nil X.dbg hn (by simp)]
  exact .fail _ _


/-! ### More parties that stay in bounds -/

theorem Breaks.overTags {tagL tagR : Bytes → Bytes} {checkL checkR : Bytes → Bytes → R Unit}
    (h1 : ∀ m, checkR m (tagL m) = .ok ()) (h2 : ∀ m, checkL m (tagR m) = .ok ()) {p : Proc α} {q : Proc β} {a : α} {e : Fault}
    (h : Breaks p q a e) : Breaks (p.overTags tagL checkL) (q.overTags tagR checkR) a e := by
  obtain ⟨n, h⟩ := h
  have key : ∀ (n : Nat) (c d : Conf α β), StepsN n c d →
      Steps (⟨c.left.overTags tagL checkL, c.right.overTags tagR checkR, frames tagL c.toRight, frames tagR c.toLeft⟩ : Conf α β)
      ⟨d.left.overTags tagL checkL, d.right.overTags tagR checkR, frames tagL d.toRight, frames tagR d.toLeft⟩ := by
    intro n c d hs
    induction hs with
    | refl _ => exact .refl _
    | step hs _ ih => exact (step_overTags h1 h2 hs).trans ih
  exact key n _ _ h

theorem Breaks.bindR {p : Proc α} {q : Proc β} {a : α} {e : Fault} (h : Breaks p q a e) (l : β → Proc δ) :
    Breaks p (q >>= l) a e := by
  have := h.andThen (k := Proc.ret) (l := l)
  have e : (start p q).andThen Proc.ret l = start p (q >>= l) := by
    unfold Conf.andThen start
    rw [bindP_ret]
  rw [e] at this
  exact this

variable {B : Bytes → Prop}

theorem manySend_calm (C : Curve) (X : Crypto) (o : ManySend) (messages : List Bytes) (len : Nat) (hdb : Database messages len)
    (ho : o.Valid X.dbg messages.length) (h0 : 0 < messages.length) (hlen : 0 < len) (hfit : len < 2 ^ 32) (domain : Nat)
    (hd : log2R X.dbg 64 messages.length = .ok domain) : Calm B (fun _ => True) (o.run C X messages domain) := by
  obtain ⟨domain', d1, -, hends⟩ := manyRun_ends C X (base := fun _ => 0) hdb ho h0 hlen hfit
  rw [hd] at d1
  cases d1
  unfold ManySend.run manySender at hends ⊢
  dsimp only at hends ⊢
  cases e : manyY X o.cores o.order messages ((List.range domain).map fun j => ((o.keys j).1.toList, (o.keys j).2.toList)) domain with
  | error f =>
    rw [e, liftM_error, fail_bind] at hends
    exact absurd hends.completes not_completes_left
  | ok y => exact (Calm.send _).bind fun _ _ => coSender_calm _ _ _ _

theorem binaryEncode_quiet (key : BinaryEncodingKey) (bits : List Bool) : Quiet (key.encode bits) := by
  unfold BinaryEncodingKey.encode
  refine Quiet.bind (.assert _) fun _ => Quiet.mapM _ fun p _ => ?_
  split
  split
  · exact Quiet.idx _ _
  · exact Quiet.idx _ _

theorem halfGarbler_calm (E : Env) (rnd : GarbleRand) (ord : MapOrder) {ot : List (Bytes × Bytes) → Proc Unit}
    (hot : ∀ m, Calm B (fun _ => True) (ot m)) (password : Bytes) (t : Nat) (hlen : GoodLength password.length) (ht : t < 65535) :
    Calm B (fun _ => True) (halfGarbler E rnd ord ot password t) := by
  obtain ⟨h1, h2, h3⟩ := goodLength hlen
  have hpl : (u8VecToBoolVec password).length = 8 * password.length := unpack_length _
  obtain ⟨run, z, d, K, hrun, hgb, hzl, hzb, hK, -⟩ := half_key E rnd
    (thr_typedD (T := t + 1) (show 0 < 8 * password.length by omega) good2 h3)
    (by intro d hd; exact (List.mem_replicate.mp hd).2) (by show 0 < 8 * password.length * 2; omega) rfl (thr_last _ _ _)
  unfold halfGarbler
  dsimp only
  rw [hpl, buildCircuit_ok E.dbg h2 ht, liftM_ok, ret_bind, hgb, liftM_ok, ret_bind]
  refine (Calm.quietly (.slice _ _ _)).bind fun _ _ => (Calm.quietly (.slice _ _ _)).bind fun _ _ => (hot _).bind fun _ _ =>
    (Calm.send _).bind fun _ _ => (Calm.quietly (binaryEncode_quiet _ _)).bind fun _ _ => (Calm.send _).bind fun _ _ => ?_
  dsimp only
  rw [hK]
  exact Calm.ret trivial

theorem payload_rows {dbg : Bool} {p : List Bytes} {n : Nat} (hn : 0 < n) {ws : List Wire} (h : payloadToEncoding dbg p n = .ok ws)
    {r : Bytes} (hr : p[0]? = some r) : r.length = 32 := by
  obtain ⟨m, rfl⟩ : ∃ m, n = m + 1 := ⟨n - 1, by omega⟩
  unfold payloadToEncoding at h
  rw [List.range_succ_eq_map, List.mapM_cons, idxR_ok hr, okb] at h
  by_contra hl
  unfold Wire.fromBytes at h
  rw [dif_neg hl] at h
  cases h

theorem bytesToEncoding_quiet (dbg : Bool) {b : Bytes} {n : Nat} (h : 32 * n ≤ b.length) : Quiet (bytesToEncoding dbg b n 32) := by
  unfold bytesToEncoding
  refine Quiet.mapM _ fun i hi => ?_
  have hi : i < n := by simpa using hi
  exact Safe.bind (vectorRow_safe (by omega)) fun _ _ => Wire.fromBytes_quiet ..

theorem evaluatorServerV3_calm (C : Curve) (X : Crypto) (o : OTRecv) (ho : o.Valid) (passwords : List Bytes) (mask : Bytes) (len : Nat)
    (hp : ∀ p ∈ passwords, p.length = len) :
    Calm (fun m => DisorderlyCircuit m ∨ m.length < 32 * (len * 8)) (fun _ => True) (evaluatorServerV3 C X o passwords mask) := by
  unfold evaluatorServerV3
  refine (Calm.lift (Safe.idx _ _)).bind fun p0 hp0 => Calm.recv.bind fun m hm =>
    (deserializeGarbled_calm m fun h => hm (.inl h)).bind fun gc hgc => Calm.recv.bind fun _ _ =>
    (Calm.quietly (.deserialize _ _)).bind fun _ _ => (Calm.quietly (bitsUpTo_quiet ..)).bind fun _ _ =>
    (OTRecv.calm C X ho _).bind fun enc _ => Calm.recv.bind fun sv hsv => ?_
  have hl : ¬ sv.length < 32 * (len * 8) := fun h => hsv (.inr h)
  have h0 : p0.length = len := hp _ hp0
  dsimp only
  rw [h0]
  cases e0 : enc[0]? with
  | none =>
    rw [show idxR enc 0 = .error .panic by unfold idxR; rw [e0]; rfl, liftM_error, fail_bind]
    show Fault.panic ≠ .ub
    simp
  | some r =>
    rw [idxR_ok e0, liftM_ok, ret_bind]
    cases e1 : payloadToEncoding X.dbg enc (len * 8) with
    | error f =>
      have := payloadToEncoding_quiet X.dbg enc (len * 8)
      rw [e1] at this
      exact this
    | ok ws =>
      rw [liftM_ok, ret_bind]
      refine Calm.bind (P := fun _ => True) (Calm.quietly ?_) fun _ _ => Calm.quietly (evaluatedKey_quiet _ gc _ hgc)
      by_cases hn : 0 < len * 8
      · rw [payload_rows hn e1 e0]
        exact bytesToEncoding_quiet X.dbg (by omega)
      · rw [show len * 8 = 0 by omega]
        exact Quiet.pure _

end FP
