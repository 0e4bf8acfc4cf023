import Verif.Proof.Memory
import Verif.Proof.ApricotRun
import Verif.Proof.ManyOT
import Verif.Spec.Fpake
/-
Parties of the transfers and of the key exchange that stay in bounds whatever their peer sends.
-/
namespace FP
open Spec

attribute [local irreducible] Spec.modulus

variable {B : Bytes → Prop}

/-! ### Base transfer, coin flip -/

theorem validate_calm (pb : TransactionProperties) : Calm B (fun _ => True) (validateProperties pb) := by
  unfold validateProperties
  refine (Calm.send _).bind fun _ _ => Calm.recv.bind fun m _ => (Calm.quietly (.deserialize _ _)).bind fun p _ => ?_
  split
  · exact Calm.err
  · exact Calm.ret trivial

theorem coinflipSender_calm (E : Env) (v : Bytes) : Calm B (fun _ => True) (coinflipSender E v) := by
  unfold coinflipSender
  refine (Calm.send _).bind fun _ _ => Calm.recv.bind fun u _ => ?_
  split
  · exact Calm.err
  · exact (Calm.send _).bind fun _ _ => Calm.quietly (xorAt_quiet _ _)

theorem coinflipReceiver_calm (E : Env) (u : Bytes) : Calm B (fun _ => True) (coinflipReceiver E u) := by
  unfold coinflipReceiver
  refine Calm.recv.bind fun c _ => (Calm.send _).bind fun _ _ => Calm.recv.bind fun v _ => ?_
  split
  · exact Calm.err
  split
  · exact Calm.err
  · exact Calm.quietly (xorAt_quiet _ _)

theorem coCrypt_quiet (C : Curve) (X : Crypto) (P : C.Pt) (m : Bytes) : Quiet (coCrypt C X P m) := xorBytes_quiet ..

theorem coSender_calm (C : Curve) (X : Crypto) (secrets : Nat → Nat) (msg : List (Bytes × Bytes)) :
    Calm B (fun _ => True) (coSender C X secrets msg) := by
  unfold coSender
  refine (validate_calm _).bind fun _ _ => (Calm.sendAll _).bind fun _ _ => (Calm.recvEach fromSlice_quiet _).bind fun _ _ =>
    (Calm.quietly (.assert _)).bind fun _ _ => (Calm.quietly ?_).bind fun _ _ => Calm.send _
  unfold coEncrypt
  refine Quiet.mapM _ fun p _ => ?_
  unfold coEncryptPair
  refine Quiet.bind (.idx _ _) fun _ => Quiet.bind (.unwrap _) fun _ => Quiet.bind (.idx _ _) fun _ => Quiet.bind (.unwrap _) fun _ =>
    Quiet.bind (coCrypt_quiet ..) fun _ => Quiet.bind (coCrypt_quiet ..) fun _ => .pure _

theorem coReceiver_calm (C : Curve) (X : Crypto) (secrets : Nat → Nat) (choices : List Bool) :
    Calm B (fun _ => True) (coReceiver C X secrets choices) := by
  unfold coReceiver
  refine (validate_calm _).bind fun _ _ => (Calm.recvEach fromSlice_quiet _).bind fun _ _ =>
    (Calm.quietly (.debugAssert _ _)).bind fun _ _ => (Calm.quietly ?_).bind fun pk _ => (Calm.sendAll _).bind fun _ _ =>
    Calm.recv.bind fun m _ => (Calm.quietly (.deserialize _ _)).bind fun payload _ => Calm.quietly ?_
  · unfold coRespondAll
    refine Quiet.mapM _ fun p _ => ?_
    unfold coRespond
    exact Quiet.bind (.unwrap _) fun _ => Quiet.bind (.idx _ _) fun _ => .pure _
  · unfold coDecryptAll
    refine Quiet.mapM _ fun p _ => ?_
    unfold coDecrypt
    exact Quiet.bind (.idx _ _) fun _ => Quiet.bind (.idx _ _) fun _ => xorBytes_quiet ..

/-! ### 1-out-of-n transfer -/

theorem shlOne_safe (dbg : Bool) (bits k : Nat) (h : k < bits) : Safe (· = 2 ^ k) (shlOneR dbg bits k) := by
  unfold shlOneR
  rw [if_pos h]
  exact rfl

theorem shlOne_quiet (dbg : Bool) (bits k : Nat) : Quiet (shlOneR dbg bits k) := by
  unfold shlOneR
  quiet

theorem manyReceiver_calm (X : Crypto) {inner : List Bool → Proc (List Bytes)} (hin : ∀ c, Calm B (fun _ => True) (inner c))
    (choice domain : Nat) (hd : domain < 64) (hc : choice < 2 ^ domain) :
    Calm B (fun _ => True) (manyReceiver X inner choice domain) := by
  unfold manyReceiver
  refine (Calm.quietly ?_).bind fun cs _ => Calm.recv.bind fun y _ => (hin cs).bind fun ms _ => (Calm.quietly ?_).bind fun ks _ =>
    Calm.quietly ?_
  · unfold manyChoices
    exact Quiet.mapM _ fun _ _ => Quiet.bind (shlOne_quiet ..) fun _ => .pure _
  · unfold manyKeys
    exact Quiet.mapM _ fun _ _ => Quiet.bind (.idx _ _) fun _ => Quiet.bind (.debugAssert _ _) fun _ => .pure _
  · unfold manyUnmask
    refine Safe.bind (shlOne_safe _ _ _ hd) fun D hD => ?_
    subst hD
    have hl : y.length / 2 ^ domain * choice + y.length / 2 ^ domain ≤ y.length := by
      calc _ = y.length / 2 ^ domain * (choice + 1) := by rw [Nat.mul_add, Nat.mul_one]
        _ ≤ y.length / 2 ^ domain * 2 ^ domain := Nat.mul_le_mul_left _ hc
        _ ≤ y.length := Nat.div_mul_le_self _ _
    dsimp only
    unfold vectorRow
    rw [if_pos hl, okb]
    exact Quiet.foldlM _ _ fun _ _ _ => Quiet.bind (.idx _ _) fun _ => xorBytesInplace_quiet ..

theorem manyRecv_calm (C : Curve) (X : Crypto) (base : Nat → Nat) (index domain : Nat) (hd : domain < 64)
    (hc : index < 2 ^ domain) : Calm B (fun _ => True) (manyRecv C X base index domain) :=
  manyReceiver_calm X (coReceiver_calm C X base) index domain hd hc

/-! ### The receiver of src/ot/apricot.rs -/

theorem updateRow_safe {v : Bytes} {r w : Nat} {f : Bytes → R Bytes} (h : w * r + w ≤ v.length)
    (hf : ∀ row : Bytes, row.length = w → Safe (fun r' => r'.length = w) (f row)) :
    Safe (fun v' => v'.length = v.length) (updateRow v r w f) := by
  unfold updateRow
  rw [if_pos h]
  refine (hf _ (by simp; omega)).bind fun r' hr' => ?_
  show (_ ++ _ ++ _ : Bytes).length = _
  simp
  omega

theorem row_fits {w i n : Nat} (h : i < n) : w * i + w ≤ n * w := by
  calc w * i + w = (i + 1) * w := by rw [Nat.add_mul, Nat.mul_comm w i, Nat.one_mul]
    _ ≤ n * w := Nat.mul_le_mul_right _ h

theorem vectorRow_safe {v : Bytes} {r w : Nat} (h : w * r + w ≤ v.length) : Safe (fun row => row.length = w) (vectorRow v r w) := by
  unfold vectorRow
  rw [if_pos h]
  show List.length _ = w
  simp
  omega

theorem apXorInplace_safe (dbg : Bool) (a b : Bytes) : Safe (fun r => r.length = a.length) (apXorInplace dbg a b) := by
  unfold apXorInplace
  refine Safe.bind (Quiet.debugAssert _ _) fun _ _ => Safe.foldlM (P := fun r : Bytes => r.length = a.length) _ _ rfl fun s hs i _ => ?_
  refine (Safe.idx ..).bind fun _ _ => (Safe.idx ..).bind fun _ _ => Safe.set _ _ _ fun _ => by simp [hs]

theorem apXor_safe (dbg : Bool) (d a b : Bytes) : Safe (fun r => r.length = d.length) (apXor dbg d a b) := by
  unfold apXor
  refine Safe.bind (Quiet.debugAssert _ _) fun _ _ => Safe.bind (Quiet.debugAssert _ _) fun _ _ =>
    Safe.foldlM (P := fun r : Bytes => r.length = d.length) _ _ rfl fun s hs i _ => ?_
  refine (Safe.idx ..).bind fun _ _ => (Safe.idx ..).bind fun _ _ => Safe.set _ _ _ fun _ => by simp [hs]

theorem apRows_safe (X : Crypto) (w : Nat) (seeds : List Bytes) (hs : ∀ s ∈ seeds, 32 ≤ s.length) :
    Safe (fun t => t.length = 128 * w) (apRows X w seeds) := by
  unfold apRows
  refine Safe.foldlM (P := fun t : Bytes => t.length = 128 * w) _ _ (by simp) fun t ht i hi => ?_
  have hi : i < 128 := by simpa using hi
  refine (updateRow_safe (by rw [ht]; exact row_fits hi) fun row hrow => ?_).mono fun t' h => by rw [h, ht]
  refine (Safe.idx ..).bind fun s hmem => ?_
  unfold arrayFromSlice
  rw [dif_pos (hs s hmem), okb]
  show (X.fill _ _).length = w
  rw [fill_length, hrow]

theorem apPack_safe (padded : List Bool) : Quiet (apPack padded) := by
  unfold apPack
  refine Quiet.foldlM _ _ fun _ _ _ => Quiet.foldlM _ _ fun _ _ _ => Quiet.bind (.idx _ _) fun b => ?_
  split
  · exact (orAt_safe ..).quiet
  · exact .pure _

theorem apU_safe (dbg : Bool) (w : Nat) (t0 t1 packed : Bytes) (h0 : t0.length = 128 * w) (h1 : t1.length = 128 * w) :
    Quiet (apU dbg w t0 t1 packed) := by
  unfold apU
  refine Safe.quiet (P := fun u : Bytes => u.length = 128 * w) (Safe.foldlM _ _ (by simp) fun u hu i hi => ?_)
  have hi : i < 128 := by simpa using hi
  refine (updateRow_safe (by rw [hu]; exact row_fits hi) fun row hrow => ?_).mono fun t' h => by rw [h, hu]
  refine (vectorRow_safe (by rw [h0]; exact row_fits hi)).bind fun _ _ => (vectorRow_safe (by rw [h1]; exact row_fits hi)).bind fun _ _ => ?_
  refine (apXor_safe ..).bind fun r hr => (apXorInplace_safe ..).mono fun r' hr' => by rw [hr', hr, hrow]

theorem transposeMatrix_safe (s t : Bytes) (a b c : Nat) : Safe (fun t' => t'.length = t.length) (transposeMatrix s t a b c) := by
  unfold transposeMatrix
  refine Safe.foldlM (P := fun t' : Bytes => t'.length = t.length) _ _ rfl fun t1 h1 _ _ =>
    Safe.foldlM (P := fun t' : Bytes => t'.length = t.length) _ _ h1 fun t2 h2 _ _ => (Safe.idx ..).bind fun _ _ =>
    Safe.foldlM (P := fun t' : Bytes => t'.length = t.length) _ _ h2 fun t3 h3 _ _ => ?_
  exact (orAt_safe ..).mono fun t' h => by rw [h, h3]

theorem apReceiverSums_safe (dbg arm : Bool) (l : Nat) (padded : List Bool) (t chi : Bytes) (ht : t.length = 16 * l)
    (hc : chi.length = 16 * l) : Quiet (apReceiverSums dbg arm l padded t chi) := by
  unfold apReceiverSums
  refine Safe.quiet (P := fun s : Bytes × Bytes => s.2.length = 16) (Safe.foldlM _ _ (by simp) fun s hs j hj => ?_)
  have hj : j < l := by simpa using hj
  have fits : ∀ v : Bytes, v.length = 16 * l → Safe (fun row => row.length = 16) (vectorRow v j 16) := fun v hv =>
    vectorRow_safe (by omega)
  have rest : ∀ (x chiRow : Bytes), chiRow.length = 16 → Safe (fun s : Bytes × Bytes => s.2.length = 16) (do
      let tRow ← vectorRow t j 16
      let tSum ← apricotMulAcc arm s.2 tRow chiRow
      pure (x, tSum)) := by
    intro x chiRow hcr
    refine (fits t ht).bind fun tRow htr => ?_
    obtain ⟨out, e, ho, -⟩ := apricotMulAcc_elt arm s.2 tRow chiRow hs htr hcr
    rw [e, okb]
    exact ho
  refine (fits chi hc).bind fun chiRow hcr => (Safe.idx ..).bind fun b _ => ?_
  dsimp only
  split
  · exact Safe.bind (apXorInplace_quiet ..) fun x _ => rest x chiRow hcr
  · exact rest _ chiRow hcr

theorem Safe.runJobs {α : Type} (order : List Nat) {work : Nat → α → R α} (chunks : List α) (P : Nat → α → Prop)
    (h0 : ∀ c a, chunks[c]? = some a → P c a) (hw : ∀ c a, P c a → Safe (P c) (work c a)) :
    Safe (fun cs => ∀ c a, cs[c]? = some a → P c a) (FP.runJobs order work chunks) := by
  unfold FP.runJobs
  refine Safe.foldlM (P := fun cs : List α => ∀ c a, cs[c]? = some a → P c a) _ _ h0 fun cs hcs c _ => ?_
  refine Safe.bind (P := P c) ?_ fun a ha => (hw c a ha).bind fun a' ha' => Safe.set _ _ _ fun hlt => ?_
  · unfold idxR
    split
    · next a e => exact hcs c a e
    · exact Safe.panic
  · intro d b e
    by_cases hd : d = c
    · subst hd
      rw [List.getElem?_set_self hlt] at e
      exact Option.some.inj e ▸ ha'
    · rw [List.getElem?_set_ne (Ne.symm hd)] at e
      exact hcs d b e

theorem apDerandomizeRow_safe (X : Crypto) (v d packed : Bytes) (ms j l n : Nat) (row : Bytes) (hv : v.length = l * 32) (hj : j < n)
    (hl : n ≤ l) (hd : 2 * n * ms ≤ d.length) : Quiet (apDerandomizeRow X v d packed ms j row) := by
  unfold apDerandomizeRow
  dsimp only
  refine Safe.bind (vectorRow_safe (by rw [hv]; exact row_fits (by omega))) fun vRow hvr => ?_
  refine Safe.bind (P := fun _ => True) ?_ fun s _ => Safe.bind (Quiet.idx _ _) fun b _ => ?_
  · unfold arrayFromSlice
    rw [dif_pos (by omega)]
    trivial
  · have hc : ((b >>> (j % 8)) &&& 1).toNat ≤ 1 := by
      rw [BitVec.toNat_and]
      exact Nat.and_le_right
    refine Safe.bind (P := fun _ => True) ?_ fun _ _ => apXorInplace_quiet ..
    unfold vectorSlice
    rw [if_pos]
    · trivial
    · generalize ((b >>> (j % 8)) &&& 1).toNat = c at hc
      calc j * ms * 2 + c * ms + ms = (2 * j + c + 1) * ms := by ring
        _ ≤ 2 * n * ms := Nat.mul_le_mul_right _ (by omega)
        _ ≤ d.length := hd

theorem apDerandomize_safe (X : Crypto) (cores : Nat) (sched : Nat → List Nat) (v d packed : Bytes) (n l : Nat) (y : List Bytes)
    (hv : v.length = l * 32) (hl : n ≤ l) (hy : y.length = n) : Quiet (apDerandomize X cores sched v d packed n y) := by
  unfold apDerandomize
  refine Safe.bind (P := fun ms => 2 * n * ms ≤ d.length) ?_ fun ms hms => Safe.bind (Quiet.div _ _) fun k _ => ?_
  · unfold divR
    split
    · exact Safe.panic
    · show 2 * n * (d.length / 2 / n) ≤ d.length
      calc 2 * n * (d.length / 2 / n) = 2 * (d.length / 2 / n * n) := by ring
        _ ≤ 2 * (d.length / 2) := Nat.mul_le_mul_left _ (Nat.div_mul_le_self _ _)
        _ ≤ d.length := by omega
  · refine Safe.bind (P := fun cs : List (List Bytes) => ∀ c a, cs[c]? = some a → c * k + a.length ≤ n) ?_ fun cs hcs => ?_
    · unfold chunksR
      split
      · exact Safe.panic
      · intro c a e
        rw [List.getElem?_map] at e
        obtain ⟨c', e1, e2⟩ := Option.map_eq_some_iff.mp e
        obtain ⟨hlt, e3⟩ := List.getElem?_eq_some_iff.mp e1
        rw [List.getElem_range] at e3
        subst e3
        subst e2
        rw [List.length_range] at hlt
        have hck : c * k ≤ n := by
          have hk : 0 < k := Nat.pos_of_ne_zero ‹_›
          have := (Nat.lt_div_iff_mul_lt hk).mp hlt
          rw [hy] at this
          omega
        simp [hy]
        omega
    · refine Safe.bind (Safe.runJobs _ cs (fun c a => c * k + a.length ≤ n) hcs fun c a ha => ?_) fun _ _ => trivial
      refine Safe.mono (P := fun a' : List Bytes => a'.length = a.length) ?_ fun a' e => by rw [e]; exact ha
      refine Safe.foldlM (P := fun a' : List Bytes => a'.length = a.length) _ _ rfl fun a' ha' i hi => ?_
      have hi : i < a.length := by simpa using hi
      refine (Safe.idx ..).bind fun r _ => Safe.bind (apDerandomizeRow_safe X v d packed ms _ l n r hv (by omega) hl hms) fun r' _ =>
        Safe.set _ _ _ fun _ => by simp [ha']

theorem apricotReceiver_calm (X : Crypto) (arm : Bool) (cores : Nat) (sched1 sched2 : Nat → List Nat) (coin : WireBytes)
    (bonus : Vector Bool 256) (seed0 seed1 : Vector WireBytes 128) {inner : List (Bytes × Bytes) → Proc Unit}
    (hin : ∀ m, Calm B (fun _ => True) (inner m)) (choices : List Bool) (hc : 0 < cores) (hs : ∀ n, IsOrder n (sched1 n)) :
    Calm B (fun _ => True) (apricotReceiver X arm cores sched1 sched2 coin bonus seed0 seed1 inner choices) := by
  have h32 : ∀ s : Vector WireBytes 128, ∀ b ∈ s.toList.map (·.toList), 32 ≤ b.length := by
    intro s b hb
    obtain ⟨v, -, rfl⟩ := List.mem_map.mp hb
    simp
  unfold apricotReceiver
  refine (Calm.quietly (.debugAssert _ _)).bind fun _ _ => (validate_calm _).bind fun _ _ => (coinflipSender_calm _ _).bind fun s _ =>
    (Calm.quietly (.toArray _)).bind fun seed _ => Calm.recv.bind fun size _ => (Calm.quietly (.idx _ _)).bind fun hi _ =>
    (Calm.quietly (.idx _ _)).bind fun lo _ => (hin _).bind fun _ _ => ?_
  unfold apricotReceiverExtend
  dsimp only
  refine (Calm.lift (apRows_safe X _ _ (h32 seed0))).bind fun t0 h0 => (Calm.lift (apRows_safe X _ _ (h32 seed1))).bind fun t1 h1 =>
    (Calm.quietly (apPack_safe _)).bind fun packed _ => (Calm.quietly (apU_safe _ _ _ _ _ h0 h1)).bind fun u _ =>
    (Calm.send _).bind fun _ _ => (Calm.lift (transposeMatrix_safe ..)).bind fun t ht => ?_
  have ht : t.length = 16 * (choices.length + 256) := by rw [ht]; simp
  refine (Calm.quietly (apReceiverSums_safe _ _ _ _ _ _ ht (fill_length ..))).bind fun sums _ => (Calm.send _).bind fun _ _ =>
    (Calm.send _).bind fun _ _ => ?_
  rw [apV_ok X cores sched1 _ t hc hs (by omega) (by omega), liftM_ok, ret_bind]
  refine Calm.recv.bind fun d _ => Calm.quietly (apDerandomize_safe X cores sched2 _ d packed _ (choices.length + 256) _ ?_ (by omega) (by simp))
  rw [flatMap_len (w := 32) (fun j _ => by simp)]
  omega

/-! ### The receiver of src/ot/apricot_classic.rs -/

theorem bitVectorXorAssign_quiet (dbg : Bool) (a b : Bytes) : Quiet (bitVectorXorAssign dbg a b) := by
  unfold bitVectorXorAssign; quiet

theorem asPolynomial_safe (dbg : Bool) (v : Bytes) : Safe (· = v) (asPolynomial dbg v) := by
  unfold asPolynomial
  exact Safe.bind (Quiet.debugAssert _ _) fun _ _ => rfl

theorem classicReceiver_calm (X : Crypto) (arch : Arch) (coin : WireBytes) (bonus : Vector Bool 192)
    (seed0 seed1 : Vector WireBytes 128) {inner : List (Bytes × Bytes) → Proc Unit}
    (hin : ∀ m, Calm B (fun _ => True) (inner m)) (choices : List Bool) :
    Calm B (fun _ => True) (classicReceiver X arch coin bonus seed0 seed1 inner choices) := by
  unfold classicReceiver
  refine (validate_calm _).bind fun _ _ => (Calm.quietly (.assert _)).bind fun _ _ => (Calm.quietly (.assert _)).bind fun _ _ =>
    (hin _).bind fun _ _ => ?_
  unfold classicReceiverExtend
  dsimp only
  refine (Calm.quietly ?_).bind fun x _ => (Calm.quietly ?_).bind fun u _ => (Calm.send _).bind fun _ _ =>
    (Calm.lift (transpose_safe _)).bind fun t ht => Calm.bind (P := fun _ => True) ?_ fun _ _ => ?_
  · unfold monochrome packChoices
    refine Quiet.bind (Quiet.foldlM _ _ fun _ _ _ => Quiet.foldlM _ _ fun _ _ _ => Quiet.bind (.idx _ _) fun _ => ?_) fun _ => .pure _
    exact (orAt_safe ..).quiet
  · unfold clU
    exact Quiet.mapM _ fun _ _ => Quiet.bind (bitVectorXorAssign_quiet ..) fun _ => bitVectorXorAssign_quiet ..
  · unfold clReceiverCheck
    refine (coinflipSender_calm _ _).bind fun s _ => (Calm.quietly (.toArray _)).bind fun seed _ => (Calm.quietly ?_).bind fun _ _ =>
      (Calm.send _).bind fun _ _ => Calm.send _
    unfold clReceiverSums
    refine Safe.quiet (P := fun s : Bytes × Bytes => s.2.length = 16) (Safe.foldlM _ _ (by simp [bitVectorZeros]) fun s hs p hp => ?_)
    have hp2 := (List.of_mem_zip hp).2
    have h1 : p.2.1.length = 16 := by
      have := ht _ (List.of_mem_zip hp2).1
      simpa [clRows] using this
    have h2 : p.2.2.length = 16 := by
      have := (List.of_mem_zip hp2).2
      rw [clChi_eq, List.mem_map] at this
      obtain ⟨j, -, e⟩ := this
      rw [← e]; exact clChiRow_length ..
    refine Safe.bind (asPolynomial_safe _ _) fun a ha => Safe.bind (asPolynomial_safe _ _) fun b hb => ?_
    subst ha
    subst hb
    have rest : ∀ x : Bytes, Safe (fun s : Bytes × Bytes => s.2.length = 16) (do
        let tSum ← gf128MulAcc arch X.dbg s.2 p.2.1 p.2.2
        pure (x, tSum)) := by
      intro x
      obtain ⟨out, e, h, -⟩ := Props.C14_mul_acc_field arch X.dbg s.2 _ _ hs h1 h2
      rw [e, okb]
      exact h
    dsimp only
    split
    · exact Safe.bind (bitVectorXorAssign_quiet ..) fun x _ => rest x
    · exact rest _
  · unfold clReceiverDeRot
    refine Calm.recv.bind fun _ _ => (Calm.quietly (.deserialize _ _)).bind fun _ _ => Calm.recv.bind fun _ _ =>
      (Calm.quietly (.deserialize _ _)).bind fun _ _ => Calm.quietly ?_
    unfold clDecryptAll
    exact Quiet.mapM _ fun _ _ => xorBytes_quiet ..

/-! ### Evaluating parties -/

theorem OTRecv.calm (C : Curve) (X : Crypto) {o : OTRecv} (ho : o.Valid) (choices : List Bool) :
    Calm B (fun _ => True) (o.run C X choices) :=
  apricotReceiver_calm X o.arm o.cores o.sched1 o.sched2 o.coin o.bonus o.seed0 o.seed1 (coSender_calm C X o.base) choices
    ho.cores ho.sched1

theorem deserializeGarbled_calm (m : Bytes) (h : ¬ DisorderlyCircuit m) :
    Calm B (fun gc => Ordered gc.circuit) (liftM (deserializeGarbled m) : Proc GarbledCircuit) := by
  refine Calm.lift ?_
  cases e : deserializeGarbled m with
  | ok gc =>
    by_contra hn
    exact h ⟨gc, e, hn⟩
  | error f =>
    have : Quiet (deserializeGarbled m) := by
      unfold deserializeGarbled
      quiet
    rw [e] at this
    exact this

theorem labelsOf_quiet (dbg : Bool) (l : List Bytes) : Quiet (labelsOf dbg l) :=
  Quiet.mapM _ fun _ _ => Quiet.bind (.toArray _) fun _ => Wire.fromArray_quiet ..

theorem halfEvaluator_calm (E : Env) {ot : List Bool → Proc (List Bytes)} (hot : ∀ c, Calm DisorderlyCircuit (fun _ => True) (ot c))
    (password : Bytes) : Calm DisorderlyCircuit (fun _ => True) (halfEvaluator E ot password) := by
  unfold halfEvaluator
  refine (hot _).bind fun _ _ => (Calm.quietly (labelsOf_quiet ..)).bind fun _ _ => Calm.recv.bind fun m hm =>
    (deserializeGarbled_calm m hm).bind fun gc hgc => Calm.recv.bind fun _ _ => (Calm.quietly (.deserialize _ _)).bind fun _ _ =>
    Calm.quietly (evaluatedKey_quiet E gc _ hgc)

theorem bitsUpTo_quiet (b : Bytes) (n : Nat) : Quiet (bitsUpTo b n) :=
  Quiet.mapM _ fun _ _ => Quiet.bind (.idx _ _) fun _ => .pure _

theorem log2R_quiet (dbg : Bool) (bits x : Nat) : Quiet (log2R dbg bits x) := by
  unfold log2R; quiet

theorem wiresFromBytes_quiet (dbg : Bool) (b : Bytes) (d : Domain) : Quiet (wiresFromBytes dbg b d) :=
  Quiet.mapM _ fun _ _ => Quiet.bind (.toArray _) fun _ => Wire.fromArray_quiet ..

theorem payloadToEncoding_quiet (dbg : Bool) (p : List Bytes) (n : Nat) : Quiet (payloadToEncoding dbg p n) :=
  Quiet.mapM _ fun _ _ => Quiet.bind (.idx _ _) fun _ => Wire.fromBytes_quiet ..

theorem evaluatorClientV1_calm (C : Curve) (X : Crypto) (r : ClientDraws1) (hr : r.ot.Valid) (password : Bytes) (number index : Nat)
    (hi : ∀ d, log2R X.dbg 32 number = .ok d → d < 64 ∧ index < 2 ^ d) :
    Calm DisorderlyCircuit (fun _ => True) (evaluatorClientV1 C X r password number index) := by
  unfold evaluatorClientV1
  refine Calm.recv.bind fun m hm => (deserializeGarbled_calm m hm).bind fun gc hgc => (Calm.quietly (bitsUpTo_quiet ..)).bind fun _ _ =>
    (OTRecv.calm C X hr _).bind fun _ _ => Calm.bind (P := fun d => d < 64 ∧ index < 2 ^ d) (Calm.lift ?_) fun d hd =>
    (manyRecv_calm C X r.many index d hd.1 hd.2).bind fun _ _ => (Calm.quietly (labelsOf_quiet ..)).bind fun _ _ =>
    (Calm.quietly (wiresFromBytes_quiet ..)).bind fun _ _ => Calm.quietly (evaluatedKey_quiet _ gc _ hgc)
  have := log2R_quiet X.dbg 32 number
  cases e : log2R X.dbg 32 number with
  | ok d => exact hi d e
  | error f => rw [e] at this; exact this

theorem evaluatorServerV1_calm (C : Curve) (X : Crypto) (r : OTRecv) (hr : r.Valid) (passwords : List Bytes) :
    Calm DisorderlyCircuit (fun _ => True) (evaluatorServerV1 C X r passwords) := by
  unfold evaluatorServerV1
  refine (Calm.quietly (.idx _ _)).bind fun _ _ => Calm.recv.bind fun m hm => (deserializeGarbled_calm m hm).bind fun gc hgc =>
    Calm.recv.bind fun _ _ => (Calm.quietly (.deserialize _ _)).bind fun _ _ => (Calm.quietly ?_).bind fun _ _ =>
    (OTRecv.calm C X hr _).bind fun _ _ => (Calm.quietly ?_).bind fun _ _ => (Calm.quietly (payloadToEncoding_quiet ..)).bind fun _ _ =>
    Calm.quietly (evaluatedKey_quiet _ gc _ hgc)
  · unfold allBits
    exact Quiet.bind (Quiet.mapM _ fun _ _ => bitsUpTo_quiet ..) fun _ => .pure _
  · unfold unblind
    refine Quiet.foldlM _ _ fun _ _ _ => Quiet.foldlM _ _ fun _ _ _ => ?_
    exact Quiet.bind (.idx _ _) fun _ => Quiet.bind (.idx _ _) fun _ => Quiet.bind (xorBytesInplace_quiet ..) fun _ => .set _ _ _

/-! ### Channels -/

theorem overTags_calm {α : Type} {Q : α → Prop} {tag : Bytes → Bytes} {check : Bytes → Bytes → R Unit}
    (hc : ∀ a b, Quiet (check a b)) {p : Proc α} (h : Calm B Q p) : Calm B Q (p.overTags tag check) := by
  induction p with
  | ret a => exact h
  | fail e => exact h
  | send m p ih => exact ((Calm.send _).bind fun _ _ => Calm.send _).bind fun _ _ => ih h
  | recv k ih =>
    unfold Proc.overTags tagRecv
    refine Calm.bind (P := fun m => ¬ B m) (Calm.recv.bind fun d hd => Calm.recv.bind fun c _ => (Calm.quietly (hc d c)).bind fun _ _ => hd) fun d hd => ?_
    exact ih d ((h d).resolve_left hd)

theorem authCheck_quiet (M : ChannelCrypto) (k : WireBytes) (a b : Bytes) : Quiet (authCheck M k a b) := by
  unfold authCheck; quiet

theorem signedCheck_quiet (S : SigScheme) (k a b : Bytes) : Quiet (signedCheck S k a b) := by
  unfold signedCheck; quiet

end FP
