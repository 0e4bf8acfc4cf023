import Verif.Proof.Keys
import Verif.Props.Garble
import Verif.Spec.Hamming
import Verif.Proof.WitnessRun
import Verif.Proof.Witness
/-
C08: binary and general encoding keys.  C09: decoding rejects foreign wires.
-/
namespace FP.Props
open FP.Spec

/-! ### C08 -/

/-- An encoding key of a circuit with binary inputs: every wire is binary and the key has a binary
delta. -/
structure IsBinaryKey (key : EncodingKey) : Prop where
  wires : ∀ w ∈ key.wires, w.domain = .binary
  delta : ∃ δ, List.lookup 2 key.delta = some δ ∧ δ.domain = .binary

/-- C08 for an arbitrary binary key. -/
theorem C08_binary_key (dbg : Bool) (key : EncodingKey) (h : IsBinaryKey key) :
    ∃ bk, BinaryEncodingKey.ofKey dbg key = .ok bk ∧
      -- encoding bits with the binary key = encoding 0/1 values with the original key
      (∀ bits : List Bool, bits.length = key.wires.length →
        ∃ X, bk.encode bits = .ok X ∧ key.encode dbg (bitsNat bits) = .ok X) ∧
      -- converting back gives a key that encodes identically
      (key.wires ≠ [] → ∃ key', bk.toKey dbg = .ok key' ∧ ∀ x, key'.encode dbg x = key.encode dbg x) ∧
      -- zipping and unzipping is the identity
      (∃ z, bk.zipped = .ok z ∧ BinaryEncodingKey.unzipped z = bk) := by
  obtain ⟨hw, δ, hδ, hδd⟩ := h
  have hones : key.wires.mapM (fun w => Wire.add dbg w δ) = .ok (key.wires.map (oneLabel · δ)) :=
    mapM_ok fun w hw' => bin_add dbg (hw w hw') hδd
  have hall : (key.wires.all fun w => w.dom == 2) = true := by
    rw [List.all_eq_true]; intro w hw'; simp [bin_dom (hw w hw')]
  refine ⟨⟨key.wires, key.wires.map (oneLabel · δ)⟩, ?_, ?_, ?_, ?_⟩
  · simp only [BinaryEncodingKey.ofKey, hall, assertR, if_true, okb, HMap.getR_ok hδ, hones, purek]
  · intro bits hl
    refine ⟨(key.wires.zip bits).map fun p => if p.2 then oneLabel p.1 δ else p.1, ?_, ?_⟩
    · simp only [BinaryEncodingKey.encode, hl, beq_self_eq_true, assertR, if_true, okb]
      obtain ⟨ys, hys, hf⟩ := mapM_exists (l := bits.zipIdx)
        (f := fun p : Bool × Nat => if p.1 then idxR (key.wires.map (oneLabel · δ)) p.2
          else idxR key.wires p.2)
        (P := fun p y => ∃ w, key.wires[p.2]? = some w ∧ y = if p.1 then oneLabel w δ else w) (by
          rintro ⟨b, i⟩ hp
          have hi := List.mem_zipIdx_iff_getElem?.mp hp
          have hi' : i < key.wires.length := by
            rw [← hl]; exact (List.getElem?_eq_some_iff.mp hi).1
          cases b
          · exact ⟨_, idxR_ok (List.getElem?_eq_getElem hi'), _, List.getElem?_eq_getElem hi', rfl⟩
          · refine ⟨oneLabel key.wires[i] δ, ?_, _, List.getElem?_eq_getElem hi', rfl⟩
            simp only [if_true]
            exact idxR_ok (by rw [List.getElem?_map, List.getElem?_eq_getElem hi']; rfl))
      refine hys.trans ?_
      congr 1
      apply List.ext_getElem
      · rw [← hf.length_eq]; simp [hl]
      · intro i h1 h2
        have hb : i < bits.length := by rw [← hf.length_eq] at h1; simpa using h1
        have := List.Forall₂.get hf (i := i) (by simpa using hb) h1
        simp only [List.get_eq_getElem, List.getElem_zipIdx, Nat.zero_add] at this
        obtain ⟨w, e1, e2⟩ := this
        have hk : i < key.wires.length := by omega
        rw [List.getElem?_eq_getElem hk] at e1
        injection e1 with e1
        simp [e2, ← e1]
    · unfold EncodingKey.encode
      rw [debugAssertR_ok (by simp [bitsNat, hl]), okb]
      have hz : key.wires.zip (bitsNat bits) = (key.wires.zip bits).map fun p => (p.1, p.2.toNat) := by
        unfold bitsNat; rw [List.zip_map_right]; rfl
      rw [hz]
      rw [List.mapM_map]
      apply mapM_ok
      rintro ⟨w, b⟩ hp
      have hwb := hw w (List.of_mem_zip hp).1
      simp only [Function.comp, bin_dom hwb, HMap.getR_ok hδ, okb]
      cases b
      · exact bin_mul_zero_add dbg hwb hδd
      · simp only [Bool.toNat_true, bin_mul_one dbg hδd, okb, bin_add dbg hwb hδd, if_true]
  · intro hne
    obtain ⟨w0, ws, hws⟩ := List.exists_cons_of_ne_nil hne
    have hw0 := hw w0 (by simp [hws])
    refine ⟨⟨key.wires, HMap.insert [] 2 δ⟩, ?_, ?_⟩
    · simp only [BinaryEncodingKey.toKey, hws, List.map_cons, idxR, List.getElem?_cons_zero, okb]
      rw [bin_add dbg hw0 (show (oneLabel w0 δ).domain = .binary from rfl), okb, oneLabel_cancel hδd]
      rfl
    · intro x
      unfold EncodingKey.encode
      congr 1
      funext _
      refine mapM_congr_mem fun p hp => ?_
      obtain ⟨w, y⟩ := p
      have hwb := hw w (List.of_mem_zip hp).1
      simp only [bin_dom hwb, HMap.getR_ok hδ, okb]
      rfl
  · refine ⟨key.wires.zip (key.wires.map (oneLabel · δ)), ?_, ?_⟩
    · unfold BinaryEncodingKey.zipped
      rw [mapM_ok (g := fun i => (key.wires.getD i Wire.empty,
        (key.wires.map (oneLabel · δ)).getD i Wire.empty))]
      · congr 1
        apply List.ext_getElem
        · simp
        · intro i h1 h2
          have hi : i < key.wires.length := by simpa using h1
          simp [List.getD, hi]
      · intro i hi
        have hi' : i < key.wires.length := List.mem_range.mp hi
        have e1 : key.wires[i]? = some key.wires[i] := List.getElem?_eq_getElem hi'
        have e2 : (key.wires.map (oneLabel · δ))[i]? = some (oneLabel key.wires[i] δ) := by
          rw [List.getElem?_map, e1]; rfl
        simp only [idxR_ok e1, idxR_ok e2, okb, purek, List.getD, e1, e2, Option.getD_some]
    · unfold BinaryEncodingKey.unzipped
      rw [List.unzip_zip (by simp)]

/-- C08: keys that `garble` returns for a circuit with binary inputs are binary keys, so all of the
above holds for them. -/
theorem C08_garble_binary (E : Env) (rnd : GarbleRand) (c : Circuit) (hc : WellTyped c)
    (hbin : ∀ d ∈ c.inputDomains, d = 2) (hpos : 0 < c.numInputs) :
    ∃ gc e d, garble E rnd c = .ok (gc, e, d) ∧ e.wires.length = c.numInputs ∧ IsBinaryKey e := by
  obtain ⟨run, hrun, hok⟩ := garbleRun_ok E rnd hc
  refine ⟨_, _, _, by unfold garble; rw [hrun, okb, purek], hok.enc, ?_, ?_⟩
  · intro w hw
    obtain ⟨i, hi, rfl⟩ := List.getElem_of_mem hw
    simp only at hi ⊢
    have hin : i < c.inputDomains.length := by rw [hc.inputs, ← hok.enc]; exact hi
    obtain ⟨z, hz, hl⟩ := hok.lab.lab i c.inputDomains[i]
      (by rw [List.getElem?_append_left hin, List.getElem?_eq_getElem hin])
    rw [← hok.pre i (by rw [← hc.inputs]; exact hin), List.getElem?_eq_getElem hi] at hz
    injection hz with hz
    rw [hbin _ (List.getElem_mem hin)] at hl
    rw [hz]
    have := hl.dom; simp [Domain.new] at this; exact this.symm
  · have hin : 0 < c.inputDomains.length := by rw [hc.inputs]; exact hpos
    have hmem := List.getElem_mem hin
    have := (hc.inputGood _ hmem).2
    rw [hbin _ hmem] at this
    obtain ⟨δ, hδ, hδi⟩ := hok.deltas 2 this
    refine ⟨δ, hδ, ?_⟩
    have := hδi.dom; simp [Domain.new] at this; exact this.symm

/-- Only binary keys can be converted: a key with a wire of another domain is refused with a panic, in debug
and in release builds. -/
theorem C08_only_binary (dbg : Bool) (key : EncodingKey) (w : Wire) (hw : w ∈ key.wires) (hd : w.dom ≠ 2) :
    BinaryEncodingKey.ofKey dbg key = .error .panic := by
  unfold BinaryEncodingKey.ofKey
  have : (key.wires.all fun w => w.dom == 2) = false := by
    rw [List.all_eq_false]
    exact ⟨w, hw, by simpa using hd⟩
  rw [this]
  rfl

/-- A key that is refused. -/
example : (⟨.u8 3, Vector.replicate 32 1⟩ : Wire) ∈ (⟨[⟨.binary, Vector.replicate 32 3⟩, ⟨.u8 3, Vector.replicate 32 1⟩],
    [(2, Wire.empty)]⟩ : EncodingKey).wires ∧ (⟨.u8 3, Vector.replicate 32 1⟩ : Wire).dom ≠ 2 := ⟨by simp, by decide⟩

/-- Converting back an empty binary key panics (`key.zeros[0]`). -/
theorem C08_empty_panics (dbg : Bool) : BinaryEncodingKey.toKey dbg ⟨[], []⟩ = .error .panic := rfl

/-- Hypotheses are met: a key with two wires. -/
example : IsBinaryKey ⟨[⟨.binary, Vector.replicate 32 3⟩, ⟨.binary, Vector.replicate 32 9⟩],
    [(5, Wire.empty), (2, ⟨.binary, Vector.replicate 32 1⟩)]⟩ :=
  ⟨by simp, _, rfl, rfl⟩

/-! ### C09 -/

/-- C09: decoding is sound.  If `decode` returns values, then each presented wire hashes, together
with its wire index and the returned value, to the entry of the decoding key for that value. -/
theorem C09_decode_sound (E : Env) (d : DecodingKey) (z : List Wire) (ys : List Nat)
    (h : d.decode E z = .ok ys) :
    ys.length = z.length ∧ ∀ i w y, z[i]? = some w → ys[i]? = some y →
      y < w.dom ∧ ∃ hs, d.hashes[i]? = some hs ∧ hs[y]? = some (hashOut E (d.offset + i) y w) := by
  unfold DecodingKey.decode at h
  refine ⟨by rw [mapM_length h]; simp, fun i w y hw hy => ?_⟩
  obtain ⟨b, hb, hf⟩ := mapM_getElem? h i (w, i) (by simp [List.getElem?_zipIdx, hw])
  rw [hy] at hb
  injection hb with hb
  subst hb
  unfold decodeOne at hf
  simp only at hf
  cases hh : d.hashes[i]? with
  | none => simp only [idxR, hh, panicR, errb] at hf; cases hf
  | some hs =>
    rw [idxR_ok hh, okb] at hf
    cases hsr : decodeSearch E (d.offset + i) w hs (List.range w.dom) with
    | error e => rw [hsr, errb] at hf; cases hf
    | ok r =>
      rw [hsr, okb] at hf
      cases r with
      | none => cases hf
      | some k =>
        simp only [purek] at hf
        injection hf with hf
        subst hf
        obtain ⟨h1, h2⟩ := (decodeSearch_inv hsr).1 k rfl
        exact ⟨List.mem_range.mp h1, hs, rfl, h2⟩

theorem decodeFn_aux (E : Env) (d : DecodingKey) (z : List Wire) (k : Nat) (y : List Nat) (hy : y.length = d.hashes.length) :
    (z.zipIdx k).foldlM (fun y p => do setR y p.2 (← decodeOne E d p)) y =
      ((z.zipIdx k).mapM (decodeOne E d)).map fun ys => y.take k ++ ys ++ y.drop (k + z.length) := by
  induction z generalizing k y with
  | nil => simp [pure, Except.pure, Except.map]
  | cons w z ih =>
    rw [List.zipIdx_cons, List.foldlM_cons, List.mapM_cons]
    cases hf : decodeOne E d (w, k) with
    | error e => rfl
    | ok v =>
      have hk : k < y.length := by
        rw [hy]
        by_contra hk
        unfold decodeOne at hf
        simp only [idxR, List.getElem?_eq_none (Nat.le_of_not_lt hk), panicR, errb] at hf
        cases hf
      rw [okb, okb, setR_ok v hk, okb, ih (k + 1) (y.set k v) (by simpa using hy)]
      cases (z.zipIdx (k + 1)).mapM (decodeOne E d) with
      | error e => rfl
      | ok ys =>
        refine congrArg Except.ok ?_
        show List.take (k + 1) (y.set k v) ++ ys ++ List.drop (k + 1 + z.length) (y.set k v) =
          List.take k y ++ (v :: ys) ++ List.drop (k + (z.length + 1)) y
        have h1 : List.take (k + 1) (y.set k v) = List.take k y ++ [v] := by
          rw [List.take_add_one, List.getElem?_set_self hk, List.take_set_of_le (Nat.le_refl k)]
          rfl
        rw [h1, List.drop_set_of_lt (by omega), show k + 1 + z.length = k + (z.length + 1) by omega]
        simp

/-- C09: what the free function `decode` returns, exactly: the values of `DecodingKey::decode`, followed by a zero
for every output for which no wire is presented; and the same errors. -/
theorem C09_free_function (E : Env) (d : DecodingKey) (z : List Wire) :
    decodeFn E d z = (d.decode E z).map fun ys => ys ++ List.replicate (d.hashes.length - z.length) 0 := by
  unfold decodeFn DecodingKey.decode
  rw [decodeFn_aux E d z 0 _ (by simp)]
  simp

/-- So C09 is false of the free function when wires are missing: it returns the value 0 for every output although
no label at all is presented. -/
theorem C09_fails_missing_wires (E : Env) (d : DecodingKey) : decodeFn E d [] = .ok (List.replicate d.hashes.length 0) := by
  rw [C09_free_function]
  rfl

/-- C09 for keys made by `garble`: whatever wires are presented (as many as there are outputs, each
with its output's domain), `decode` either returns values or `DecodeError`, never panics; and if it
returns values, then each presented wire has the same decoding hash as the genuine label of the
returned value on that output. -/
theorem C09_decode_garbled (E : Env) (rnd : GarbleRand) (c : Circuit) (hc : WellTyped c)
    (Z : List Wire) (hZl : Z.length ≤ c.numOutputs)
    (hZd : ∀ i w m, Z[i]? = some w →
      (c.inputDomains ++ c.gates.map Gate.outputDomain)[c.numWires - c.numOutputs + i]? = some m →
      w.dom = m) :
    ∃ gc e d run, garble E rnd c = .ok (gc, e, d) ∧ garbleRun E rnd c = .ok run ∧
      (d.decode E Z = .error (.err .decode) ∨
       ∃ ys, d.decode E Z = .ok ys ∧ ys.length = Z.length ∧
        ∀ i w y, Z[i]? = some w → ys[i]? = some y → ∃ m L,
          LabelIn run (c.numWires - c.numOutputs + i) m y L ∧
          hashOut E (c.numWires - c.numOutputs + i) y w =
            hashOut E (c.numWires - c.numOutputs + i) y L) := by
  obtain ⟨run, hrun, hok⟩ := garbleRun_ok E rnd hc
  refine ⟨_, _, ⟨run.state.d, run.outputsStartAt⟩, run, by unfold garble; rw [hrun, okb, purek], hrun, ?_⟩
  have hst := hok.start
  have hout := fun i (hi : i < Z.length) => (outInfo E rnd hc hrun i (by omega)).2
  have hone : ∀ p ∈ Z.zipIdx, decodeOne E ⟨run.state.d, run.outputsStartAt⟩ p = .error (.err .decode) ∨
      ∃ y, decodeOne E ⟨run.state.d, run.outputsStartAt⟩ p = .ok y := by
    rintro ⟨w, i⟩ hp
    have hwi := List.mem_zipIdx_iff_getElem?.mp hp
    have hiZ := (List.getElem?_eq_some_iff.mp hwi).1
    obtain ⟨m, z, δ, hs, hm, _, _, _, _, _, hd, hlen, _⟩ := hout i hiZ
    obtain ⟨r, hr⟩ := decodeSearch_total (E := E) (o := run.outputsStartAt + i) (z := w) (hs := hs)
      (ks := List.range w.dom) (by
        intro k hk
        rw [hlen, ← hZd i w m hwi hm]; exact List.mem_range.mp hk)
    simp only [decodeOne, idxR_ok hd, okb, hr]
    cases r with
    | none => exact .inl rfl
    | some k => exact .inr ⟨k, rfl⟩
  have hmap : ∀ l : List (Wire × Nat), (∀ p ∈ l,
      decodeOne E ⟨run.state.d, run.outputsStartAt⟩ p = .error (.err .decode) ∨
      ∃ y, decodeOne E ⟨run.state.d, run.outputsStartAt⟩ p = .ok y) →
      l.mapM (decodeOne E ⟨run.state.d, run.outputsStartAt⟩) = .error (.err .decode) ∨
      ∃ ys, l.mapM (decodeOne E ⟨run.state.d, run.outputsStartAt⟩) = .ok ys := by
    intro l
    induction l with
    | nil => intro _; exact .inr ⟨[], rfl⟩
    | cons p l ih =>
      intro h
      rw [List.mapM_cons]
      rcases h p (by simp) with h1 | ⟨y, h1⟩
      · left; rw [h1, errb]
      · rw [h1, okb]
        rcases ih fun p hp => h p (by simp [hp]) with h2 | ⟨ys, h2⟩
        · left; rw [h2, errb]
        · right; exact ⟨y :: ys, by rw [h2, okb, purek]⟩
  rcases hmap _ hone with h1 | ⟨ys, h1⟩
  · exact .inl h1
  · right
    obtain ⟨hl, hs⟩ := C09_decode_sound E ⟨run.state.d, run.outputsStartAt⟩ Z ys h1
    refine ⟨ys, h1, hl, fun i w y hwi hyi => ?_⟩
    have hiZ := (List.getElem?_eq_some_iff.mp hwi).1
    obtain ⟨hy, hs', hh, hhy⟩ := hs i w y hwi hyi
    obtain ⟨m, z, δ, hs, hm, hz, hzl, _, hδ, hδi, hd, hlen, hrow⟩ := hout i hiZ
    simp only at hh hhy
    rw [hd] at hh
    injection hh with hh
    subst hh
    rw [hZd i w m hwi hm] at hy
    obtain ⟨L, hcar, hL⟩ := hrow y hy
    rw [hL] at hhy
    injection hhy with hhy
    refine ⟨m, L, ⟨z, δ, hz, hzl.dom, hδ, hy, hcar.labelOf hδ⟩, ?_⟩
    rw [hhy, hst]

example := C09_decode_garbled (toyEnv true) Witness.rand exCircuit (by meets) [⟨.u8 5, Vector.replicate 32 1⟩] (by meets) (by
  intro i w m hi hm
  rcases i with _ | i
  · cases hi; cases hm; rfl
  · cases hi)

/-- C09, rejection: if one presented wire collides in the hash with no genuine label of its output,
`decode` returns `DecodeError`. -/
theorem C09_decode_rejects (E : Env) (rnd : GarbleRand) (c : Circuit) (hc : WellTyped c)
    (Z : List Wire) (hZl : Z.length ≤ c.numOutputs)
    (hZd : ∀ i w m, Z[i]? = some w →
      (c.inputDomains ++ c.gates.map Gate.outputDomain)[c.numWires - c.numOutputs + i]? = some m →
      w.dom = m)
    (i : Nat) (w : Wire) (hw : Z[i]? = some w)
    (hforeign : ∀ run, garbleRun E rnd c = .ok run → ∀ m v L,
      LabelIn run (c.numWires - c.numOutputs + i) m v L →
      hashOut E (c.numWires - c.numOutputs + i) v w ≠ hashOut E (c.numWires - c.numOutputs + i) v L) :
    ∃ gc e d, garble E rnd c = .ok (gc, e, d) ∧ d.decode E Z = .error (.err .decode) := by
  obtain ⟨gc, e, d, run, h1, h2, h3⟩ := C09_decode_garbled E rnd c hc Z hZl hZd
  refine ⟨gc, e, d, h1, ?_⟩
  rcases h3 with h3 | ⟨ys, h3, hl, h4⟩
  · exact h3
  · exfalso
    have hi := (List.getElem?_eq_some_iff.mp hw).1
    have hy : i < ys.length := by omega
    obtain ⟨m, L, hL, he⟩ := h4 i w ys[i] hw (List.getElem?_eq_getElem hy)
    exact hforeign run h2 m _ L hL he

/-- C09, no confusion: if decoding hashes of labels of one wire do not collide, presenting the
genuine label of value `v` decodes to `v` and to nothing else. -/
theorem C09_decode_unique (E : Env) (rnd : GarbleRand) (c : Circuit) (hc : WellTyped c)
    (Z : List Wire) (hZl : Z.length ≤ c.numOutputs)
    (hZd : ∀ i w m, Z[i]? = some w →
      (c.inputDomains ++ c.gates.map Gate.outputDomain)[c.numWires - c.numOutputs + i]? = some m →
      w.dom = m) (run : GarbleRun) (hrun : garbleRun E rnd c = .ok run) (hnc : NoCollision E run)
    (d : DecodingKey) (gc : GarbledCircuit) (e : EncodingKey) (hg : garble E rnd c = .ok (gc, e, d))
    (ys : List Nat) (hys : d.decode E Z = .ok ys) (i : Nat) (w : Wire) (y v m : Nat)
    (hw : Z[i]? = some w) (hy : ys[i]? = some y)
    (hv : LabelIn run (c.numWires - c.numOutputs + i) m v w) : y = v := by
  obtain ⟨gc', e', d', run', h1, h2, h3⟩ := C09_decode_garbled E rnd c hc Z hZl hZd
  rw [hg] at h1; cases h1
  rw [hrun] at h2; cases h2
  rcases h3 with h3 | ⟨ys', h3, hl, h4⟩
  · rw [hys] at h3; cases h3
  · rw [hys] at h3; cases h3
    obtain ⟨m', L, hL, he⟩ := h4 i w y hw hy
    have hi := (List.getElem?_eq_some_iff.mp hw).1
    obtain ⟨m0, z, δ, hs, -, hz, hzl, hm0, hδ, hδi, -⟩ := (outInfo E rnd hc hrun i (by omega)).2
    have hmm : ∀ {m v L}, LabelIn run (c.numWires - c.numOutputs + i) m v L →
        m = m0 ∧ IsLabelOf m0 z δ v L ∧ v < m0 := by
      rintro m v L ⟨z', δ', a1, a2, a3, a4, a5⟩
      rw [hz] at a1; injection a1 with a1; subst a1
      have e1 := domEqG (by omega) a2
      have e2 := domEqG hm0 hzl.dom
      obtain rfl : m = m0 := by omega
      rw [hδ] at a3; injection a3 with a3; subst a3
      exact ⟨rfl, a5, a4⟩
    obtain ⟨rfl, b1, b2⟩ := hmm hv
    obtain ⟨rfl, b3, b4⟩ := hmm hL
    obtain rfl := hnc _ _ _ _ _ _ _ hv hL he
    exact carries_inj hδi hδ (carries_of_labelOf b4 hδ b3) (carries_of_labelOf b2 hδ b1)

/-- A wire whose domain is larger than its output's makes `decode` panic instead of returning
`DecodeError`, unless it matches first: the candidate values run past the hash list. -/
theorem C09_larger_domain_panics (E : Env) (h0 : WireBytes) (v : WireBytes)
    (hne : hashOut E 0 0 ⟨.binary, v⟩ ≠ h0) :
    DecodingKey.decode E ⟨[[h0]], 0⟩ [⟨.binary, v⟩] = .error .panic := by
  have : decodeOne E ⟨[[h0]], 0⟩ (⟨.binary, v⟩, 0) = .error .panic := by
    unfold decodeOne
    simp only [idxR, List.getElem?_cons_zero, okb, Wire.dom, Domain.num, Nat.zero_add]
    have e : List.range 2 = [0, 1] := rfl
    rw [e, decodeSearch, idxR_ok (a := h0) rfl, okb, if_neg hne, decodeSearch]
    rfl
  unfold DecodingKey.decode
  rw [show [(⟨.binary, v⟩ : Wire)].zipIdx = [(⟨.binary, v⟩, 0)] from rfl, List.mapM_cons, this, errb]

/-- The hypotheses of C09 are met: a wire that is no label of the first output of the example
circuit is rejected. -/
example (rnd : GarbleRand) (dbg : Bool) :
    ∃ gc e d, garble (toyEnv dbg) rnd exCircuit = .ok (gc, e, d) ∧
      d.decode (toyEnv dbg) [⟨.u8 5, Vector.replicate 32 200⟩] = .error (.err .decode) := by
  refine C09_decode_rejects (toyEnv dbg) rnd exCircuit exCircuit_wellTyped _ (by decide) ?_ 0 _ rfl ?_
  · intro i w m hw hm
    match i, hw with
    | 0, hw =>
      simp only [List.getElem?_cons_zero, Option.some.injEq] at hw
      subst hw
      have : (exCircuit.inputDomains ++ exCircuit.gates.map Gate.outputDomain)[
        exCircuit.numWires - exCircuit.numOutputs + 0]? = some 5 := rfl
      rw [this] at hm; injection hm
    | i + 1, hw => simp at hw
  · rintro run hrun m v L ⟨z, δ, h1, h2, h3, h4, h5⟩ he
    unfold hashOut toyEnv at he
    simp only at he
    rw [toyHash_append, toyHash_append] at he
    obtain ⟨m0, z0, δ0, hs, hm0, hz, hzl, hpos, -⟩ :=
      (outInfo _ rnd exCircuit_wellTyped hrun 0 (by decide)).2
    have h5' : (exCircuit.inputDomains ++ exCircuit.gates.map Gate.outputDomain)[
        exCircuit.numWires - exCircuit.numOutputs + 0]? = some 5 := rfl
    rw [h5'] at hm0; injection hm0 with hm0; subst hm0
    rw [h1] at hz; injection hz with hz; subst hz
    have e1 := domEqG (by omega) h2
    have e2 := domEqG hpos hzl.dom
    obtain rfl : m = 5 := by omega
    have hL := h5.label.lt 0
    have hd := h5.label.dom
    obtain ⟨dL, vL⟩ := L
    simp [Domain.new] at hd
    simp only at he
    subst hd he
    rw [digit] at hL
    simp at hL

end FP.Props
