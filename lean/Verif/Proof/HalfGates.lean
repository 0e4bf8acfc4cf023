import Verif.Spec.HalfGates
import Verif.Proof.Tables
import Verif.Proof.Circuit
/-
Two garblings that look the same to the evaluator.
-/
namespace FP
open Spec

theorem zd_add32 (a b : WireBytes) (i : Nat) :
    zd 2 ⟨.binary, add32 a b⟩ i = zd 2 ⟨.binary, a⟩ i + zd 2 ⟨.binary, b⟩ i := by
  obtain ⟨c, h1, -, h3⟩ := addZ false (by decide : GoodDomain 2) (isLabel_two a) (isLabel_two b)
  rw [add_binary] at h1
  injection h1 with h1
  rw [h1]; exact h3 i

theorem zd_zero32 (i : Nat) : zd 2 ⟨.binary, zero32⟩ i = 0 := by
  have := zd_add32 zero32 zero32 i
  rw [add32_zero] at this
  exact left_eq_add.mp this

theorem zd_when (p : Bool) (a : WireBytes) (i : Nat) :
    zd 2 ⟨.binary, when32 p a⟩ i = p.toNat * zd 2 ⟨.binary, a⟩ i := by
  cases p <;> simp [when32, zd_zero32]

/-- Carrying a bit is adding the delta or not. -/
theorem carries_bit {dl : HMap Nat Wire} {δ z w : WireBytes} {v : Bool} (hδ : List.lookup 2 dl = some ⟨.binary, δ⟩) :
    Carries dl 2 ⟨.binary, z⟩ v.toNat ⟨.binary, w⟩ ↔ z = add32 w (when32 v δ) := by
  constructor
  · intro h
    have e : (⟨.binary, w⟩ : Wire) = ⟨.binary, add32 z (when32 v δ)⟩ :=
      label_ext h.lab (isLabel_two _) fun i => by rw [h.eq _ hδ i, zd_add32, zd_when]
    injection e with _ e
    rw [e, add32_cancel]
  · rintro rfl
    refine ⟨by cases v <;> decide, isLabel_two _, fun δ' hδ' i => ?_⟩
    rw [hδ] at hδ'
    injection hδ' with hδ'
    subst hδ'
    rw [zd_add32, zd_when, add_assoc]
    have : ∀ y : ZMod 2, y + y = 0 := by decide
    rw [this, add_zero]

/-- The zero labels `Z` are those of the labels `act` for the bits `V`. -/
structure World (δ : WireBytes) (act : Nat → WireBytes) (V : Nat → Bool) (n : Nat) (Z : List Wire) : Prop where
  len : Z.length = n
  zero : ∀ i < n, Z[i]? = some ⟨.binary, add32 (act i) (when32 (V i) δ)⟩

/-- The hashes of the second world at the AND gate on `a` and `b` with number `k`. -/
structure HashRel (sha sha' : Bytes → WireBytes) (δ δ' : WireBytes) (act : Nat → WireBytes) (V V' : Nat → Bool)
    (a b k : Nat) : Prop where
  left : tweaked sha' (act a) k = tweaked sha (act a) k
  right : tweaked sha' (act b) k = tweaked sha (act b) k
  left' : tweaked sha' (add32 (act a) δ') k = add32 (tweaked sha (add32 (act a) δ) k)
    (add32 (when32 (colourBit (act b) ^^ V b) δ) (when32 (colourBit (act b) ^^ V' b) δ'))
  right' : tweaked sha' (add32 (act b) δ') k = add32 (tweaked sha (add32 (act b) δ) k)
    (add32 (when32 (V a) δ) (when32 (V' a) δ'))

theorem tweaked_pair (sha : Bytes → WireBytes) (δ A : WireBytes) (v : Bool) (k : Nat) :
    add32 (tweaked sha (add32 A (when32 v δ)) k) (tweaked sha (add32 (add32 A (when32 v δ)) δ) k) =
      add32 (tweaked sha A k) (tweaked sha (add32 A δ) k) := by
  cases v
  · simp only [when32, Bool.false_eq_true, if_false, add32_zero]
  · simp only [when32, if_true, add32_cancel]; exact add32_comm _ _

theorem garblerHalf_act (sha : Bytes → WireBytes) {δ : WireBytes} (hδ : colourBit δ = true) (A B : WireBytes) (va vb : Bool)
    (k : Nat) : garblerHalf sha δ (add32 A (when32 va δ)) (add32 B (when32 vb δ)) k =
      add32 (add32 (tweaked sha A k) (tweaked sha (add32 A δ) k)) (when32 (colourBit B ^^ vb) δ) := by
  unfold garblerHalf
  rw [tweaked_pair, colour_add, colour_when, hδ, Bool.and_true]

theorem evaluatorHalf_act (sha : Bytes → WireBytes) (δ A B : WireBytes) (va vb : Bool) (k : Nat) :
    evaluatorHalf sha δ (add32 A (when32 va δ)) (add32 B (when32 vb δ)) k =
      add32 (add32 (tweaked sha B k) (tweaked sha (add32 B δ) k)) (add32 A (when32 va δ)) := by
  unfold evaluatorHalf
  rw [tweaked_pair]

/-- The label the evaluator computes at an AND gate. -/
def activeAnd (sha : Bytes → WireBytes) (A B tg te : WireBytes) (k : Nat) : WireBytes :=
  add32 (add32 (tweaked sha A k) (when32 (colourBit A) tg)) (add32 (tweaked sha B k) (when32 (colourBit B) (add32 te A)))

theorem andLabel_act (sha : Bytes → WireBytes) {δ : WireBytes} (hδ : colourBit δ = true) (A B : WireBytes) (va vb : Bool)
    (k : Nat) : andLabel sha δ (add32 A (when32 va δ)) (add32 B (when32 vb δ)) k =
      add32 (activeAnd sha A B (garblerHalf sha δ (add32 A (when32 va δ)) (add32 B (when32 vb δ)) k)
        (evaluatorHalf sha δ (add32 A (when32 va δ)) (add32 B (when32 vb δ)) k) k) (when32 (va && vb) δ) := by
  unfold andLabel activeAnd
  rw [garblerHalf_act sha hδ, evaluatorHalf_act]
  simp only [colour_add, colour_when, hδ, Bool.and_true]
  generalize hA : tweaked sha A k = HA
  generalize hB : tweaked sha B k = HB
  generalize hA' : tweaked sha (add32 A δ) k = HA'
  generalize hB' : tweaked sha (add32 B δ) k = HB'
  have e1 : tweaked sha (add32 A (when32 va δ)) k = if va then HA' else HA := by
    cases va
    · simp only [when32, Bool.false_eq_true, if_false, add32_zero, hA]
    · simp only [when32, if_true, hA']
  have e2 : tweaked sha (add32 B (when32 vb δ)) k = if vb then HB' else HB := by
    cases vb
    · simp only [when32, Bool.false_eq_true, if_false, add32_zero, hB]
    · simp only [when32, if_true, hB']
  rw [e1, e2]
  apply xb_ext
  intro i j
  generalize colourBit A = ca
  generalize colourBit B = cb
  cases va <;> cases vb <;> cases ca <;> cases cb <;>
  simp only [xb_add, xb_when, if_true, if_false, Bool.false_eq_true, Bool.xor_false, Bool.xor_true, Bool.not_true,
    Bool.not_false, Bool.true_and, Bool.false_and, Bool.and_self] <;>
  generalize xb HA i j = p1 <;> generalize xb HA' i j = p2 <;> generalize xb HB i j = p3 <;>
  generalize xb HB' i j = p4 <;> generalize xb A i j = p5 <;> generalize xb δ i j = p6 <;>
  revert p1 p2 p3 p4 p5 p6 <;> decide

/-- The evaluator's labels. -/
def actives (act : Nat → WireBytes) (n : Nat) : List (Option Wire) := (List.range n).map fun i => some ⟨.binary, act i⟩

def bitsUnder (V : Nat → Bool) (n : Nat) : List Nat := (List.range n).map fun i => (V i).toNat

theorem World.evInv {dl : HMap Nat Wire} {δ : WireBytes} {act : Nat → WireBytes} {V : Nat → Bool} {doms : List Nat}
    {Z : List Wire} (hδ : List.lookup 2 dl = some ⟨.binary, δ⟩) (h2 : ∀ d ∈ doms, d = 2)
    (h : World δ act V doms.length Z) : EvInv dl doms Z (bitsUnder V doms.length) (actives act doms.length) := by
  refine ⟨by simp [bitsUnder], fun i m hi => ?_⟩
  have hlt := (List.getElem?_eq_some_iff.mp hi).1
  obtain rfl := h2 m (List.mem_of_getElem? hi)
  refine ⟨_, ⟨.binary, act i⟩, (V i).toNat, h.zero i hlt, by simp [actives, hlt], by simp [bitsUnder, hlt],
    (carries_bit hδ).mpr rfl⟩

theorem World.labInv {δ : WireBytes} {act : Nat → WireBytes} {V : Nat → Bool} {doms : List Nat}
    {Z : List Wire} (h2 : ∀ d ∈ doms, d = 2) (h : World δ act V doms.length Z) : LabInv doms Z := by
  refine ⟨h.len, fun i m hi => ?_⟩
  have hlt := (List.getElem?_eq_some_iff.mp hi).1
  obtain rfl := h2 m (List.mem_of_getElem? hi)
  exact ⟨_, h.zero i hlt, isLabel_two _⟩

theorem World.snoc {δ : WireBytes} {act : Nat → WireBytes} {V : Nat → Bool} {n : Nat} {Z : List Wire}
    (h : World δ act V n Z) {w : Wire} (hw : w = ⟨.binary, add32 (act n) (when32 (V n) δ)⟩) :
    World δ act V (n + 1) (Z ++ [w]) := by
  refine ⟨by simp [h.len], fun i hi => ?_⟩
  by_cases hin : i < n
  · rw [List.getElem?_append_left (by rw [h.len]; exact hin)]; exact h.zero i hin
  · obtain rfl : i = n := by omega
    rw [List.getElem?_append_right (by rw [h.len]), h.len, Nat.sub_self, hw]; rfl

/-- Gates without tables are evaluated without the hash function. -/
theorem evalGate_linear {E E' : Env} (hd : E'.dbg = E.dbg) {g : Gate} (hp : ∀ p, g.kind ≠ .proj p)
    (ha : isAnd g = false) (gc gc' : GarbledCircuit) (ev : List (Option Wire)) (j : Nat) :
    evalGate E' gc' ev j g = evalGate E gc ev j g := by
  unfold evalGate
  cases hk : g.kind with
  | add => simp only [hd]
  | mul c => simp only [hd]
  | proj p => exact absurd hk (hp p)
  | and => simp [isAnd, hk] at ha

theorem garbleGate_f {E : Env} {dl : HMap Nat Wire} {s s1 : GarbleState} {g : Gate} (hp : ∀ p, g.kind ≠ .proj p)
    (h : garbleGate E dl s g = .ok s1) : s1.f = s.f := by
  unfold garbleGate at h
  cases hk : g.kind with
  | proj p => exact absurd hk (hp p)
  | add =>
    rw [hk] at h
    simp only [bind, Except.bind] at h
    split at h
    · cases h
    · split at h
      · cases h
      · cases h; rfl
  | mul c =>
    rw [hk] at h
    simp only [bind, Except.bind] at h
    split at h
    · cases h
    · split at h
      · cases h
      · split at h
        · cases h
        · cases h; rfl
  | and =>
    rw [hk] at h
    simp only [bind, Except.bind] at h
    split at h
    · cases h
    · cases h; rfl

/-- One gate in two worlds. -/
theorem worlds_gate {E E' : Env} (hdbg : E'.dbg = E.dbg) {dl dl' : HMap Nat Wire} {δ δ' : WireBytes}
    (hδ : List.lookup 2 dl = some ⟨.binary, δ⟩) (hδi : DeltaOK dl 2)
    (hδ' : List.lookup 2 dl' = some ⟨.binary, δ'⟩) (hδi' : DeltaOK dl' 2) {act : Nat → WireBytes} {V V' : Nat → Bool}
    {doms : List Nat} (h2 : ∀ d ∈ doms, d = 2) {s t s1 t1 : GarbleState} {g : Gate} (hg : GateOK doms g)
    (hdom : g.domain = 2) (hp : ∀ p, g.kind ≠ .proj p)
    (hs : World δ act V doms.length s.wires) (ht : World δ' act V' doms.length t.wires)
    (hv : gateValue g (g.inputs.map fun i => (V i).toNat) = (V g.output).toNat)
    (hv' : gateValue g (g.inputs.map fun i => (V' i).toNat) = (V' g.output).toNat)
    (hj : t.j = s.j) (hh : t.fHalf = s.fHalf) (hf : t.f = s.f)
    (h1 : garbleGate E dl s g = .ok s1) (h1' : garbleGate E' dl' t g = .ok t1)
    (hact : s1.wires[doms.length]? = some ⟨.binary, add32 (act doms.length) (when32 (V doms.length) δ)⟩)
    (hash : isAnd g = true → HashRel E.sha256 E'.sha256 δ δ' act V V' (g.inputs.getD 0 0) (g.inputs.getD 1 0) (s.j + 1)) :
    World δ act V (doms.length + 1) s1.wires ∧ World δ' act V' (doms.length + 1) t1.wires ∧ t1.j = s1.j ∧
      t1.fHalf = s1.fHalf ∧ t1.f = s1.f := by
  have hod : g.outputDomain = 2 := by
    cases hk : g.kind with
    | proj p => exact absurd hk (hp p)
    | _ => simp [Gate.outputDomain, hk, hdom]
  have hδ1 : DeltaOK dl g.domain := hdom ▸ hδi
  have hδ2 : DeltaOK dl g.outputDomain := hod ▸ hδi
  have hδ1' : DeltaOK dl' g.domain := hdom ▸ hδi'
  have hδ2' : DeltaOK dl' g.outputDomain := hod ▸ hδi'
  have ls := hs.labInv h2
  have lt := ht.labInv h2
  obtain ⟨w, hw, -, -, hr⟩ := gate_half ls hg hδ1 hδ2 h1
  obtain ⟨w', hw', -, -, hr'⟩ := gate_half lt hg hδ1' hδ2' h1'
  have ew : w = ⟨.binary, add32 (act doms.length) (when32 (V doms.length) δ)⟩ := by
    rw [hw, List.getElem?_append_right (by rw [hs.len]), hs.len, Nat.sub_self] at hact
    exact Option.some.inj hact
  have hd2 : delta2 dl = δ := by unfold delta2; rw [hδ]; rfl
  have hdc : colourBit δ = true := hd2 ▸ (delta2_ok hδi).2
  have hd2' : delta2 dl' = δ' := by unfold delta2; rw [hδ']; rfl
  have hdc' : colourBit δ' = true := hd2' ▸ (delta2_ok hδi').2
  have hff : t1.f = s1.f := by rw [garbleGate_f hp h1, garbleGate_f hp h1', hf]
  cases ha : isAnd g with
  | true =>
    rw [ha, if_pos rfl, hd2] at hr
    rw [ha, if_pos rfl, hd2'] at hr'
    have hk : g.kind = .and := by
      unfold isAnd at ha
      split at ha
      · assumption
      · cases ha
    have har := hg.arity
    rw [hk] at har
    obtain ⟨a, b, hins⟩ := List.length_eq_two.mp har.1
    have la : a < doms.length := (List.getElem?_eq_some_iff.mp (hg.inputs a (by simp [hins]))).1
    have lb : b < doms.length := (List.getElem?_eq_some_iff.mp (hg.inputs b (by simp [hins]))).1
    have hz : inputZeros s.wires g = (add32 (act a) (when32 (V a) δ), add32 (act b) (when32 (V b) δ)) := by
      simp [inputZeros, zeroAt, hins, hs.zero a la, hs.zero b lb, List.getD]
    have hz' : inputZeros t.wires g = (add32 (act a) (when32 (V' a) δ'), add32 (act b) (when32 (V' b) δ')) := by
      simp [inputZeros, zeroAt, hins, ht.zero a la, ht.zero b lb, List.getD]
    have hash := hash ha
    simp only [hins, List.getD_cons_zero, List.getD_cons_succ] at hash
    have htg : garblerHalf E'.sha256 δ' (add32 (act a) (when32 (V' a) δ')) (add32 (act b) (when32 (V' b) δ')) (s.j + 1) =
        garblerHalf E.sha256 δ (add32 (act a) (when32 (V a) δ)) (add32 (act b) (when32 (V b) δ)) (s.j + 1) := by
      rw [garblerHalf_act _ hdc', garblerHalf_act _ hdc, hash.left, hash.left']
      apply xb_ext
      intro i k
      simp only [xb_add, xb_when]
      generalize xb (tweaked E.sha256 (act a) (s.j + 1)) i k = t1
      generalize xb (tweaked E.sha256 (add32 (act a) δ) (s.j + 1)) i k = t2
      cases t1 <;> cases t2 <;> cases V b <;> cases V' b <;> cases colourBit (act b) <;> cases xb δ i k <;>
        cases xb δ' i k <;> rfl
    have hte : evaluatorHalf E'.sha256 δ' (add32 (act a) (when32 (V' a) δ')) (add32 (act b) (when32 (V' b) δ')) (s.j + 1) =
        evaluatorHalf E.sha256 δ (add32 (act a) (when32 (V a) δ)) (add32 (act b) (when32 (V b) δ)) (s.j + 1) := by
      rw [evaluatorHalf_act, evaluatorHalf_act, hash.right, hash.right']
      apply xb_ext
      intro i k
      simp only [xb_add, xb_when]
      generalize xb (tweaked E.sha256 (act b) (s.j + 1)) i k = t1
      generalize xb (tweaked E.sha256 (add32 (act b) δ) (s.j + 1)) i k = t2
      cases t1 <;> cases t2 <;> cases V a <;> cases V' a <;> cases xb δ i k <;> cases xb δ' i k <;>
        cases xb (act a) i k <;> rfl
    obtain ⟨r1, r2, r3⟩ := hr
    obtain ⟨r1', r2', r3'⟩ := hr'
    rw [hj] at r1' r2' r3'
    rw [hz] at r3
    rw [hz'] at r3'
    simp only at r3 r3'
    have hV : (V a && V b) = V doms.length := by
      simp only [gateValue, hk, hins, hg.output, List.map_cons, List.map_nil, List.getD_cons_zero, List.getD_cons_succ] at hv
      revert hv
      cases V a <;> cases V b <;> cases V doms.length <;> simp
    have hV' : (V' a && V' b) = V' doms.length := by
      simp only [gateValue, hk, hins, hg.output, List.map_cons, List.map_nil, List.getD_cons_zero, List.getD_cons_succ] at hv'
      revert hv'
      cases V' a <;> cases V' b <;> cases V' doms.length <;> simp
    rw [andLabel_act _ hdc, hV] at r3
    rw [andLabel_act _ hdc', hV', htg, hte] at r3'
    have hact' : act doms.length = activeAnd E.sha256 (act a) (act b)
        (garblerHalf E.sha256 δ (add32 (act a) (when32 (V a) δ)) (add32 (act b) (when32 (V b) δ)) (s.j + 1))
        (evaluatorHalf E.sha256 δ (add32 (act a) (when32 (V a) δ)) (add32 (act b) (when32 (V b) δ)) (s.j + 1)) (s.j + 1) := by
      have ew := congrArg Wire.values (r3.symm.trans ew)
      dsimp only at ew
      rw [← add32_cancel (act doms.length) (when32 (V doms.length) δ), ← ew, add32_cancel]
    have ew' : w' = ⟨.binary, add32 (act doms.length) (when32 (V' doms.length) δ')⟩ := by
      rw [r3', hact']
      unfold activeAnd
      rw [hash.left, hash.right]
    refine ⟨hw ▸ hs.snoc ew, hw' ▸ ht.snoc ew', by rw [r2, r2'], ?_, hff⟩
    rw [r1, r1', hh]
    simp only [andEntry, hz, hz', htg, hte]
  | false =>
    rw [ha, if_neg (by decide)] at hr hr'
    obtain ⟨s1', u, hgg, -, hu, -, -, hev⟩ := gateStep (E := E) ls hg hδ1 hδ2
    rw [h1] at hgg
    injection hgg with hgg
    subst hgg
    obtain ⟨t1', u', hgg', -, hu', -, -, hev'⟩ := gateStep (E := E') lt hg hδ1' hδ2'
    rw [h1'] at hgg'
    injection hgg' with hgg'
    subst hgg'
    obtain rfl : w = u := List.singleton_inj.mp (List.append_cancel_left (hw.symm.trans hu))
    obtain rfl : w' = u' := List.singleton_inj.mp (List.append_cancel_left (hw'.symm.trans hu'))
    obtain ⟨W, hW, hc⟩ := hev ⟨⟨0, 0, 0, [], []⟩, s1.f, s1.fHalf⟩ rfl rfl _ _ (hs.evInv hδ h2)
    obtain ⟨W', hW', hc'⟩ := hev' ⟨⟨0, 0, 0, [], []⟩, t1.f, t1.fHalf⟩ rfl rfl _ _ (ht.evInv hδ' h2)
    rw [evalGate_linear hdbg hp ha ⟨⟨0, 0, 0, [], []⟩, s1.f, s1.fHalf⟩, hj, hW] at hW'
    injection hW' with hW'
    injection hW' with hW' _
    subst hW'
    have hin : ∀ U : Nat → Bool, g.inputs.map ((bitsUnder U doms.length).getD · 0) = g.inputs.map fun i => (U i).toNat := by
      intro U
      apply List.map_congr_left
      intro i hi
      have := (List.getElem?_eq_some_iff.mp (hg.inputs i hi)).1
      simp [bitsUnder, this]
    rw [hin, hv, hg.output, hod] at hc
    rw [hin, hv', hg.output, hod] at hc'
    have eW := label_binary hc.lab
    rw [eW] at hc hc'
    rw [ew] at hc
    have e1 := (carries_bit hδ).mp hc
    have e2 : W.values = act doms.length := by
      rw [← add32_cancel W.values (when32 (V doms.length) δ), ← e1, add32_cancel]
    have hl' : IsLabel 2 w' := by
      obtain ⟨w2, hw2, hl2, -⟩ := gate_half lt hg hδ1' hδ2' h1'
      obtain rfl : w' = w2 := List.singleton_inj.mp (List.append_cancel_left (hw'.symm.trans hw2))
      rwa [hod] at hl2
    rw [label_binary hl', e2] at hc'
    have ew' : w' = ⟨.binary, add32 (act doms.length) (when32 (V' doms.length) δ')⟩ := by
      rw [← (carries_bit hδ').mp hc']; exact label_binary hl'
    exact ⟨hw ▸ hs.snoc ew, hw' ▸ ht.snoc ew', by rw [hr.2, hr'.2, hj], by rw [hr.1, hr'.1, hh], hff⟩

/-- The same list of gates in two worlds. -/
theorem worlds_fold {E E' : Env} (hdbg : E'.dbg = E.dbg) {dl dl' : HMap Nat Wire} {start : Nat} {δ δ' : WireBytes}
    (hδ : List.lookup 2 dl = some ⟨.binary, δ⟩) (hδi : DeltaOK dl 2)
    (hδ' : List.lookup 2 dl' = some ⟨.binary, δ'⟩) (hδi' : DeltaOK dl' 2) {act : Nat → WireBytes} {V V' : Nat → Bool}
    (gs : List Gate) : ∀ (doms : List Nat) (s t s' t' : GarbleState), (∀ d ∈ doms, d = 2) → GatesOK doms gs →
    (∀ g ∈ gs, g.domain = 2 ∧ ∀ p, g.kind ≠ .proj p) →
    World δ act V doms.length s.wires → World δ' act V' doms.length t.wires →
    (∀ g ∈ gs, gateValue g (g.inputs.map fun i => (V i).toNat) = (V g.output).toNat) →
    (∀ g ∈ gs, gateValue g (g.inputs.map fun i => (V' i).toNat) = (V' g.output).toNat) →
    t.j = s.j → t.fHalf = s.fHalf → t.f = s.f →
    gs.foldlM (fun s g => do garbleDecoding E dl start (← garbleGate E dl s g) g) s = .ok s' →
    gs.foldlM (fun s g => do garbleDecoding E' dl' start (← garbleGate E' dl' s g) g) t = .ok t' →
    (∀ i < doms.length + gs.length, s'.wires[i]? = some ⟨.binary, add32 (act i) (when32 (V i) δ)⟩) →
    (∀ p ∈ (gs.filter isAnd).zipIdx (s.j + 1),
      HashRel E.sha256 E'.sha256 δ δ' act V V' (p.1.inputs.getD 0 0) (p.1.inputs.getD 1 0) p.2) →
    World δ' act V' (doms.length + gs.length) t'.wires ∧ t'.fHalf = s'.fHalf ∧ t'.f = s'.f := by
  induction gs with
  | nil =>
    intro doms s t s' t' _ _ _ hs ht _ _ _ hh hf h h' _ _
    cases h; cases h'
    exact ⟨ht, hh, hf⟩
  | cons g gs ih =>
    intro doms s t s' t' h2 hok hbin hs ht hv hv' hj hh hf h h' hact hash
    obtain ⟨hg, hgs⟩ := hok
    obtain ⟨hdom, hp⟩ := hbin g (by simp)
    have hod : g.outputDomain = 2 := by
      cases hk : g.kind with
      | proj p => exact absurd hk (hp p)
      | _ => simp [Gate.outputDomain, hk, hdom]
    have hδs : ∀ g' ∈ gs, DeltaOK dl g'.domain ∧ DeltaOK dl g'.outputDomain := by
      intro g' hg'
      obtain ⟨h1, h2⟩ := hbin g' (by simp [hg'])
      refine ⟨h1 ▸ hδi, ?_⟩
      have : g'.outputDomain = 2 := by
        cases hk : g'.kind with
        | proj p => exact absurd hk (h2 p)
        | _ => simp [Gate.outputDomain, hk, h1]
      rw [this]; exact hδi
    rw [List.foldlM_cons] at h h'
    simp only [bind, Except.bind] at h h'
    split at h
    · cases h
    rename_i s2 hs2
    split at hs2
    · cases hs2
    rename_i s1 hs1
    split at h'
    · cases h'
    rename_i t2 ht2
    split at ht2
    · cases ht2
    rename_i t1 ht1
    obtain ⟨d, hd⟩ := decoding_frame hs2
    obtain ⟨d', hd'⟩ := decoding_frame ht2
    have h2' : ∀ d ∈ doms ++ [g.outputDomain], d = 2 := by
      intro d hd
      rcases List.mem_append.mp hd with hd | hd
      · exact h2 d hd
      · rw [List.mem_singleton] at hd; rw [hd, hod]
    have hls := hs.labInv h2
    obtain ⟨w, hw, hlw, -, hr⟩ := gate_half hls hg (hdom ▸ hδi) (hod ▸ hδi) hs1
    have hlab := hls.snoc hlw
    have hw2 : s2.wires = s1.wires := by rw [hd]
    rw [← hw, ← hw2] at hlab
    obtain ⟨⟨r, hr2⟩, -, -⟩ := tables_fold gs _ s2 s' hgs hlab hδs h
    have hl1 : s2.wires.length = doms.length + 1 := by rw [hw2, hw]; simp [hs.len]
    have key := worlds_gate hdbg hδ hδi hδ' hδi' h2 hg hdom hp hs ht (hv g (by simp)) (hv' g (by simp)) hj hh hf hs1 ht1
      (by
        have := hact doms.length (by simp)
        rw [hr2, List.getElem?_append_left (by omega), hw2] at this
        exact this)
      (by
        intro ha
        exact hash (g, s.j + 1) (by rw [List.filter_cons_of_pos ha, List.zipIdx_cons]; simp))
    obtain ⟨k1, k2, k3, k4, k5⟩ := key
    have hlen : (doms ++ [g.outputDomain]).length = doms.length + 1 := by simp
    have hsum : doms.length + (g :: gs).length = (doms ++ [g.outputDomain]).length + gs.length := by simp; omega
    rw [hsum]
    refine ih _ s2 t2 s' t' h2' hgs (fun g hg => hbin g (by simp [hg])) (by rw [hlen, hd]; exact k1)
      (by rw [hlen, hd']; exact k2) (fun g hg => hv g (by simp [hg])) (fun g hg => hv' g (by simp [hg]))
      (by rw [hd, hd']; exact k3) (by rw [hd, hd']; exact k4) (by rw [hd, hd']; exact k5) h h'
      (by rw [← hsum]; exact hact) ?_
    intro p hp'
    have ej : s2.j = s1.j := by rw [hd]
    rw [ej] at hp'
    cases ha : isAnd g with
    | true =>
      rw [ha, if_pos rfl] at hr
      rw [hr.2.1] at hp'
      exact hash p (by rw [List.filter_cons_of_pos ha, List.zipIdx_cons]; simp [hp'])
    | false =>
      rw [ha, if_neg (by decide)] at hr
      rw [hr.2] at hp'
      exact hash p (by rw [List.filter_cons_of_neg (by simp [ha])]; exact hp')

/-! ### Whole runs -/

/-- The pieces of a successful run. -/
theorem garbleRun_parts {E : Env} {rnd : GarbleRand} {c : Circuit} {run : GarbleRun} (h : garbleRun E rnd c = .ok run) :
    ∃ ws, garbleDeltas rnd c = .ok run.delta ∧
      (c.inputDomains.zipIdx.mapM fun (p : Nat × Nat) => Wire.new p.1 (rnd.input p.2)) = .ok ws ∧
      sliceR ws 0 c.numInputs = .ok run.encWires ∧ subR E.dbg (2 ^ 64) c.numWires c.numOutputs = .ok run.outputsStartAt ∧
      c.gates.foldlM (fun s g => do
        garbleDecoding E run.delta run.outputsStartAt (← garbleGate E run.delta s g) g) ⟨ws, [], [], [], 0⟩ = .ok run.state := by
  unfold garbleRun at h
  cases h1 : garbleDeltas rnd c with
  | error e => rw [h1] at h; simp only [bind, Except.bind] at h; cases h
  | ok dl =>
    rw [h1, okb] at h
    cases h2 : (c.inputDomains.zipIdx.mapM fun (p : Nat × Nat) => Wire.new p.1 (rnd.input p.2)) with
    | error e =>
      have h2' : (c.inputDomains.zipIdx.mapM fun x => match x with | (domain, i) => Wire.new domain (rnd.input i)) = .error e := h2
      rw [h2'] at h; simp only [bind, Except.bind] at h; cases h
    | ok ws =>
      have h2' : (c.inputDomains.zipIdx.mapM fun x => match x with | (domain, i) => Wire.new domain (rnd.input i)) = .ok ws := h2
      rw [h2', okb] at h
      cases h3 : sliceR ws 0 c.numInputs with
      | error e => rw [h3] at h; simp only [bind, Except.bind] at h; cases h
      | ok enc =>
        rw [h3, okb] at h
        cases h4 : subR E.dbg (2 ^ 64) c.numWires c.numOutputs with
        | error e => rw [h4] at h; simp only [bind, Except.bind] at h; cases h
        | ok st =>
          rw [h4, okb] at h
          generalize h5 : c.gates.foldlM (fun s g => do
            garbleDecoding E dl st (← garbleGate E dl s g) g) (⟨ws, [], [], [], 0⟩ : GarbleState) = r at h
          cases r with
          | error e => cases h
          | ok s' =>
            cases h
            exact ⟨ws, rfl, rfl, h3, rfl, h5⟩

theorem inputs_binary {c : Circuit} {rnd : GarbleRand} {ws : List Wire} (h2 : ∀ d ∈ c.inputDomains, d = 2)
    (h : (c.inputDomains.zipIdx.mapM fun (p : Nat × Nat) => Wire.new p.1 (rnd.input p.2)) = .ok ws) :
    ws.length = c.inputDomains.length ∧ ∀ i < c.inputDomains.length, ws[i]? = some ⟨.binary, rnd.input i⟩ := by
  have hm := mapM_ok (l := c.inputDomains.zipIdx) (f := fun p : Nat × Nat => Wire.new p.1 (rnd.input p.2))
    (g := fun p => ⟨.binary, rnd.input p.2⟩) (by
      intro p hp
      obtain ⟨a, b⟩ := p
      have := h2 a (List.fst_mem_of_mem_zipIdx hp)
      subst this
      rfl)
  rw [h] at hm
  injection hm with hm
  subst hm
  refine ⟨by simp, fun i hi => ?_⟩
  simp [hi]

theorem binary_inputs {c : Circuit} (hc : WellTyped c) (hb : BinaryGates c) : ∀ d ∈ c.inputDomains, d = 2 := by
  intro d hd
  obtain ⟨-, g, hg, hu⟩ := hc.inputGood d hd
  obtain ⟨h1, h2⟩ := hb g hg
  rcases hu with hu | ⟨p, hp, -⟩
  · rw [← hu, h1]
  · exact absurd hp (h2 p)

end FP
