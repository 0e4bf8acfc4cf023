import Verif.Proof.Garbles
import Verif.Proof.HalfViews
import Verif.Props.Builder
import Verif.Proof.Witness
import Verif.Proof.WitnessRun
/-
C77: exactly which circuits can be garbled.
-/
namespace FP.Props
open FP.Spec

/-- C77: a release build garbles exactly the circuits of `Garbles`, whatever the hash function and the random draws.
(The two numbers are of type `usize`.) -/
theorem C77_release (E : Env) (hd : E.dbg = false) (rnd : GarbleRand) (c : Circuit) (hw : c.numWires < 2 ^ 64)
    (ho : c.numOutputs < 2 ^ 64) : (∃ gc e d, garble E rnd c = .ok (gc, e, d)) ↔ Garbles c :=
  ⟨fun ⟨_, _, _, h⟩ => garble_needs hw ho h, fun h => by
    obtain ⟨⟨gc, e, d⟩, hr⟩ := garble_tot hd rnd hw ho h
    exact ⟨gc, e, d, hr⟩⟩

example := C77_release (toyEnv false) (by meets) Witness.rand exCircuit (by meets) (by meets)

/-- C77: a build with checks garbles no others. -/
theorem C77_any_build (E : Env) (rnd : GarbleRand) (c : Circuit) (hw : c.numWires < 2 ^ 64) (ho : c.numOutputs < 2 ^ 64)
    (gc : GarbledCircuit) (e : EncodingKey) (d : DecodingKey) (h : garble E rnd c = .ok (gc, e, d)) : Garbles c :=
  garble_needs hw ho h

example := C77_any_build (toyEnv true) Witness.rand exCircuit (by meets) (by meets) _ _ _ (Witness.garbled true)

/-- C77: then a release build encodes exactly the inputs of which every one it looks at has a domain that some gate uses. -/
theorem C77_encode (E : Env) (hd : E.dbg = false) (rnd : GarbleRand) (c : Circuit)
    (gc : GarbledCircuit) (e : EncodingKey) (d : DecodingKey) (h : garble E rnd c = .ok (gc, e, d)) (x : List Nat) :
    (∃ X, e.encode E.dbg x = .ok X) ↔
      ∀ i m, i < c.numInputs → i < x.length → c.inputDomains[i]? = some m → usesDomain c.gates m := by
  unfold garble at h
  obtain ⟨run, hrun, h'⟩ := bind_inv h
  obtain ⟨-, h''⟩ := Prod.mk.inj (Except.ok.inj h')
  obtain ⟨rfl, -⟩ := Prod.mk.inj h''
  clear h h' h''
  rename' hrun => h
  unfold garbleRun at h
  obtain ⟨dl, h1, h⟩ := bind_inv h
  obtain ⟨ws, h2, h⟩ := bind_inv h
  obtain ⟨ew, h3, h⟩ := bind_inv h
  obtain ⟨n, h4, h⟩ := bind_inv h
  obtain ⟨s, h5, h⟩ := bind_inv h
  cases h
  have hdom : ∀ d, usesDomain c.gates d → Labelled d := deltas_need (by intro k δ h; cases h) h1
  obtain ⟨dl', h1', hk, hdl⟩ := garbleDeltas_tot rnd hdom
  rw [h1] at h1'
  obtain rfl := Except.ok.inj h1'
  have hnum : ∀ m D, Domain.new m = .ok D → D.num = m := fun m D hD => by
    unfold Domain.new at hD
    split at hD
    · next h => cases hD; rw [h]; rfl
    split at hD
    · next h => cases hD; rw [h]; rfl
    split at hD
    · cases hD; rfl
    split at hD
    · next h => cases hD; rw [h]; rfl
    split at hD
    · cases hD; rfl
    · cases hD
  have hew : ∀ i, ew[i]? = if i < c.numInputs then ws[i]? else none := fun i => by
    unfold sliceR at h3
    split at h3
    · cases h3
      rw [List.getElem?_take, List.drop_zero]; rfl
    · cases h3
  have hws : ∀ (i : Nat) (w : Wire), ws[i]? = some w → ∃ m, c.inputDomains[i]? = some m ∧ Domain.new m = .ok w.domain := fun i w hi => by
    obtain ⟨m, hm⟩ : ∃ m, c.inputDomains[i]? = some m := by
      have : ws.length = c.inputDomains.length := by have := mapM_length h2; simpa using this
      have hlt := (List.getElem?_eq_some_iff.mp hi).1
      exact ⟨c.inputDomains[i]'(by omega), List.getElem?_eq_getElem _⟩
    refine ⟨m, hm, ?_⟩
    have := mapM_getElem? h2 (i := i) (a := (m, i)) (by rw [List.getElem?_zipIdx, hm]; simp)
    obtain ⟨b, hb1, hb2⟩ := this
    rw [hi] at hb1
    cases hb1
    exact (new_post m _).out _ hb2
  unfold EncodingKey.encode
  rw [hd]
  constructor
  · rintro ⟨X, hX⟩ i m hi hix hm
    obtain ⟨-, -, hX⟩ := bind_inv hX
    have hlen : ws.length = c.inputDomains.length := by have := mapM_length h2; simpa using this
    have hlt := (List.getElem?_eq_some_iff.mp hm).1
    have hwi : ws[i]? = some (ws[i]'(by omega)) := List.getElem?_eq_getElem _
    have hmem : (ws[i]'(by omega), x[i]) ∈ ew.zip x := by
      refine List.mem_iff_getElem?.mpr ⟨i, ?_⟩
      rw [List.getElem?_zip_eq_some]
      exact ⟨by rw [hew, if_pos hi, hwi], List.getElem?_eq_getElem _⟩
    obtain ⟨b, hb⟩ := mapM_each hX _ hmem
    obtain ⟨δ, hδ, -⟩ := bind_inv hb
    obtain ⟨m', hm', hD⟩ := hws i _ hwi
    rw [hm] at hm'
    cases hm'
    have := (hk _).mp (getR_needs hδ)
    rwa [show (ws[i]'(by omega)).dom = m from hnum _ _ hD] at this
  · intro hall
    obtain ⟨X, hX, -⟩ := mapM_exists (l := ew.zip x) (P := fun _ _ => True) (f := fun (p : Wire × Nat) => do
      Wire.add false p.1 (← Wire.mul false (← dl.getR p.1.dom) p.2)) (fun p hp => by
        obtain ⟨i, hi⟩ := List.mem_iff_getElem?.mp hp
        rw [List.getElem?_zip_eq_some, hew] at hi
        obtain ⟨hi1, hi2⟩ := hi
        split at hi1
        · next hlt =>
          obtain ⟨m, hm, hD⟩ := hws i _ hi1
          have hu := hall i m hlt (List.getElem?_eq_some_iff.mp hi2).1 hm
          rw [← hnum _ _ hD] at hu
          exact (getR_tot hdl ((hk _).mpr hu)).bind fun δ hδ => (mul_tot _ (new_sane hδ)).bind fun v _ =>
            (add_tot _ (new_sane hD)).mono fun _ _ => trivial
        · cases hi1)
    exact ⟨X, by rw [show debugAssertR false _ = .ok () from rfl, okb]; exact hX⟩

example := C77_encode (toyEnv false) rfl Witness.rand exCircuit _ _ _ (Witness.garbled false) [1, 0, 4]

/-- Well-formed circuits over any domains from 1 to 65534 can be garbled. -/
theorem C77_wellFormed (c : Circuit) (hc : WellFormed (fun m => m ≠ 0 ∧ m < 65535) c) : Garbles c := by
  have key : ∀ (gs : List Gate) (doms : List Nat), GatesFit (fun m => m ≠ 0 ∧ m < 65535) doms gs →
      ∀ k g, gs[k]? = some g → ∃ ds : List Nat, ds.length = doms.length + k ∧ GateFits (fun m => m ≠ 0 ∧ m < 65535) ds g := by
    intro gs
    induction gs with
    | nil => intro doms _ k g h; cases h
    | cons g0 gs ih =>
      intro doms hf k g hg
      cases k with
      | zero =>
        simp only [List.getElem?_cons_zero, Option.some.injEq] at hg
        exact ⟨doms, rfl, hg ▸ hf.1⟩
      | succ k =>
        obtain ⟨ds, h1, h2⟩ := ih _ hf.2 k g (by simpa using hg)
        exact ⟨ds, by rw [h1]; simp; omega, h2⟩
  have hgate : ∀ g ∈ c.gates, ∃ ds, GateFits (fun m => m ≠ 0 ∧ m < 65535) ds g := fun g hg => by
    obtain ⟨k, hk⟩ := List.mem_iff_getElem?.mp hg
    obtain ⟨ds, -, h⟩ := key c.gates _ hc.gates k g hk
    exact ⟨ds, h⟩
  refine ⟨?_, fun m hm => (hc.inputGood m hm).1.2, hc.inputs.ge, fun k g hg => ?_⟩
  · rintro m ⟨g, hg, h⟩
    obtain ⟨ds, hf⟩ := hgate g hg
    rcases h with rfl | ⟨p, hp, rfl⟩
    · exact hf.domain.2
    · have := hf.range.2
      rwa [show g.outputDomain = p.dom by simp [Gate.outputDomain, hp]] at this
  · obtain ⟨ds, hl, hf⟩ := key c.gates _ hc.gates k g hg
    rw [← hl]
    have hin : ∀ i ∈ g.inputs, i < ds.length := fun i hi => (List.getElem?_eq_some_iff.mp (hf.inputs i hi)).1
    refine ⟨?_, fun _ _ => hf.output.le⟩
    have ha := hf.arity
    split <;> rename_i e <;> rw [e] at ha <;> simp only at ha
    · exact ⟨ha, hin⟩
    · obtain ⟨a, h0⟩ := List.length_eq_one_iff.mp ha.1
      exact ⟨a, by simp [h0], hin a (by simp [h0])⟩
    · obtain ⟨a, h0⟩ := List.length_eq_one_iff.mp ha
      refine ⟨⟨a, by simp [h0], hin a (by simp [h0])⟩, ?_⟩
      have := hf.range.1
      rwa [show g.outputDomain = _ by simp [Gate.outputDomain, e]; rfl] at this
    · obtain ⟨a, b, h0⟩ := List.length_eq_two.mp ha.1
      exact ⟨⟨a, by simp [h0], hin a (by simp [h0])⟩, ⟨b, by simp [h0], hin b (by simp [h0])⟩,
        ⟨g, List.mem_of_getElem? hg, .inl ha.2⟩⟩

/-- C77: the circuit of the password exchange can be garbled by a release build for exactly the positive numbers of bits
whose comparison domain is neither 65535 nor 65536, so for every password that is not empty. -/
theorem C77_threshold (E : Env) (hd : E.dbg = false) (rnd : GarbleRand) (n t : Nat) (hn : n < 2 ^ 60) :
    ∃ c, buildCircuit false n t = .ok c ∧
      ((∃ gc e d, garble E rnd c = .ok (gc, e, d)) ↔ 0 < n ∧ n % 65536 < 65534) := by
  obtain ⟨D, hD⟩ := addR_release 65536 (n % 65536) 1
  obtain ⟨T, hT⟩ := addR_release 65536 t 1
  have hDv : D = (n % 65536 + 1) % 65536 := by
    unfold addR at hD
    split at hD
    · have := Except.ok.inj hD; omega
    · exact (Except.ok.inj hD).symm
  refine ⟨_, buildCircuit_eq hD hT, ?_⟩
  rw [C77_release E hd rnd _ (by simp only [thrCircuit]; omega) (by simp only [thrCircuit]; omega)]
  constructor
  · intro h
    have hn0 : 0 < n := by
      rcases Nat.eq_zero_or_pos n with rfl | h0
      · have := (h.gates 0 ⟨0, D, [], .add⟩ (by simp [thrCircuit, xorGates, tailGates])).1
        simp at this
      · exact h0
    have hmem : (⟨0 + 2 * n + n, 2, [0 + 2 * n], .proj (.map D)⟩ : Gate) ∈ (thrCircuit n D T).gates :=
      List.mem_append_right _ (List.mem_append_left _ (List.mem_map.mpr ⟨0, List.mem_range.mpr hn0, rfl⟩))
    have h1 : D < 65535 := h.domains D ⟨_, hmem, .inr ⟨.map D, rfl, rfl⟩⟩
    obtain ⟨k, hk⟩ := List.mem_iff_getElem?.mp hmem
    have h2 : D ≠ 0 := (h.gates k _ hk).1.2
    omega
  · rintro ⟨h0, h1⟩
    exact C77_wellFormed _ (thr_typedD h0 ⟨by omega, by omega⟩ ⟨by omega, by omega⟩)

example := C77_threshold (toyEnv false) (by meets) Witness.rand 300 9 (by meets)

/-- A circuit with all kinds of gates. -/
example (E : Env) (rnd : GarbleRand) : Garbles exCircuit := by
  obtain ⟨run, hr, -⟩ := garbleRun_ok E rnd exCircuit_wellTyped
  exact C77_any_build E rnd exCircuit (by decide) (by decide) _ _ _ (garble_of_run hr)

/-- Nonempty passwords: multiples of eight bits never reach the two exceptions. -/
example (len : Nat) (h : 0 < len) : 0 < 8 * len ∧ 8 * len % 65536 < 65534 := by omega

/-- A circuit that is garbled although it is not well formed: an addition of labels of different domains. -/
example : Garbles ⟨3, 2, 1, [⟨2, 2, [0, 1], .add⟩], [2, 5]⟩ := by
  refine ⟨?_, by intro m hm; simp at hm; unfold Labelled; omega, by decide, ?_⟩
  · rintro m ⟨g, hg, h⟩
    simp only [List.mem_singleton] at hg
    subst hg
    rcases h with rfl | ⟨p, hp, -⟩
    · show 2 < 65535; omega
    · cases hp
  · intro k g hg
    have : k = 0 := by
      have := (List.getElem?_eq_some_iff.mp hg).1
      simpa using this
    subst this
    cases hg
    exact ⟨⟨by simp, by simp⟩, fun _ _ => by simp⟩

/-- `verify_circuit` accepts `gapCircuit`, which cannot be garbled: its gate claims to write wire 2 where it writes wire 1. -/
example : ¬ Garbles gapCircuit := by
  intro h
  have := (h.gates 0 ⟨2, 2, [0], .add⟩ rfl).2 (by decide) (by decide)
  revert this
  decide

end FP.Props
