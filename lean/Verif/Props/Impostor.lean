import Verif.Proof.Impostor
import Verif.Props.Fpake
import Verif.Proof.Witness
import Verif.Proof.WitnessRun
/-
C50, C51, C52: parties without a password.  The properties one relies on are false of the code; the theorems
show how it fails.
-/
namespace FP.Props
open Spec

/-! ### C50 -/

/-- The first row of the table of a projection gate, for a range other than 2.  If the zero label of the input
has a colour other than zero the row is zero.  If it has colour zero, the row is the difference of the labels
of the output, multiplied by the projection of 0 minus the projection of the *size of the domain*. -/
theorem C50_first_row (E : Env) (rnd : GarbleRand) (c : Circuit) (hc : WellTyped c) (run : GarbleRun)
    (hrun : garbleRun E rnd c = .ok run) (g : Gate) (hg : g ∈ c.gates) (p : ProjKind) (hk : g.kind = .proj p)
    (hp : p.dom ≠ 2) :
    ∃ a z δ rows r, g.inputs = [a] ∧ run.state.wires[a]? = some z ∧ List.lookup p.dom run.delta = some δ ∧
      List.lookup g.output run.state.f = some rows ∧ rows[0]? = some r ∧ IsLabel p.dom r ∧
      ∃ y0 ym, p.project 0 = .ok y0 ∧ p.project g.domain = .ok ym ∧
        ∀ i, (digit r i : ZMod p.dom) = if z.color = 0 then ((y0 : ZMod p.dom) - ym) * digit δ i else 0 := by
  obtain ⟨run', hrun', hok⟩ := garbleRun_ok E rnd hc
  rw [hrun] at hrun'; cases hrun'
  obtain ⟨doms', Z, w, tbl, hgok, hlab, hpre, hgp, hw, hlook⟩ := run_tables hc hrun hg hk
  have hlen : g.inputs.length = 1 := by have := hgok.arity; rw [hk] at this; exact this
  obtain ⟨a, hins⟩ := List.length_eq_one_iff.mp hlen
  have hin : doms'[a]? = some g.domain := hgok.inputs a (by simp [hins])
  obtain ⟨z, hz, hlz⟩ := hlab.lab _ _ hin
  have hod : g.outputDomain = p.dom := by simp [Gate.outputDomain, hk]
  obtain ⟨δm, hδm, hδmi⟩ := hok.deltas _ ⟨g, hg, .inl rfl⟩
  obtain ⟨δ, hδ, hδi⟩ := hok.deltas _ ⟨g, hg, .inr ⟨p, hk, rfl⟩⟩
  obtain ⟨r, y0, ym, hr, hlr, hy0, hym, hzr⟩ := garbleProj_row0 hgok.domain (hod ▸ hgok.range) hp (by simp [hins]) hz hlz hδm
    hδmi hδ hδi hgp
  refine ⟨a, z, δ, tbl, r, hins, ?_, hδ, hlook, hr, hlr, y0, ym, hy0, hym, hzr⟩
  rw [hpre _ (List.getElem?_eq_some_iff.mp hin).1]; exact hz

example := C50_first_row (toyEnv true) Witness.rand exCircuit (by meets) _ (Witness.run_eq true) ⟨4, 2, [3], .proj (.map 5)⟩ (by simp [exCircuit]) _ rfl
    (by decide)

/-- C50 is false of the code.  A party that knows no password, only the length and the threshold, and that
follows the messages of the evaluating party, obtains exactly the half key of the garbling party, whatever
the password of the latter is, on every schedule.  Its computation fails only if all the colours of the
labels drawn for the two parties' bits differ. -/
theorem C50_fails_thief (C : Curve) (X : Crypto) (g : GarblerDraws) (o : OTRecv) (hg : g.Valid) (ho : o.Valid)
    (p : Bytes) (t : Nat) (hlen : GoodLength p.length) (ht : t < 65535)
    (hcol : SomeColourAgrees g.rnd (8 * p.length)) :
    ∃ k, Completes (HalfKey.garbler C X g p t) (thief X.toEnv (o.run C X) (8 * p.length) t) k k := by
  obtain ⟨h1, h2, h3⟩ := goodLength hlen
  obtain ⟨k, hk⟩ := thief_ends X.toEnv g.rnd g.ord hg.ord p t (8 * p.length) rfl h1 h2 h3 ht
    (ot_correct C X hg.ot ho (n := 8 * p.length) (by omega) (by omega) (by omega)) hcol
  exact ⟨k, hk.completes⟩

example := C50_fails_thief Witness.curve (Witness.crypto true) Witness.g Witness.recv (by meets) (by meets) [3, 4] 1
    (by meets) (by meets) (by meets)

/-! ### C51 -/

/-- C51 is false of the code.  A party that knows only the length of the password and that follows the messages
of the garbling party makes the evaluating party derive a half key of which it knows the value, whatever
the password of the latter is: the hash of a label of its own choice. -/
theorem C51_fails_forger (C : Curve) (X : Crypto) (s : OTSend) (o : OTRecv) (hs : s.Valid) (ho : o.Valid)
    (p : Bytes) (hp : 0 < p.length) (hfit : p.length < 2 ^ 58) (label : WireBytes) :
    Completes (forger X.toEnv (s.run C X) (8 * p.length) label) (HalfKey.evaluator C X o p)
      (hashOut X.toEnv (2 * (8 * p.length)) 1 ⟨.binary, label⟩) (hashOut X.toEnv (2 * (8 * p.length)) 1 ⟨.binary, label⟩) :=
  (forger_ends X.toEnv p (8 * p.length) rfl hp (by omega)
    (ot_correct C X hs ho (n := 8 * p.length) (by omega) (by omega) (by omega)) label).completes

example := C51_fails_forger Witness.curve (Witness.crypto true) Witness.send Witness.recv (by meets) (by meets) [3, 4]
    (by meets) (by meets) (Witness.bytes 1)

/-! ### C52 -/

/-- C52 is false of the code.  A party that knows no password completes the key exchange with the first party
and both hold the same key. -/
theorem C52_fails_second (C : Curve) (X : Crypto) (g : GarblerDraws) (o : OTRecv) (s : OTSend) (r : OTRecv) (hg : g.Valid)
    (ho : o.Valid) (hs : s.Valid) (hr : r.Valid) (p : Bytes) (t : Nat) (hlen : GoodLength p.length) (ht : t < 65535)
    (hcol : SomeColourAgrees g.rnd (8 * p.length)) (label : WireBytes) :
    ∃ key, Completes (fpakeFirst C X g o p t) (impostor C X s r (8 * p.length) t label) key key := by
  obtain ⟨h1, h2, h3⟩ := goodLength hlen
  obtain ⟨k, hk⟩ := thief_ends X.toEnv g.rnd g.ord hg.ord p t (8 * p.length) rfl h1 h2 h3 ht
    (ot_correct C X hg.ot hr (n := 8 * p.length) (by omega) (by omega) (by omega)) hcol
  have hf := forger_ends X.toEnv p (8 * p.length) rfl h1 (by omega)
    (ot_correct C X hs ho (n := 8 * p.length) (by omega) (by omega) (by omega)) label
  refine ⟨_, Ends.completes (.bind hk (.bind hf.swap (.ret _ _)))⟩

example := C52_fails_second Witness.curve (Witness.crypto true) Witness.g Witness.recv Witness.send Witness.recv
    (by meets) (by meets) (by meets) (by meets) [3, 4] 1 (by meets) (by meets) (by meets) (Witness.bytes 1)

/-- The same against the second party. -/
theorem C52_fails_first (C : Curve) (X : Crypto) (g : GarblerDraws) (o : OTRecv) (s : OTSend) (r : OTRecv) (hg : g.Valid)
    (ho : o.Valid) (hs : s.Valid) (hr : r.Valid) (p : Bytes) (t : Nat) (hlen : GoodLength p.length) (ht : t < 65535)
    (hcol : SomeColourAgrees g.rnd (8 * p.length)) (label : WireBytes) :
    ∃ key, Completes (impostorFirst C X s r (8 * p.length) t label) (fpakeSecond C X o g p t) key key := by
  obtain ⟨h1, h2, h3⟩ := goodLength hlen
  obtain ⟨k, hk⟩ := thief_ends X.toEnv g.rnd g.ord hg.ord p t (8 * p.length) rfl h1 h2 h3 ht
    (ot_correct C X hg.ot hr (n := 8 * p.length) (by omega) (by omega) (by omega)) hcol
  have hf := forger_ends X.toEnv p (8 * p.length) rfl h1 (by omega)
    (ot_correct C X hs ho (n := 8 * p.length) (by omega) (by omega) (by omega)) label
  refine ⟨_, Ends.completes (.bind hf (.bind hk.swap (.ret _ _)))⟩

example := C52_fails_first Witness.curve (Witness.crypto true) Witness.g Witness.recv Witness.send Witness.recv
    (by meets) (by meets) (by meets) (by meets) [3, 4] 1 (by meets) (by meets) (by meets) (Witness.bytes 1)

/-! ### The hypotheses can be met -/

/-- Labels that are all zero have equal colours. -/
example (len : Nat) (h : GoodLength len) : SomeColourAgrees ⟨fun _ => Vector.replicate 32 0, fun _ => Vector.replicate 32 0⟩ (8 * len) := by
  refine ⟨0, ?_, rfl⟩
  unfold GoodLength at h; omega

/-- A gate to which `C50_first_row` applies: the projection of the first bit in the circuit of a one byte
password. -/
example : WellTyped (thrCircuit 8 9 1) ∧ (⟨24, 2, [16], .proj (.map 9)⟩ : Gate) ∈ (thrCircuit 8 9 1).gates ∧
    (ProjKind.map 9).dom ≠ 2 ∧ (ProjKind.map 9).project 0 = .ok 0 ∧ (ProjKind.map 9).project 2 = .ok 2 :=
  ⟨thr_typedD (by decide) good2 (by decide), by decide, by decide, rfl, rfl⟩

example : GoodLength 1 := by decide

end FP.Props
