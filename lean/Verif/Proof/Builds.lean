import Verif.Spec.Builds
import Verif.Model.Legacy
import Verif.Model.Classic
import Verif.Model.Channel
import Verif.Model.Polynomial
import Verif.Proof.Post
import Verif.Proof.Sizes
/-
A build with assertions does what a build without them does, or panics.
-/
namespace FP
open Spec

/-- The relation behind `PartySameOrPanic`. -/
inductive Dips {α : Type} : Proc α → Proc α → Prop where
  | panic (q) : Dips (.fail .panic) q
  | ret (a) : Dips (.ret a) (.ret a)
  | fail (e) : Dips (.fail e) (.fail e)
  | send (m) {p q} : Dips p q → Dips (.send m p) (.send m q)
  | recv {k l} : (∀ m, Dips (k m) (l m)) → Dips (.recv k) (.recv l)

variable {α β : Type}

theorem Dips.refl : ∀ p : Proc α, Dips p p
  | .ret a => .ret a
  | .fail e => .fail e
  | .send m p => .send m (Dips.refl p)
  | .recv k => .recv fun m => Dips.refl (k m)

theorem Dips.bind {p q : Proc α} {f g : α → Proc β} (h : Dips p q) (hf : ∀ a, Dips (f a) (g a)) :
    Dips (p >>= f) (q >>= g) := by
  induction h with
  | panic q => exact .panic _
  | ret a => exact hf a
  | fail e => exact .fail e
  | send m _ ih => exact .send m ih
  | recv _ ih => exact .recv ih

theorem Dips.lift {x y : R α} (h : SameOrPanic x y) : Dips (liftM x : Proc α) (liftM y) := by
  rcases h with rfl | rfl
  · exact .panic _
  · exact Dips.refl _

theorem Dips.ofR {x y : R α} (h : SameOrPanic x y) : Dips (Proc.ofR x : Proc α) (Proc.ofR y) := Dips.lift h

theorem same_refl (x : R α) : SameOrPanic x x := .inr rfl

theorem same_bind {x y : R α} {f g : α → R β} (h : SameOrPanic x y) (hf : ∀ a, SameOrPanic (f a) (g a)) :
    SameOrPanic (x >>= f) (y >>= g) := by
  rcases h with rfl | rfl
  · exact .inl rfl
  · cases x with
    | error e => exact .inr rfl
    | ok a => exact hf a

theorem same_foldlM {f g : β → α → R β} (l : List α) (s : β) (h : ∀ s a, SameOrPanic (f s a) (g s a)) :
    SameOrPanic (l.foldlM f s) (l.foldlM g s) := by
  induction l generalizing s with
  | nil => exact .inr rfl
  | cons a l ih =>
    rw [List.foldlM_cons, List.foldlM_cons]
    exact same_bind (h s a) ih

theorem same_mapM {f g : α → R β} (l : List α) (h : ∀ a, SameOrPanic (f a) (g a)) : SameOrPanic (l.mapM f) (l.mapM g) := by
  induction l with
  | nil => exact .inr rfl
  | cons a l ih =>
    rw [List.mapM_cons, List.mapM_cons]
    exact same_bind (h a) fun b => same_bind ih fun bs => .inr rfl

theorem same_ofFnM {n : Nat} {f g : Fin n → R β} (h : ∀ i, SameOrPanic (f i) (g i)) :
    SameOrPanic (Vector.ofFnM f) (Vector.ofFnM g) := by
  induction n with
  | zero => rw [Vector.ofFnM_zero, Vector.ofFnM_zero]; exact .inr rfl
  | succ n ih =>
    rw [Vector.ofFnM_succ, Vector.ofFnM_succ]
    exact same_bind (ih fun i => h _) fun v => same_bind (h _) fun b => .inr rfl

theorem same_ite {c : Prop} [Decidable c] {x y x' y' : R α} (h1 : SameOrPanic x x') (h2 : SameOrPanic y y') :
    SameOrPanic (if c then x else y) (if c then x' else y') := by
  by_cases h : c
  · rw [if_pos h, if_pos h]; exact h1
  · rw [if_neg h, if_neg h]; exact h2

theorem dips_ite {c : Prop} [Decidable c] {x y x' y' : Proc α} (h1 : Dips x x') (h2 : Dips y y') :
    Dips (if c then x else y) (if c then x' else y') := by
  by_cases h : c
  · rw [if_pos h, if_pos h]; exact h1
  · rw [if_neg h, if_neg h]; exact h2

/-- One step towards a comparison of two builds; extended below by each lemma. -/
syntax "dips_step" : tactic
macro_rules | `(tactic| dips_step) => `(tactic| intro _)
macro_rules | `(tactic| dips_step) => `(tactic| with_reducible refine same_ite ?_ ?_)
macro_rules | `(tactic| dips_step) => `(tactic| with_reducible refine dips_ite ?_ ?_)
macro_rules | `(tactic| dips_step) => `(tactic| with_reducible refine same_ofFnM ?_)
macro_rules | `(tactic| dips_step) => `(tactic| with_reducible refine same_mapM _ ?_)
macro_rules | `(tactic| dips_step) => `(tactic| with_reducible refine same_foldlM _ _ ?_)
macro_rules | `(tactic| dips_step) => `(tactic| with_reducible refine same_bind ?_ ?_)
macro_rules | `(tactic| dips_step) => `(tactic| with_reducible refine Dips.bind ?_ ?_)
macro_rules | `(tactic| dips_step) => `(tactic| with_reducible refine Dips.lift ?_)
macro_rules | `(tactic| dips_step) => `(tactic| with_reducible refine Dips.ofR ?_)
macro_rules | `(tactic| dips_step) => `(tactic| with_reducible exact same_refl _)
macro_rules | `(tactic| dips_step) => `(tactic| with_reducible exact Dips.refl _)
macro_rules | `(tactic| dips_step) => `(tactic| assumption)

macro "dips" : tactic => `(tactic| repeat' dips_step)

@[simp] theorem release_toEnv (X : Crypto) : X.release.toEnv = X.toEnv.release := rfl
theorem release_fill (X : Crypto) : X.release.fill = X.fill := rfl
theorem release_genBytes (X : Crypto) : X.release.genBytes = X.genBytes := rfl
theorem release_gen8 (X : Crypto) : X.release.gen8 = X.gen8 := rfl

theorem same_debugAssertR (dbg b : Bool) : SameOrPanic (debugAssertR dbg b) (debugAssertR false b) := by
  cases dbg <;> cases b
  · exact .inr rfl
  · exact .inr rfl
  · exact .inl rfl
  · exact .inr rfl

theorem same_addR (dbg : Bool) (W a b : Nat) : SameOrPanic (addR dbg W a b) (addR false W a b) := by
  unfold addR
  by_cases h : a + b < W
  · rw [if_pos h, if_pos h]; exact .inr rfl
  · rw [if_neg h, if_neg h]; cases dbg
    · exact .inr rfl
    · exact .inl rfl

theorem same_subR (dbg : Bool) (W a b : Nat) : SameOrPanic (subR dbg W a b) (subR false W a b) := by
  unfold subR
  by_cases h : b ≤ a
  · rw [if_pos h, if_pos h]; exact .inr rfl
  · rw [if_neg h, if_neg h]; cases dbg
    · exact .inr rfl
    · exact .inl rfl

theorem same_mulR (dbg : Bool) (W a b : Nat) : SameOrPanic (mulR dbg W a b) (mulR false W a b) := by
  unfold mulR
  by_cases h : a * b < W
  · rw [if_pos h, if_pos h]; exact .inr rfl
  · rw [if_neg h, if_neg h]; cases dbg
    · exact .inr rfl
    · exact .inl rfl

theorem same_shlOneR (dbg : Bool) (bits k : Nat) : SameOrPanic (shlOneR dbg bits k) (shlOneR false bits k) := by
  unfold shlOneR
  by_cases h : k < bits
  · rw [if_pos h, if_pos h]; exact .inr rfl
  · rw [if_neg h, if_neg h]; cases dbg
    · exact .inr rfl
    · exact .inl rfl

macro_rules | `(tactic| dips_step) => `(tactic| with_reducible exact same_debugAssertR _ _)
macro_rules | `(tactic| dips_step) => `(tactic| with_reducible exact same_addR _ _ _ _)
macro_rules | `(tactic| dips_step) => `(tactic| with_reducible exact same_subR _ _ _ _)
macro_rules | `(tactic| dips_step) => `(tactic| with_reducible exact same_mulR _ _ _ _)
macro_rules | `(tactic| dips_step) => `(tactic| with_reducible exact same_shlOneR _ _ _)

/-! ### Labels -/

theorem same_mapWith (dbg : Bool) (a b : Wire) {op op' : Nat → Nat → R Nat} (h : ∀ x y, SameOrPanic (op x y) (op' x y)) :
    SameOrPanic (a.mapWith dbg b op) (a.mapWith false b op') := by
  unfold Wire.mapWith
  dips
  exact h _ _

theorem same_mapWithAsU16 (dbg : Bool) (a b : Wire) {op op' : Nat → Nat → R Nat} (h : ∀ x y, SameOrPanic (op x y) (op' x y)) :
    SameOrPanic (a.mapWithAsU16 dbg b op) (a.mapWithAsU16 false b op') := by
  unfold Wire.mapWithAsU16
  dips
  exact h _ _

theorem same_map (a : Wire) {op op' : Nat → R Nat} (h : ∀ x, SameOrPanic (op x) (op' x)) :
    SameOrPanic (a.map op) (a.map op') := by
  unfold Wire.map
  dips
  exact h _

theorem same_mapAsU16 (dbg : Bool) (a : Wire) {op op' : Nat → R Nat} (h : ∀ x, SameOrPanic (op x) (op' x)) :
    SameOrPanic (a.mapAsU16 dbg op) (a.mapAsU16 false op') := by
  unfold Wire.mapAsU16
  dips
  exact h _

macro_rules | `(tactic| dips_step) => `(tactic| with_reducible refine same_mapWith _ _ _ ?_)
macro_rules | `(tactic| dips_step) => `(tactic| with_reducible refine same_mapWithAsU16 _ _ _ ?_)
macro_rules | `(tactic| dips_step) => `(tactic| with_reducible refine same_map _ ?_)
macro_rules | `(tactic| dips_step) => `(tactic| with_reducible refine same_mapAsU16 _ _ ?_)

theorem same_add (dbg : Bool) (a b : Wire) : SameOrPanic (Wire.add dbg a b) (Wire.add false a b) := by
  unfold Wire.add
  split <;> dips

theorem same_sub (dbg : Bool) (a b : Wire) : SameOrPanic (Wire.sub dbg a b) (Wire.sub false a b) := by
  unfold Wire.sub
  split <;> dips

theorem same_neg (dbg : Bool) (a : Wire) : SameOrPanic (Wire.neg dbg a) (Wire.neg false a) := by
  unfold Wire.neg
  split <;> dips

theorem same_mul (dbg : Bool) (a : Wire) (c : Nat) : SameOrPanic (Wire.mul dbg a c) (Wire.mul false a c) := by
  unfold Wire.mul
  dips
  split <;> dips

macro_rules | `(tactic| dips_step) => `(tactic| with_reducible exact same_add _ _ _)
macro_rules | `(tactic| dips_step) => `(tactic| with_reducible exact same_sub _ _ _)
macro_rules | `(tactic| dips_step) => `(tactic| with_reducible exact same_neg _ _)
macro_rules | `(tactic| dips_step) => `(tactic| with_reducible exact same_mul _ _ _)

theorem same_sum (dbg : Bool) (l : List Wire) : SameOrPanic (Wire.sum dbg l) (Wire.sum false l) := by
  cases l with
  | nil => exact .inr rfl
  | cons w l =>
    unfold Wire.sum
    dips

theorem same_fromArray (dbg : Bool) (v : WireBytes) (d : Domain) : SameOrPanic (Wire.fromArray dbg v d) (Wire.fromArray false v d) := by
  unfold Wire.fromArray
  cases d <;> dsimp only <;> dips

macro_rules | `(tactic| dips_step) => `(tactic| with_reducible exact same_sum _ _)
macro_rules | `(tactic| dips_step) => `(tactic| with_reducible exact same_fromArray _ _ _)

theorem same_fromBytes (dbg : Bool) (v : Bytes) (d : Domain) : SameOrPanic (Wire.fromBytes dbg v d) (Wire.fromBytes false v d) := by
  unfold Wire.fromBytes
  split <;> dips

theorem same_hashWire (E : Env) (i : Nat) (w t : Wire) : SameOrPanic (hashWire E i w t) (hashWire E.release i w t) := by
  unfold hashWire
  dips

macro_rules | `(tactic| dips_step) => `(tactic| with_reducible exact same_fromBytes _ _ _)
macro_rules | `(tactic| dips_step) => `(tactic| with_reducible exact same_hashWire _ _ _ _)

/-! ### Circuits -/

theorem same_evalPlain (dbg : Bool) (g : Gate) (w : List Nat) : SameOrPanic (g.evalPlain dbg w) (g.evalPlain false w) := by
  unfold Gate.evalPlain sumU16
  split <;> dips

macro_rules | `(tactic| dips_step) => `(tactic| with_reducible exact same_evalPlain _ _ _)

theorem same_circuitEval (dbg : Bool) (c : Circuit) (x : List Nat) : SameOrPanic (c.eval dbg x) (c.eval false x) := by
  unfold Circuit.eval
  dips

theorem same_buildCircuit (dbg : Bool) (n t : Nat) : SameOrPanic (buildCircuit dbg n t) (buildCircuit false n t) := by
  unfold buildCircuit
  dips

theorem same_buildCircuitV2 (dbg : Bool) (n t : Nat) : SameOrPanic (buildCircuitV2 dbg n t) (buildCircuitV2 false n t) := by
  unfold buildCircuitV2
  dips

macro_rules | `(tactic| dips_step) => `(tactic| with_reducible exact same_circuitEval _ _ _)
macro_rules | `(tactic| dips_step) => `(tactic| with_reducible exact same_buildCircuit _ _ _)
macro_rules | `(tactic| dips_step) => `(tactic| with_reducible exact same_buildCircuitV2 _ _ _)

/-! ### Garbling -/

theorem same_encode (dbg : Bool) (e : EncodingKey) (x : List Nat) : SameOrPanic (e.encode dbg x) (e.encode false x) := by
  unfold EncodingKey.encode
  dips

theorem same_ofKey (dbg : Bool) (e : EncodingKey) :
    SameOrPanic (BinaryEncodingKey.ofKey dbg e) (BinaryEncodingKey.ofKey false e) := by
  unfold BinaryEncodingKey.ofKey
  dips

theorem same_toKey (dbg : Bool) (e : BinaryEncodingKey) : SameOrPanic (e.toKey dbg) (e.toKey false) := by
  unfold BinaryEncodingKey.toKey
  dips

macro_rules | `(tactic| dips_step) => `(tactic| with_reducible exact same_encode _ _ _)
macro_rules | `(tactic| dips_step) => `(tactic| with_reducible exact same_ofKey _ _)
macro_rules | `(tactic| dips_step) => `(tactic| with_reducible exact same_toKey _ _)

theorem hashHalf_release (E : Env) : hashHalf E.release = hashHalf E := rfl
theorem hashOut_release (E : Env) : hashOut E.release = hashOut E := rfl

theorem decodeSearch_release (E : Env) (o : Nat) (z : Wire) (h : List WireBytes) (ks : List Nat) :
    decodeSearch E.release o z h ks = decodeSearch E o z h ks := by
  induction ks with
  | nil => rfl
  | cons k ks ih => unfold decodeSearch; rw [ih]; rfl

theorem decodeOne_release (E : Env) (d : DecodingKey) : decodeOne E.release d = decodeOne E d := by
  funext p
  unfold decodeOne
  simp only [decodeSearch_release]

theorem decode_release (E : Env) (d : DecodingKey) : d.decode E.release = d.decode E := by
  funext z
  unfold DecodingKey.decode
  rw [decodeOne_release]

theorem decodeFn_release (E : Env) (d : DecodingKey) : decodeFn E.release d = decodeFn E d := by
  funext z
  unfold decodeFn
  rw [decodeOne_release]

theorem same_garbleProj (E : Env) (d : HMap Nat Wire) (w : List Wire) (g : Gate) (p : ProjKind) :
    SameOrPanic (garbleProj E d w g p) (garbleProj E.release d w g p) := by
  unfold garbleProj
  dsimp only
  dips

theorem same_garbleAnd (E : Env) (d : HMap Nat Wire) (w : List Wire) (g : Gate) (j : Nat) :
    SameOrPanic (garbleAnd E d w g j) (garbleAnd E.release d w g j) := by
  unfold garbleAnd
  simp only [hashHalf_release]
  dips

macro_rules | `(tactic| dips_step) => `(tactic| with_reducible exact same_garbleProj _ _ _ _ _)
macro_rules | `(tactic| dips_step) => `(tactic| with_reducible exact same_garbleAnd _ _ _ _ _)

theorem same_garbleGate (E : Env) (d : HMap Nat Wire) (s : GarbleState) (g : Gate) :
    SameOrPanic (garbleGate E d s g) (garbleGate E.release d s g) := by
  unfold garbleGate
  split <;> dips

theorem same_garbleDecoding (E : Env) (d : HMap Nat Wire) (o : Nat) (s : GarbleState) (g : Gate) :
    SameOrPanic (garbleDecoding E d o s g) (garbleDecoding E.release d o s g) := by
  unfold garbleDecoding
  simp only [hashOut_release]
  dips

macro_rules | `(tactic| dips_step) => `(tactic| with_reducible exact same_garbleGate _ _ _ _)
macro_rules | `(tactic| dips_step) => `(tactic| with_reducible exact same_garbleDecoding _ _ _ _ _)

theorem same_garbleRun (E : Env) (rnd : GarbleRand) (c : Circuit) :
    SameOrPanic (garbleRun E rnd c) (garbleRun E.release rnd c) := by
  unfold garbleRun
  dips

macro_rules | `(tactic| dips_step) => `(tactic| with_reducible exact same_garbleRun _ _ _)

theorem same_garble (E : Env) (rnd : GarbleRand) (c : Circuit) :
    SameOrPanic (garble E rnd c) (garble E.release rnd c) := by
  unfold garble
  dips

theorem same_evalGate (E : Env) (gc : GarbledCircuit) (w : List (Option Wire)) (j : Nat) (g : Gate) :
    SameOrPanic (evalGate E gc w j g) (evalGate E.release gc w j g) := by
  unfold evalGate
  simp only [hashHalf_release]
  split <;> dips

macro_rules | `(tactic| dips_step) => `(tactic| with_reducible exact same_garble _ _ _)
macro_rules | `(tactic| dips_step) => `(tactic| with_reducible exact same_evalGate _ _ _ _ _)

theorem same_evaluate (E : Env) (gc : GarbledCircuit) (x : List Wire) :
    SameOrPanic (evaluate E gc x) (evaluate E.release gc x) := by
  unfold evaluate
  dips

macro_rules | `(tactic| dips_step) => `(tactic| with_reducible exact same_evaluate _ _ _)

/-! ### Helpers -/

theorem same_log2R (dbg : Bool) (b x : Nat) : SameOrPanic (log2R dbg b x) (log2R false b x) := by
  unfold log2R
  dips

theorem same_xorBytes (dbg : Bool) (l r : Bytes) : SameOrPanic (xorBytes dbg l r) (xorBytes false l r) := by
  unfold xorBytes
  dips

theorem same_xorBytesInplace (dbg : Bool) (l r : Bytes) :
    SameOrPanic (xorBytesInplace dbg l r) (xorBytesInplace false l r) := by
  unfold xorBytesInplace
  dips

macro_rules | `(tactic| dips_step) => `(tactic| with_reducible exact same_log2R _ _ _)
macro_rules | `(tactic| dips_step) => `(tactic| with_reducible exact same_xorBytes _ _ _)
macro_rules | `(tactic| dips_step) => `(tactic| with_reducible exact same_xorBytesInplace _ _ _)

end FP
