import Verif.Spec.Dialogue
import Verif.Proof.TrafficExchange
/-
Who speaks when.
-/
namespace FP
open Spec

/-- Speaks the dialogue, and returns values with `P`. -/
def Talks {α : Type} (P : α → Prop) : Proc α → List Turn → Prop
  | .ret a, D => D = [] ∧ P a
  | .fail _, _ => True
  | .send _ k, D => ∃ D', D = .send :: D' ∧ Talks P k D'
  | .recv k, D => ∃ D', D = .receive :: D' ∧ ∀ m, Talks P (k m) D'

namespace Talks
variable {α β : Type} {P : α → Prop} {Q : β → Prop}

theorem bind {p : Proc α} {f : α → Proc β} {D D' : List Turn} (h : Talks P p D) (hf : ∀ a, P a → Talks Q (f a) D') :
    Talks Q (p >>= f) (D ++ D') := by
  induction p generalizing D with
  | ret a => obtain ⟨rfl, h⟩ := h; exact hf a h
  | fail e => exact trivial
  | send m k ih =>
    obtain ⟨D1, rfl, h⟩ := h
    exact ⟨D1 ++ D', rfl, ih h⟩
  | recv k ih =>
    obtain ⟨D1, rfl, h⟩ := h
    exact ⟨D1 ++ D', rfl, fun m => ih m (h m)⟩

theorem last {p : Proc α} {f : α → Proc β} {D : List Turn} (h : Talks P p D) (hf : ∀ a, P a → Talks Q (f a) []) :
    Talks Q (p >>= f) D := List.append_nil D ▸ h.bind hf

theorem lift {r : R α} (h : Post P r) : Talks P (liftM r : Proc α) [] := by
  cases r with
  | ok a => exact ⟨rfl, h.out a rfl⟩
  | error e => exact trivial

theorem lifted (r : R α) : Talks (fun _ => True) (liftM r : Proc α) [] := lift (.any r)

theorem step {r : R α} {f : α → Proc β} {D : List Turn} (h : Post P r) (hf : ∀ a, P a → Talks Q (f a) D) :
    Talks Q ((liftM r : Proc α) >>= f) D := (lift h).bind hf

theorem skip {r : R α} {f : α → Proc β} {D : List Turn} (hf : ∀ a, Talks Q (f a) D) :
    Talks Q ((liftM r : Proc α) >>= f) D := step (.any r) fun a _ => hf a

theorem send {m : Bytes} {f : Unit → Proc β} {D : List Turn} (hf : Talks Q (f ()) D) :
    Talks Q (sendP m >>= f) (.send :: D) := ⟨D, rfl, hf⟩

theorem sendLast {m : Bytes} : Talks (fun _ => True) (sendP m) [.send] := ⟨[], rfl, rfl, trivial⟩

theorem recv {f : Bytes → Proc β} {D : List Turn} (hf : ∀ m, Talks Q (f m) D) : Talks Q (recvP >>= f) (.receive :: D) :=
  ⟨D, rfl, hf⟩

theorem err {e : ErrKind} {D : List Turn} : Talks P (liftM (errR e : R α) : Proc α) D := trivial

theorem ret {a : α} (h : P a) : Talks P (pure a : Proc α) [] := ⟨rfl, h⟩

theorem follows {p : Proc α} {D : List Turn} (h : Talks P p D) : Speaks p D := by
  induction p generalizing D with
  | ret a => exact h.1
  | fail e => exact trivial
  | send m k ih => obtain ⟨D', e, h⟩ := h; exact ⟨D', e, ih h⟩
  | recv k ih => obtain ⟨D', e, h⟩ := h; exact ⟨D', e, fun m => ih m (h m)⟩

theorem of_follows {p : Proc α} {D : List Turn} (h : Speaks p D) : Talks (fun _ => True) p D := by
  induction p generalizing D with
  | ret a => exact ⟨h, trivial⟩
  | fail e => exact trivial
  | send m k ih => obtain ⟨D', e, h⟩ := h; exact ⟨D', e, ih h⟩
  | recv k ih => obtain ⟨D', e, h⟩ := h; exact ⟨D', e, fun m => ih m (h m)⟩

end Talks

/-! ### The parties -/

abbrev Says {α : Type} (p : Proc α) (D : List Turn) : Prop := Talks (fun _ => True) p D

theorem validate_talks (pb : TransactionProperties) : Says (validateProperties pb) hello := by
  unfold validateProperties
  refine Talks.send (Talks.recv fun m => Talks.skip fun p => ?_)
  split
  · exact Talks.err
  · exact Talks.ret trivial

theorem coinflipSender_talks (E : Env) (v : Bytes) : Says (coinflipSender E v) [.send, .receive, .send] := by
  unfold coinflipSender
  refine Talks.send (Talks.recv fun u => ?_)
  split
  · exact Talks.err
  · exact Talks.send (Talks.lifted _)

theorem coinflipReceiver_talks (E : Env) (u : Bytes) : Says (coinflipReceiver E u) [.receive, .send, .receive] := by
  unfold coinflipReceiver
  refine Talks.recv fun c => Talks.send (Talks.recv fun v => ?_)
  split
  · exact Talks.err
  split
  · exact Talks.err
  · exact Talks.lifted _

theorem sendAll_talks (ms : List Bytes) {n : Nat} (h : ms.length = n) : Says (sendAll ms) (List.replicate n .send) := by
  subst h
  induction ms with
  | nil => exact Talks.ret trivial
  | cons m ms ih => exact Talks.send ih

theorem recvEach_talks {α : Type} (f : Bytes → R α) (n : Nat) :
    Talks (fun l => l.length = n) (recvEach n f) (List.replicate n .receive) := by
  induction n with
  | zero => exact Talks.ret rfl
  | succ n ih => exact Talks.recv fun m => Talks.skip fun a => (ih.last fun l hl => Talks.ret (by simp [hl]))

theorem coSender_talks (C : Curve) (X : Crypto) (secrets : Nat → Nat) (msg : List (Bytes × Bytes)) :
    Says (coSender C X secrets msg) (baseSends msg.length) := by
  unfold coSender
  exact (validate_talks _).bind fun _ _ => (sendAll_talks _ (by simp)).bind fun _ _ =>
    (recvEach_talks _ _).bind fun theirs ht => Talks.skip fun _ => Talks.skip fun _ => Talks.sendLast

theorem coReceiver_talks (C : Curve) (X : Crypto) (secrets : Nat → Nat) (choices : List Bool) :
    Says (coReceiver C X secrets choices) (baseReceives choices.length) := by
  unfold coReceiver
  refine (validate_talks _).bind fun _ _ => (recvEach_talks _ _).bind fun theirs ht => Talks.skip fun _ =>
    Talks.step (P := fun pk : List (WireBytes × WireBytes) => pk.length = choices.length) ?_ fun pk hpk => ?_
  · unfold coRespondAll
    exact (Post.mapM (P := fun _ => True) _ fun _ _ => .any _).mono fun pk h => by simpa [ht] using h.1
  · exact (sendAll_talks _ (by simpa using hpk)).bind fun _ _ => Talks.recv fun m => Talks.skip fun p => Talks.lifted _

theorem apricotSender_talks (C : Curve) (X : Crypto) (o : OTSend) (msg : List (Bytes × Bytes)) : Says (o.run C X msg) extSends := by
  unfold OTSend.run apricotSender
  refine Talks.skip fun _ => (validate_talks _).bind fun _ _ => (coinflipReceiver_talks _ _).bind fun seed _ => Talks.skip fun seed =>
    Talks.skip fun m0 => Talks.send ?_
  have hb := coReceiver_talks C X o.base (u8VecToBoolVec o.delta.toList)
  rw [u8Bits_length, Vector.length_toList] at hb
  refine hb.bind fun payloads _ => ?_
  unfold apricotSenderExtend
  refine Talks.skip fun _ => Talks.recv fun _ => Talks.skip fun _ => Talks.skip fun _ => Talks.skip fun _ => Talks.recv fun _ =>
    Talks.recv fun _ => Talks.skip fun _ => Talks.skip fun _ => Talks.skip fun _ => Talks.skip fun equal => ?_
  split
  · exact Talks.skip fun _ => Talks.sendLast
  · exact Talks.err

theorem apricotReceiver_talks (C : Curve) (X : Crypto) (o : OTRecv) (choices : List Bool) : Says (o.run C X choices) extReceives := by
  unfold OTRecv.run apricotReceiver
  refine Talks.skip fun _ => (validate_talks _).bind fun _ _ => (coinflipSender_talks _ _).bind fun seed _ => Talks.skip fun seed =>
    Talks.recv fun _ => Talks.skip fun _ => Talks.skip fun _ => ?_
  have hb := coSender_talks C X o.base (List.zipWith (fun a b => (a.toList, b.toList)) o.seed0.toList o.seed1.toList)
  rw [List.length_zipWith, Vector.length_toList, Vector.length_toList, Nat.min_self] at hb
  refine hb.bind fun _ _ => ?_
  unfold apricotReceiverExtend
  exact Talks.skip fun _ => Talks.skip fun _ => Talks.skip fun _ => Talks.skip fun _ => Talks.send (Talks.skip fun _ =>
    Talks.skip fun _ => Talks.send (Talks.send (Talks.skip fun _ => Talks.recv fun _ => Talks.lifted _)))

theorem classicSender_talks (C : Curve) (X : Crypto) (arch : Arch) (base : Nat → Nat) (coin : WireBytes) (delta : Vector Byte 16)
    (msg : List (Bytes × Bytes)) : Says (classicSender X arch coin delta (coReceiver C X base) msg) classicSends := by
  unfold classicSender
  refine Talks.skip fun _ => Talks.skip fun _ => (validate_talks _).bind fun _ _ => ?_
  have hb := coReceiver_talks C X base (u8VecToBoolVec delta.toList)
  rw [u8Bits_length, Vector.length_toList] at hb
  refine hb.bind fun payloads _ => ?_
  unfold classicSenderExtend clSenderCheck clSenderDeRot
  refine Talks.skip fun _ => Talks.recv fun _ => Talks.skip fun _ => Talks.skip fun _ => Talks.skip fun _ => ?_
  refine Talks.bind (P := fun _ => True) (D := [.receive, .send, .receive, .receive, .receive]) (D' := [.send, .send]) ?_ fun _ _ => ?_
  · refine (coinflipReceiver_talks _ _).bind fun seed _ => Talks.skip fun _ => Talks.skip fun _ => Talks.recv fun _ => Talks.skip fun _ =>
      Talks.recv fun _ => Talks.skip fun _ => Talks.skip fun _ => Talks.skip fun _ => ?_
    split
    · exact Talks.err
    · exact Talks.ret trivial
  · exact Talks.skip fun _ => Talks.skip fun _ => Talks.send Talks.sendLast

theorem classicReceiver_talks (C : Curve) (X : Crypto) (arch : Arch) (base : Nat → Nat) (coin : WireBytes) (bonus : Vector Bool 192)
    (seed0 seed1 : Vector WireBytes 128) (choices : List Bool) :
    Says (classicReceiver X arch coin bonus seed0 seed1 (coSender C X base) choices) classicReceives := by
  unfold classicReceiver
  refine (validate_talks _).bind fun _ _ => Talks.skip fun _ => Talks.skip fun _ => ?_
  have hb := coSender_talks C X base (List.zipWith (fun a b => (a.toList, b.toList)) seed0.toList seed1.toList)
  rw [List.length_zipWith, Vector.length_toList, Vector.length_toList, Nat.min_self] at hb
  refine hb.bind fun _ _ => ?_
  unfold classicReceiverExtend clReceiverCheck clReceiverDeRot
  refine Talks.skip fun _ => Talks.skip fun _ => Talks.send (Talks.skip fun _ => ?_)
  refine Talks.bind (P := fun _ => True) (D := [.send, .receive, .send, .send, .send]) (D' := [.receive, .receive]) ?_ fun _ _ => ?_
  · exact (coinflipSender_talks _ _).bind fun seed _ => Talks.skip fun _ => Talks.skip fun _ => Talks.send Talks.sendLast
  · exact Talks.recv fun _ => Talks.skip fun _ => Talks.recv fun _ => Talks.skip fun _ => Talks.lifted _

theorem manySend_talks (C : Curve) (X : Crypto) (o : ManySend) (messages : List Bytes) (d : Nat) :
    Says (o.run C X messages d) (manySends d) := by
  unfold ManySend.run manySender
  refine Talks.skip fun _ => Talks.send ?_
  have hb := coSender_talks C X o.base ((List.range d).map fun j => ((o.keys j).1.toList, (o.keys j).2.toList))
  rwa [List.length_map, List.length_range] at hb

theorem manyRecv_talks (C : Curve) (X : Crypto) (base : Nat → Nat) (index d : Nat) :
    Says (manyRecv C X base index d) (manyReceives d) := by
  unfold manyRecv manyReceiver
  refine Talks.step (P := fun l : List Bool => l.length = d) ?_ fun choices hc => Talks.recv fun _ => ?_
  · unfold manyChoices
    exact (Post.mapM (P := fun _ => True) _ fun _ _ => .any _).mono fun l h => by simpa using h.1
  · subst hc
    exact (coReceiver_talks C X base choices).last fun _ _ => Talks.skip fun _ => Talks.lifted _

theorem garbler_talks (C : Curve) (X : Crypto) (g : GarblerDraws) (password : Bytes) (t : Nat) :
    Says (HalfKey.garbler C X g password t) garbles := by
  unfold HalfKey.garbler halfGarbler
  exact Talks.skip fun _ => Talks.skip fun _ => Talks.skip fun _ => Talks.skip fun _ =>
    (apricotSender_talks C X g.ot _).bind fun _ _ => Talks.send (Talks.skip fun _ => Talks.send (Talks.lifted _))

theorem evaluator_talks (C : Curve) (X : Crypto) (o : OTRecv) (password : Bytes) :
    Says (HalfKey.evaluator C X o password) evaluates := by
  unfold HalfKey.evaluator halfEvaluator
  exact (apricotReceiver_talks C X o _).bind fun _ _ => Talks.skip fun _ => Talks.recv fun _ => Talks.skip fun _ => Talks.recv fun _ =>
    Talks.skip fun _ => Talks.lifted _

theorem first_talks (C : Curve) (X : Crypto) (g : GarblerDraws) (o : OTRecv) (password : Bytes) (t : Nat) :
    Says (fpakeFirst C X g o password t) (garbles ++ evaluates) := by
  unfold fpakeFirst
  exact (garbler_talks C X g password t).bind fun _ _ => (evaluator_talks C X o password).last fun _ _ => Talks.ret trivial

theorem second_talks (C : Curve) (X : Crypto) (g : GarblerDraws) (o : OTRecv) (password : Bytes) (t : Nat) :
    Says (fpakeSecond C X o g password t) (evaluates ++ garbles) := by
  unfold fpakeSecond
  exact (evaluator_talks C X o password).bind fun _ _ => (garbler_talks C X g password t).last fun _ _ => Talks.ret trivial

theorem first_pos {passwords : List Bytes} : Post (fun _ : Bytes => 0 < passwords.length) (idxR passwords 0) :=
  ⟨fun p e => List.length_pos_of_mem ((idxR_post _ _).out p e)⟩

theorem garblerServerV3_talks (C : Curve) (X : Crypto) (r : ServerDraws) (passwords : List Bytes) (t : Nat) :
    Says (garblerServerV3 C X r passwords t) (serverGarbles (Nat.clog 2 passwords.length)) := by
  unfold garblerServerV3
  refine Talks.step first_pos fun p h0 => Talks.skip fun _ => Talks.skip fun _ => Talks.send (Talks.skip fun _ =>
    (apricotSender_talks C X r.g.ot _).bind fun _ _ => Talks.skip fun _ => Talks.send ?_)
  refine Talks.step (P := fun d => d = Nat.clog 2 passwords.length) ⟨fun d e => clog_log2 h0 e⟩ ?_
  rintro d rfl
  exact Talks.skip fun _ => (manySend_talks C X r.many _ _).bind fun _ _ => Talks.skip fun _ =>
    (apricotSender_talks C X r.ot2 _).last fun _ _ => Talks.skip fun _ => Talks.ret trivial

theorem garblerServerV2_talks (C : Curve) (X : Crypto) (r : ServerDraws) (passwords : List Bytes) (t : Nat) :
    Says (garblerServerV2 C X r passwords t) (serverGarbles (Nat.clog 2 passwords.length)) := by
  unfold garblerServerV2
  refine Talks.step first_pos fun p h0 => Talks.skip fun _ => Talks.skip fun _ => Talks.send (Talks.skip fun _ =>
    (apricotSender_talks C X r.g.ot _).bind fun _ _ => Talks.skip fun _ => Talks.send ?_)
  refine Talks.step (P := fun d => d = Nat.clog 2 passwords.length) ⟨fun d e => clog_log2 h0 e⟩ ?_
  rintro d rfl
  exact Talks.skip fun _ => (manySend_talks C X r.many _ _).bind fun _ _ => Talks.skip fun _ =>
    (apricotSender_talks C X r.ot2 _).last fun _ _ => Talks.lifted _

theorem evaluatorClientV3_talks (C : Curve) (X : Crypto) (r : ClientDraws) (password : Bytes) (number index : Nat) (h0 : 0 < number) :
    Says (evaluatorClientV3 C X r password number index) (clientEvaluates (Nat.clog 2 number)) := by
  unfold evaluatorClientV3
  refine Talks.recv fun _ => Talks.skip fun _ => Talks.skip fun _ => (apricotReceiver_talks C X r.ot _).bind fun _ _ =>
    Talks.recv fun _ => ?_
  refine Talks.step (P := fun d => d = Nat.clog 2 number) ⟨fun d e => clog_log2 h0 e⟩ ?_
  rintro d rfl
  exact (manyRecv_talks C X r.many index _).bind fun _ _ => Talks.skip fun _ => (apricotReceiver_talks C X r.ot2 _).last fun _ _ =>
    Talks.skip fun _ => Talks.skip fun _ => Talks.skip fun _ => Talks.skip fun _ => Talks.skip fun _ => Talks.ret trivial

theorem evaluatorClientV2_talks (C : Curve) (X : Crypto) (r : ClientDraws) (password : Bytes) (number index : Nat) (h0 : 0 < number) :
    Says (evaluatorClientV2 C X r password number index) (clientEvaluates (Nat.clog 2 number)) := by
  unfold evaluatorClientV2
  refine Talks.recv fun _ => Talks.skip fun _ => Talks.skip fun _ => (apricotReceiver_talks C X r.ot _).bind fun _ _ =>
    Talks.recv fun _ => ?_
  refine Talks.step (P := fun d => d = Nat.clog 2 number) ⟨fun d e => clog_log2 h0 e⟩ ?_
  rintro d rfl
  exact (manyRecv_talks C X r.many index _).bind fun _ _ => Talks.skip fun _ => (apricotReceiver_talks C X r.ot2 _).last fun _ _ =>
    Talks.skip fun _ => Talks.skip fun _ => Talks.skip fun _ => Talks.skip fun _ => Talks.lifted _

theorem garblerClientV3_talks (C : Curve) (X : Crypto) (r : GarblerDraws) (password masked : Bytes) (index number t : Nat) :
    Says (garblerClientV3 C X r password masked index number t) clientGarbles := by
  unfold garblerClientV3
  exact Talks.skip fun _ => Talks.skip fun _ => Talks.skip fun _ => Talks.skip fun _ => Talks.send (Talks.send (Talks.skip fun _ =>
    (apricotSender_talks C X r.ot _).bind fun _ _ => Talks.skip fun _ => Talks.skip fun _ => Talks.send (Talks.lifted _)))

theorem evaluatorServerV3_talks (C : Curve) (X : Crypto) (r : OTRecv) (passwords : List Bytes) (mask : Bytes) :
    Says (evaluatorServerV3 C X r passwords mask) serverEvaluates := by
  unfold evaluatorServerV3
  exact Talks.skip fun _ => Talks.recv fun _ => Talks.skip fun _ => Talks.recv fun _ => Talks.skip fun _ => Talks.skip fun _ =>
    (apricotReceiver_talks C X r _).bind fun _ _ => Talks.recv fun _ => Talks.skip fun _ => Talks.skip fun _ => Talks.skip fun _ =>
    Talks.lifted _

theorem garblerClientV2_talks (C : Curve) (X : Crypto) (r : ClientGarbler2) (password : Bytes) (index number t : Nat) (h0 : 0 < number) :
    Says (garblerClientV2 C X r password index number t) (clientGarbles2 (Nat.clog 2 number)) := by
  unfold garblerClientV2
  refine Talks.skip fun _ => Talks.skip fun _ => Talks.skip fun _ => Talks.skip fun _ => Talks.send (Talks.send (Talks.skip fun _ =>
    (apricotSender_talks C X r.g.ot _).bind fun _ _ => ?_))
  refine Talks.step (P := fun d => d = Nat.clog 2 number) ⟨fun d e => clog_log2 h0 e⟩ ?_
  rintro d rfl
  exact (manyRecv_talks C X r.many index _).bind fun _ _ => Talks.skip fun _ => Talks.skip fun _ => Talks.send (Talks.lifted _)

theorem evaluatorServerV2_talks (C : Curve) (X : Crypto) (r : ServerEvaluator2) (passwords : List Bytes) :
    Says (evaluatorServerV2 C X r passwords) (serverEvaluates2 (Nat.clog 2 passwords.length)) := by
  unfold evaluatorServerV2
  refine Talks.step first_pos fun p h0 => Talks.recv fun _ => Talks.skip fun _ => Talks.recv fun _ => Talks.skip fun _ =>
    Talks.skip fun _ => Talks.skip fun _ => (apricotReceiver_talks C X r.ot _).bind fun _ _ => ?_
  refine Talks.step (P := fun d => d = Nat.clog 2 passwords.length) ⟨fun d e => clog_log2 h0 e⟩ ?_
  rintro d rfl
  exact (manySend_talks C X r.many _ _).bind fun _ _ => Talks.recv fun _ => Talks.skip fun _ => Talks.skip fun _ => Talks.skip fun _ =>
    Talks.lifted _

theorem garblerServerV1_talks (C : Curve) (X : Crypto) (r : ServerDraws1) (passwords : List Bytes) (t : Nat) :
    Says (garblerServerV1 C X r passwords t) (.send :: (extSends ++ manySends (Nat.clog 2 passwords.length))) := by
  unfold garblerServerV1
  refine Talks.step first_pos fun p h0 => Talks.skip fun _ => Talks.skip fun _ => Talks.send (Talks.skip fun _ =>
    (apricotSender_talks C X r.g.ot _).bind fun _ _ => ?_)
  refine Talks.step (P := fun d => d = Nat.clog 2 passwords.length) ⟨fun d e => clog_log2 h0 e⟩ ?_
  rintro d rfl
  exact Talks.skip fun _ => (manySend_talks C X r.many _ _).last fun _ _ => Talks.lifted _

theorem evaluatorClientV1_talks (C : Curve) (X : Crypto) (r : ClientDraws1) (password : Bytes) (number index : Nat) (h0 : 0 < number) :
    Says (evaluatorClientV1 C X r password number index) (.receive :: (extReceives ++ manyReceives (Nat.clog 2 number))) := by
  unfold evaluatorClientV1
  refine Talks.recv fun _ => Talks.skip fun _ => Talks.skip fun _ => (apricotReceiver_talks C X r.ot _).bind fun _ _ => ?_
  refine Talks.step (P := fun d => d = Nat.clog 2 number) ⟨fun d e => clog_log2 h0 e⟩ ?_
  rintro d rfl
  exact (manyRecv_talks C X r.many index _).last fun _ _ => Talks.skip fun _ => Talks.skip fun _ => Talks.lifted _

theorem garblerClientV1_talks (C : Curve) (X : Crypto) (r : ClientGarbler1) (password : Bytes) (index number t : Nat) :
    Says (garblerClientV1 C X r password index number t) (.send :: .send :: extSends) := by
  unfold garblerClientV1
  exact Talks.skip fun _ => Talks.skip fun _ => Talks.skip fun _ => Talks.skip fun _ => Talks.skip fun _ =>
    Talks.send (Talks.send (Talks.skip fun _ => Talks.skip fun _ => (apricotSender_talks C X r.g.ot _).last fun _ _ => Talks.lifted _))

theorem evaluatorServerV1_talks (C : Curve) (X : Crypto) (r : OTRecv) (passwords : List Bytes) :
    Says (evaluatorServerV1 C X r passwords) (.receive :: .receive :: extReceives) := by
  unfold evaluatorServerV1
  exact Talks.skip fun _ => Talks.recv fun _ => Talks.skip fun _ => Talks.recv fun _ => Talks.skip fun _ => Talks.skip fun _ =>
    (apricotReceiver_talks C X r _).last fun _ _ => Talks.skip fun _ => Talks.skip fun _ => Talks.lifted _

theorem mfpakeMany_talks (C : Curve) (X : Crypto) (r : ManyDraws) (passwords : List Bytes) (t : Nat) :
    Says (mfpakeMany C X r passwords t) (manySends (Nat.clog 2 passwords.length) ++ (garbles ++ evaluates)) := by
  unfold mfpakeMany
  refine Talks.step first_pos fun p h0 => Talks.skip fun _ => ?_
  refine Talks.step (P := fun d => d = Nat.clog 2 passwords.length) ⟨fun d e => clog_log2 h0 e⟩ ?_
  rintro d rfl
  exact (manySend_talks C X r.many _ _).bind fun _ _ => (garbler_talks C X r.g _ t).bind fun _ _ =>
    (evaluator_talks C X r.ot _).last fun _ _ => Talks.ret trivial

theorem mfpakeSingle_talks (C : Curve) (X : Crypto) (r : SingleDraws) (password : Bytes) (index number t : Nat) (h0 : 0 < number) :
    Says (mfpakeSingle C X r password index number t) (manyReceives (Nat.clog 2 number) ++ (evaluates ++ garbles)) := by
  unfold mfpakeSingle
  refine Talks.step (P := fun d => d = Nat.clog 2 number) ⟨fun d e => clog_log2 h0 e⟩ ?_
  rintro d rfl
  exact (manyRecv_talks C X r.many index _).bind fun _ _ => Talks.skip fun _ => (evaluator_talks C X r.ot _).bind fun _ _ =>
    (garbler_talks C X r.g _ t).last fun _ _ => Talks.ret trivial

theorem overTags_talks {α : Type} (tag : Bytes → Bytes) (check : Bytes → Bytes → R Unit) {p : Proc α} {D : List Turn} (h : Says p D) :
    Says (p.overTags tag check) (tagged D) := by
  induction p generalizing D with
  | ret a => obtain ⟨rfl, -⟩ := h; exact ⟨rfl, trivial⟩
  | fail e => exact trivial
  | send m k ih =>
    obtain ⟨D', rfl, h⟩ := h
    exact ⟨_, rfl, _, rfl, ih h⟩
  | recv k ih =>
    obtain ⟨D', rfl, h⟩ := h
    refine ⟨_, rfl, fun m => ⟨_, rfl, fun c => ?_⟩⟩
    show Says ((liftM (check m c) >>= fun _ => pure m) >>= fun m => (k m).overTags tag check) _
    cases check m c with
    | ok _ => exact ih m (h m)
    | error e => exact trivial

theorem serverHandshake_talks (M : ChannelCrypto) (secret : M.Secret) : Says (serverHandshake M secret) [.send, .receive] := by
  unfold serverHandshake
  exact Talks.send (Talks.recv fun _ => Talks.skip fun _ => Talks.ret trivial)

theorem clientHandshake_talks (M : ChannelCrypto) (secret : M.Secret) : Says (clientHandshake M secret) [.receive, .send] := by
  unfold clientHandshake
  exact Talks.recv fun _ => Talks.skip fun _ => Talks.send (Talks.ret trivial)

theorem signedServerHandshake_talks (S : SigScheme) (k : S.Keypair) : Says (signedServerHandshake S k) [.send, .receive] := by
  unfold signedServerHandshake
  exact Talks.send (Talks.recv fun _ => Talks.skip fun _ => Talks.ret trivial)

theorem signedClientHandshake_talks (S : SigScheme) (k : S.Keypair) : Says (signedClientHandshake S k) [.receive, .send] := by
  unfold signedClientHandshake
  exact Talks.recv fun _ => Talks.skip fun _ => Talks.send (Talks.ret trivial)

theorem tagged_length (D : List Turn) : (tagged D).length = 2 * D.length := by
  induction D with
  | nil => rfl
  | cons t D ih =>
    show (tagged D).length + 1 + 1 = 2 * (D.length + 1)
    omega

/-- What one party does with what it is given. -/
theorem follows_against {α : Type} {p : Proc α} {D : List Turn} (h : Speaks p D) (inp : List Bytes) :
    (waits D ≤ inp.length → (p.against inp).2 ≠ none ∧ p.against inp = p.against (inp.take (waits D))) ∧
    (inp.length < waits D → ∀ a, (p.against inp).2 ≠ some (.ok a)) ∧
    (p.against inp).1.length ≤ D.count .send ∧
    (∀ a, (p.against inp).2 = some (.ok a) → (p.against inp).1.length = D.count .send) := by
  induction p generalizing D inp with
  | ret a =>
    obtain rfl : D = [] := h
    exact ⟨fun _ => ⟨by simp [Proc.against], by simp [Proc.against]⟩, fun h => by simp [waits] at h, by simp [Proc.against],
      fun _ _ => by simp [Proc.against]⟩
  | fail e => exact ⟨fun _ => ⟨by simp [Proc.against], by simp [Proc.against]⟩, fun _ _ => by simp [Proc.against],
      by simp [Proc.against], fun _ h => by simp [Proc.against] at h⟩
  | send m k ih =>
    obtain ⟨D', rfl, h⟩ := h
    obtain ⟨h1, h2, h3, h4⟩ := ih h inp
    have hw : waits (.send :: D') = waits D' := by simp [waits]
    rw [hw]
    simp only [Proc.against, List.count_cons_self, List.length_cons]
    refine ⟨fun hi => ⟨(h1 hi).1, ?_⟩, h2, by omega, fun a ha => by rw [h4 a ha]⟩
    rw [← (h1 hi).2]
  | recv k ih =>
    obtain ⟨D', rfl, h⟩ := h
    have hw : waits (.receive :: D') = waits D' + 1 := by simp [waits]
    have hc : (Turn.receive :: D').count .send = D'.count .send := by simp
    rw [hw, hc]
    cases inp with
    | nil =>
      exact ⟨fun hi => by simp at hi, fun _ _ => by simp [Proc.against], by simp [Proc.against], fun _ h => by simp [Proc.against] at h⟩
    | cons m inp =>
      obtain ⟨h1, h2, h3, h4⟩ := ih m (h m) inp
      simp only [Proc.against, List.length_cons, List.take_succ_cons]
      exact ⟨fun hi => h1 (by omega), fun hi => h2 (by omega), h3, h4⟩

/-! ### Two dialogues that fit -/

/-- Some order of the turns of both sides brings both to their ends; `a` and `b` messages are on their way to the right and to
the left. -/
inductive Fits : Nat → Nat → List Turn → List Turn → Prop where
  | nil : Fits 0 0 [] []
  | sendL {a b D E} : Fits (a + 1) b D E → Fits a b (.send :: D) E
  | sendR {a b D E} : Fits a (b + 1) D E → Fits a b D (.send :: E)
  | recvL {a b D E} : Fits a b D E → Fits a (b + 1) (.receive :: D) E
  | recvR {a b D E} : Fits a b D E → Fits (a + 1) b D (.receive :: E)

namespace Fits

theorem inv_sendL {a b : Nat} {D E : List Turn} (h : Fits a b (.send :: D) E) : Fits (a + 1) b D E := by
  generalize hD : Turn.send :: D = D' at h
  induction h with
  | nil => cases hD
  | sendL h _ => cases hD; exact h
  | sendR _ ih => exact .sendR (ih hD)
  | recvL _ _ => cases hD
  | recvR _ ih => exact .recvR (ih hD)

theorem inv_sendR {a b : Nat} {D E : List Turn} (h : Fits a b D (.send :: E)) : Fits a (b + 1) D E := by
  generalize hE : Turn.send :: E = E' at h
  induction h with
  | nil => cases hE
  | sendL _ ih => exact .sendL (ih hE)
  | sendR h _ => cases hE; exact h
  | recvL _ ih => exact .recvL (ih hE)
  | recvR _ _ => cases hE

theorem inv_recvL {a b : Nat} {D E : List Turn} (h : Fits a (b + 1) (.receive :: D) E) : Fits a b D E := by
  generalize hD : Turn.receive :: D = D' at h
  generalize hb : b + 1 = b' at h
  induction h generalizing b with
  | nil => cases hD
  | sendL _ _ => cases hD
  | sendR _ ih => subst hb; exact .sendR (ih hD rfl)
  | recvL h _ => cases hD; cases hb; exact h
  | recvR _ ih => exact .recvR (ih hD hb)

theorem inv_recvR {a b : Nat} {D E : List Turn} (h : Fits (a + 1) b D (.receive :: E)) : Fits a b D E := by
  generalize hE : Turn.receive :: E = E' at h
  generalize ha : a + 1 = a' at h
  induction h generalizing a with
  | nil => cases hE
  | sendL _ ih => subst ha; exact .sendL (ih hE rfl)
  | sendR _ _ => cases hE
  | recvL _ ih => exact .recvL (ih hE ha)
  | recvR h _ => cases hE; cases ha; exact h

theorem append {a b : Nat} {D E D' E' : List Turn} (h : Fits a b D E) (h' : Fits 0 0 D' E') : Fits a b (D ++ D') (E ++ E') := by
  induction h with
  | nil => exact h'
  | sendL _ ih => exact .sendL ih
  | sendR _ ih => exact .sendR ih
  | recvL _ ih => exact .recvL ih
  | recvR _ ih => exact .recvR ih

theorem swap {a b : Nat} {D E : List Turn} (h : Fits a b D E) : Fits b a E D := by
  induction h with
  | nil => exact .nil
  | sendL _ ih => exact .sendR ih
  | sendR _ ih => exact .sendL ih
  | recvL _ ih => exact .recvR ih
  | recvR _ ih => exact .recvL ih

/-- One message from left to right. -/
theorem msg {D E : List Turn} (h : Fits 0 0 D E) : Fits 0 0 (.send :: D) (.receive :: E) := .sendL (.recvR h)

theorem msg' {D E : List Turn} (h : Fits 0 0 D E) : Fits 0 0 (.receive :: D) (.send :: E) := .sendR (.recvL h)

theorem all (n : Nat) : Fits 0 0 (List.replicate n .send) (List.replicate n .receive) := by
  induction n with
  | zero => exact .nil
  | succ n ih => exact ih.msg

theorem hello : Fits 0 0 hello hello := .sendL (.sendR (.recvL (.recvR .nil)))

theorem base (n : Nat) : Fits 0 0 (baseSends n) (baseReceives n) :=
  hello.append ((all n).append ((all n).swap.append (msg .nil)))

theorem coin : Fits 0 0 [.send, .receive, .send] [.receive, .send, .receive] := msg (msg' (msg .nil))

theorem ext : Fits 0 0 extSends extReceives :=
  hello.append (coin.swap.append (msg ((base 128).swap.append (msg' (msg' (msg' (msg .nil)))))))

theorem classic : Fits 0 0 classicSends classicReceives :=
  hello.append ((base 128).swap.append (msg' (coin.swap.append (msg' (msg' (msg (msg .nil)))))))

theorem many (d : Nat) : Fits 0 0 (manySends d) (manyReceives d) := msg (base d)

theorem half : Fits 0 0 garbles evaluates := ext.append (msg (msg .nil))

theorem server (d : Nat) : Fits 0 0 (serverGarbles d) (clientEvaluates d) :=
  msg (ext.append (msg ((many d).append ext)))

theorem client : Fits 0 0 clientGarbles serverEvaluates := msg (msg (ext.append (msg .nil)))

theorem client2 (d : Nat) : Fits 0 0 (clientGarbles2 d) (serverEvaluates2 d) := msg (msg (ext.append ((many d).swap.append (msg .nil))))

theorem tagged {a b : Nat} {D E : List Turn} (h : Fits a b D E) : Fits (a + a) (b + b) (tagged D) (tagged E) := by
  induction h with
  | nil => exact .nil
  | @sendL a b D E _ ih =>
    refine .sendL (.sendL ?_)
    rw [show a + a + 1 + 1 = (a + 1) + (a + 1) by omega]
    exact ih
  | @sendR a b D E _ ih =>
    refine .sendR (.sendR ?_)
    rw [show b + b + 1 + 1 = (b + 1) + (b + 1) by omega]
    exact ih
  | @recvL a b D E _ ih =>
    rw [show (b + 1) + (b + 1) = b + b + 1 + 1 by omega]
    exact .recvL (.recvL ih)
  | @recvR a b D E _ ih =>
    rw [show (a + 1) + (a + 1) = a + a + 1 + 1 by omega]
    exact .recvR (.recvR ih)

end Fits

/-- Parties whose dialogues fit never hang. -/
theorem Fits.neverHangs {α β : Type} {p : Proc α} {q : Proc β} {D E : List Turn} (h : Fits 0 0 D E) (hp : Speaks p D)
    (hq : Speaks q E) : NeverHangs p q (D.length + E.length) := by
  have key : ∀ (m : Nat) (c d : Conf α β), StepsN m c d → ∀ D E, Speaks c.left D → Speaks c.right E →
      Fits c.toRight.length c.toLeft.length D E → ∃ D' E', m + (D'.length + E'.length) = D.length + E.length ∧ Speaks d.left D' ∧
        Speaks d.right E' ∧ Fits d.toRight.length d.toLeft.length D' E' := by
    intro m c d hs
    induction hs with
    | refl c => intro D E h1 h2 h3; exact ⟨D, E, by omega, h1, h2, h3⟩
    | step h1 _ ih =>
      intro D E hl hr hf
      cases h1 with
      | sendL m p q pq qp =>
        obtain ⟨D', rfl, hl⟩ := hl
        obtain ⟨D2, E2, e, h⟩ := ih D' E hl hr (by simpa using hf.inv_sendL)
        exact ⟨D2, E2, by simp only [List.length_cons]; omega, h⟩
      | sendR m p q pq qp =>
        obtain ⟨E', rfl, hr⟩ := hr
        obtain ⟨D2, E2, e, h⟩ := ih D E' hl hr (by simpa using hf.inv_sendR)
        exact ⟨D2, E2, by simp only [List.length_cons]; omega, h⟩
      | recvL m k q pq qp =>
        obtain ⟨D', rfl, hl⟩ := hl
        obtain ⟨D2, E2, e, h⟩ := ih D' E (hl m) hr (Fits.inv_recvL hf)
        exact ⟨D2, E2, by simp only [List.length_cons]; omega, h⟩
      | recvR m p k pq qp =>
        obtain ⟨E', rfl, hr⟩ := hr
        obtain ⟨D2, E2, e, h⟩ := ih D E' hl (hr m) (Fits.inv_recvR hf)
        exact ⟨D2, E2, by simp only [List.length_cons]; omega, h⟩
  intro m c hs
  obtain ⟨D', E', e, h1, h2, h3⟩ := key m _ _ hs D E hp hq h
  refine ⟨by omega, fun hstuck => ?_⟩
  obtain ⟨l, r, pq, qp⟩ := c
  simp only at h1 h2 h3
  by_cases hlf : ∃ e, l = .fail e
  · exact .inr (.inl hlf)
  by_cases hrf : ∃ e, r = .fail e
  · exact .inr (.inr hrf)
  left
  have nosendL : ∀ m k, l ≠ .send m k := fun m k e => by subst e; exact hstuck _ (.sendL ..)
  have nosendR : ∀ m k, r ≠ .send m k := fun m k e => by subst e; exact hstuck _ (.sendR ..)
  have norecvL : ∀ k, l = .recv k → qp = [] := by
    rintro k rfl
    cases qp with
    | nil => rfl
    | cons m qp => exact absurd (.recvL ..) (hstuck _)
  have norecvR : ∀ k, r = .recv k → pq = [] := by
    rintro k rfl
    cases pq with
    | nil => rfl
    | cons m pq => exact absurd (.recvR ..) (hstuck _)
  have hl : (∃ a, l = .ret a ∧ D' = []) ∨ (∃ k D2, l = .recv k ∧ D' = .receive :: D2 ∧ qp = []) := by
    cases l with
    | ret a => exact .inl ⟨a, rfl, h1⟩
    | fail e => exact absurd ⟨e, rfl⟩ hlf
    | send m k => exact absurd rfl (nosendL m k)
    | recv k => obtain ⟨D2, rfl, -⟩ := h1; exact .inr ⟨k, D2, rfl, rfl, norecvL k rfl⟩
  have hr : (∃ a, r = .ret a ∧ E' = []) ∨ (∃ k D2, r = .recv k ∧ E' = .receive :: D2 ∧ pq = []) := by
    cases r with
    | ret a => exact .inl ⟨a, rfl, h2⟩
    | fail e => exact absurd ⟨e, rfl⟩ hrf
    | send m k => exact absurd rfl (nosendR m k)
    | recv k => obtain ⟨D2, rfl, -⟩ := h2; exact .inr ⟨k, D2, rfl, rfl, norecvR k rfl⟩
  generalize hx : pq.length = x at h3
  generalize hy : qp.length = y at h3
  cases h3 with
  | nil =>
    rcases hl with ⟨a, rfl, -⟩ | ⟨k, D2, -, e', -⟩
    · rcases hr with ⟨b, rfl, -⟩ | ⟨k, D2, -, e', -⟩
      · exact ⟨by simpa using e, ⟨a, b, rfl, rfl⟩, List.length_eq_zero_iff.mp hx, List.length_eq_zero_iff.mp hy⟩
      · cases e'
    · cases e'
  | sendL _ => rcases hl with ⟨a, -, e⟩ | ⟨k, D2, -, e, -⟩ <;> cases e
  | sendR _ => rcases hr with ⟨a, -, e⟩ | ⟨k, D2, -, e, -⟩ <;> cases e
  | recvL _ =>
    rcases hl with ⟨a, -, e⟩ | ⟨k, D2, -, -, e⟩
    · cases e
    · subst e; cases hy
  | recvR _ =>
    rcases hr with ⟨a, -, e⟩ | ⟨k, D2, -, -, e⟩
    · cases e
    · subst e; cases hx

/-! ### Dialogues that are broken off -/

/-- Whatever the peer delivers, the party goes through the dialogue and then sends `m`, waits for an answer, and fails unless
it has `P`.  It may fail before. -/
def Cut {α : Type} (m : Bytes) (P : Bytes → Prop) : Proc α → List Turn → Prop
  | .ret _, _ => False
  | .fail _, _ => True
  | .send x k, D => (D = [] ∧ x = m ∧ ∃ k', k = .recv k' ∧ ∀ y, ¬ P y → ∃ e, k' y = .fail e) ∨
      ∃ D', D = .send :: D' ∧ Cut m P k D'
  | .recv k, D => ∃ D', D = .receive :: D' ∧ ∀ x, Cut m P (k x) D'

namespace Cut
variable {α β : Type} {m : Bytes} {P : Bytes → Prop}

theorem left {p : Proc α} {D : List Turn} (h : Cut m P p D) (f : α → Proc β) : Cut m P (p >>= f) D := by
  induction p generalizing D with
  | ret a => exact h.elim
  | fail e => exact trivial
  | send x k ih =>
    rcases h with ⟨rfl, rfl, k', rfl, hk⟩ | ⟨D', rfl, h⟩
    · refine .inl ⟨rfl, rfl, fun y => (k' y).bind f, rfl, fun y hy => ?_⟩
      obtain ⟨e, he⟩ := hk y hy
      exact ⟨e, by show (k' y).bind f = _; rw [he]; rfl⟩
    · exact .inr ⟨D', rfl, ih h⟩
  | recv k ih =>
    obtain ⟨D', rfl, h⟩ := h
    exact ⟨D', rfl, fun y => ih y (h y)⟩

theorem after {Q : α → Prop} {p : Proc α} {f : α → Proc β} {D D' : List Turn} (h : Talks Q p D) (hf : ∀ a, Q a → Cut m P (f a) D') :
    Cut m P (p >>= f) (D ++ D') := by
  induction p generalizing D with
  | ret a => obtain ⟨rfl, h⟩ := h; exact hf a h
  | fail e => exact trivial
  | send x k ih =>
    obtain ⟨D1, rfl, h⟩ := h
    exact .inr ⟨D1 ++ D', rfl, ih h⟩
  | recv k ih =>
    obtain ⟨D1, rfl, h⟩ := h
    exact ⟨D1 ++ D', rfl, fun y => ih y (h y)⟩

theorem step {Q : α → Prop} {r : R α} {f : α → Proc β} {D : List Turn} (h : Post Q r) (hf : ∀ a, Q a → Cut m P (f a) D) :
    Cut m P ((liftM r : Proc α) >>= f) D := after (Talks.lift h) hf

theorem skip {r : R α} {f : α → Proc β} {D : List Turn} (hf : ∀ a, Cut m P (f a) D) : Cut m P ((liftM r : Proc α) >>= f) D :=
  step (.any r) fun a _ => hf a

theorem send {x : Bytes} {f : Unit → Proc β} {D : List Turn} (hf : Cut m P (f ()) D) : Cut m P (sendP x >>= f) (.send :: D) :=
  .inr ⟨D, rfl, hf⟩

theorem recv {f : Bytes → Proc β} {D : List Turn} (hf : ∀ x, Cut m P (f x) D) : Cut m P (recvP >>= f) (.receive :: D) :=
  ⟨D, rfl, hf⟩

end Cut

theorem validate_cut (pb : TransactionProperties) :
    Cut (Codec.properties.enc pb) (fun y => Codec.properties.deserialize y = .ok pb) (validateProperties pb) [] := by
  unfold validateProperties
  refine .inl ⟨rfl, rfl, _, rfl, fun y hy => ?_⟩
  show ∃ e, ((liftM (Codec.properties.deserialize y) : Proc _) >>= _) = .fail e
  cases h : Codec.properties.deserialize y with
  | error e => exact ⟨e, rfl⟩
  | ok pb2 =>
    have hne : pb2 ≠ pb := fun e => hy (by show Codec.properties.deserialize y = _; rw [h, e])
    refine ⟨.err .badProperties, ?_⟩
    show (if pb2 ≠ pb then (liftM (errR .badProperties : R Unit) : Proc Unit) else pure ()) = _
    rw [if_pos hne]
    rfl

theorem Steps.left_failed {α β : Type} {c d : Conf α β} (h : Steps c d) {e : Fault} (he : c.left = .fail e) : d.left = .fail e := by
  obtain ⟨n, h⟩ := h
  induction h with
  | refl => exact he
  | step h1 _ ih =>
    refine ih ?_
    cases h1 with
    | sendL | recvL => cases he
    | sendR | recvR => exact he

theorem Steps.right_failed {α β : Type} {c d : Conf α β} (h : Steps c d) {e : Fault} (he : c.right = .fail e) : d.right = .fail e := by
  obtain ⟨n, h⟩ := h
  induction h with
  | refl => exact he
  | step h1 _ ih =>
    refine ih ?_
    cases h1 with
    | sendR | recvR => cases he
    | sendL | recvL => exact he

theorem Fits.breaks {α β : Type} {a b : Nat} {D E : List Turn} (h : Fits a b D E) {m m' : Bytes} {P P' : Bytes → Prop} (h1 : ¬ P m')
    (c : Conf α β) (hl : Cut m P c.left D) (hr : Cut m' P' c.right E) (ha : c.toRight.length = a) (hb : c.toLeft.length = b) :
    ∃ d, Steps c d ∧ ((∃ e, d.left = .fail e) ∨ ∃ e, d.right = .fail e) := by
  induction h generalizing c with
  | nil =>
    obtain ⟨l, r, pq, qp⟩ := c
    obtain rfl := List.length_eq_zero_iff.mp ha
    obtain rfl := List.length_eq_zero_iff.mp hb
    cases l with
    | ret a => exact hl.elim
    | fail e => exact ⟨_, .refl _, .inl ⟨e, rfl⟩⟩
    | recv k => obtain ⟨D', e, -⟩ := hl; cases e
    | send x k =>
      rcases hl with ⟨-, rfl, k, rfl, hk⟩ | ⟨D', e, -⟩
      · cases r with
        | ret a => exact hr.elim
        | fail e => exact ⟨_, .refl _, .inr ⟨e, rfl⟩⟩
        | recv k => obtain ⟨D', e, -⟩ := hr; cases e
        | send y k2 =>
          rcases hr with ⟨-, rfl, k2, rfl, -⟩ | ⟨D', e, -⟩
          · obtain ⟨e, he⟩ := hk _ h1
            exact ⟨_, .head (.sendL ..) (.head (.sendR ..) (.head (.recvL ..) (.refl _))), .inl ⟨e, he⟩⟩
          · cases e
      · cases e
  | @sendL a b D E _ ih =>
    obtain ⟨l, r, pq, qp⟩ := c
    cases l with
    | ret a => exact hl.elim
    | fail e => exact ⟨_, .refl _, .inl ⟨e, rfl⟩⟩
    | recv k => obtain ⟨D', e, -⟩ := hl; cases e
    | send x k =>
      rcases hl with ⟨e, -⟩ | ⟨D', e, hl⟩
      · cases e
      · cases e
        obtain ⟨d, hd, h⟩ := ih ⟨k, r, pq ++ [x], qp⟩ hl hr (by simpa using ha) hb
        exact ⟨d, .head (.sendL ..) hd, h⟩
  | @sendR a b D E _ ih =>
    obtain ⟨l, r, pq, qp⟩ := c
    cases r with
    | ret a => exact hr.elim
    | fail e => exact ⟨_, .refl _, .inr ⟨e, rfl⟩⟩
    | recv k => obtain ⟨D', e, -⟩ := hr; cases e
    | send x k =>
      rcases hr with ⟨e, -⟩ | ⟨D', e, hr⟩
      · cases e
      · cases e
        obtain ⟨d, hd, h⟩ := ih ⟨l, k, pq, qp ++ [x]⟩ hl hr ha (by simpa using hb)
        exact ⟨d, .head (.sendR ..) hd, h⟩
  | @recvL a b D E _ ih =>
    obtain ⟨l, r, pq, qp⟩ := c
    cases qp with
    | nil => cases hb
    | cons x qp =>
    cases l with
    | ret a => exact hl.elim
    | fail e => exact ⟨_, .refl _, .inl ⟨e, rfl⟩⟩
    | recv k =>
      obtain ⟨D', e, hl⟩ := hl
      cases e
      obtain ⟨d, hd, h⟩ := ih ⟨k x, r, pq, qp⟩ (hl x) hr ha (by simpa using hb)
      exact ⟨d, .head (.recvL ..) hd, h⟩
    | send x k => rcases hl with ⟨e, -⟩ | ⟨D', e, hl⟩ <;> cases e
  | @recvR a b D E _ ih =>
    obtain ⟨l, r, pq, qp⟩ := c
    cases pq with
    | nil => cases ha
    | cons x pq =>
    cases r with
    | ret a => exact hr.elim
    | fail e => exact ⟨_, .refl _, .inr ⟨e, rfl⟩⟩
    | recv k =>
      obtain ⟨D', e, hr⟩ := hr
      cases e
      obtain ⟨d, hd, h⟩ := ih ⟨l, k x, pq, qp⟩ hl (hr x) (by simpa using ha) hb
      exact ⟨d, .head (.recvR ..) hd, h⟩
    | send x k => rcases hr with ⟨e, -⟩ | ⟨D', e, hr⟩ <;> cases e

/-- Parties whose dialogues fit up to a point where one does not accept what the other announces. -/
theorem Fits.oneFails {α β : Type} {p : Proc α} {q : Proc β} {D E : List Turn} (h : Fits 0 0 D E) {m m' : Bytes} {P P' : Bytes → Prop}
    (h1 : ¬ P m') (hp : Cut m P p D) (hq : Cut m' P' q E) : OneFails p q := by
  obtain ⟨c, hc, hf⟩ := h.breaks h1 (start p q) hp hq rfl rfl
  obtain ⟨d, hd, hs⟩ := exists_stuck c
  have hf : (∃ e, d.left = .fail e) ∨ ∃ e, d.right = .fail e := by
    rcases hf with ⟨e, he⟩ | ⟨e, he⟩
    · exact .inl ⟨e, hd.left_failed he⟩
    · exact .inr ⟨e, hd.right_failed he⟩
  obtain ⟨n, hn⟩ := hc.trans hd
  refine ⟨n, fun k c' hc' => ?_⟩
  obtain ⟨j, hj, hr⟩ := stuck_unique hn hs hc'
  refine ⟨by omega, fun hst => ?_⟩
  cases hr with
  | refl => exact hf
  | step h _ => exact absurd h (hst _)

/-! ### Different numbers of entries -/

/-- What a party of a base transfer of `n` pairs announces. -/
def announces (n : Nat) : Bytes := Codec.properties.enc ⟨n, "Chou-Orlandi"⟩

/-- What it accepts. -/
def accepts (n : Nat) (y : Bytes) : Prop := Codec.properties.deserialize y = .ok ⟨n, "Chou-Orlandi"⟩

theorem not_accepts {n n' : Nat} (h : n ≠ n') (hn : n' < 2 ^ 64) : ¬ accepts n (announces n') := by
  unfold accepts announces
  rw [deserialize_ok properties_rt ⟨hn, by show ("Chou-Orlandi" : String).utf8ByteSize < 2 ^ 64; decide⟩]
  intro e
  exact h (congrArg TransactionProperties.msgSize (Except.ok.inj e)).symm

theorem coSender_cut (C : Curve) (X : Crypto) (secrets : Nat → Nat) (msg : List (Bytes × Bytes)) :
    Cut (announces msg.length) (accepts msg.length) (coSender C X secrets msg) [] := (validate_cut _).left _

theorem coReceiver_cut (C : Curve) (X : Crypto) (secrets : Nat → Nat) (choices : List Bool) :
    Cut (announces choices.length) (accepts choices.length) (coReceiver C X secrets choices) [] := (validate_cut _).left _

theorem manySend_cut (C : Curve) (X : Crypto) (o : ManySend) (messages : List Bytes) (d : Nat) :
    Cut (announces d) (accepts d) (o.run C X messages d) [.send] := by
  unfold ManySend.run manySender
  refine Cut.skip fun _ => Cut.send ?_
  have hb := coSender_cut C X o.base ((List.range d).map fun j => ((o.keys j).1.toList, (o.keys j).2.toList))
  rwa [List.length_map, List.length_range] at hb

theorem manyRecv_cut (C : Curve) (X : Crypto) (base : Nat → Nat) (index d : Nat) :
    Cut (announces d) (accepts d) (manyRecv C X base index d) [.receive] := by
  unfold manyRecv manyReceiver
  refine Cut.step (Q := fun l : List Bool => l.length = d) ?_ fun choices hc => Cut.recv fun _ => ?_
  · unfold manyChoices
    exact (Post.mapM (P := fun _ => True) _ fun _ _ => .any _).mono fun l h => by simpa using h.1
  · subst hc
    exact (coReceiver_cut C X base choices).left _

/-- The turns of a garbling server up to the point where the numbers of entries are compared. -/
def serverOpens : List Turn := .send :: (extSends ++ (.send :: [.send]))

def clientOpens : List Turn := .receive :: (extReceives ++ (.receive :: [.receive]))

theorem garblerServerV3_cut (C : Curve) (X : Crypto) (r : ServerDraws) (passwords : List Bytes) (t : Nat) :
    Cut (announces (Nat.clog 2 passwords.length)) (accepts (Nat.clog 2 passwords.length)) (garblerServerV3 C X r passwords t)
      serverOpens := by
  unfold garblerServerV3
  refine Cut.step first_pos fun p h0 => Cut.skip fun _ => Cut.skip fun _ => Cut.send (Cut.skip fun _ =>
    Cut.after (apricotSender_talks C X r.g.ot _) fun _ _ => Cut.skip fun _ => Cut.send ?_)
  refine Cut.step (Q := fun d => d = Nat.clog 2 passwords.length) ⟨fun d e => clog_log2 h0 e⟩ ?_
  rintro d rfl
  exact Cut.skip fun _ => (manySend_cut C X r.many _ _).left _

theorem garblerServerV2_cut (C : Curve) (X : Crypto) (r : ServerDraws) (passwords : List Bytes) (t : Nat) :
    Cut (announces (Nat.clog 2 passwords.length)) (accepts (Nat.clog 2 passwords.length)) (garblerServerV2 C X r passwords t)
      serverOpens := by
  unfold garblerServerV2
  refine Cut.step first_pos fun p h0 => Cut.skip fun _ => Cut.skip fun _ => Cut.send (Cut.skip fun _ =>
    Cut.after (apricotSender_talks C X r.g.ot _) fun _ _ => Cut.skip fun _ => Cut.send ?_)
  refine Cut.step (Q := fun d => d = Nat.clog 2 passwords.length) ⟨fun d e => clog_log2 h0 e⟩ ?_
  rintro d rfl
  exact Cut.skip fun _ => (manySend_cut C X r.many _ _).left _

theorem evaluatorClientV3_cut (C : Curve) (X : Crypto) (r : ClientDraws) (password : Bytes) (number index : Nat) (h0 : 0 < number) :
    Cut (announces (Nat.clog 2 number)) (accepts (Nat.clog 2 number)) (evaluatorClientV3 C X r password number index) clientOpens := by
  unfold evaluatorClientV3
  refine Cut.recv fun _ => Cut.skip fun _ => Cut.skip fun _ => Cut.after (apricotReceiver_talks C X r.ot _) fun _ _ =>
    Cut.recv fun _ => ?_
  refine Cut.step (Q := fun d => d = Nat.clog 2 number) ⟨fun d e => clog_log2 h0 e⟩ ?_
  rintro d rfl
  exact (manyRecv_cut C X r.many index _).left _

theorem evaluatorClientV2_cut (C : Curve) (X : Crypto) (r : ClientDraws) (password : Bytes) (number index : Nat) (h0 : 0 < number) :
    Cut (announces (Nat.clog 2 number)) (accepts (Nat.clog 2 number)) (evaluatorClientV2 C X r password number index) clientOpens := by
  unfold evaluatorClientV2
  refine Cut.recv fun _ => Cut.skip fun _ => Cut.skip fun _ => Cut.after (apricotReceiver_talks C X r.ot _) fun _ _ =>
    Cut.recv fun _ => ?_
  refine Cut.step (Q := fun d => d = Nat.clog 2 number) ⟨fun d e => clog_log2 h0 e⟩ ?_
  rintro d rfl
  exact (manyRecv_cut C X r.many index _).left _

theorem garblerClientV2_cut (C : Curve) (X : Crypto) (r : ClientGarbler2) (password : Bytes) (index number t : Nat) (h0 : 0 < number) :
    Cut (announces (Nat.clog 2 number)) (accepts (Nat.clog 2 number)) (garblerClientV2 C X r password index number t)
      (.send :: .send :: (extSends ++ [.receive])) := by
  unfold garblerClientV2
  refine Cut.skip fun _ => Cut.skip fun _ => Cut.skip fun _ => Cut.skip fun _ => Cut.send (Cut.send (Cut.skip fun _ =>
    Cut.after (apricotSender_talks C X r.g.ot _) fun _ _ => ?_))
  refine Cut.step (Q := fun d => d = Nat.clog 2 number) ⟨fun d e => clog_log2 h0 e⟩ ?_
  rintro d rfl
  exact (manyRecv_cut C X r.many index _).left _

theorem evaluatorServerV2_cut (C : Curve) (X : Crypto) (r : ServerEvaluator2) (passwords : List Bytes) :
    Cut (announces (Nat.clog 2 passwords.length)) (accepts (Nat.clog 2 passwords.length)) (evaluatorServerV2 C X r passwords)
      (.receive :: .receive :: (extReceives ++ [.send])) := by
  unfold evaluatorServerV2
  refine Cut.step first_pos fun p h0 => Cut.recv fun _ => Cut.skip fun _ => Cut.recv fun _ => Cut.skip fun _ =>
    Cut.skip fun _ => Cut.skip fun _ => Cut.after (apricotReceiver_talks C X r.ot _) fun _ _ => ?_
  refine Cut.step (Q := fun d => d = Nat.clog 2 passwords.length) ⟨fun d e => clog_log2 h0 e⟩ ?_
  rintro d rfl
  exact (manySend_cut C X r.many _ _).left _

theorem garblerServerV1_cut (C : Curve) (X : Crypto) (r : ServerDraws1) (passwords : List Bytes) (t : Nat) :
    Cut (announces (Nat.clog 2 passwords.length)) (accepts (Nat.clog 2 passwords.length)) (garblerServerV1 C X r passwords t)
      (.send :: (extSends ++ [.send])) := by
  unfold garblerServerV1
  refine Cut.step first_pos fun p h0 => Cut.skip fun _ => Cut.skip fun _ => Cut.send (Cut.skip fun _ =>
    Cut.after (apricotSender_talks C X r.g.ot _) fun _ _ => ?_)
  refine Cut.step (Q := fun d => d = Nat.clog 2 passwords.length) ⟨fun d e => clog_log2 h0 e⟩ ?_
  rintro d rfl
  exact Cut.skip fun _ => (manySend_cut C X r.many _ _).left _

theorem evaluatorClientV1_cut (C : Curve) (X : Crypto) (r : ClientDraws1) (password : Bytes) (number index : Nat) (h0 : 0 < number) :
    Cut (announces (Nat.clog 2 number)) (accepts (Nat.clog 2 number)) (evaluatorClientV1 C X r password number index)
      (.receive :: (extReceives ++ [.receive])) := by
  unfold evaluatorClientV1
  refine Cut.recv fun _ => Cut.skip fun _ => Cut.skip fun _ => Cut.after (apricotReceiver_talks C X r.ot _) fun _ _ => ?_
  refine Cut.step (Q := fun d => d = Nat.clog 2 number) ⟨fun d e => clog_log2 h0 e⟩ ?_
  rintro d rfl
  exact (manyRecv_cut C X r.many index _).left _

theorem mfpakeMany_cut (C : Curve) (X : Crypto) (r : ManyDraws) (passwords : List Bytes) (t : Nat) :
    Cut (announces (Nat.clog 2 passwords.length)) (accepts (Nat.clog 2 passwords.length)) (mfpakeMany C X r passwords t)
      [.send] := by
  unfold mfpakeMany
  refine Cut.step first_pos fun p h0 => Cut.skip fun _ => ?_
  refine Cut.step (Q := fun d => d = Nat.clog 2 passwords.length) ⟨fun d e => clog_log2 h0 e⟩ ?_
  rintro d rfl
  exact (manySend_cut C X r.many _ _).left _

theorem mfpakeSingle_cut (C : Curve) (X : Crypto) (r : SingleDraws) (password : Bytes) (index number t : Nat) (h0 : 0 < number) :
    Cut (announces (Nat.clog 2 number)) (accepts (Nat.clog 2 number)) (mfpakeSingle C X r password index number t) [.receive] := by
  unfold mfpakeSingle
  refine Cut.step (Q := fun d => d = Nat.clog 2 number) ⟨fun d e => clog_log2 h0 e⟩ ?_
  rintro d rfl
  exact (manyRecv_cut C X r.many index _).left _

end FP
