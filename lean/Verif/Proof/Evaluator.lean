import Verif.Proof.Unchosen
import Verif.Model.ManyFpake
import Verif.Spec.Evaluator
/-
What the evaluating party and the holder of an index send.
-/
namespace FP
open Spec

/-- A process against a list of messages: what it sends, and, if it finishes, its result and the messages
it leaves. -/
def Proc.upTo {α : Type} : Proc α → List Bytes → List Bytes × Option (α × List Bytes)
  | .ret a, inp => ([], some (a, inp))
  | .fail _, _ => ([], none)
  | .send m p, inp => (m :: (p.upTo inp).1, (p.upTo inp).2)
  | .recv _, [] => ([], none)
  | .recv k, m :: inp => (k m).upTo inp

variable {α β : Type}

theorem against_upTo (p : Proc α) (inp : List Bytes) : (p.against inp).1 = (p.upTo inp).1 := by
  induction p generalizing inp with
  | ret a => rfl
  | fail e => rfl
  | send m p ih => exact congrArg (m :: ·) (ih inp)
  | recv k ih =>
    cases inp with
    | nil => rfl
    | cons m inp => exact ih m inp

/-- One process after another. -/
theorem upTo_bind (p : Proc α) (k : α → Proc β) (inp : List Bytes) :
    (p >>= k).upTo inp = match (p.upTo inp).2 with
      | none => ((p.upTo inp).1, none)
      | some r => ((p.upTo inp).1 ++ ((k r.1).upTo r.2).1, ((k r.1).upTo r.2).2) := by
  induction p generalizing inp with
  | ret a => rfl
  | fail e => rfl
  | send m p ih =>
    have h : ((Proc.send m p) >>= k) = .send m (p >>= k) := rfl
    rw [h]
    simp only [Proc.upTo]
    rw [ih]
    cases (p.upTo inp).2 <;> rfl
  | recv f ih =>
    cases inp with
    | nil => rfl
    | cons m inp => exact ih m inp

theorem upTo_lift (x : R α) (inp : List Bytes) :
    (liftM x : Proc α).upTo inp = ([], match x with | .ok a => some (a, inp) | .error _ => none) := by
  cases x <;> rfl

theorem upTo_recv (inp : List Bytes) :
    (recvP).upTo inp = ([], match inp with | [] => none | m :: rest => some (m, rest)) := by
  cases inp <;> rfl

/-- The messages that a process leaves are among those it was given. -/
theorem upTo_rest (p : Proc α) (inp : List Bytes) {a : α} {rest : List Bytes} (h : (p.upTo inp).2 = some (a, rest)) :
    rest <:+ inp := by
  induction p generalizing inp with
  | ret a => injection h with h; injection h with _ h; subst h; exact List.suffix_rfl
  | fail e => cases h
  | send m p ih => exact ih inp h
  | recv k ih =>
    cases inp with
    | nil => cases h
    | cons m inp => exact (ih m inp h).trans (List.suffix_cons _ _)

/-- Two processes that do the same against a list of messages can be exchanged, in any surroundings. -/
theorem upTo_congr (pre : Proc α) {γ : Type} {p q : α → Proc β} (k : α → β → Proc γ) (inp : List Bytes)
    (h : ∀ a rest, rest <:+ inp → (p a).upTo rest = (q a).upTo rest) :
    (pre >>= fun a => p a >>= k a).upTo inp = (pre >>= fun a => q a >>= k a).upTo inp := by
  rw [upTo_bind, upTo_bind]
  cases hp : (pre.upTo inp).2 with
  | none => rfl
  | some r =>
    obtain ⟨a, rest⟩ := r
    simp only []
    rw [upTo_bind, upTo_bind, h a rest (upTo_rest _ _ hp)]

/-- A process that sends nothing. -/
def Proc.Mute (p : Proc α) : Prop := ∀ inp, (p.upTo inp).1 = []

theorem Proc.Mute.bind {p : Proc α} {k : α → Proc β} (hp : p.Mute) (hk : ∀ a, (k a).Mute) : (p >>= k).Mute := by
  intro inp
  rw [upTo_bind]
  cases (p.upTo inp).2 with
  | none => exact hp inp
  | some r => simp [hp inp, hk r.1 r.2]

theorem Proc.Mute.lift (x : R α) : (liftM x : Proc α).Mute := fun inp => by rw [upTo_lift]

theorem Proc.Mute.recv : recvP.Mute := fun inp => by rw [upTo_recv]

theorem Proc.Mute.pure (a : α) : (Pure.pure a : Proc α).Mute := fun _ => rfl

theorem upTo_mute (p : Proc α) (k : α → Proc β) (inp : List Bytes) (h : ∀ a, (k a).Mute) :
    ((p >>= k).upTo inp).1 = (p.upTo inp).1 := by
  rw [upTo_bind]
  cases (p.upTo inp).2 with
  | none => rfl
  | some r => simp [h r.1 r.2]

/-! ### The base transfer under other streams -/

/-- What one item of a received list of points is. -/
theorem recvEach_upTo (n : Nat) (inp : List Bytes) {as : List WireBytes} {rest : List Bytes}
    (h : ((recvEach n fromSlice).upTo inp).2 = some (as, rest)) : ∀ p ∈ as, ∃ m ∈ inp, p.toList = m := by
  induction n generalizing inp as with
  | zero =>
    have : (some (([] : List WireBytes), inp)) = some (as, rest) := h
    injection this with this
    injection this with this _
    subst this
    simp
  | succ n ih =>
    have e : (recvEach (n + 1) fromSlice) = .recv fun m => Proc.ofR (fromSlice m) >>= fun a =>
        recvEach n fromSlice >>= fun as => pure (a :: as) := rfl
    rw [e] at h
    cases inp with
    | nil => cases h
    | cons m inp =>
      have h : ((Proc.ofR (fromSlice m) >>= fun a =>
        recvEach n fromSlice >>= fun as => pure (a :: as)).upTo inp).2 = some (as, rest) := h
      cases hf : fromSlice m with
      | error x => rw [hf] at h; cases h
      | ok a =>
        rw [hf] at h
        have h : ((recvEach n fromSlice >>= fun as => (pure (a :: as) : Proc (List WireBytes))).upTo inp).2 = some (as, rest) := h
        rw [upTo_bind] at h
        cases hr : ((recvEach n fromSlice).upTo inp).2 with
        | none => rw [hr] at h; cases h
        | some r =>
          rw [hr] at h
          have h : some (a :: r.1, r.2) = some (as, rest) := h
          injection h with h
          injection h with h1 h2
          subst h1
          intro p hp
          rcases List.mem_cons.mp hp with rfl | hp
          · refine ⟨m, by simp, ?_⟩
            unfold fromSlice at hf
            split at hf
            · injection hf with hf
              rw [← hf]; simp [Vector.toList]
            · cases hf
          · obtain ⟨m', hm', e'⟩ := ih inp (as := r.1) (by rw [hr, ← h2]) p hp
            exact ⟨m', by simp [hm'], e'⟩

/-- The base sender does the same under streams that agree on the seeds of its masks. -/
theorem coSender_upTo (C : Curve) (X : Crypto) (a : Nat → Nat) (msg : List (Bytes × Bytes)) (inp : List Bytes)
    {f g : WireBytes → Nat → Byte}
    (h : ∀ j < msg.length, ∀ P, PointIn C inp P → ∀ second,
      g (baseSeed C X.sha256 (a j) P second) = f (baseSeed C X.sha256 (a j) P second)) :
    (coSender C { X with chacha20 := g } a msg).upTo inp = (coSender C { X with chacha20 := f } a msg).upTo inp := by
  unfold coSender
  rw [upTo_bind, upTo_bind]
  cases hv : ((validateProperties ⟨msg.length, "Chou-Orlandi"⟩).upTo inp).2 with
  | none => rfl
  | some r =>
    obtain ⟨u, inp1⟩ := r
    have hs1 := upTo_rest _ _ hv
    simp only []
    rw [upTo_bind, upTo_bind]
    cases hv2 : ((sendAll (((List.range msg.length).map fun i => C.compress (a i • C.base)).map (·.toList))).upTo inp1).2 with
    | none => rfl
    | some r =>
      obtain ⟨u, inp2⟩ := r
      have hs2 := upTo_rest _ _ hv2
      simp only []
      rw [upTo_bind, upTo_bind]
      cases hv3 : ((recvEach msg.length fromSlice).upTo inp2).2 with
      | none => rfl
      | some r =>
        obtain ⟨as, inp3⟩ := r
        simp only []
        have henc : coEncrypt C { X with chacha20 := g } ((List.range msg.length).map fun i => C.compress (a i • C.base)) as a msg =
            coEncrypt C { X with chacha20 := f } ((List.range msg.length).map fun i => C.compress (a i • C.base)) as a msg := by
          unfold coEncrypt
          rw [zipIdx_range, List.mapM_map, List.mapM_map]
          refine mapM_congr_mem fun i hi => ?_
          have hi : i < msg.length := by simpa using hi
          unfold coEncryptPair
          simp only [Function.comp]
          cases hp : idxR as i with
          | error e => rfl
          | ok p =>
            rw [okb, okb]
            cases hP : C.decompress p with
            | none => rfl
            | some P =>
              have hpm : p ∈ as := by
                unfold idxR at hp
                cases h : as[i]? with
                | none => rw [h] at hp; cases hp
                | some q => rw [h] at hp; injection hp with hp; exact hp ▸ List.mem_of_getElem? h
              obtain ⟨m, hm, hpm⟩ := recvEach_upTo _ _ hv3 p hpm
              have hPI : PointIn C inp P := ⟨m, (hs2.trans hs1).subset hm, p, hpm, hP⟩
              rw [unwrapR, okb, okb, idxR_ok (a := C.compress (a i • C.base)) (by simp [hi]), okb, okb, C.decompress_compress,
                unwrapR, okb, okb]
              rw [coCrypt_same (X := X) (g := g) (f := f) (P := a i • P) (by simpa [baseSeed] using h i hi P hPI false),
                coCrypt_same (X := X) (g := g) (f := f) (P := a i • (P - a i • C.base))
                  (by simpa [baseSeed] using h i hi P hPI true)]
        rw [henc]

theorem Spec.PointIn.mono {C : Curve} {a b : List Bytes} {P : C.Pt} (h : PointIn C a P) (hs : a ⊆ b) : PointIn C b P := by
  obtain ⟨m, hm, v, hv, hP⟩ := h
  exact ⟨m, hs hm, v, hv, hP⟩

/-- The receiver of the extension does the same under bootstraps that do the same. -/
theorem apricotReceiver_inner (X : Crypto) (arm : Bool) (cores : Nat) (sched1 sched2 : Nat → List Nat) (coin : WireBytes)
    (bonus : Vector Bool 256) (seed0 seed1 : Vector WireBytes 128) (inner inner' : List (Bytes × Bytes) → Proc Unit)
    (choices : List Bool) (inp : List Bytes)
    (h : ∀ msg : List (Bytes × Bytes), msg.length = 128 → ∀ rest, rest <:+ inp → (inner msg).upTo rest = (inner' msg).upTo rest) :
    (apricotReceiver X arm cores sched1 sched2 coin bonus seed0 seed1 inner choices).upTo inp =
      (apricotReceiver X arm cores sched1 sched2 coin bonus seed0 seed1 inner' choices).upTo inp := by
  have e : ∀ inner : List (Bytes × Bytes) → Proc Unit,
      apricotReceiver X arm cores sched1 sched2 coin bonus seed0 seed1 inner choices =
      ((do
        debugAssertR X.dbg (choices.length % 8 = 0)
        validateProperties ⟨choices.length, "Apricot"⟩
        let seed ← coinflipSender X.toEnv coin.toList
        let seed ← toArray32 seed
        let sizeBytes ← recvP
        let hi ← idxR sizeBytes 0
        let lo ← idxR sizeBytes 1
        return (seed, (hi.toNat <<< 8) ||| lo.toNat) : Proc (WireBytes × Nat)) >>= fun a =>
      inner (List.zipWith (fun a b => (a.toList, b.toList)) seed0.toList seed1.toList) >>= fun _ =>
      apricotReceiverExtend X arm cores sched1 sched2 a.1 (seed0.toList.map (·.toList)) (seed1.toList.map (·.toList))
        bonus.toList choices a.2) := by
    intro inner
    unfold apricotReceiver
    simp only [bind_assocP]
    rfl
  rw [e, e]
  exact upTo_congr _ _ _ fun a rest hr => h _ (by simp) rest hr

end FP
