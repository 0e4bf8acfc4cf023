import Verif.Spec.Channel
import Verif.Proof.Run
import Verif.Proof.Apricot
/-
Channels with tags: any protocol runs on them as on plain channels.
-/
namespace FP
open Spec

variable {α β : Type}

theorem overTags_send (tag : Bytes → Bytes) (check : Bytes → Bytes → R Unit) (m : Bytes) (p : Proc α) :
    (Proc.send m p).overTags tag check = .send m (.send (tag m) (p.overTags tag check)) := rfl

theorem overTags_recv (tag : Bytes → Bytes) (check : Bytes → Bytes → R Unit) (k : Bytes → Proc α) :
    (Proc.recv k).overTags tag check = .recv fun m => .recv fun c =>
      Proc.ofR (check m c) >>= fun _ => (k m).overTags tag check := by
  show (tagRecv check >>= fun m => (k m).overTags tag check) = _
  unfold tagRecv
  rw [recvP_bind, recv_bind]
  refine congrArg Proc.recv (funext fun m => ?_)
  rw [recvP_bind, recv_bind]
  refine congrArg Proc.recv (funext fun c => ?_)
  show (liftM (check m c) >>= fun _ => _) >>= _ = _
  rw [bindP_assoc]
  rfl

theorem overTags_bind (tag : Bytes → Bytes) (check : Bytes → Bytes → R Unit) (p : Proc α) (f : α → Proc β) :
    (p >>= f).overTags tag check = (p.overTags tag check >>= fun a => (f a).overTags tag check) := by
  induction p with
  | ret a => rfl
  | fail e => rfl
  | send m p ih => rw [send_bind, overTags_send, overTags_send, ih]; rfl
  | recv k ih =>
    rw [recv_bind, overTags_recv, overTags_recv, recv_bind]
    refine congrArg Proc.recv (funext fun m => ?_)
    rw [recv_bind]
    refine congrArg Proc.recv (funext fun c => ?_)
    rw [ih, bindP_assoc]

theorem frames_append (tag : Bytes → Bytes) (a b : List Bytes) : frames tag (a ++ b) = frames tag a ++ frames tag b := by
  simp [frames]

/-- A step on plain channels is two steps on channels with tags. -/
theorem step_overTags {tagL tagR : Bytes → Bytes} {checkL checkR : Bytes → Bytes → R Unit}
    (h1 : ∀ m, checkR m (tagL m) = .ok ()) (h2 : ∀ m, checkL m (tagR m) = .ok ()) {c d : Conf α β} (h : Step c d) :
    Steps (⟨c.left.overTags tagL checkL, c.right.overTags tagR checkR, frames tagL c.toRight, frames tagR c.toLeft⟩ : Conf α β)
      ⟨d.left.overTags tagL checkL, d.right.overTags tagR checkR, frames tagL d.toRight, frames tagR d.toLeft⟩ := by
  cases h with
  | sendL m p q pq qp =>
    dsimp only
    rw [overTags_send, frames_append]
    refine .head (.sendL ..) ?_
    refine .head (.sendL ..) ?_
    rw [List.append_assoc]
    exact .refl _
  | sendR m p q pq qp =>
    dsimp only
    rw [overTags_send, frames_append]
    refine .head (.sendR ..) ?_
    refine .head (.sendR ..) ?_
    rw [List.append_assoc]
    exact .refl _
  | recvL m k q pq qp =>
    dsimp only
    rw [overTags_recv]
    refine .head (.recvL ..) ?_
    refine .head (.recvL (tagR m) _ _ _ (frames tagR qp)) ?_
    rw [h2]
    exact .refl _
  | recvR m p k pq qp =>
    dsimp only
    rw [overTags_recv]
    refine .head (.recvR ..) ?_
    refine .head (.recvR (tagL m) _ _ (frames tagL pq) _) ?_
    rw [h1]
    exact .refl _

theorem Ends.overTags {tagL tagR : Bytes → Bytes} {checkL checkR : Bytes → Bytes → R Unit}
    (h1 : ∀ m, checkR m (tagL m) = .ok ()) (h2 : ∀ m, checkL m (tagR m) = .ok ()) {p : Proc α} {q : Proc β} {a : α} {b : β}
    (h : Ends p q a b) : Ends (p.overTags tagL checkL) (q.overTags tagR checkR) a b := by
  obtain ⟨n, h⟩ := h
  have key : ∀ (n : Nat) (c d : Conf α β), StepsN n c d →
      Steps (⟨c.left.overTags tagL checkL, c.right.overTags tagR checkR, frames tagL c.toRight, frames tagR c.toLeft⟩ : Conf α β)
      ⟨d.left.overTags tagL checkL, d.right.overTags tagR checkR, frames tagL d.toRight, frames tagR d.toLeft⟩ := by
    intro n c d hs
    induction hs with
    | refl _ => exact .refl _
    | step hs _ ih => exact (step_overTags h1 h2 hs).trans ih
  exact key n _ _ h

/-- A party on a channel with tags, against arbitrary frames. -/
theorem overTags_against (tag : Bytes → Bytes) (check : Bytes → Bytes → R Unit) (valid : Bytes → Bytes → Bool) (e : Fault)
    (hc : ∀ d c, check d c = if valid d c then .ok () else .error e) (p : Proc α) (inp : List Bytes) :
    (p.overTags tag check).against inp =
      (frames tag (p.against (accepted valid inp).1).1,
        outcome e (accepted valid inp).2 (p.against (accepted valid inp).1).2) := by
  induction p generalizing inp with
  | ret a => simp [Proc.overTags, Proc.against, frames, outcome]
  | fail e => simp [Proc.overTags, Proc.against, frames, outcome]
  | send m p ih =>
    rw [overTags_send]
    simp only [Proc.against]
    rw [ih]
    simp [frames]
  | recv k ih =>
    rw [overTags_recv]
    match inp with
    | [] => simp [Proc.against, accepted, frames, outcome]
    | [d] => simp [Proc.against, accepted, frames, outcome]
    | d :: c :: rest =>
      simp only [Proc.against, accepted]
      rw [hc]
      by_cases hv : valid d c = true
      · rw [if_pos hv, if_pos hv]
        show ((k d).overTags tag check).against rest = _
        rw [ih]
        rfl
      · rw [if_neg hv, if_neg hv]
        simp [Proc.ofR, Proc.against, frames, outcome]

theorem authCheck_eq (M : ChannelCrypto) (key : WireBytes) (d c : Bytes) :
    authCheck M key d c = if decide (c = (M.hmac key d).toList) then .ok () else .error (.err .authentication) := by
  unfold authCheck errR
  by_cases h : c = (M.hmac key d).toList
  · rw [if_pos h, if_pos (by simpa using h)]
  · rw [if_neg h, if_neg (by simpa using h)]

theorem authCheck_ok (M : ChannelCrypto) (key : WireBytes) (m : Bytes) : authCheck M key m (M.hmac key m).toList = .ok () :=
  if_pos rfl

theorem signedCheck_ok (S : SigScheme) (k : S.Keypair) (m : Bytes) : signedCheck S (S.publicKey k) m (S.sign k m) = .ok () := by
  unfold signedCheck
  rw [S.sign_parse]
  show (if S.verify (S.publicKey k) m (S.sign k m) = true then _ else _) = _
  rw [if_pos (S.sign_verify k m)]

/-- What `n` receives do with arbitrary frames. -/
theorem recvN_against (n : Nat) (inp : List Bytes) :
    (recvN n).against inp = ([], if n ≤ inp.length then some (.ok (inp.take n)) else none) := by
  suffices h : ∀ (n : Nat) (inp : List Bytes) (f : List Bytes → List Bytes),
      ((recvN n) >>= fun l => (Proc.ret (f l))).against inp = ([], if n ≤ inp.length then some (.ok (f (inp.take n))) else none) by
    have := h n inp id
    rwa [show (fun l : List Bytes => Proc.ret (id l)) = Proc.ret from rfl, bindP_ret] at this
  intro n
  induction n with
  | zero => intro inp f; simp [recvN, Proc.against]
  | succ n ih =>
    intro inp f
    show ((recvP >>= fun m => recvN n >>= fun ms => Proc.ret (m :: ms)) >>= _).against inp = _
    rw [recvP_bind, recv_bind]
    cases inp with
    | nil => simp [Proc.against]
    | cons m inp =>
      simp only [Proc.against]
      rw [bindP_assoc]
      have := ih inp fun l => f (m :: l)
      simp only [ret_bind]
      rw [this]
      simp

theorem sendAll_against (ms inp : List Bytes) : (sendAll ms).against inp = (ms, some (.ok ())) := by
  induction ms with
  | nil => rfl
  | cons m ms ih =>
    show (sendP m >>= fun _ => sendAll ms).against inp = _
    rw [sendP_bind]
    simp only [Proc.against, ih]

theorem accepted_frames (valid : Bytes → Bytes → Bool) (tag : Bytes → Bytes) (h : ∀ m, valid m (tag m) = true) (ms : List Bytes)
    (rest : List Bytes) : accepted valid (frames tag ms ++ rest) = (ms ++ (accepted valid rest).1, (accepted valid rest).2) := by
  induction ms with
  | nil => rfl
  | cons m ms ih =>
    show accepted valid (m :: tag m :: (frames tag ms ++ rest)) = _
    simp only [accepted]
    rw [if_pos (h m), ih]
    rfl

/-- Everything accepted was preceded by its own correct code. -/
theorem accepted_take (valid : Bytes → Bytes → Bool) (inp : List Bytes) (i : Nat) (m : Bytes)
    (h : (accepted valid inp).1[i]? = some m) :
    inp[2 * i]? = some m ∧ ∃ c, inp[2 * i + 1]? = some c ∧ valid m c = true := by
  induction i generalizing inp with
  | zero =>
    match inp with
    | [] => simp [accepted] at h
    | [d] => simp [accepted] at h
    | d :: c :: rest =>
      simp only [accepted] at h
      by_cases hv : valid d c = true
      · rw [if_pos hv] at h
        simp at h
        subst h
        exact ⟨rfl, c, rfl, hv⟩
      · rw [if_neg hv] at h
        simp at h
  | succ i ih =>
    match inp with
    | [] => simp [accepted] at h
    | [d] => simp [accepted] at h
    | d :: c :: rest =>
      simp only [accepted] at h
      by_cases hv : valid d c = true
      · rw [if_pos hv] at h
        have := ih rest (by simpa using h)
        rw [show 2 * (i + 1) = 2 * i + 1 + 1 by omega]
        simpa using this
      · rw [if_neg hv] at h
        simp at h

/-- The frames before what is not accepted. -/
theorem take_accepted (valid : Bytes → Bytes → Bool) (tag : Bytes → Bytes) (h : ∀ m c, valid m c = true → c = tag m) (n : Nat)
    (inp : List Bytes) : ∃ rest, inp = frames tag ((accepted valid inp).1.take n) ++ rest := by
  induction n generalizing inp with
  | zero => exact ⟨inp, by simp [frames]⟩
  | succ n ih =>
    match inp with
    | [] => exact ⟨[], by simp [accepted, frames]⟩
    | [d] => exact ⟨[d], by simp [accepted, frames]⟩
    | d :: c :: rest =>
      simp only [accepted]
      by_cases hv : valid d c = true
      · rw [if_pos hv]
        obtain ⟨r, hr⟩ := ih rest
        refine ⟨r, ?_⟩
        show _ = d :: tag d :: (frames tag ((accepted valid rest).1.take n) ++ r)
        rw [← hr, ← h d c hv]
      · rw [if_neg hv]
        exact ⟨d :: c :: rest, by simp [frames]⟩

/-! ### Handshakes -/

theorem handshake_ends (M : ChannelCrypto) (a b : M.Secret) :
    Ends (serverHandshake M a) (clientHandshake M b) (M.dh a (M.pub b)) (M.dh a (M.pub b)) := by
  unfold serverHandshake clientHandshake
  rw [sendP_bind, recvP_bind, recvP_bind]
  refine .sendRecv ?_
  rw [toArray32_toList, liftM_ok, ret_bind, sendP_bind]
  refine .recvSend ?_
  rw [toArray32_toList, liftM_ok, ret_bind, M.dh_comm b a]
  exact .ret _ _

theorem signedHandshake_ends (S : SigScheme) (a b : S.Keypair) :
    Ends (signedServerHandshake S a) (signedClientHandshake S b) (S.publicKey b) (S.publicKey a) := by
  unfold signedServerHandshake signedClientHandshake
  rw [sendP_bind, recvP_bind, recvP_bind]
  refine .sendRecv ?_
  rw [if_pos (S.key_parse a)]
  rw [liftM_ok, ret_bind, sendP_bind]
  refine .recvSend ?_
  rw [S.key_parse]
  exact .ret _ _

/-! ### Passwords -/

theorem chunksExactAux_spec (size : Nat) (hs : 0 < size) (n : Nat) (l : Bytes) (hn : l.length ≤ n) :
    (chunksExactAux size n l).length = l.length / size ∧
    ∀ i < l.length / size, (chunksExactAux size n l)[i]? = some ((l.drop (i * size)).take size) := by
  induction n generalizing l with
  | zero =>
    have : l.length = 0 := by omega
    simp [chunksExactAux, this]
  | succ n ih =>
    unfold chunksExactAux
    by_cases hlt : l.length < size
    · rw [if_pos hlt, Nat.div_eq_of_lt hlt]
      simp
    · rw [if_neg hlt]
      have hd : l.length / size = (l.length - size) / size + 1 := by
        rw [Nat.div_eq l.length size, if_pos ⟨hs, by omega⟩]
      obtain ⟨h1, h2⟩ := ih (l.drop size) (by simp; omega)
      rw [List.length_drop] at h1 h2
      refine ⟨by simp [h1, hd], ?_⟩
      intro i hi
      cases i with
      | zero => simp
      | succ i =>
        rw [List.getElem?_cons_succ, h2 i (by omega), List.drop_drop]
        congr 4
        rw [Nat.add_mul]; omega

end FP
