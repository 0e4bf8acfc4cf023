import Verif.Proof.Mixed
import Verif.Proof.Secrecy
import Verif.Proof.TrafficParties
import Verif.Spec.SameRole
/-
Two parties that take the same role.
-/
namespace FP
open Spec

theorem Steps.swap' {p p' : Proc α} {q q' : Proc β} {xs xs' ys ys' : List Bytes}
    (h : Steps (⟨p, q, xs, ys⟩ : Conf α β) ⟨p', q', xs', ys'⟩) : Steps (⟨q, p, ys, xs⟩ : Conf β α) ⟨q', p', ys', xs'⟩ := by
  obtain ⟨n, h⟩ := h
  refine ⟨n, ?_⟩
  have key : ∀ {n} {c d : Conf α β}, StepsN n c d →
      StepsN n (⟨c.right, c.left, c.toLeft, c.toRight⟩ : Conf β α)
        ⟨d.right, d.left, d.toLeft, d.toRight⟩ := by
    intro n c d h
    induction h with
    | refl c => exact .refl _
    | step hs _ ih => exact .step hs.swap ih
  exact key h

/-- Sending several messages in a row, whatever is in flight. -/
theorem steps_sendAll (ms : List Bytes) (k : Unit → Proc α) (q : Proc β) (xs ys : List Bytes) :
    Steps (⟨sendAll ms >>= k, q, xs, ys⟩ : Conf α β) ⟨k (), q, xs ++ ms, ys⟩ := by
  induction ms generalizing xs with
  | nil => rw [List.append_nil]; exact Steps.refl _
  | cons m ms ih =>
    have : (sendAll (m :: ms) >>= k) = .send m (sendAll ms >>= k) := rfl
    rw [this]
    refine .head (.sendL ..) ?_
    have := ih (xs ++ [m])
    rwa [List.append_assoc] at this

/-- Receiving several messages that have arrived. -/
theorem steps_recvEach {f : Bytes → R γ} (ms : List Bytes) (as : List γ) (h : List.Forall₂ (fun m a => f m = .ok a) ms as)
    {n : Nat} (hn : ms.length = n) (k : List γ → Proc α) (q : Proc β) (xs ys : List Bytes) :
    Steps (⟨recvEach n f >>= k, q, xs, ms ++ ys⟩ : Conf α β) ⟨k as, q, xs, ys⟩ := by
  subst hn
  induction h generalizing k with
  | nil => exact Steps.refl _
  | @cons m a ms as hm _ ih =>
    have : (recvEach (m :: ms).length f >>= k) =
        .recv fun m => ((f m : R γ) : Proc γ) >>= fun a => recvEach ms.length f >>= fun as => k (a :: as) := by
      show ((recvP >>= fun m => _) >>= k) = _
      rw [recvP_bind, recv_bind]
      refine congrArg _ (funext fun m => ?_)
      rw [bindP_assoc]
      refine congrArg _ (funext fun a => ?_)
      rw [bindP_assoc]
      rfl
    rw [this]
    refine .head (.recvL ..) ?_
    rw [hm, liftM_ok, ret_bind]
    exact ih _

/-- Receiving a message that is refused. -/
theorem steps_recvEach_bad {f : Bytes → R γ} {m : Bytes} {e : Fault} (h : f m = .error e) (n : Nat) (k : List γ → Proc α)
    (q : Proc β) (xs ys : List Bytes) :
    Steps (⟨recvEach (n + 1) f >>= k, q, xs, m :: ys⟩ : Conf α β) ⟨.fail e, q, xs, ys⟩ := by
  have : (recvEach (n + 1) f >>= k) =
      .recv fun m => ((f m : R γ) : Proc γ) >>= fun a => recvEach n f >>= fun as => k (a :: as) := by
    show ((recvP >>= fun m => _) >>= k) = _
    rw [recvP_bind, recv_bind]
    refine congrArg _ (funext fun m => ?_)
    rw [bindP_assoc]
    refine congrArg _ (funext fun a => ?_)
    rw [bindP_assoc]
    rfl
  rw [this]
  refine .head (.recvL ..) ?_
  rw [h, liftM_error, fail_bind]
  exact Steps.refl _

/-- Two base-OT senders: each takes the other one's points for answers. -/
theorem co_senders (C : Curve) (X : Crypto) (a b : Nat → Nat) (msg msg' : List (Bytes × Bytes))
    (h : msg'.length = msg.length) (hn : msg.length < 2 ^ 64) (k : Unit → Proc α) (l : Unit → Proc β) :
    ∃ P P' : List (Bytes × Bytes),
      P.map (fun p => (p.1.length, p.2.length)) = msg.map (fun p => (p.1.length, p.2.length)) ∧
      P'.map (fun p => (p.1.length, p.2.length)) = msg'.map (fun p => (p.1.length, p.2.length)) ∧
      Steps (start (coSender C X a msg >>= k) (coSender C X b msg' >>= l))
        ⟨k (), l (), [Codec.payload.enc P], [Codec.payload.enc P']⟩ := by
  have hB : ∀ (a b : Nat → Nat), (fun i => C.compress (coB C a b (fun _ => false) i)) = fun i => C.compress (coA C b i) := by
    intro a b; funext i; simp [coB, coA]
  have e1 := coEncrypt_ok C X a b (fun _ => false) msg
  have e2 := coEncrypt_ok C X b a (fun _ => false) msg'
  rw [hB] at e1 e2
  generalize hP : (msg.zipIdx.map fun p => (coCipher C X (a p.2 • coB C a b (fun _ => false) p.2) p.1.1,
      coCipher C X (a p.2 • (coB C a b (fun _ => false) p.2 - coA C a p.2)) p.1.2)) = P at e1
  generalize hP' : (msg'.zipIdx.map fun p => (coCipher C X (b p.2 • coB C b a (fun _ => false) p.2) p.1.1,
      coCipher C X (b p.2 • (coB C b a (fun _ => false) p.2 - coA C b p.2)) p.1.2)) = P' at e2
  have hz : ∀ (m : List (Bytes × Bytes)) (f g : Nat → Bytes → Bytes), (∀ i x, (f i x).length = x.length) →
      (∀ i x, (g i x).length = x.length) →
      (m.zipIdx.map fun p => (f p.2 p.1.1, g p.2 p.1.2)).map (fun p => (p.1.length, p.2.length)) =
        m.map (fun p => (p.1.length, p.2.length)) := by
    intro m f g hf hg
    apply List.ext_getElem (by simp)
    intro i h1 h2
    simp [hf, hg]
  refine ⟨P, P', ?_, ?_, ?_⟩
  · rw [← hP]
    exact hz msg (fun i x => coCipher C X (a i • coB C a b (fun _ => false) i) x)
      (fun i x => coCipher C X (a i • (coB C a b (fun _ => false) i - coA C a i)) x)
      (fun _ _ => coCipher_length ..) (fun _ _ => coCipher_length ..)
  · rw [← hP']
    exact hz msg' (fun i x => coCipher C X (b i • coB C b a (fun _ => false) i) x)
      (fun i x => coCipher C X (b i • (coB C b a (fun _ => false) i - coA C b i)) x)
      (fun _ _ => coCipher_length ..) (fun _ _ => coCipher_length ..)
  · unfold coSender
    rw [h] at e2 ⊢
    simp only [bindP_assoc]
    refine ((validate_ends (pb := ⟨msg.length, "Chou-Orlandi"⟩) ⟨hn, co_name⟩).andThen _ _).trans ?_
    generalize hA : ((List.range msg.length).map fun i => C.compress (a i • C.base)) = A
    generalize hA' : ((List.range msg.length).map fun i => C.compress (b i • C.base)) = A'
    have e1 : coEncrypt C X A A' a msg = .ok P := by rw [← hA, ← hA']; exact e1
    have e2 : coEncrypt C X A' A b msg' = .ok P' := by rw [← hA, ← hA']; exact e2
    have hl : A.length = msg.length := by rw [← hA]; simp
    have hl' : A'.length = msg.length := by rw [← hA']; simp
    have ha : assertR (A.length == A'.length) = .ok () := by simp [assertR, hl, hl']
    have ha' : assertR (A'.length == A.length) = .ok () := by simp [assertR, hl, hl']
    refine (steps_sendAll _ _ _ _ _).trans ?_
    refine (Steps.swap' (steps_sendAll _ _ _ _ _)).trans ?_
    rw [List.nil_append, List.nil_append]
    have s1 := steps_recvEach (α := α) (β := β) (A'.map (·.toList)) A' (fromSlice_forall A') (n := msg.length) (by simp [hl'])
    have s2 := steps_recvEach (α := β) (β := α) (A.map (·.toList)) A (fromSlice_forall A) (n := msg.length) (by simp [hl])
    refine Steps.trans (by simpa using s1 _ _ (A.map (·.toList)) []) ?_
    refine Steps.trans (Steps.swap' (by simpa using s2 _ _ [] [])) ?_
    rw [ha, ha', liftM_ok, ret_bind, ret_bind, e1, e2, liftM_ok, ret_bind, liftM_ok, ret_bind]
    exact .head (.sendL ..) (.head (.sendR ..) (Steps.refl _))

/-- Two coin-flip senders: each takes the other one's commitment for the contribution of a receiver, and leaves its opening
in flight. -/
theorem coin_senders (E : Env) (v v' : Bytes) (h : v.length = 32) (h' : v'.length = 32) (k : Bytes → Proc α) (l : Bytes → Proc β) :
    Steps (start (coinflipSender E v >>= k) (coinflipSender E v' >>= l))
      ⟨k (List.zipWith (· ^^^ ·) v (E.sha256 v').toList), l (List.zipWith (· ^^^ ·) v' (E.sha256 v).toList), [v], [v']⟩ := by
  unfold coinflipSender
  simp only [sendP_bind, recvP_bind, send_bind, recv_bind]
  refine .head (.sendL ..) (.head (.sendR ..) (.head (.recvL ..) (.head (.recvR ..) ?_)))
  rw [if_neg (by simp [h]), if_neg (by simp [h']), xorAt_ok _ _ (by simp [h]), xorAt_ok _ _ (by simp [h'])]
  exact .head (.sendL ..) (.head (.sendR ..) (Steps.refl _))

/-- What a base-OT sender does after the exchange of properties. -/
def coSenderRest (C : Curve) (X : Crypto) (secrets : Nat → Nat) (msg : List (Bytes × Bytes)) : Proc Unit := do
  let publics := (List.range msg.length).map fun i => C.compress (secrets i • C.base)
  sendAll (publics.map (·.toList))
  let theirs ← recvEach msg.length fromSlice
  assertR (publics.length == theirs.length)
  let payload ← coEncrypt C X publics theirs secrets msg
  sendP (Codec.payload.enc payload)

/-- A base-OT sender that gets two messages, the second of which is not a point, fails. -/
theorem co_sender_confused (C : Curve) (X : Crypto) (a : Nat → Nat) (msg : List (Bytes × Bytes)) (hn : msg ≠ []) :
    ∃ K : Bytes → Proc Unit, coSender C X a msg = .send (Codec.properties.enc ⟨msg.length, "Chou-Orlandi"⟩) (.recv K) ∧
      ∀ y m : Bytes, m.length ≠ 32 → ∃ e zs, ∀ (β : Type) (q : Proc β) (xs ys : List Bytes),
        ∃ ys', Steps (⟨K y, q, xs, m :: ys⟩ : Conf Unit β) ⟨.fail e, q, xs ++ zs, ys'⟩ := by
  refine ⟨fun y => (Proc.ofR (Codec.properties.deserialize y) >>= fun pb2 =>
        if pb2 ≠ ⟨msg.length, "Chou-Orlandi"⟩ then .fail (.err .badProperties) else .ret ()) >>= fun _ => coSenderRest C X a msg,
    rfl, fun y m hm => ?_⟩
  dsimp only
  cases Codec.properties.deserialize y with
  | error e =>
    refine ⟨e, [], fun β q xs ys => ⟨m :: ys, ?_⟩⟩
    rw [List.append_nil]
    exact Steps.refl _
  | ok pb =>
    have e : Proc.ofR (.ok pb) = Proc.ret pb := rfl
    rw [e, ret_bind]
    by_cases hp : pb = ⟨msg.length, "Chou-Orlandi"⟩
    · refine ⟨.panic, ((List.range msg.length).map fun i => C.compress (a i • C.base)).map (·.toList), fun β q xs ys => ⟨ys, ?_⟩⟩
      rw [if_neg (by simp [hp]), ret_bind]
      refine (steps_sendAll _ _ _ _ _).trans ?_
      obtain ⟨n, hn⟩ : ∃ n, msg.length = n + 1 := ⟨msg.length - 1, by have := List.length_pos_iff.mpr hn; omega⟩
      rw [hn]
      have e' : fromSlice m = .error .panic := by unfold fromSlice; rw [dif_neg hm]; rfl
      exact steps_recvEach_bad e' ..
    · refine ⟨.err .badProperties, [], fun β q xs ys => ⟨m :: ys, ?_⟩⟩
      rw [List.append_nil, if_pos hp]
      exact Steps.refl _

/-! ### Two receivers of the OT extension -/

/-- A row of "De-randomize" with data of any origin. -/
theorem apDerandomizeRow_any (X : Crypto) (v d packed : Bytes) (n ms a r : Nat) (hv : 32 * n ≤ v.length)
    (hd : n * (ms * 2) ≤ d.length) (hp : n ≤ 8 * packed.length) (hr : r < n) :
    (a < ms ∨ X.dbg = true ∧ ms ≠ a → apDerandomizeRow X v d packed ms r (List.replicate a 0) = .error .panic) ∧
    (¬ (a < ms ∨ X.dbg = true ∧ ms ≠ a) →
      ∃ y, apDerandomizeRow X v d packed ms r (List.replicate a 0) = .ok y ∧ y.length = a) := by
  unfold apDerandomizeRow
  dsimp only
  rw [vectorRow_ok hv hr, okb]
  have hrow := row_length hv hr
  obtain ⟨s, hs⟩ : ∃ s, arrayFromSlice (row v 32 r) = .ok s := by
    unfold arrayFromSlice
    rw [dif_pos (by omega)]
    exact ⟨_, rfl⟩
  rw [hs, okb, idxR_getD (show (r - r % 8) / 8 < packed.length by omega), okb]
  have hc : (((packed.getD ((r - r % 8) / 8) 0) >>> (r % 8)) &&& 1 : Byte).toNat ≤ 1 := by
    generalize packed.getD ((r - r % 8) / 8) 0 >>> (r % 8) = z
    rw [BitVec.toNat_and]
    exact Nat.and_le_right
  generalize ((((packed.getD ((r - r % 8) / 8) 0) >>> (r % 8)) &&& 1 : Byte).toNat) = c at hc
  have h1 : (r + 1) * (ms * 2) ≤ n * (ms * 2) := Nat.mul_le_mul_right _ hr
  rw [Nat.add_mul, ← Nat.mul_assoc] at h1
  have h2 : c * ms ≤ 1 * ms := Nat.mul_le_mul_right _ hc
  unfold vectorSlice
  rw [if_pos (by omega), okb, List.length_replicate]
  have hl : ((d.drop (r * ms * 2 + c * ms)).take ms).length = ms := by simp; omega
  have hany := apXorInplace_any X.dbg (a := X.fill s a) (b := (d.drop (r * ms * 2 + c * ms)).take ms)
  unfold Unfit at hany
  rw [fill_length, hl] at hany
  refine ⟨hany.1, fun h => ⟨_, hany.2 h, ?_⟩⟩
  have : ms ≤ a := by
    by_contra hc
    exact h (.inl (by omega))
  rw [List.length_zipWith, fill_length, zeroPadded_length (by omega), Nat.min_self]

/-- As before, for rows of any size and data of any origin. -/
theorem apDerandomize_ok' (X : Crypto) (cores : Nat) (sched : Nat → List Nat) (v d packed : Bytes) (n ms : Nat)
    (z : Bytes) (out : Nat → Bytes) (hc : 0 < cores) (hs : ∀ n, IsOrder n (sched n)) (hn : 0 < n)
    (hms : d.length / 2 / n = ms)
    (hrow : ∀ j < n, apDerandomizeRow X v d packed ms j z = .ok (out j)) :
    apDerandomize X cores sched v d packed n (List.replicate n z) =
      .ok ((List.range n).map out) := by
  unfold apDerandomize
  obtain ⟨hp1, hp2⟩ := pick_pos hc hn
  rw [divR_ok hn, okb, divR_ok hp1, okb]
  rw [hms]
  have hk : 0 < n / pickThreads cores n := Nat.div_pos hp2 hp1
  generalize n / pickThreads cores n = k at *
  have := rowJobs_ok z (n := n) hk (len := 1) (by omega) sched hs
    (fun c chunk => (List.range chunk.length).foldlM (fun chunk i => do
      setR chunk i (← apDerandomizeRow X v d packed ms (c * k + i) (← idxR chunk i))) chunk)
    (fun j => [out j]) (by
      intro c r hcr
      rw [List.length_replicate, Nat.mul_one]
      have := rowLoop_ok z (n := r) (len := 1)
        (fun i chunk => do
          setR chunk i (← apDerandomizeRow X v d packed ms (c * k + i) (← idxR chunk i)))
        (fun i => [out (c * k + i)]) (by simp) (by
          intro i hi pre post hpre
          rw [Nat.one_mul] at hpre
          subst hpre
          rw [idxR_ok (a := z) (by simp), okb, hrow _ (by omega), okb, setR_ok _ (by simp)]
          simp)
      simpa using this)
  simp only [Nat.mul_one] at this
  rw [this]
  refine congrArg Except.ok ?_
  induction (List.range n) with
  | nil => rfl
  | cons a l ih => simp [ih]


/-- If every row of "De-randomize" panics, so does the receiver, whatever the origin of the data. -/
theorem apDerandomize_panics' (X : Crypto) (cores : Nat) (sched : Nat → List Nat) (v d packed : Bytes) (n ms : Nat) (z : Bytes)
    (hc : 0 < cores) (hs : ∀ n, IsOrder n (sched n)) (hn : 0 < n) (hms : d.length / 2 / n = ms)
    (hrow : ∀ j < n, apDerandomizeRow X v d packed ms j z = .error .panic) :
    apDerandomize X cores sched v d packed n (List.replicate n z) = .error .panic := by
  unfold apDerandomize
  obtain ⟨hp1, hp2⟩ := pick_pos hc hn
  rw [divR_ok hn, okb, divR_ok hp1, okb]
  rw [hms]
  have hk : 0 < n / pickThreads cores n := Nat.div_pos hp2 hp1
  generalize n / pickThreads cores n = k at *
  unfold chunksR
  rw [if_neg (by omega), okb]
  generalize hT : ((List.replicate n z).length + k - 1) / k = T
  have hTpos : 0 < T := by
    rw [← hT, List.length_replicate]
    exact Nat.div_pos (by omega) hk
  have hTn : ∀ c < T, c * k < n := by
    intro c hcT
    rw [← hT, List.length_replicate] at hcT
    have := Nat.div_mul_le_self (n + k - 1) k
    have h2 : (c + 1) * k ≤ (n + k - 1) / k * k := Nat.mul_le_mul_right _ hcT
    rw [Nat.add_mul] at h2
    omega
  have : runJobs (sched ((List.range T).map fun i => ((List.replicate n z).drop (i * k)).take k).length) (fun c chunk =>
      (List.range chunk.length).foldlM (fun chunk i => do
        setR chunk i (← apDerandomizeRow X v d packed ms (c * k + i) (← idxR chunk i))) chunk)
      ((List.range T).map fun i => ((List.replicate n z).drop (i * k)).take k) = .error .panic := by
    rw [List.length_map, List.length_range]
    have hperm := hs T
    cases hso : sched T with
    | nil =>
      rw [hso] at hperm
      have := hperm.length_eq
      simp at this
      omega
    | cons c rest =>
      have hcT : c < T := by
        have : c ∈ sched T := by rw [hso]; simp
        simpa using (hperm.mem_iff).mp this
      unfold runJobs
      rw [List.foldlM_cons, idxR_ok (a := ((List.replicate n z).drop (c * k)).take k) (by simp [hcT]), okb]
      have hlt := hTn c hcT
      have hne : 0 < min k (n - c * k) := by omega
      rw [List.drop_replicate, List.take_replicate]
      dsimp only
      rw [List.length_replicate]
      obtain ⟨r, hr⟩ : ∃ r, min k (n - c * k) = r + 1 := ⟨min k (n - c * k) - 1, by omega⟩
      rw [hr, List.range_succ_eq_map, List.foldlM_cons, idxR_ok (a := z) (by simp), okb, Nat.add_zero, hrow _ hlt]
      rfl
  rw [this]
  rfl

/-- "De-randomize" with data of any origin: all rows or none. -/
theorem apDerandomize_any (X : Crypto) (cores : Nat) (sched : Nat → List Nat) (v d packed : Bytes) (n a : Nat)
    (hc : 0 < cores) (hs : ∀ n, IsOrder n (sched n)) (hn : 0 < n) (hv : 32 * n ≤ v.length) (hp : n ≤ 8 * packed.length) :
    (a < d.length / 2 / n ∨ X.dbg = true ∧ d.length / 2 / n ≠ a →
      apDerandomize X cores sched v d packed n (List.replicate n (List.replicate a 0)) = .error .panic) ∧
    (¬ (a < d.length / 2 / n ∨ X.dbg = true ∧ d.length / 2 / n ≠ a) →
      ∃ rows, apDerandomize X cores sched v d packed n (List.replicate n (List.replicate a 0)) = .ok rows ∧
        rows.length = n ∧ ∀ r ∈ rows, r.length = a) := by
  generalize hms : d.length / 2 / n = ms
  have hd : n * (ms * 2) ≤ d.length := by
    have h1 := Nat.div_mul_le_self (d.length / 2) n
    have h2 := Nat.div_mul_le_self d.length 2
    rw [hms, Nat.mul_comm] at h1
    rw [← Nat.mul_assoc]
    omega
  have hrow := fun r hr => apDerandomizeRow_any X v d packed n ms a r hv hd hp hr
  constructor
  · intro h
    exact apDerandomize_panics' X cores sched v d packed n ms _ hc hs hn hms fun r hr => (hrow r hr).1 h
  · intro h
    choose! out ho hl using fun r hr => (hrow r hr).2 h
    refine ⟨_, apDerandomize_ok' X cores sched v d packed n ms _ out hc hs hn hms ho, by simp, ?_⟩
    intro r hr
    obtain ⟨i, hi, rfl⟩ := List.mem_map.mp hr
    exact hl i (by simpa using hi)

/-- The end of a receiver that has announced size `a` and reads a base-OT payload of 128 pairs of seeds instead of what the
sender of the extension sends. -/
theorem apricotReceiver_foreign (X : Crypto) (arm : Bool) (cores : Nat) (sched1 sched2 : Nat → List Nat) (seed : WireBytes)
    (seed0 seed1 : Vector WireBytes 128) (bonus : Vector Bool 256) (choices : List Bool) (a : Nat) (d : Bytes)
    (hd : d.length = 10248) (hc : 0 < cores) (hs1 : ∀ n, IsOrder n (sched1 n)) (hs2 : ∀ n, IsOrder n (sched2 n)) :
    ∃ (u x ts : Bytes) (K : Bytes → Proc (List Bytes)),
      apricotReceiverExtend X arm cores sched1 sched2 seed (seed0.toList.map (·.toList)) (seed1.toList.map (·.toList))
        bonus.toList choices a = .send u (.send x (.send ts (.recv K))) ∧
      (foreignFits X.dbg choices.length a → ∃ rows, K d = .ret rows ∧ rows.length = choices.length ∧ ∀ r ∈ rows, r.length = a) ∧
      (¬ foreignFits X.dbg choices.length a → K d = .fail .panic) := by
  obtain ⟨packed, t, x, ts, hp1, hp2, ht1, ht2, hx, hts, hx2, hts2, eR⟩ := receiverExtend_any X arm cores sched1 sched2 seed
    (seed0.toList.map (·.toList)) (seed1.toList.map (·.toList)) (fun i => if h : i < 128 then seed0[i] else 0)
    (fun i => if h : i < 128 then seed1[i] else 0) bonus.toList choices a _ _ rfl rfl (by simp) hc hs1
    (fun i hi => by simp [hi]) (fun i hi => by simp [hi])
  refine ⟨_, x, ts, _, eR, ?_, ?_⟩
  · rintro ⟨h0, h1, h2⟩
    have hv : 32 * choices.length ≤ ((List.range (choices.length + 256)).flatMap fun j =>
        (X.sha256 (beBytes 8 j ++ row t 16 j)).toList).length := by
      rw [List.length_flatMap]; simp; omega
    obtain ⟨rows, e, hr⟩ := (apDerandomize_any X cores sched2 _ d packed choices.length a hc hs2 (by omega) hv (by omega)).2 (by
      rw [hd, show 10248 / 2 = 5124 from rfl]
      rintro (h | ⟨hd, h⟩)
      · omega
      · exact h (h2 hd).symm)
    refine ⟨rows, ?_, hr⟩
    rw [e]; rfl
  · intro h
    by_cases h0 : choices.length = 0
    · rw [h0]
      rfl
    have hv : 32 * choices.length ≤ ((List.range (choices.length + 256)).flatMap fun j =>
        (X.sha256 (beBytes 8 j ++ row t 16 j)).toList).length := by
      rw [List.length_flatMap]; simp; omega
    have e := (apDerandomize_any X cores sched2 _ d packed choices.length a hc hs2 (by omega) hv (by omega)).1 (by
      rw [hd, show 10248 / 2 = 5124 from rfl]
      by_contra hc
      refine h ⟨h0, ?_, ?_⟩
      · by_contra h1
        exact hc (.inl (by omega))
      · intro hd
        by_contra h1
        exact hc (.inr ⟨hd, fun h => h1 h.symm⟩))
    rw [e]; rfl

theorem announced_eq (m : WireBytes) (hi lo : Byte) (h1 : m.toList[0]? = some hi) (h2 : m.toList[1]? = some lo) :
    (hi.toNat <<< 8) ||| lo.toNat = announced m := by
  have e1 : m[0] = hi := by
    have : m.toList[0]? = some m[0] := by simp
    rw [this] at h1
    exact Option.some.inj h1
  have e2 : m[1] = lo := by
    have : m.toList[1]? = some m[1] := by simp
    rw [this] at h2
    exact Option.some.inj h2
  unfold announced
  rw [e1, e2, ← Nat.shiftLeft_add_eq_or_of_lt lo.isLt, Nat.shiftLeft_eq]
  omega

/-- Two receivers up to the point where each has read the other one's base-OT payload. -/
theorem apricot_receivers (C : Curve) (X : Crypto) (arm arm' : Bool) (cores cores' : Nat) (sched1 sched2 sched1' sched2' : Nat → List Nat)
    (coin coin' : WireBytes) (bonus bonus' : Vector Bool 256) (seed0 seed1 seed0' seed1' : Vector WireBytes 128)
    (sk sk' : Nat → Nat) (choices choices' : List Bool) (n : Nat) (hn : choices.length = n) (hn' : choices'.length = n)
    (hfit : n < 2 ^ 64) (hc : 0 < cores) (hc' : 0 < cores') (hs1 : ∀ n, IsOrder n (sched1 n)) (hs2 : ∀ n, IsOrder n (sched2 n))
    (hs1' : ∀ n, IsOrder n (sched1' n)) (hs2' : ∀ n, IsOrder n (sched2' n)) (h8 : X.dbg = false ∨ n % 8 = 0) :
    ∃ (p q : Proc (List Bytes)) (xs ys : List Bytes),
      Steps (start (apricotReceiver X arm cores sched1 sched2 coin bonus seed0 seed1 (coSender C X sk) choices)
        (apricotReceiver X arm' cores' sched1' sched2' coin' bonus' seed0' seed1' (coSender C X sk') choices')) ⟨p, q, xs, ys⟩ ∧
      (foreignFits X.dbg n (announced coin') → ∃ rows, p = .ret rows ∧ rows.length = n ∧ ∀ r ∈ rows, r.length = announced coin') ∧
      (¬ foreignFits X.dbg n (announced coin') → p = .fail .panic) ∧
      (foreignFits X.dbg n (announced coin) → ∃ rows, q = .ret rows ∧ rows.length = n ∧ ∀ r ∈ rows, r.length = announced coin) ∧
      (¬ foreignFits X.dbg n (announced coin) → q = .fail .panic) := by
  have hdb : debugAssertR X.dbg (n % 8 = 0) = .ok () := by
    rcases h8 with h | h
    · rw [h]; rfl
    · exact debugAssertR_true (by simpa using h)
  obtain ⟨s, hs, es⟩ := toArray32_ok (b := List.zipWith (· ^^^ ·) coin.toList (X.sha256 coin'.toList).toList) (by simp)
  obtain ⟨s', hs', es'⟩ := toArray32_ok (b := List.zipWith (· ^^^ ·) coin'.toList (X.sha256 coin.toList).toList) (by simp)
  have hpay : ∀ (P : List (Bytes × Bytes)) (t0 t1 : Vector WireBytes 128),
      P.map (fun p => (p.1.length, p.2.length)) =
        (List.zipWith (fun a b : WireBytes => (a.toList, b.toList)) t0.toList t1.toList).map (fun p => (p.1.length, p.2.length)) →
      (Codec.payload.enc P).length = 10248 := by
    intro P t0 t1 h
    have e : P.map (fun p => (p.1.length, p.2.length)) = List.replicate 128 (32, 32) := by
      rw [h]
      apply List.ext_getElem (by simp)
      intro i h1 h2
      rw [List.getElem_replicate]
      simp
    have hl : P.length = 128 := by simpa using congrArg List.length e
    have e2 : P.map (fun p => p.1.length + p.2.length) = List.replicate 128 64 := by
      have := congrArg (List.map fun p : Nat × Nat => p.1 + p.2) e
      rw [List.map_map, List.map_replicate] at this
      exact this
    rw [payload_enc_length, e2, hl]
    simp
  have hix : ∀ m : WireBytes, ∃ hi lo, m.toList[0]? = some hi ∧ m.toList[1]? = some lo := by
    intro m
    exact ⟨m[0], m[1], by simp, by simp⟩
  obtain ⟨hi, lo, e1, e2⟩ := hix coin
  obtain ⟨hi', lo', e1', e2'⟩ := hix coin'
  obtain ⟨P, P', hP, hP', hco⟩ := co_senders C X sk sk'
    (List.zipWith (fun a b : WireBytes => (a.toList, b.toList)) seed0.toList seed1.toList)
    (List.zipWith (fun a b : WireBytes => (a.toList, b.toList)) seed0'.toList seed1'.toList) (by simp) (by simp)
    (fun _ => apricotReceiverExtend X arm cores sched1 sched2 s (seed0.toList.map (·.toList)) (seed1.toList.map (·.toList))
        bonus.toList choices (announced coin'))
    (fun _ => apricotReceiverExtend X arm' cores' sched1' sched2' s' (seed0'.toList.map (·.toList)) (seed1'.toList.map (·.toList))
        bonus'.toList choices' (announced coin))
  obtain ⟨u, x, ts, K, eK, hK, hK'⟩ := apricotReceiver_foreign X arm cores sched1 sched2 s seed0 seed1 bonus choices
    (announced coin') (Codec.payload.enc P') (hpay _ _ _ hP') hc hs1 hs2
  obtain ⟨u', x', ts', L, eL, hL, hL'⟩ := apricotReceiver_foreign X arm' cores' sched1' sched2' s' seed0' seed1' bonus' choices'
    (announced coin) (Codec.payload.enc P) (hpay _ _ _ hP) hc' hs1' hs2'
  rw [hn] at hK hK'
  rw [hn'] at hL hL'
  refine ⟨K (Codec.payload.enc P'), L (Codec.payload.enc P), [u, x, ts], [u', x', ts'], ?_, hK, hK', hL, hL'⟩
  unfold apricotReceiver
  rw [hn, hn', hdb, liftM_ok, ret_bind, ret_bind]
  refine ((validate_ends (pb := ⟨n, "Apricot"⟩) ⟨hfit, apricot_name⟩).andThen _ _).trans ?_
  refine (coin_senders X.toEnv coin.toList coin'.toList (by simp) (by simp) _ _).trans ?_
  rw [es, es', liftM_ok, ret_bind, liftM_ok, ret_bind, recvP_bind, recvP_bind]
  refine .head (.recvL ..) (.head (.recvR ..) ?_)
  rw [idxR_ok e1, idxR_ok e1', liftM_ok, ret_bind, liftM_ok, ret_bind, idxR_ok e2, idxR_ok e2', liftM_ok, ret_bind, liftM_ok,
    ret_bind, announced_eq coin hi lo e1 e2, announced_eq coin' hi' lo' e1' e2']
  refine hco.trans ?_
  rw [eK, eL]
  exact .head (.sendL ..) (.head (.sendL ..) (.head (.sendL ..) (.head (.sendR ..) (.head (.sendR ..) (.head (.sendR ..)
    (.head (.recvL ..) (.head (.recvR ..) (Steps.refl _))))))))

end FP
