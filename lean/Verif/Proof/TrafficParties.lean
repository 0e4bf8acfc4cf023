import Verif.Proof.Traffic
import Verif.Model.Classic
import Verif.Model.Legacy
/-
Sizes of the messages of the transfers.
-/
namespace FP
open Spec

/-! ### Sizes on the wire -/

theorem usize_enc_length (x : Nat) : (Codec.usize.enc x).length = 8 := Codec.leBytes_length ..

theorem vec_enc_length {α : Type} (a : Codec α) (xs : List α) :
    ((Codec.vec a).enc xs).length = 8 + (xs.map fun x => (a.enc x).length).sum := by
  show (Codec.usize.enc _ ++ _ : Bytes).length = _
  rw [List.length_append, usize_enc_length, List.length_flatMap]

theorem bytes_enc_length (m : Bytes) : (Codec.bytes.enc m).length = 8 + m.length := by
  unfold Codec.bytes
  rw [vec_enc_length]
  simp [Codec.byte]

theorem sum_map_add {α : Type} (l : List α) (f g : α → Nat) : (l.map fun x => f x + g x).sum = (l.map f).sum + (l.map g).sum := by
  induction l with
  | nil => rfl
  | cons a l ih => simp only [List.map_cons, List.sum_cons, ih]; omega

theorem sum_map_const {α : Type} (l : List α) (c : Nat) : (l.map fun _ => c).sum = c * l.length := by
  induction l with
  | nil => rfl
  | cons a l ih => simp only [List.map_cons, List.sum_cons, ih, List.length_cons]; rw [Nat.mul_succ]; omega

theorem bytesList_enc_length (m : List Bytes) : (Codec.bytesList.enc m).length = 8 + 8 * m.length + (m.map List.length).sum := by
  unfold Codec.bytesList
  rw [vec_enc_length]
  simp only [bytes_enc_length]
  rw [sum_map_add, sum_map_const]
  omega

theorem payload_enc_length (m : List (Bytes × Bytes)) :
    (Codec.payload.enc m).length = 8 + 16 * m.length + (m.map fun p => p.1.length + p.2.length).sum := by
  unfold Codec.payload
  rw [vec_enc_length]
  have e : (fun p : Bytes × Bytes => ((Codec.pair Codec.bytes Codec.bytes).enc p).length) =
      fun p => 16 + (p.1.length + p.2.length) := by
    funext p
    show (Codec.bytes.enc p.1 ++ Codec.bytes.enc p.2 : Bytes).length = _
    rw [List.length_append, bytes_enc_length, bytes_enc_length]
    omega
  rw [e, sum_map_add, sum_map_const]
  omega

theorem properties_enc_length (n : Nat) (s : String) : (Codec.properties.enc ⟨n, s⟩).length = 16 + (stringBytes s).length := by
  show (Codec.usize.enc n ++ Codec.bytes.enc (stringBytes s) : Bytes).length = _
  rw [List.length_append, usize_enc_length, bytes_enc_length]
  omega

theorem hello_base (n : Nat) : (Codec.properties.enc ⟨n, "Chou-Orlandi"⟩).length = 28 := by
  rw [properties_enc_length]; decide +kernel

theorem hello_ext (n : Nat) : (Codec.properties.enc ⟨n, "Apricot"⟩).length = 23 := by
  rw [properties_enc_length]; decide +kernel

/-! ### Base transfer, coin flip -/

theorem validate_shape {pb : TransactionProperties} {s : Nat} (h : (Codec.properties.enc pb).length = s) :
    Shape (fun _ => True) (validateProperties pb) [s] := by
  unfold validateProperties
  refine Shape.send h (Shape.recv fun m => Shape.skip fun p => ?_)
  split
  · exact Shape.err
  · exact Shape.ret trivial

theorem coinflipSender_shape (E : Env) (v : WireBytes) : Shape (fun _ => True) (coinflipSender E v.toList) [32, 32] := by
  unfold coinflipSender
  refine Shape.send (by simp) (Shape.recv fun u => ?_)
  split
  · exact Shape.err
  · exact Shape.send (by simp) (Shape.lifted _)

theorem coinflipReceiver_shape (E : Env) (u : WireBytes) : Shape (fun _ => True) (coinflipReceiver E u.toList) [32] := by
  unfold coinflipReceiver
  refine Shape.recv fun c => Shape.send (by simp) (Shape.recv fun v => ?_)
  split
  · exact Shape.err
  split
  · exact Shape.err
  · exact Shape.lifted _

theorem sendAll_shape (ms : List Bytes) : Shape (fun _ => True) (sendAll ms) (ms.map List.length) := by
  induction ms with
  | nil => exact Shape.ret trivial
  | cons m ms ih => exact Shape.send rfl ih

theorem recvEach_shape {α : Type} (f : Bytes → R α) (n : Nat) : Shape (fun l => l.length = n) (recvEach n f) [] := by
  induction n with
  | zero => exact Shape.ret rfl
  | succ n ih =>
    exact Shape.recv fun m => Shape.skip fun a => (ih.bind (L' := []) fun l hl => Shape.ret (by simp [hl]))

theorem points_shape (ps : List WireBytes) {n : Nat} (h : ps.length = n) :
    Shape (fun _ => True) (sendAll (ps.map (·.toList))) (List.replicate n 32) := by
  refine (sendAll_shape _).cast ?_
  rw [List.map_map, ← h]
  exact List.eq_replicate_iff.mpr ⟨by simp, by simp⟩

theorem coSender_shape (C : Curve) (X : Crypto) (secrets : Nat → Nat) (msg : List (Bytes × Bytes)) :
    Shape (fun _ => True) (coSender C X secrets msg)
      (baseSenderSizes msg.length (msg.map fun p => p.1.length + p.2.length).sum) := by
  unfold coSender
  refine (validate_shape (hello_base _)).bind fun _ _ => (points_shape _ (by simp)).bind fun _ _ =>
    (recvEach_shape _ _).bind (L := []) fun theirs ht => Shape.skip fun _ =>
    Shape.step (P := fun pl => pl.map (fun p => p.1.length + p.2.length) = msg.map fun p => p.1.length + p.2.length) ?_ fun pl hpl =>
    Shape.sendLast ?_
  · unfold coEncrypt
    refine (Post.mapM_map (fun p : Bytes × Bytes => p.1.length + p.2.length)
      (fun q : (Bytes × Bytes) × Nat => q.1.1.length + q.1.2.length) _ fun q _ => ?_).mono fun pl h => ?_
    · unfold coEncryptPair
      refine (Post.any _).bind fun _ _ => (Post.any _).bind fun _ _ => (Post.any _).bind fun _ _ => (Post.any _).bind fun _ _ => ?_
      unfold coCrypt
      exact (xorBytes_post ..).bind fun e0 h0 => (xorBytes_post ..).bind fun e1 h1 => .ok (by rw [h0, h1])
    · rw [h]
      conv_rhs => rw [← List.zipIdx_map_fst 0 msg, List.map_map]
      rfl
  · have hl : pl.length = msg.length := by simpa using congrArg List.length hpl
    rw [payload_enc_length, hpl, hl]

theorem coReceiver_shape (C : Curve) (X : Crypto) (secrets : Nat → Nat) (choices : List Bool) :
    Shape (fun _ => True) (coReceiver C X secrets choices) (baseReceiverSizes choices.length) := by
  unfold coReceiver
  refine (validate_shape (hello_base _)).bind fun _ _ => ((recvEach_shape _ _).bind (L := []) fun theirs ht => Shape.skip fun _ =>
    Shape.step (P := fun pk : List (WireBytes × WireBytes) => pk.length = choices.length) ?_ fun pk hpk => ?_)
  · unfold coRespondAll
    exact (Post.mapM (P := fun _ => True) _ fun _ _ => .any _).mono fun pk h => by simpa [ht] using h.1
  · refine ((points_shape _ (by simpa using hpk)).bind (L' := []) fun _ _ => Shape.recv fun m => Shape.skip fun p => Shape.lifted _).cast ?_
    simp

/-! ### src/ot/apricot.rs -/

theorem apRows_post (X : Crypto) (w : Nat) (seeds : List Bytes) : Post (fun t => t.length = 128 * w) (apRows X w seeds) := by
  unfold apRows
  refine Post.foldlM (P := fun t : Bytes => t.length = 128 * w) _ _ (by simp) fun t ht i hi => ?_
  refine (updateRow_post fun row hrow => ?_).mono fun t' h => by rw [h, ht]
  refine (Post.any _).bind fun _ _ => (Post.any _).bind fun _ _ => .ok ?_
  rw [fill_length, hrow]

theorem apU_post (dbg : Bool) (w : Nat) (t0 t1 packed : Bytes) : Post (fun u => u.length = 128 * w) (apU dbg w t0 t1 packed) := by
  unfold apU
  refine Post.foldlM (P := fun t : Bytes => t.length = 128 * w) _ _ (by simp) fun t ht i hi => ?_
  refine (updateRow_post fun row hrow => ?_).mono fun t' h => by rw [h, ht]
  refine (Post.any _).bind fun _ _ => (Post.any _).bind fun _ _ => (apXor_post ..).bind fun r hr => ?_
  exact (apXorInplace_post ..).mono fun r' hr' => by rw [hr', hr, hrow]

theorem xorU128_post (d : Bytes) (v : BitVec 128) : Post (fun r => r.length = d.length) (xorU128 d v) := by
  unfold xorU128 loadU128
  split
  · refine .ok ?_
    simp [storeBytes]
    omega
  · exact .err

theorem apricotMulAcc_post (arm : Bool) (d a b : Bytes) : Post (fun r => r.length = d.length) (apricotMulAcc arm d a b) := by
  unfold apricotMulAcc
  split
  · unfold mulAccApricotArm64 mulAccArm64
    exact (Post.any _).bind fun _ _ => (Post.any _).bind fun _ _ => (Post.any _).bind fun _ _ => (Post.any _).bind fun _ _ =>
      xorU128_post ..
  · unfold mulAccApricotX86
    exact (Post.any _).bind fun _ _ => (Post.any _).bind fun _ _ => xorU128_post ..

theorem gf128MulAcc_post (arch : Arch) (dbg : Bool) (d a b : Bytes) : Post (fun r => r.length = d.length) (gf128MulAcc arch dbg d a b) := by
  unfold gf128MulAcc
  split
  · unfold mulAccX86
    exact (Post.any _).bind fun _ _ => (Post.any _).bind fun _ _ => xorU128_post ..
  · unfold mulAccArm64
    exact (Post.any _).bind fun _ _ => (Post.any _).bind fun _ _ => (Post.any _).bind fun _ _ => (Post.any _).bind fun _ _ =>
      xorU128_post ..
  · unfold mulAccGeneric
    exact (Post.any _).bind fun _ _ => (Post.any _).bind fun _ _ => (Post.any _).bind fun _ _ => (Post.any _).bind fun _ _ =>
      xorU128_post ..

theorem apReceiverSums_post (dbg arm : Bool) (l : Nat) (padded : List Bool) (t chi : Bytes) :
    Post (fun s => s.1.length = 16 ∧ s.2.length = 16) (apReceiverSums dbg arm l padded t chi) := by
  unfold apReceiverSums
  refine Post.foldlM (P := fun s : Bytes × Bytes => s.1.length = 16 ∧ s.2.length = 16) _ _ (by simp) fun s hs j _ => ?_
  refine (Post.any _).bind fun chiRow _ => (Post.any _).bind fun b _ => ?_
  dsimp only
  split
  · exact (apXorInplace_post ..).bind fun x hx => (Post.any _).bind fun _ _ => (apricotMulAcc_post ..).bind fun y hy =>
      .ok ⟨by rw [hx, hs.1], by rw [hy, hs.2]⟩
  · exact Post.bind (P := fun x => x = s.1) (.ok rfl) fun x hx => (Post.any _).bind fun _ _ => (apricotMulAcc_post ..).bind fun y hy =>
      .ok ⟨by rw [hx, hs.1], by rw [hy, hs.2]⟩

theorem apRandomizeRow_post (X : Crypto) (delta qT : Bytes) (msg : List (Bytes × Bytes)) (ms r i : Nat) (chunk : Bytes) :
    Post (fun c => c.length = chunk.length) (apRandomizeRow X delta qT msg ms r i chunk) := by
  unfold apRandomizeRow
  refine (Post.any _).bind fun _ _ => (Post.any _).bind fun _ _ => (updateSlice_post fun row hrow => ?_).bind fun c1 h1 =>
    (Post.any _).bind fun _ _ => (updateSlice_post fun row hrow => ?_).mono fun c2 h2 => by rw [h2, h1]
  · exact (apXorInplace_post ..).mono fun r hr => by rw [hr, fill_length, hrow]
  · exact (apXorInplace_post ..).mono fun r hr => by rw [hr, fill_length, hrow]

theorem apRandomize_post (X : Crypto) (cores : Nat) (sched : Nat → List Nat) (delta qT : Bytes) (msg : List (Bytes × Bytes)) (ms : Nat) :
    Post (fun d => d.length = msg.length * (ms * 2)) (apRandomize X cores sched delta qT msg ms) := by
  unfold apRandomize
  refine (Post.any _).bind fun k _ => (jobs_post sched _ _ fun c a => ?_).mono fun d h => by rw [h]; simp
  refine (Post.any _).bind fun rows _ => Post.foldlM (P := fun b : Bytes => b.length = a.length) _ _ rfl fun b hb i _ => ?_
  exact (apRandomizeRow_post ..).mono fun b' h => by rw [h, hb]

theorem delta_bits (delta : Vector Byte 16) : (u8VecToBoolVec delta.toList).length = 128 := by
  simp [u8VecToBoolVec]

theorem apricotSender_shape (X : Crypto) (arm : Bool) (cores : Nat) (sched : Nat → List Nat) (coin : WireBytes)
    (delta : Vector Byte 16) {inner : List Bool → Proc (List Bytes)} (hin : ∀ c, Shape (fun _ => True) (inner c) (baseReceiverSizes c.length))
    (msg : List (Bytes × Bytes)) (s : Nat) (hs : ∀ m ∈ msg.head?, m.1.length = s) :
    Shape (fun _ => True) (apricotSender X arm cores sched coin delta inner msg) (extSenderSizes msg.length s) := by
  unfold apricotSender
  refine Shape.skip fun _ => (validate_shape (hello_ext _)).bind fun _ _ => (coinflipReceiver_shape _ _).bind fun _ _ =>
    Shape.skip fun seed => Shape.step (P := fun m => m.1.length = s) ?_ fun m0 hm0 => Shape.send ?_ ?_
  · refine ⟨fun m hm => ?_⟩
    refine hs m ?_
    unfold idxR at hm
    cases msg with
    | nil => cases hm
    | cons a l => exact congrArg some (Except.ok.inj hm)
  · simp [beBytes]
  · refine Shape.bind ((hin _).cast (congrArg baseReceiverSizes (delta_bits delta))) fun payloads _ => ?_
    · unfold apricotSenderExtend
      dsimp only
      refine Shape.skip fun t => Shape.recv fun u => Shape.skip fun q => Shape.skip fun qT => Shape.skip fun qs => Shape.recv fun x =>
        Shape.recv fun tt => Shape.skip fun _ => Shape.skip fun _ => Shape.skip fun _ => Shape.skip fun eq => ?_
      split
      · refine Shape.step (apRandomize_post ..) fun d hd => Shape.sendLast ?_
        rw [hd, hm0]
      · exact Shape.err

theorem seeds_sum (s0 s1 : Vector WireBytes 128) :
    ((List.zipWith (fun (a b : WireBytes) => (a.toList, b.toList)) s0.toList s1.toList).map fun p => p.1.length + p.2.length).sum = 128 * 64 ∧
    (List.zipWith (fun (a b : WireBytes) => (a.toList, b.toList)) s0.toList s1.toList).length = 128 := by
  refine ⟨?_, by simp⟩
  rw [List.map_zipWith]
  have : (List.zipWith (fun (a b : WireBytes) => a.toList.length + b.toList.length) s0.toList s1.toList) = List.replicate 128 64 :=
    List.eq_replicate_iff.mpr ⟨by simp, fun b hb => by
      rw [← List.map_uncurry_zip_eq_zipWith] at hb
      obtain ⟨q, -, rfl⟩ := List.mem_map.mp hb
      simp [Function.uncurry]⟩
  rw [this]
  simp

theorem apricotReceiver_shape (X : Crypto) (arm : Bool) (cores : Nat) (sched1 sched2 : Nat → List Nat) (coin : WireBytes)
    (bonus : Vector Bool 256) (seed0 seed1 : Vector WireBytes 128) {inner : List (Bytes × Bytes) → Proc Unit}
    (hin : ∀ m, Shape (fun _ => True) (inner m) (baseSenderSizes m.length (m.map fun p => p.1.length + p.2.length).sum)) (choices : List Bool) :
    Shape (fun _ => True) (apricotReceiver X arm cores sched1 sched2 coin bonus seed0 seed1 inner choices)
      (extReceiverSizes choices.length) := by
  obtain ⟨e1, e2⟩ := seeds_sum seed0 seed1
  unfold apricotReceiver
  refine Shape.skip fun _ => (validate_shape (hello_ext _)).bind fun _ _ => (coinflipSender_shape _ _).bind fun _ _ =>
    Shape.skip fun seed => Shape.recv fun sz => Shape.skip fun hi => Shape.skip fun lo =>
    Shape.bind ((hin _).cast (by rw [e1, e2])) fun _ _ => ?_
  unfold apricotReceiverExtend
  dsimp only
  refine Shape.skip fun t0 => Shape.skip fun t1 => Shape.skip fun packed => Shape.step (apU_post ..) fun u hu => Shape.send hu
    (Shape.skip fun t => Shape.step (apReceiverSums_post ..) fun sums hsums => Shape.send hsums.1 (Shape.send hsums.2
    (Shape.skip fun v => Shape.recv fun d => Shape.lifted _)))

/-! ### src/ot/one_of_many.rs -/

theorem manyRow_post (X : Crypto) (messages : List Bytes) (keys : List (Bytes × Bytes)) (domain len i : Nat) (row : Bytes) :
    Post (fun r => r.length = row.length) (manyRow X messages keys domain len i row) := by
  unfold manyRow
  refine (Post.any _).bind fun _ _ => (xorBytesInplace_post ..).bind fun r hr =>
    Post.foldlM (P := fun r : Bytes => r.length = row.length) _ _ hr fun r hr j _ => ?_
  exact (Post.any _).bind fun _ _ => (xorBytesInplace_post ..).mono fun r' h => by rw [h, hr]

theorem manyY_post (X : Crypto) (cores : Nat) (order : List Nat) (messages : List Bytes) (keys : List (Bytes × Bytes)) (domain len : Nat)
    (hm : ∀ m ∈ messages.head?, m.length = len) (hd : domain < 64) (hl : 2 ^ domain * len < 2 ^ 64) :
    Post (fun y => y.length = 2 ^ domain * len) (manyY X cores order messages keys domain) := by
  unfold manyY
  refine Post.bind (P := fun m => m.length = len) ⟨fun m e => hm m ?_⟩ fun m hm => ?_
  · unfold idxR at e
    cases messages with
    | nil => cases e
    | cons a l => exact congrArg some (Except.ok.inj e)
  · dsimp only
    rw [show shlOneR X.dbg 64 domain = .ok (2 ^ domain) by unfold shlOneR; rw [if_pos hd], okb, hm, mulR_ok _ hl, okb]
    have hrow : ∀ (v : Bytes) (i r : Nat), Post (fun v' => v'.length = v.length)
        (updateRow v i len (manyRow X messages keys domain len r)) := fun v i r =>
      updateRow_post fun row hrow => (manyRow_post ..).mono fun r hr => by rw [hr, hrow]
    split
    · refine Post.foldlM (P := fun y : Bytes => y.length = 2 ^ domain * len) _ _ (by simp) fun y hy i _ => ?_
      exact (hrow y i i).mono fun v h => by rw [h, hy]
    · refine (Post.any _).bind fun _ _ => ?_
      refine (jobs_post (fun _ => order) _ _ fun c a => ?_).mono fun y h => by rw [h]; simp
      unfold manyJob
      exact Post.foldlM (P := fun y : Bytes => y.length = a.length) _ _ rfl fun y hy i _ => (hrow y i _).mono fun v h => by rw [h, hy]

theorem manySender_shape (X : Crypto) (cores : Nat) (order : List Nat) (keys : Nat → WireBytes × WireBytes)
    {inner : List (Bytes × Bytes) → Proc Unit}
    (hin : ∀ m, Shape (fun _ => True) (inner m) (baseSenderSizes m.length (m.map fun p => p.1.length + p.2.length).sum))
    (messages : List Bytes) (domain len : Nat) (hm : ∀ m ∈ messages.head?, m.length = len) (hd : domain < 64)
    (hl : 2 ^ domain * len < 2 ^ 64) :
    Shape (fun _ => True) (manySender X cores order keys inner messages domain) (manySenderSizes domain len) := by
  unfold manySender
  refine Shape.step (manyY_post X cores order messages _ domain len hm hd hl) fun y hy => Shape.send hy ((hin _).cast ?_)
  rw [List.map_map]
  have : ((fun p : Bytes × Bytes => p.1.length + p.2.length) ∘ fun j => ((keys j).1.toList, (keys j).2.toList)) = fun _ => 64 := by
    funext j; simp
  rw [this, sum_map_const]
  simp [Nat.mul_comm]

theorem manyReceiver_shape (X : Crypto) {inner : List Bool → Proc (List Bytes)}
    (hin : ∀ c, Shape (fun _ => True) (inner c) (baseReceiverSizes c.length)) (choice domain : Nat) :
    Shape (fun _ => True) (manyReceiver X inner choice domain) (baseReceiverSizes domain) := by
  unfold manyReceiver
  refine Shape.step (P := fun c : List Bool => c.length = domain) ?_ fun c hc => Shape.recv fun y =>
    ((hin c).bind (L' := []) fun ms _ => Shape.skip fun ks => Shape.lifted _).cast (by rw [hc, List.append_nil])
  unfold manyChoices
  exact (Post.mapM (P := fun _ => True) _ fun _ _ => .any _).mono fun c h => by simpa using h.1

/-! ### src/ot/apricot_classic.rs -/

theorem bitVectorXorAssign_post (dbg : Bool) (a b : Bytes) : Post (fun r => r.length = a.length) (bitVectorXorAssign dbg a b) := by
  unfold bitVectorXorAssign
  refine (Post.any _).bind fun _ _ => Post.foldlM (P := fun r : Bytes => r.length = a.length) _ _ rfl fun s hs i _ => ?_
  exact (Post.any _).bind fun _ _ => (Post.any _).bind fun _ _ => setR_post (by simp [hs])

theorem classicSender_shape (X : Crypto) (arch : Arch) (coin : WireBytes) (delta : Vector Byte 16)
    {inner : List Bool → Proc (List Bytes)} (hin : ∀ c, Shape (fun _ => True) (inner c) (baseReceiverSizes c.length))
    (msg : List (Bytes × Bytes)) :
    Shape (fun _ => True) (classicSender X arch coin delta inner msg)
      (classicSenderSizes msg.length (msg.map (·.1.length)).sum (msg.map (·.2.length)).sum) := by
  unfold classicSender
  refine Shape.skip fun _ => Shape.skip fun _ => (validate_shape (hello_ext _)).bind fun _ _ =>
    Shape.bind ((hin _).cast (congrArg baseReceiverSizes (delta_bits delta))) fun payloads _ => ?_
  unfold classicSenderExtend
  dsimp only
  refine Shape.skip fun seed => Shape.recv fun u => Shape.skip fun u => Shape.skip fun q => Shape.skip fun q =>
    Shape.bind (P := fun _ => True) (L := [32]) ?_ fun _ _ => ?_
  · unfold clSenderCheck
    refine (coinflipReceiver_shape _ _).bind (L' := []) fun _ _ => Shape.skip fun _ => Shape.skip fun _ => Shape.recv fun _ =>
      Shape.skip fun _ => Shape.recv fun _ => Shape.skip fun _ => Shape.skip fun _ => Shape.skip fun _ => ?_
    split
    · exact Shape.err
    · exact Shape.ret trivial
  · unfold clSenderDeRot
    refine Shape.step (sliceR_post ..) fun q hq => Shape.step (P := fun d : List (Bytes × Bytes) =>
      d.map (fun p => (p.1.length, p.2.length)) = msg.map fun p => (p.1.length, p.2.length)) ?_ fun d hd => ?_
    · unfold clEncryptAll
      refine (Post.mapM_map (fun p : Bytes × Bytes => (p.1.length, p.2.length))
        (fun p : ((Bytes × Bytes) × Bytes) × Nat => (p.1.1.1.length, p.1.1.2.length)) _ fun p _ => ?_).mono fun d h => ?_
      · unfold clEncrypt
        exact (xorBytes_post ..).bind fun c0 h0 => (xorBytes_post ..).bind fun c1 h1 => .ok (by rw [h0, h1])
      · rw [h]
        have e : msg = (msg.zip q).zipIdx.map fun p => p.1.1 := by
          have : (fun p : ((Bytes × Bytes) × Bytes) × Nat => p.1.1) = Prod.fst ∘ Prod.fst := rfl
          rw [this, ← List.map_map, List.zipIdx_map_fst, List.map_fst_zip (by omega)]
        conv_rhs => rw [e, List.map_map]
        rfl
    · have hl : d.length = msg.length := by simpa using congrArg List.length hd
      have h1 : d.map (·.1.length) = msg.map (·.1.length) := by
        have := congrArg (List.map Prod.fst) hd
        simpa [List.map_map, Function.comp_def] using this
      have h2 : d.map (·.2.length) = msg.map (·.2.length) := by
        have := congrArg (List.map Prod.snd) hd
        simpa [List.map_map, Function.comp_def] using this
      refine Shape.send ?_ (Shape.sendLast ?_)
      · rw [bytesList_enc_length, List.map_map, List.length_map, hl]
        rw [show (List.length ∘ Prod.fst : Bytes × Bytes → Nat) = fun p => p.1.length from rfl, h1]
      · rw [bytesList_enc_length, List.map_map, List.length_map, hl]
        rw [show (List.length ∘ Prod.snd : Bytes × Bytes → Nat) = fun p => p.2.length from rfl, h2]

theorem classicReceiver_shape (X : Crypto) (arch : Arch) (coin : WireBytes) (bonus : Vector Bool 192)
    (seed0 seed1 : Vector WireBytes 128) {inner : List (Bytes × Bytes) → Proc Unit}
    (hin : ∀ m, Shape (fun _ => True) (inner m) (baseSenderSizes m.length (m.map fun p => p.1.length + p.2.length).sum)) (choices : List Bool) :
    Shape (fun _ => True) (classicReceiver X arch coin bonus seed0 seed1 inner choices) (classicReceiverSizes choices.length) := by
  obtain ⟨e1, e2⟩ := seeds_sum seed0 seed1
  unfold classicReceiver
  refine (validate_shape (hello_ext _)).bind fun _ _ => Shape.skip fun _ => Shape.skip fun _ =>
    Shape.bind ((hin _).cast (by rw [e1, e2])) fun _ _ => ?_
  unfold classicReceiverExtend
  dsimp only
  have hlen : (choices ++ bonus.toList).length = choices.length + 192 := by simp
  refine Shape.step (P := fun x : BitMatrix => x.map List.length = List.replicate 128 ((choices.length + 192) / 8)) ?_ fun x hx =>
    Shape.step (P := fun u : BitMatrix => u.map List.length = List.replicate 128 ((choices.length + 192) / 8)) ?_ fun u hu =>
    Shape.send ?_ (Shape.skip fun t => ?_)
  · unfold monochrome packChoices
    refine Post.bind (P := fun p : Bytes => p.length = (choices.length + 192) / 8) ?_ fun p hp => .ok (by simp [hp])
    rw [hlen]
    refine Post.foldlM (P := fun p : Bytes => p.length = (choices.length + 192) / 8) _ _ (by simp) fun p hp i _ =>
      Post.foldlM (P := fun p : Bytes => p.length = (choices.length + 192) / 8) _ _ hp fun p hp b _ => (Post.any _).bind fun _ _ => ?_
    unfold orAt
    exact (Post.any _).bind fun _ _ => setR_post (by simp [hp])
  · unfold clU
    refine (Post.mapM_map List.length (fun p : Bytes × Bytes × Bytes => p.1.length) _ fun p _ => ?_).mono fun u h => ?_
    · exact (bitVectorXorAssign_post ..).bind fun u hu => (bitVectorXorAssign_post ..).mono fun r hr => by rw [hr, hu]
    · rw [h, ← hx]
      have hxl : x.length = 128 := by simpa using congrArg List.length hx
      have : (fun p : Bytes × Bytes × Bytes => p.1.length) = List.length ∘ Prod.fst := rfl
      rw [this, ← List.map_map, List.map_fst_zip (by simp [clRows, hxl])]
  · have hul : u.length = 128 := by simpa using congrArg List.length hu
    rw [bytesList_enc_length, hu, hul, List.sum_replicate]
    simp
    omega
  · refine (Shape.bind (P := fun _ => True) (L := [32, 32, 24, 24]) (L' := []) ?_ fun _ _ => ?_)
    · unfold clReceiverCheck
      refine (coinflipSender_shape _ _).bind fun _ _ => Shape.skip fun seed =>
        Shape.step (P := fun s : Bytes × Bytes => s.1.length = 16 ∧ s.2.length = 16) ?_ fun s hs => Shape.send ?_ (Shape.sendLast ?_)
      · unfold clReceiverSums
        refine Post.foldlM (P := fun s : Bytes × Bytes => s.1.length = 16 ∧ s.2.length = 16) _ _ (by simp [bitVectorZeros]) fun s hs p _ => ?_
        refine (Post.any _).bind fun t _ => (Post.any _).bind fun chi _ => ?_
        split
        · exact (bitVectorXorAssign_post ..).bind fun x hx => (gf128MulAcc_post ..).bind fun y hy => .ok ⟨by rw [hx, hs.1], by rw [hy, hs.2]⟩
        · exact (gf128MulAcc_post ..).bind fun y hy => .ok ⟨hs.1, by rw [hy, hs.2]⟩
      · rw [bytes_enc_length, hs.1]
      · rw [bytes_enc_length, hs.2]
    · unfold clReceiverDeRot
      exact Shape.recv fun _ => Shape.skip fun _ => Shape.recv fun _ => Shape.skip fun _ => Shape.lifted _

end FP
