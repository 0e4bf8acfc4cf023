import Verif.Proof.Crash
import Verif.Props.Sizes
import Verif.Props.Channel
import Verif.Proof.Witness
/-
C62: a crash or a broken connection, at any point of a run.
-/
namespace FP.Props
open Spec

variable {α β : Type}

/-- C62: no run is infinite, whatever breaks and when. -/
theorem C62_stops (p : Proc α) (q : Proc β) : Acc (fun d c : Conf α β => FaultStep c d) (start p q) :=
  fault_terminates _

/-- C62: if without failures the parties end with `a` and `b` on every schedule, then in every run in which anything breaks
at any point, a party that returns a result returns that one; and no party is left waiting: as long as one has not ended,
a party can go on or gets an error from the closed channel. -/
theorem C62_crash_safe (p : Proc α) (q : Proc β) (a : α) (b : β) (h : Completes p q a b) (c : Conf α β)
    (hc : FaultSteps (start p q) c) :
    (∀ a', c.left = .ret a' → a' = a) ∧ (∀ b', c.right = .ret b' → b' = b) ∧ ¬ Hangs c := by
  obtain ⟨n, h⟩ := h
  have ho : Outcome p q (.returns a) (.returns b) :=
    ⟨n, fun m d hd => ⟨(h m d hd).1, fun hs => ⟨((h m d hd).2 hs).1, ((h m d hd).2 hs).2.1⟩⟩⟩
  obtain ⟨d, hd, hl, hr⟩ := (Follows.refl (start p q)).steps hc
  refine ⟨fun a' ha => ?_, fun b' hb => ?_, fun hh => ?_⟩
  · rcases hl with ⟨hl, -⟩ | ⟨⟨e, he⟩, -⟩
    · have := final_left ho hd (by rw [← hl, ha]; trivial)
      rw [← hl, ha] at this
      exact Proc.ret.inj this
    · rw [ha] at he; cases he
  · rcases hr with ⟨hr, -⟩ | ⟨⟨e, he⟩, -⟩
    · have := final_right ho hd (by rw [← hr, hb]; trivial)
      rw [← hr, hb] at this
      exact Proc.ret.inj this
    · rw [hb] at he; cases he
  · obtain ⟨k, l, rfl⟩ := (hangs_iff c).mp hh
    rcases hl with ⟨hl, hl'⟩ | ⟨⟨e, he⟩, -⟩
    · rcases hr with ⟨hr, hr'⟩ | ⟨⟨e, he⟩, -⟩
      · obtain ⟨dl, dr, dlr, drl⟩ := d
        dsimp only at hl hl' hr hr'
        subst hl hl' hr hr'
        obtain ⟨m, hd⟩ := hd
        have := ((h m _ hd).2 (fun _ h => nomatch h)).1
        cases this
      · cases he
    · cases he

example := C62_crash_safe _ _ _ _ (C20_base_ot Witness.curve (Witness.crypto true) (· + 3) (· + 3) Witness.messages
    Witness.choices (by meets) (by meets) (by meets)) _ (.refl _)

/-- C62, exactly: some run, with or without failures, leaves a party waiting forever if and only if the run without
failures ends with both parties waiting for each other.  In particular a party is never left waiting because the other one
crashed, and any run in which one party ends, in whatever way, ends for both. -/
theorem C62_hangs_exactly (p : Proc α) (q : Proc β) :
    (∃ c, FaultSteps (start p q) c ∧ Hangs c) ↔ ∃ k l, Steps (start p q) ⟨.recv k, .recv l, [], []⟩ := by
  constructor
  · rintro ⟨c, hc, hh⟩
    obtain ⟨k, l, rfl⟩ := (hangs_iff c).mp hh
    obtain ⟨d, hd, hl, hr⟩ := (Follows.refl (start p q)).steps hc
    rcases hl with ⟨hl, hl'⟩ | ⟨⟨e, he⟩, -⟩
    · rcases hr with ⟨hr, hr'⟩ | ⟨⟨e, he⟩, -⟩
      · obtain ⟨dl, dr, dlr, drl⟩ := d
        dsimp only at hl hl' hr hr'
        subst hl hl' hr hr'
        exact ⟨k, l, hd⟩
      · cases he
    · cases he
  · rintro ⟨k, l, h⟩
    exact ⟨_, .ofSteps h, (hangs_iff _).mpr ⟨k, l, rfl⟩⟩

/-- C62: a run one party of which would end without failures never leaves anyone waiting. -/
theorem C62_ends (p : Proc α) (q : Proc β) (a : End α) (b : End β) (h : Outcome p q a b) (hab : ¬ (a = .waits ∧ b = .waits))
    (c : Conf α β) (hc : FaultSteps (start p q) c) : ¬ Hangs c := by
  intro hh
  obtain ⟨k, l, m, hs⟩ := (C62_hangs_exactly p q).mp ⟨c, hc, hh⟩
  obtain ⟨n, h⟩ := h
  obtain ⟨h1, h2⟩ := (h m _ hs).2 fun _ h => nomatch h
  apply hab
  constructor
  · cases a with
    | waits => rfl
    | returns a => cases h1
    | fails e => cases h1
  · cases b with
    | waits => rfl
    | returns a => cases h2
    | fails e => cases h2

/-- C62 for the OT extension: for every number and size of messages, on which honest runs may fail (C58), and whatever
else breaks, nobody is left waiting. -/
theorem C62_extension (X : Crypto) (armS armR : Bool) (coresS coresR : Nat) (schedS sched1 sched2 : Nat → List Nat)
    (coinS coinR : WireBytes) (delta : Vector Byte 16) (bonus : Vector Bool 256) (seed0 seed1 : Vector WireBytes 128)
    (innerS : List (Bytes × Bytes) → Proc Unit) (innerR : List Bool → Proc (List Bytes))
    (hinner : CorrectOT 32 128 innerS innerR) (msg : List (Bytes × Bytes)) (choices : List Bool) (n len : Nat)
    (hn : msg.length = n) (hn' : choices.length = n) (hfit : n < 2 ^ 64)
    (hlen : ∀ m ∈ msg, m.1.length = len ∧ m.2.length = len) (hcS : 0 < coresS) (hcR : 0 < coresR)
    (hsS : ∀ m, IsOrder m (schedS m)) (hs1 : ∀ m, IsOrder m (sched1 m)) (hs2 : ∀ m, IsOrder m (sched2 m))
    (c : Conf Unit (List Bytes))
    (hc : FaultSteps (start (apricotSender X armS coresS schedS coinS delta innerR msg)
      (apricotReceiver X armR coresR sched1 sched2 coinR bonus seed0 seed1 innerS choices)) c) : ¬ Hangs c := by
  have hl : (List.zipWith (· ^^^ ·) coinR.toList coinS.toList).length = 32 := by simp
  refine C62_ends _ _ _ _ (C58_apricot_exact X armS armR coresS coresR schedS sched1 sched2 coinS coinR
    ⟨(List.zipWith (· ^^^ ·) coinR.toList coinS.toList).toArray, by simp⟩ delta bonus seed0
    seed1 innerS innerR hinner msg choices n len hn hn' hfit hlen hcS hcR hsS hs1 hs2 (by simp)) ?_ c hc
  unfold extensionEnds
  split_ifs <;> simp

example := C62_extension (Witness.crypto true) true false 4 3 List.range List.range List.range (Witness.bytes 1) (Witness.bytes 2)
    Witness.send.delta Witness.recv.bonus Witness.recv.seed0 Witness.recv.seed1
    (coSender Witness.curve (Witness.crypto true) (· + 3)) (coReceiver Witness.curve (Witness.crypto true) (· + 5))
    (fun msg choices hm hc hml => (co_ends _ _ _ _ _ _ (by omega) (by omega) fun m h => by
      obtain ⟨h1, h2⟩ := hml m h
      rw [h1, h2]
      decide).completes) Witness.messages Witness.choices 8 2 (by meets) (by meets) (by meets) (by meets) (by meets) (by meets)
    (by meets) (by meets) (by meets) _ (.refl _)

/-- C62 for the two-party programs: whatever breaks and when, a program that prints a key prints the key both derive
without failures, and neither program is left waiting. -/
theorem C62_vanilla (C : Curve) (X : Crypto) (M : ChannelCrypto) (a b : M.Secret) (g1 g2 : GarblerDraws)
    (o1 o2 : OTRecv) (hg1 : g1.Valid) (hg2 : g2.Valid) (ho1 : o1.Valid) (ho2 : o2.Valid) (p q : Bytes) (t1 t2 : Nat)
    (hl : q.length = p.length) (hlen : GoodLength p.length) (ht1 : t1 < 65535) (ht2 : t2 < 65535)
    (h1 : bitDistance p q ≤ t1) (h2 : bitDistance p q ≤ t2) :
    ∃ key, ∀ c, FaultSteps (start (vanillaServer C X M a g1 o1 p t1) (vanillaClient C X M b o2 g2 q t2)) c →
      (∀ k, c.left = .ret k → k = key) ∧ (∀ k, c.right = .ret k → k = key) ∧ ¬ Hangs c := by
  obtain ⟨key, h⟩ := C47_vanilla_partial C X M a b g1 g2 o1 o2 hg1 hg2 ho1 ho2 p q t1 t2 hl hlen ht1 ht2 h1 h2
  exact ⟨key, fun c hc => C62_crash_safe _ _ _ _ h c hc⟩

example := C62_vanilla Witness.curve (Witness.crypto true) Witness.channel (3 : BitVec 8) (5 : BitVec 8) Witness.g
    Witness.g' Witness.recv Witness.recv (by meets) (by meets) (by meets) (by meets) [3, 4] Witness.password 1 2
    (by meets) (by meets) (by meets) (by meets) (by meets) (by meets)

/-- C62 for the server and the client program. -/
theorem C62_programs (C : Curve) (X : Crypto) (M : ChannelCrypto) (a b : M.Secret) (s : ManyDraws) (c : SingleDraws)
    (file password : Bytes) (size k index ts tc : Nat) (hfile : file.length = 2 ^ k * size) (hk : k < 32)
    (hsize : GoodLength size) (hpw : password.length = size) (hi : index < 2 ^ k) (hm : s.many.Valid X.dbg (2 ^ k))
    (hsg : s.g.Valid) (hso : s.ot.Valid) (hcg : c.g.Valid) (hco : c.ot.Valid) (hts : ts < 65535) (htc : tc < 65535)
    (h1 : bitDistance ((file.drop (index * size)).take size) password ≤ ts)
    (h2 : bitDistance ((file.drop (index * size)).take size) password ≤ tc) :
    ∃ key, ∀ d, FaultSteps (start (serverMain C X M a s file size ts) (clientMain C X M b c password index (2 ^ k) tc)) d →
      (∀ k, d.left = .ret k → k = key) ∧ (∀ k, d.right = .ret k → k = key) ∧ ¬ Hangs d := by
  obtain ⟨key, h⟩ := C47_programs_partial C X M a b s c file password size k index ts tc hfile hk hsize hpw hi hm hsg hso hcg hco
    hts htc h1 h2
  exact ⟨key, fun d hd => C62_crash_safe _ _ _ _ h d hd⟩

example := C62_programs Witness.curve (Witness.crypto true) Witness.channel (3 : BitVec 8) (5 : BitVec 8)
    Witness.manyDraws Witness.singleDraws [1, 2, 3, 4, 5, 6, 7, 8] Witness.password 2 2 1 1 1 (by meets) (by meets)
    (by meets) (by meets) (by meets) (by meets) (by meets) (by meets) (by meets) (by meets) (by meets) (by meets)
    (by meets) (by meets)

/-- What no protocol can give and these do not give either is "both or none": any two parties that have something to do
and complete have a run in which one returns its result and the other, which has that one step left to make, crashes. -/
theorem C62_not_both (p : Proc α) (q : Proc β) (a : α) (b : β) (h : Completes p q a b) (hpq : ¬ (p.ended ∧ q.ended))
    (e : Fault) :
    (∃ c, FaultSteps (start p q) c ∧ c.left = .ret a ∧ c.right = .fail e) ∨
      ∃ c, FaultSteps (start p q) c ∧ c.left = .fail e ∧ c.right = .ret b := by
  obtain ⟨n, h⟩ := h
  obtain ⟨f, ⟨m, hf⟩, hst⟩ := exists_stuck (start p q)
  obtain ⟨h1, h2, h3, h4⟩ := (h m f hf).2 hst
  cases m with
  | zero =>
    cases hf
    exact absurd ⟨(show p = .ret a from h1) ▸ trivial, (show q = .ret b from h2) ▸ trivial⟩ hpq
  | succ m =>
    obtain ⟨d, hd, hs⟩ := hf.last
    have hd' := FaultSteps.ofSteps ⟨m, hd⟩
    cases hs with
    | sendL m p q pq qp => exact .inr ⟨_, hd'.snoc (.failL _ _ _ _ e 0 id), rfl, h2⟩
    | sendR m p q pq qp => exact .inl ⟨_, hd'.snoc (.failR _ _ _ _ e 0 id), h1, rfl⟩
    | recvL m k q pq qp => exact .inr ⟨_, hd'.snoc (.failL _ _ _ _ e 0 id), rfl, h2⟩
    | recvR m p k pq qp => exact .inl ⟨_, hd'.snoc (.failR _ _ _ _ e 0 id), h1, rfl⟩

example := C62_not_both _ _ _ _ (C20_base_ot Witness.curve (Witness.crypto true) (· + 3) (· + 3) Witness.messages
    Witness.choices (by meets) (by meets) (by meets)) (by rintro ⟨h, -⟩; exact h) .panic

/-- The garbling party up to the first message it waits for after the exchange of properties. -/
theorem garbler_starts (C : Curve) (X : Crypto) (g : GarblerDraws) (p : Bytes) (t : Nat) (hlen : GoodLength p.length)
    (ht : t < 65535) : ∃ k, HalfKey.garbler C X g p t =
      (validateProperties ⟨8 * p.length, "Apricot"⟩ >>= fun _ => .recv k) := by
  obtain ⟨h1, h2, h3⟩ := goodLength hlen
  have hpl : (u8VecToBoolVec p).length = 8 * p.length := unpack_length _
  obtain ⟨run, z, d, K, hrun, hgb, hzl, hzb, hK, -⟩ := half_key X.toEnv g.rnd
    (thr_typedD (T := t + 1) (show 0 < 8 * p.length by omega) good2 h3)
    (by intro d hd; exact (List.mem_replicate.mp hd).2) (by show 0 < 8 * p.length * 2; omega) rfl (thr_last _ _ _)
  change z.length = 8 * p.length * 2 at hzl
  unfold HalfKey.garbler halfGarbler
  dsimp only
  rw [hpl, buildCircuit_ok X.dbg h2 ht, liftM_ok, ret_bind, hgb, liftM_ok, ret_bind]
  dsimp only
  rw [sliceR_ok (by omega) (by omega), liftM_ok, ret_bind, sliceR_ok (by omega) (by omega), liftM_ok, ret_bind]
  have hm : (bytePairs ((z.drop (8 * p.length)).take (z.length - 8 * p.length))).length = 8 * p.length := by
    simp [bytePairs]; omega
  generalize bytePairs ((z.drop (8 * p.length)).take (z.length - 8 * p.length)) = m at hm
  unfold OTSend.run apricotSender coinflipReceiver
  rw [hm, debugAssertR_true (by simp), liftM_ok, ret_bind, bindP_assoc]
  exact ⟨_, rfl⟩

/-- C62 needs the parties to take different roles, which nothing enforces: two parties that both call
`HalfKey::garbler`, with passwords of the same length, wait for each other forever. -/
theorem C62_fails_same_role (C : Curve) (X : Crypto) (g1 g2 : GarblerDraws) (p q : Bytes) (t1 t2 : Nat)
    (hl : q.length = p.length) (hlen : GoodLength p.length) (ht1 : t1 < 65535) (ht2 : t2 < 65535) :
    Outcome (HalfKey.garbler C X g1 p t1) (HalfKey.garbler C X g2 q t2) .waits .waits ∧
      ∃ c, FaultSteps (start (HalfKey.garbler C X g1 p t1) (HalfKey.garbler C X g2 q t2)) c ∧ Hangs c := by
  obtain ⟨k, hk⟩ := garbler_starts C X g1 p t1 hlen ht1
  obtain ⟨l, hl'⟩ := garbler_starts C X g2 q t2 (by rw [hl]; exact hlen) ht2
  rw [hl] at hl'
  obtain ⟨h1, h2, h3⟩ := goodLength hlen
  have hg : Gets (HalfKey.garbler C X g1 p t1) (HalfKey.garbler C X g2 q t2) (.recv k) (.recv l) := by
    rw [hk, hl']
    exact Gets.after (validate_ends ⟨by show 8 * p.length < 2 ^ 64; omega, by show "Apricot".utf8ByteSize < 2 ^ 64; decide⟩) (.refl _ _)
  refine ⟨Outcome.of_steps hg (fun _ h => nomatch h) ⟨k, rfl⟩ ⟨l, rfl⟩, (C62_hangs_exactly _ _).mpr ⟨k, l, hg⟩⟩

example := C62_fails_same_role Witness.curve (Witness.crypto true) Witness.g Witness.g' [3, 4] Witness.password 1 2
    (by meets) (by meets) (by meets) (by meets)

/-! ### The hypotheses can be met -/

/-- A request and an answer complete; the one who asks may crash after asking, and then the other one still returns. -/
example : Completes (.send [1] (.recv fun m => .ret m)) (.recv fun m => .send m (.ret ())) [1] () :=
  Ends.completes (.sendRecv (.recvSend (.ret _ _)))

example : FaultSteps (start (.send [1] (.recv fun m => .ret m)) (.recv fun m => .send m (.ret ())) : Conf Bytes Unit)
    ⟨.fail .panic, .ret (), [], [[1]]⟩ :=
  .step (.normal (.sendL ..)) (.step (.failL _ _ _ _ .panic 1 id) (.step (.normal (.recvR ..))
    (.step (.normal (.sendR ..)) (.refl _))))

end FP.Props
