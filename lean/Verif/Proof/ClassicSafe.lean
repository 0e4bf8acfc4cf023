import Verif.Proof.Classic
import Verif.Proof.Against
import Mathlib.GroupTheory.Index
import Mathlib.LinearAlgebra.Pi
/-
Against any peer the sender of src/ot/apricot_classic.rs stays within its buffers, except for the check value.
-/
namespace FP
open Spec

attribute [local irreducible] Spec.modulus

/-- The computation stays in bounds, and its result satisfies `P`. -/
def Safe {α : Type} (P : α → Prop) (r : R α) : Prop :=
  match r with
  | .ok a => P a
  | .error e => e ≠ .ub

theorem Safe.ok {α : Type} {P : α → Prop} {a : α} (h : P a) : Safe P (.ok a) := h

theorem Safe.panic {α : Type} {P : α → Prop} : Safe P (panicR : R α) := by
  show Fault.panic ≠ Fault.ub
  simp

theorem Safe.bind {α β : Type} {P : α → Prop} {Q : β → Prop} {r : R α} {f : α → R β} (h : Safe P r)
    (hf : ∀ a, P a → Safe Q (f a)) : Safe Q (r >>= f) := by
  cases r with
  | ok a => exact hf a h
  | error e => exact h

theorem Safe.mono {α : Type} {P Q : α → Prop} {r : R α} (h : Safe P r) (hPQ : ∀ a, P a → Q a) : Safe Q r := by
  cases r with
  | ok a => exact hPQ a h
  | error e => exact h

theorem Safe.idx {α : Type} (l : List α) (i : Nat) : Safe (· ∈ l) (idxR l i) := by
  unfold idxR
  split
  · next a h => exact List.mem_of_getElem? h
  · exact Safe.panic

theorem Safe.set {α : Type} {P : List α → Prop} (l : List α) (i : Nat) (a : α)
    (h : i < l.length → P (l.set i a)) : Safe P (setR l i a) := by
  unfold setR
  split
  · next hi => exact h hi
  · exact Safe.panic

theorem Safe.foldlM {α σ : Type} {P : σ → Prop} {f : σ → α → R σ} (l : List α) (s : σ) (hs : P s)
    (hf : ∀ s, P s → ∀ a ∈ l, Safe P (f s a)) : Safe P (l.foldlM f s) := by
  induction l generalizing s with
  | nil => exact hs
  | cons a l ih =>
    rw [List.foldlM_cons]
    exact (hf s hs a (by simp)).bind fun s' hs' => ih s' hs' fun s hs b hb => hf s hs b (by simp [hb])

theorem Safe.mapM {α β : Type} {P : β → Prop} {f : α → R β} (l : List α) (hf : ∀ a ∈ l, Safe P (f a)) :
    Safe (fun bs => bs.length = l.length ∧ ∀ b ∈ bs, P b) (l.mapM f) := by
  induction l with
  | nil => exact ⟨rfl, by simp⟩
  | cons a l ih =>
    rw [List.mapM_cons]
    refine (hf a (by simp)).bind fun b hb => ?_
    refine (ih fun a ha => hf a (by simp [ha])).bind fun bs hbs => ?_
    exact ⟨by simp [hbs.1], by
      intro c hc
      rcases List.mem_cons.mp hc with rfl | hc
      · exact hb
      · exact hbs.2 c hc⟩

theorem clQ_safe (delta : Bytes) (t u : BitMatrix) (hd : delta.length = 16) :
    Safe (fun q => q.length = 128) (clQ delta t u) := by
  unfold clQ
  refine (Safe.mapM (P := fun _ => True) _ fun p _ => ?_).mono fun q h => ?_
  · split
    · exact (Safe.idx ..).bind fun _ _ => (Safe.idx ..).bind fun _ _ => trivial
    · exact (Safe.idx ..).mono fun _ _ => trivial
  · rw [h.1, unpack_zipIdx delta hd]
    simp

theorem orAt_safe (v : Bytes) (i : Nat) (x : Byte) : Safe (fun v' => v'.length = v.length) (orAt v i x) := by
  unfold orAt
  exact (Safe.idx ..).bind fun _ _ => Safe.set _ _ _ fun _ => by simp

theorem transpose_safe (m : BitMatrix) : Safe (fun q => Rectangular q (m.length / 8)) (m.transpose) := by
  unfold BitMatrix.transpose BitMatrix.dims
  refine Safe.bind (P := fun d : Nat × Nat => d.1 = m.length)
    ((Safe.idx m 0).bind fun r _ => Safe.ok (a := (m.length, r.length * 8)) rfl) ?_
  rintro ⟨rows, cols⟩ hrows
  dsimp only at hrows ⊢
  subst hrows
  refine Safe.foldlM _ _ ?_ fun raw hraw i _ => Safe.foldlM _ _ hraw fun raw hraw c _ =>
    (Safe.idx ..).bind fun r _ => (Safe.idx ..).bind fun sb _ => Safe.foldlM _ _ hraw fun raw hraw b _ => ?_
  · intro r hr
    rw [(List.mem_replicate.mp hr).2]
    simp
  · unfold orAt2
    refine (Safe.idx ..).bind fun r hr => (orAt_safe ..).bind fun r' hr' => Safe.set _ _ _ fun _ => ?_
    intro x hx
    rcases List.mem_or_eq_of_mem_set hx with hx | rfl
    · exact hraw x hx
    · rw [hr']; exact hraw r hr

theorem clSum_safe (arch : Arch) (X : Crypto) (q : BitMatrix) (seed : WireBytes) (l : Nat) (hq : Rectangular q 16) :
    Safe (fun s => s.length = 16) (clSum arch X.dbg q (clChi X seed l)) := by
  unfold clSum
  refine Safe.foldlM _ _ (by simp [bitVectorZeros]) fun s hs p hp => ?_
  have h1 : p.1.length = 16 := hq _ (List.of_mem_zip hp).1
  have h2 : p.2.length = 16 := by
    have := (List.of_mem_zip hp).2
    rw [clChi_eq, List.mem_map] at this
    obtain ⟨j, -, e⟩ := this
    rw [← e]; exact clChiRow_length ..
  rw [asPolynomial_ok _ h1, okb, asPolynomial_ok _ h2, okb]
  obtain ⟨out, e, h, -⟩ := Props.C14_mul_acc_field arch X.dbg s p.1 p.2 hs h1 h2
  rw [e]
  exact h

theorem mulAcc_safe (arch : Arch) (dbg : Bool) {acc a b : Bytes} (hacc : 16 ≤ acc.length) (ha : 16 ≤ a.length)
    (hb : 16 ≤ b.length) : Safe (fun _ => True) (gf128MulAcc arch dbg acc a b) := by
  have key : ∀ chk, Safe (fun _ => True) (mulAccCore dbg chk acc a b) := by
    intro chk
    have hd : ∀ c : Bool, Safe (fun _ => True) (debugAssertR dbg c) := by
      intro c
      unfold debugAssertR assertR
      split
      · trivial
      · exact Safe.panic
    unfold mulAccCore
    refine (hd _).bind fun _ _ => (hd _).bind fun _ _ => ?_
    unfold xorU128 loadU128
    rw [if_pos ha, if_pos hb, if_pos hacc]
    trivial
  cases arch
  · rw [show gf128MulAcc .x86_64 dbg acc a b = _ from mulAccX86_core dbg acc a b]; exact key _
  · rw [show gf128MulAcc .aarch64 dbg acc a b = _ from mulAccArm64_core dbg acc a b]; exact key _
  · rw [show gf128MulAcc .other dbg acc a b = _ from mulAccGeneric_core dbg acc a b]; exact key _

theorem xorBytes_safe (dbg : Bool) {a b : Bytes} (h : a.length = b.length) : Safe (fun _ => True) (xorBytes dbg a b) := by
  rw [xorBytes_ok _ h]; trivial

theorem clEncryptAll_safe (X : Crypto) (delta : Bytes) (q : BitMatrix) (msg : List (Bytes × Bytes)) :
    Safe (fun _ => True) (clEncryptAll X delta q msg) := by
  unfold clEncryptAll
  refine (Safe.mapM (P := fun _ => True) _ fun p _ => ?_).mono fun _ _ => trivial
  unfold clEncrypt
  exact (xorBytes_safe _ (gen8_length ..).symm).bind fun _ _ => (xorBytes_safe _ (gen8_length ..).symm).bind fun _ _ => trivial

theorem deserialize_safe {α : Type} (c : Codec α) (m : Bytes) : Safe (fun a => c.deserialize m = .ok a) (c.deserialize m) := by
  cases h : c.deserialize m with
  | ok a => rfl
  | error e =>
    unfold Codec.deserialize at h
    split at h
    · cases h
    · cases h; show Fault.err _ ≠ .ub; simp

/-- Running a party that does a safe local computation first. -/
theorem against_safe {α β : Type} {P : α → Prop} {r : R α} {f : α → Proc β} {inp : List Bytes} {G : Prop}
    (h : Safe P r) (hf : ∀ a, P a → ((f a).against inp).2 = some (.error .ub) → G)
    (hr : (((liftM r : Proc α) >>= f).against inp).2 = some (.error .ub)) : G := by
  cases r with
  | ok a => exact hf a h hr
  | error e =>
    refine absurd ?_ h
    have : some (Except.error e : R β) = some (.error .ub) := hr
    simpa using this

theorem against_recv_ub {β : Type} {k : Bytes → Proc β} {inp : List Bytes} {G : Prop}
    (hf : ∀ m rest, inp = m :: rest → ((k m).against rest).2 = some (.error .ub) → G)
    (hr : ((Proc.recv k).against inp).2 = some (.error .ub)) : G := by
  cases inp with
  | nil => simp [Proc.against] at hr
  | cons m rest => exact hf m rest rfl hr

theorem classic_ub (X : Crypto) (arch : Arch) (coin : WireBytes) (delta : Bytes) (msg : List (Bytes × Bytes))
    (payload inp : List Bytes) (hd : delta.length = 16)
    (h : ((classicSenderExtend X arch coin delta msg payload).against inp).2 = some (.error .ub)) :
    ∃ mu com v mx mt rest x, inp = mu :: com :: v :: mx :: mt :: rest ∧ Codec.bytes.deserialize mx = .ok x ∧
      x.length < 16 := by
  unfold classicSenderExtend at h
  refine against_safe (P := fun _ => True) ?_ ?_ h
  · unfold clSeeds
    refine Safe.foldlM _ _ trivial fun s _ p _ => ?_
    refine Safe.bind (P := fun _ => True) ?_ fun a _ => Safe.set _ _ _ fun _ => trivial
    unfold toArray32
    split
    · trivial
    · exact Safe.panic
  intro seeds _ h
  rw [recvP_bind] at h
  refine against_recv_ub ?_ h
  intro mu rest0 e0 h
  refine against_safe (deserialize_safe ..) ?_ h
  intro u _ h
  refine against_safe (clQ_safe delta _ _ hd) ?_ h
  intro q0 hq0 h
  refine against_safe (transpose_safe q0) ?_ h
  intro q hq h
  rw [hq0] at hq
  unfold clSenderCheck at h
  rw [bind_assocP] at h
  unfold coinflipReceiver at h
  simp only [recvP_bind, sendP_bind, recv_bind, send_bind] at h
  refine against_recv_ub ?_ h
  intro com rest1 e1 h
  rw [against_send] at h
  refine against_recv_ub ?_ h
  intro v rest2 e2 h
  by_cases hv : v.length ≠ coin.toList.length
  · rw [if_pos hv] at h
    have : some (Except.error (Fault.err .coinflipLength) : R Unit) = some (.error .ub) := h
    simp at this
  rw [if_neg hv] at h
  by_cases hc : com ≠ (X.sha256 v).toList
  · rw [if_pos hc] at h
    have : some (Except.error (Fault.err .coinflipCommitment) : R Unit) = some (.error .ub) := h
    simp at this
  rw [if_neg hc] at h
  push Not at hv
  rw [xorAt_eq _ _ hv.symm, liftM_ok, ret_bind, bind_assocP] at h
  refine against_safe (P := fun _ => True) ?_ ?_ h
  · unfold toArray32
    split
    · trivial
    · exact Safe.panic
  intro seed _ h
  rw [bind_assocP] at h
  refine against_safe (clSum_safe arch X q seed _ hq) ?_ h
  intro s hs h
  rw [recv_bind] at h
  refine against_recv_ub ?_ h
  intro mx rest3 e3 h
  rw [bind_assocP] at h
  refine against_safe (deserialize_safe ..) ?_ h
  intro x hx h
  rw [recv_bind] at h
  refine against_recv_ub ?_ h
  intro mt rest4 e4 h
  rw [bind_assocP] at h
  refine against_safe (deserialize_safe ..) ?_ h
  intro t ht h
  rw [asPolynomial_ok _ hd, liftM_ok, ret_bind] at h
  by_contra hne
  have hxl : 16 ≤ x.length := by
    by_contra hlt
    exact hne ⟨mu, com, v, mx, mt, rest4, x, by rw [e0, e1, e2, e3, e4], hx, by omega⟩
  rw [bind_assocP] at h
  refine against_safe (mulAcc_safe arch X.dbg (by omega) hxl (by omega)) ?_ h
  intro o _ h
  by_cases ht : t ≠ o
  · rw [if_pos ht] at h
    have : some (Except.error (Fault.err .polychromatic) : R Unit) = some (.error .ub) := h
    simp at this
  rw [if_neg ht] at h
  unfold clSenderDeRot at h
  refine against_safe (P := fun _ => True) ?_ ?_ h
  · unfold sliceR
    split
    · trivial
    · exact Safe.panic
  intro q' _ h
  refine against_safe (clEncryptAll_safe X delta q' msg) ?_ h
  intro d _ h
  have : some (Except.ok () : R Unit) = some (.error .ub) := h
  simp at this

end FP
