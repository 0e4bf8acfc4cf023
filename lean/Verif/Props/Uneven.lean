import Verif.Spec.Uneven
import Verif.Proof.Uneven
import Verif.Props.Served
import Verif.Proof.Witness
/-
C85: what a one-of-many server makes of passwords of different lengths.
-/
namespace FP.Props
open Spec

theorem firstLength_of {passwords : List Bytes} {p : Bytes} (h : idxR passwords 0 = .ok p) :
    p.length = firstLength passwords := by
  cases passwords with
  | nil => cases h
  | cons a l => obtain rfl := Except.ok.inj h; rfl

theorem cut_zero (passwords : List Bytes) : idxR (cutAll passwords) 0 = idxR passwords 0 := by
  cases passwords with
  | nil => rfl
  | cons a l => simp [cutAll, firstLength, idxR]

theorem cut_length (passwords : List Bytes) : (cutAll passwords).length = passwords.length := by simp [cutAll]

theorem cut_lengths {passwords : List Bytes} (h : NoneShorter passwords) :
    ∀ p ∈ cutAll passwords, p.length = firstLength passwords := by
  intro p hp
  obtain ⟨q, hq, rfl⟩ := List.mem_map.mp hp
  have := h q hq
  rw [List.length_take]
  omega

theorem cut_get (passwords : List Bytes) (index : Nat) (hi : index < passwords.length) :
    (cutAll passwords)[index]'(by rw [cut_length]; exact hi) = passwords[index].take (firstLength passwords) := by
  simp [cutAll]

theorem lift_congr {α β : Type} (r : R α) {f g : α → Proc β} (h : ∀ a, r = .ok a → f a = g a) :
    ((liftM r : Proc α) >>= f) = ((liftM r : Proc α) >>= g) := by
  cases r with
  | ok a => exact h a rfl
  | error e => rfl

/-- C85: in a release build, if no password is shorter than the first, the server of the fourth implementation
behaves like one whose passwords are all cut to the length of the first. -/
theorem C85_cut_v4 (C : Curve) (X : Crypto) (s : ManyDraws) (passwords : List Bytes) (t : Nat) (hdbg : X.dbg = false)
    (h : NoneShorter passwords) : mfpakeMany C X s passwords t = mfpakeMany C X s (cutAll passwords) t := by
  unfold mfpakeMany
  rw [cut_zero]
  refine lift_congr _ fun p hp => ?_
  dsimp only
  rw [firstLength_of hp, hdbg, cut_length, cutAll, maskPasswords_cut (drawMask_length _ _) h]

example := C85_cut_v4 Witness.curve (Witness.crypto false) Witness.manyDraws Witness.uneven 1 (by meets) (by meets)

/-- C85: so does the garbling server of the third implementation. -/
theorem C85_cut_v3 (C : Curve) (X : Crypto) (s : ServerDraws) (passwords : List Bytes) (t : Nat) (hdbg : X.dbg = false)
    (h : NoneShorter passwords) : garblerServerV3 C X s passwords t = garblerServerV3 C X s (cutAll passwords) t := by
  unfold garblerServerV3
  rw [cut_zero]
  refine lift_congr _ fun p hp => ?_
  dsimp only
  rw [firstLength_of hp, hdbg, cut_length, cutAll, maskPasswords_cut (drawMask_length _ _) h]

example := C85_cut_v3 Witness.curve (Witness.crypto false) Witness.serverDraws Witness.uneven 1 (by meets) (by meets)

/-- C85: the evaluating server of the third implementation uses nothing but the length of the first password. -/
theorem C85_evaluator_v3 (C : Curve) (X : Crypto) (o : OTRecv) (p : Bytes) (rest : List Bytes) (p' : Bytes)
    (rest' : List Bytes) (mask : Bytes) (h : p.length = p'.length) :
    evaluatorServerV3 C X o (p :: rest) mask = evaluatorServerV3 C X o (p' :: rest') mask := by
  unfold evaluatorServerV3
  simp only [idxR, List.getElem?_cons_zero]
  show (liftM (Except.ok p : R Bytes) >>= _) = (liftM (Except.ok p' : R Bytes) >>= _)
  rw [liftM_ok, liftM_ok, ret_bind, ret_bind, h]

example := C85_evaluator_v3 Witness.curve (Witness.crypto true) Witness.recv [1, 2] [[3]] [4, 5] [[6, 7], []] [9, 8]
    (by meets)

/-- C85: both servers of the second implementation. -/
theorem C85_cut_v2 (C : Curve) (X : Crypto) (passwords : List Bytes) (hdbg : X.dbg = false) (h : NoneShorter passwords) :
    (∀ s t, garblerServerV2 C X s passwords t = garblerServerV2 C X s (cutAll passwords) t) ∧
    (∀ s, evaluatorServerV2 C X s passwords = evaluatorServerV2 C X s (cutAll passwords)) := by
  constructor
  · intro s t
    unfold garblerServerV2
    rw [cut_zero]
    refine lift_congr _ fun p hp => ?_
    dsimp only
    rw [firstLength_of hp, hdbg, cut_length, cutAll, maskPasswords_cut (drawMask_length _ _) h]
  · intro s
    unfold evaluatorServerV2
    rw [cut_zero]
    refine lift_congr _ fun p hp => ?_
    dsimp only
    rw [firstLength_of hp, hdbg, cut_length, cutAll, maskPasswords_cut (drawMask_length _ _) h]

example := C85_cut_v2 Witness.curve (Witness.crypto false) Witness.uneven (by meets) (by meets)

/-- C85: both servers of the first implementation do this in every build, and for every database. -/
theorem C85_cut_v1 (C : Curve) (X : Crypto) (passwords : List Bytes) :
    (∀ s t, garblerServerV1 C X s passwords t = garblerServerV1 C X s (cutAll passwords) t) ∧
    (∀ o, evaluatorServerV1 C X o passwords = evaluatorServerV1 C X o (cutAll passwords)) := by
  constructor
  · intro s t
    unfold garblerServerV1
    rw [cut_zero]
    refine lift_congr _ fun p hp => ?_
    dsimp only
    rw [firstLength_of hp, cut_length]
    simp only [cutAll, encodeAll_cut]
  · intro o
    unfold evaluatorServerV1
    rw [cut_zero]
    refine lift_congr _ fun p hp => ?_
    dsimp only
    rw [firstLength_of hp, cut_length]
    simp only [cutAll, allBits_cut]

theorem refuses_of {dbg : Bool} {passwords : List Bytes} (h : ¬ NoneShorter passwords ∨ dbg = true ∧ ¬ AllEqual passwords) :
    ∃ p ∈ passwords, p.length < firstLength passwords ∨ dbg = true ∧ p.length ≠ firstLength passwords := by
  unfold NoneShorter AllEqual at h
  push Not at h
  rcases h with ⟨p, hp, h⟩ | ⟨hd, p, hp, h⟩
  · exact ⟨p, hp, .inl h⟩
  · exact ⟨p, hp, .inr ⟨hd, h⟩⟩

/-- C85: a server one of whose passwords is shorter than the first never returns a key, whatever the client sends; in
a checked build any difference has this effect.  The fourth implementation and the garbling server of the third. -/
theorem C85_refuses (C : Curve) (X : Crypto) (passwords : List Bytes)
    (h : ¬ NoneShorter passwords ∨ X.dbg = true ∧ ¬ AllEqual passwords) :
    (∀ s t, NeverReturns (mfpakeMany C X s passwords t)) ∧ (∀ s t, NeverReturns (garblerServerV3 C X s passwords t)) := by
  have hr := refuses_of h
  constructor
  · intro s t
    unfold mfpakeMany
    refine never_lift _ fun p hp => never_lift _ fun masked hm => ?_
    rw [firstLength_of hp] at hm
    exact absurd hm (maskPasswords_refuses (drawMask_length _ _) hr _)
  · intro s t
    unfold garblerServerV3
    refine never_lift _ fun p hp => never_lift _ fun circuit _ => never_lift _ fun g _ => never_right _ fun _ =>
      never_lift _ fun cm _ => never_right _ fun _ => never_lift _ fun em _ => never_right _ fun _ =>
      never_lift _ fun domain hd => never_lift _ fun masked hm => ?_
    rw [firstLength_of hp] at hm
    exact absurd hm (maskPasswords_refuses (drawMask_length _ _) hr _)

example := C85_refuses Witness.curve (Witness.crypto true) Witness.uneven (.inr ⟨rfl, Witness.uneven_unequal⟩)

/-- C85, the second implementation. -/
theorem C85_refuses_v2 (C : Curve) (X : Crypto) (passwords : List Bytes)
    (h : ¬ NoneShorter passwords ∨ X.dbg = true ∧ ¬ AllEqual passwords) :
    (∀ s t, NeverReturns (garblerServerV2 C X s passwords t)) ∧ (∀ s, NeverReturns (evaluatorServerV2 C X s passwords)) := by
  have hr := refuses_of h
  constructor
  · intro s t
    unfold garblerServerV2
    refine never_lift _ fun p hp => never_lift _ fun circuit _ => never_lift _ fun g _ => never_right _ fun _ =>
      never_lift _ fun cm _ => never_right _ fun _ => never_lift _ fun em _ => never_right _ fun _ =>
      never_lift _ fun domain hd => never_lift _ fun masked hm => ?_
    rw [firstLength_of hp] at hm
    exact absurd hm (maskPasswords_refuses (drawMask_length _ _) hr _)
  · intro s
    unfold evaluatorServerV2
    refine never_lift _ fun p hp => never_right _ fun m => never_lift _ fun gc _ => never_right _ fun m2 =>
      never_lift _ fun cl _ => never_lift _ fun ch _ => never_lift _ fun masked hm => ?_
    rw [firstLength_of hp] at hm
    exact absurd hm (maskPasswords_refuses (drawMask_length _ _) hr _)

example := C85_refuses_v2 Witness.curve (Witness.crypto true) Witness.shorter (by meets)

/-- C85, the first implementation: only shorter passwords are refused, in every build. -/
theorem C85_refuses_v1 (C : Curve) (X : Crypto) (passwords : List Bytes) (h : ¬ NoneShorter passwords) :
    (∀ s t, NeverReturns (garblerServerV1 C X s passwords t)) ∧ (∀ o, NeverReturns (evaluatorServerV1 C X o passwords)) := by
  unfold NoneShorter at h
  push Not at h
  constructor
  · intro s t
    unfold garblerServerV1
    refine never_lift _ fun p hp => never_lift _ fun circuit _ => never_lift _ fun g _ => never_right _ fun _ =>
      never_lift _ fun cm _ => never_right _ fun _ => never_lift _ fun domain hd => never_lift _ fun rows hm => ?_
    rw [firstLength_of hp] at hm
    exact absurd hm (encodeAll_short h _)
  · intro o
    unfold evaluatorServerV1
    refine never_lift _ fun p hp => never_right _ fun m => never_lift _ fun gc _ => never_right _ fun m2 =>
      never_lift _ fun cl _ => never_lift _ fun ch hc => ?_
    rw [firstLength_of hp] at hc
    obtain ⟨rows, hrows, -⟩ := bind_inv hc
    obtain ⟨q, hq, hl⟩ := h
    obtain ⟨b, hb⟩ := mapM_each hrows q hq
    exact absurd hb (bitsUpTo_short hl _)

example := C85_refuses_v1 Witness.curve (Witness.crypto true) Witness.shorter (by meets)

/-- When the servers of the second to fourth implementation accept the lengths of their passwords. -/
theorem acceptable_cases (dbg : Bool) (passwords : List Bytes) :
    (NoneShorter passwords ∧ (dbg = true → AllEqual passwords)) ∨ (¬ NoneShorter passwords ∨ dbg = true ∧ ¬ AllEqual passwords) := by
  tauto

theorem cutAll_equal {passwords : List Bytes} (h : AllEqual passwords) : cutAll passwords = passwords := by
  unfold cutAll
  conv_rhs => rw [← List.map_id passwords]
  exact List.map_congr_left fun p hp => List.take_of_length_le (h p hp).le

/-- C85, exactly, the fourth implementation: a client that has the first bytes of the stored password, as many as the
first password of the database has, obtains the server's key if and only if the number of passwords can be served, no
password is shorter than the first and, in a checked build, none is longer either. -/
theorem C85_v4_exact (C : Curve) (X : Crypto) (s : ManyDraws) (c : SingleDraws) (passwords : List Bytes)
    (password : Bytes) (index ts tc : Nat) (hcount : passwords.length < 2 ^ 32) (hlen : GoodLength (firstLength passwords))
    (hpw : password.length = firstLength passwords) (hi : index < passwords.length)
    (hm : s.many.Possible passwords.length) (hsg : s.g.Valid) (hso : s.ot.Valid) (hcg : c.g.Valid) (hco : c.ot.Valid)
    (hts : ts < 65535) (htc : tc < 65535)
    (h1 : bitDistance (passwords[index].take (firstLength passwords)) password ≤ ts)
    (h2 : bitDistance (passwords[index].take (firstLength passwords)) password ≤ tc) :
    (∃ key, Completes (mfpakeMany C X s passwords ts) (mfpakeSingle C X c password index passwords.length tc) key key) ↔
      Servable X.dbg s.many.cores passwords.length ∧ NoneShorter passwords ∧ (X.dbg = true → AllEqual passwords) := by
  rcases acceptable_cases X.dbg passwords with ha | hb
  · have hcut : mfpakeMany C X s passwords ts = mfpakeMany C X s (cutAll passwords) ts := by
      cases hd : X.dbg with
      | false => exact C85_cut_v4 C X s passwords ts hd ha.1
      | true => rw [cutAll_equal (ha.2 hd)]
    have := C81_fourth_exact C X s c (cutAll passwords) password (firstLength passwords) index ts tc (cut_lengths ha.1)
      (by rwa [cut_length]) hlen hpw (by rwa [cut_length]) (by rwa [cut_length]) hsg hso hcg hco hts htc (by rwa [cut_get _ _ hi])
      (by rwa [cut_get _ _ hi])
    rw [cut_length, ← hcut] at this
    rw [this]
    exact ⟨fun h => ⟨h, ha⟩, fun h => h.1⟩
  · constructor
    · rintro ⟨key, h⟩
      exact absurd h (never_completes ((C85_refuses C X passwords hb).1 s ts) _ _ _)
    · rintro ⟨-, h⟩
      tauto

example := C85_v4_exact Witness.curve (Witness.crypto true) Witness.manyDraws Witness.singleDraws Witness.uneven
    Witness.password 1 1 1 (by meets) (by meets) (by meets) (by meets) (by meets) (by meets) (by meets) (by meets)
    (by meets) (by meets) (by meets) (by meets) (by meets)

/-- C85, exactly, the third implementation. -/
theorem C85_v3_exact (C : Curve) (X : Crypto) (s : ServerDraws) (c : ClientDraws) (g : GarblerDraws) (o : OTRecv)
    (passwords : List Bytes) (password : Bytes) (index ts tc : Nat)
    (hcount : passwords.length < 2 ^ 32) (hlen : GoodLength (firstLength passwords))
    (hpw : password.length = firstLength passwords) (hi : index < passwords.length)
    (hm : s.many.Possible passwords.length) (hsg : s.g.Valid) (hs2 : s.ot2.Valid) (hco : c.ot.Valid)
    (hco2 : c.ot2.Valid) (hg : g.Valid) (ho : o.Valid) (hts : ts < 65535) (htc : tc < 65535)
    (h1 : bitDistance (passwords[index].take (firstLength passwords)) password ≤ ts)
    (h2 : bitDistance (passwords[index].take (firstLength passwords)) password ≤ tc) :
    (∃ key, Completes
      (do let r ← garblerServerV3 C X s passwords ts
          let k ← evaluatorServerV3 C X o passwords r.2
          return combine r.1 k)
      (do let r ← evaluatorClientV3 C X c password passwords.length index
          let k ← garblerClientV3 C X g password r.2 index passwords.length tc
          return combine r.1 k) key key) ↔
      Servable X.dbg s.many.cores passwords.length ∧ NoneShorter passwords ∧ (X.dbg = true → AllEqual passwords) := by
  rcases acceptable_cases X.dbg passwords with ha | hb
  · have hcut : garblerServerV3 C X s passwords ts = garblerServerV3 C X s (cutAll passwords) ts := by
      cases hd : X.dbg with
      | false => exact C85_cut_v3 C X s passwords ts hd ha.1
      | true => rw [cutAll_equal (ha.2 hd)]
    have hev : ∀ mask, evaluatorServerV3 C X o passwords mask = evaluatorServerV3 C X o (cutAll passwords) mask := by
      intro mask
      cases passwords with
      | nil => rfl
      | cons p rest => exact C85_evaluator_v3 C X o _ _ _ _ mask (by simp [firstLength])
    have := C81_v3_exact C X s c g o (cutAll passwords) password (firstLength passwords) index ts tc (cut_lengths ha.1)
      (by rwa [cut_length]) hlen hpw (by rwa [cut_length]) (by rwa [cut_length]) hsg hs2 hco hco2 hg ho hts htc (by rwa [cut_get _ _ hi])
      (by rwa [cut_get _ _ hi])
    rw [cut_length, ← hcut] at this
    simp only [← hev] at this
    rw [this]
    exact ⟨fun h => ⟨h, ha⟩, fun h => h.1⟩
  · constructor
    · rintro ⟨key, h⟩
      exact absurd h (never_completes (never_left _ ((C85_refuses C X passwords hb).2 s ts)) _ _ _)
    · rintro ⟨-, h⟩
      tauto

example := C85_v3_exact Witness.curve (Witness.crypto true) Witness.serverDraws Witness.clientDraws Witness.g
    Witness.recv Witness.uneven Witness.password 1 1 1 (by meets) (by meets) (by meets) (by meets) (by meets)
    (by meets) (by meets) (by meets) (by meets) (by meets) (by meets) (by meets) (by meets) (by meets) (by meets)

/-- C85, exactly, both directions of the second implementation. -/
theorem C85_v2_exact (C : Curve) (X : Crypto) (passwords : List Bytes) (password : Bytes) (index t : Nat)
    (hcount : passwords.length < 2 ^ 32) (hlen : GoodLength (firstLength passwords))
    (hpw : password.length = firstLength passwords) (hi : index < passwords.length) (ht : t < 65535)
    (h1 : bitDistance (passwords[index].take (firstLength passwords)) password ≤ t) :
    (∀ (s : ServerDraws) (c : ClientDraws), s.many.Possible passwords.length → s.g.Valid → s.ot2.Valid → c.ot.Valid →
      c.ot2.Valid →
      ((∃ key, Completes (garblerServerV2 C X s passwords t)
        (evaluatorClientV2 C X c password passwords.length index) key key) ↔
        Servable X.dbg s.many.cores passwords.length ∧ NoneShorter passwords ∧ (X.dbg = true → AllEqual passwords))) ∧
    (∀ (s : ServerEvaluator2) (g : ClientGarbler2), s.many.Possible passwords.length → g.g.Valid → s.ot.Valid →
      ((∃ key, Completes (evaluatorServerV2 C X s passwords)
        (garblerClientV2 C X g password index passwords.length t) key key) ↔
        Servable X.dbg s.many.cores passwords.length ∧ NoneShorter passwords ∧ (X.dbg = true → AllEqual passwords))) := by
  rcases acceptable_cases X.dbg passwords with ha | hb
  · have hcut : (∀ s t, garblerServerV2 C X s passwords t = garblerServerV2 C X s (cutAll passwords) t) ∧
        (∀ s, evaluatorServerV2 C X s passwords = evaluatorServerV2 C X s (cutAll passwords)) := by
      cases hd : X.dbg with
      | false => exact C85_cut_v2 C X passwords hd ha.1
      | true => rw [cutAll_equal (ha.2 hd)]; exact ⟨fun _ _ => rfl, fun _ => rfl⟩
    have := C81_v2_exact C X (cutAll passwords) password (firstLength passwords) index t (cut_lengths ha.1)
      (by rwa [cut_length]) hlen hpw (by rwa [cut_length]) ht (by rwa [cut_get _ _ hi])
    simp only [cut_length, ← hcut.1, ← hcut.2] at this
    obtain ⟨t1, t2⟩ := this
    refine ⟨fun s c a1 a2 a3 a4 a5 => ?_, fun s g a1 a2 a3 => ?_⟩
    · rw [t1 s c a1 a2 a3 a4 a5]
      exact ⟨fun h => ⟨h, ha⟩, fun h => h.1⟩
    · rw [t2 s g a1 a2 a3]
      exact ⟨fun h => ⟨h, ha⟩, fun h => h.1⟩
  · obtain ⟨r1, r2⟩ := C85_refuses_v2 C X passwords hb
    refine ⟨fun s c _ _ _ _ _ => ⟨?_, ?_⟩, fun s g _ _ _ => ⟨?_, ?_⟩⟩
    · rintro ⟨key, h⟩
      exact absurd h (never_completes (r1 s t) _ _ _)
    · rintro ⟨-, h⟩
      tauto
    · rintro ⟨key, h⟩
      exact absurd h (never_completes (r2 s) _ _ _)
    · rintro ⟨-, h⟩
      tauto

example := C85_v2_exact Witness.curve (Witness.crypto true) Witness.uneven Witness.password 1 1 (by meets) (by meets)
    (by meets) (by meets) (by meets) (by meets)

/-- C85, exactly, both directions of the first implementation: here a checked build accepts longer passwords too. -/
theorem C85_v1_exact (C : Curve) (X : Crypto) (passwords : List Bytes) (password : Bytes) (index t : Nat)
    (hcount : passwords.length < 2 ^ 32) (hlen : GoodLength (firstLength passwords))
    (hpw : password.length = firstLength passwords) (hi : index < passwords.length) (ht : t < 65535)
    (h1 : bitDistance (passwords[index].take (firstLength passwords)) password ≤ t) :
    (∀ (s : ServerDraws1) (c : ClientDraws1), s.many.Possible passwords.length → s.g.Valid → c.ot.Valid →
      ((∃ key, Completes (garblerServerV1 C X s passwords t)
        (evaluatorClientV1 C X c password passwords.length index) key key) ↔
        Servable X.dbg s.many.cores passwords.length ∧ NoneShorter passwords)) ∧
    (∀ (o : OTRecv) (g : ClientGarbler1), (X.dbg = true → 2 ≤ passwords.length) → g.g.Valid → o.Valid →
      ((∃ key, Completes (evaluatorServerV1 C X o passwords)
        (garblerClientV1 C X g password index passwords.length t) key key) ↔ NoneShorter passwords)) := by
  obtain ⟨e1, e2⟩ := C85_cut_v1 C X passwords
  by_cases ha : NoneShorter passwords
  · constructor
    · intro s c hm hg ho
      have := C81_v1_exact C X s c (cutAll passwords) password (firstLength passwords) index t (cut_lengths ha)
        (by rwa [cut_length]) hlen hpw (by rwa [cut_length]) (by rwa [cut_length]) hg ho ht (by rwa [cut_get _ _ hi])
      rw [cut_length, ← e1] at this
      rw [this]
      exact ⟨fun h => ⟨h, ha⟩, fun h => h.1⟩
    · intro o g h2 hg ho
      obtain ⟨k, k', hc, he, -⟩ := C34_v1_client_garbles_partial C X g o (cutAll passwords) password (firstLength passwords) index t
        (cut_lengths ha) hlen (by rwa [cut_length]) (by rwa [cut_length]) hpw (by rwa [cut_length]) hg ho ht
      obtain rfl := he (by rwa [cut_get _ _ hi])
      rw [cut_length, ← e2] at hc
      exact ⟨fun _ => ha, fun _ => ⟨k, hc⟩⟩
  · obtain ⟨r1, r2⟩ := C85_refuses_v1 C X passwords ha
    refine ⟨fun s c _ _ _ => ⟨?_, ?_⟩, fun o g _ _ _ => ⟨?_, ?_⟩⟩
    · rintro ⟨key, h⟩
      exact absurd h (never_completes (r1 s t) _ _ _)
    · rintro ⟨-, h⟩
      exact absurd h ha
    · rintro ⟨key, h⟩
      exact absurd h (never_completes (r2 o) _ _ _)
    · intro h
      exact absurd h ha

example := C85_v1_exact Witness.curve (Witness.crypto true) Witness.uneven Witness.password 1 1 (by meets) (by meets)
    (by meets) (by meets) (by meets) (by meets)

/-- C85 is false: a stored password longer than the first one is not compared in full.  In a release build of the
fourth implementation a client logs in with any password that agrees with the stored one in as many bytes as the
first password has, with threshold zero and although the passwords differ, or the stored one is longer. -/
theorem C85_fails_longer (C : Curve) (X : Crypto) (s : ManyDraws) (c : SingleDraws) (first common rest other : Bytes)
    (hdbg : X.dbg = false) (hlen : GoodLength first.length) (hcommon : common.length = first.length)
    (hm : s.many.Possible 2) (hsg : s.g.Valid) (hso : s.ot.Valid) (hcg : c.g.Valid) (hco : c.ot.Valid) :
    ∃ key, Completes (mfpakeMany C X s [first, common ++ rest] 0) (mfpakeSingle C X c (common ++ other) 1 2 0) key key := by
  have ha : NoneShorter [first, common ++ rest] := by
    intro p hp
    simp only [List.mem_cons, List.not_mem_nil, or_false] at hp
    rcases hp with rfl | rfl
    · exact le_rfl
    · simp [firstLength, hcommon]
  have hcut : cutAll [first, common ++ rest] = [first, common] := by
    simp [cutAll, firstLength, ← hcommon]
  rw [C85_cut_v4 C X s _ 0 hdbg ha, hcut]
  have hz : bitDistance common common ≤ 0 := by simp [bitDistance]
  exact C32_fails_longer_release C X s c [first, common] common other first.length 1 0 0 hdbg
    ⟨⟨1, rfl⟩, by simp, by simp [hcommon]⟩ hlen hcommon (by simp) (possible_valid hm ⟨⟨1, rfl⟩, .inl (by simp)⟩) hsg hso hcg hco
    (by decide) (by decide) hz hz

example := C85_fails_longer Witness.curve (Witness.crypto false) Witness.manyDraws Witness.singleDraws [1, 2] [3, 4]
    [5] [] (by meets) (by meets) (by meets) (by meets) (by meets) (by meets) (by meets) (by meets)

/-! ### The hypotheses can be met, and both sides occur -/

/-- A database in which a password is longer than the first; one in which a password is shorter. -/
example : NoneShorter [[1, 2], [3, 4, 5]] ∧ ¬ AllEqual [[1, 2], [3, 4, 5]] ∧ cutAll [[1, 2], [3, 4, 5]] = [[1, 2], [3, 4]] ∧
    ¬ NoneShorter [[1, 2], [3]] ∧ GoodLength (firstLength [[1, 2], [3, 4, 5]]) := by
  simp [NoneShorter, AllEqual, firstLength, cutAll, GoodLength]

end FP.Props
