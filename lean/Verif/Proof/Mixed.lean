import Verif.Proof.Sizes
import Verif.Spec.Mixed
/-
Messages of different sizes in one OT extension.
-/
namespace FP
open Spec

theorem zeroPadded_length {len : Nat} {m : Bytes} (h : m.length ≤ len) : (zeroPadded len m).length = len := by
  simp [zeroPadded]; omega

/-- `xor_inplace` with a right operand that is not longer, without assertions: the rest stays. -/
theorem apXorInplace_short {a b : Bytes} (h : b.length ≤ a.length) :
    apXorInplace false a b = .ok (List.zipWith (· ^^^ ·) a (zeroPadded a.length b)) := by
  unfold apXorInplace
  have : debugAssertR false (b.length = a.length) = .ok () := rfl
  rw [this, okb]
  obtain ⟨t, ht, hl, hp⟩ := foldlM_inv (l := List.range b.length)
    (f := fun d i => ((do setR d i ((← idxR d i) ^^^ (← idxR b i))) : R Bytes)) (s := a)
    (fun i t => t.length = a.length ∧ ∀ j < a.length, t.getD j 0 = if j < i then a.getD j 0 ^^^ b.getD j 0 else a.getD j 0)
    ⟨rfl, fun j _ => by simp⟩ (by
      intro i x t hi ⟨h1, h2⟩
      have hil : i < b.length := by
        by_contra hc
        rw [List.getElem?_eq_none (by simp; omega)] at hi
        cases hi
      have : x = i := by
        rw [List.getElem?_range hil] at hi
        exact (Option.some.inj hi).symm
      subst this
      rw [idxR_getD (by omega), okb, idxR_getD hil, okb, setR_ok _ (by omega)]
      refine ⟨_, rfl, by simp [h1], ?_⟩
      intro j hj
      by_cases hjx : j = x
      · subst hjx
        have := h2 j hj
        rw [if_neg (by omega)] at this
        rw [if_pos (by omega), ← this]
        simp [h1, hj, hil]
      · have := h2 j hj
        rw [List.getD, List.getElem?_set_ne (fun h => hjx h.symm), ← List.getD, this]
        by_cases hlt : j < x
        · rw [if_pos hlt, if_pos (by omega)]
        · rw [if_neg hlt, if_neg (by omega)])
  rw [ht]
  refine congrArg Except.ok ?_
  apply List.ext_getElem
  · rw [hl]; simp [zeroPadded_length h]
  · intro j h1 h2
    have hj : j < a.length := by omega
    have := hp j hj
    rw [List.length_range] at this
    have e1 : t.getD j 0 = t[j] := by simp [h1]
    have e2 : a.getD j 0 = a[j] := by simp [hj]
    rw [← e1, this, List.getElem_zipWith, e2]
    by_cases hb : j < b.length
    · rw [if_pos hb]
      have : (zeroPadded a.length b)[j]'(by rw [zeroPadded_length h]; omega) = b[j] := by
        simp [zeroPadded, List.getElem_append_left hb]
      rw [this]
      simp [hb]
    · rw [if_neg hb]
      have : (zeroPadded a.length b)[j]'(by rw [zeroPadded_length h]; omega) = 0 := by
        simp [zeroPadded, List.getElem_append_right (Nat.le_of_not_lt hb)]
      rw [this]
      simp

/-- `xor_inplace` of a message into a buffer of `len` bytes. -/
theorem apXorInplace_any (dbg : Bool) {a b : Bytes} :
    (Unfit dbg a.length b → apXorInplace dbg a b = .error .panic) ∧
    (¬ Unfit dbg a.length b → apXorInplace dbg a b = .ok (List.zipWith (· ^^^ ·) a (zeroPadded a.length b))) := by
  constructor
  · rintro (h | ⟨rfl, h⟩)
    · exact apXorInplace_long dbg h
    · have h' : decide (b.length = a.length) = false := by simpa using h
      unfold apXorInplace debugAssertR
      rw [h']
      rfl
  · intro h
    have hle : b.length ≤ a.length := by
      by_contra hc
      exact h (.inl (by omega))
    cases dbg with
    | false => exact apXorInplace_short hle
    | true =>
      have he : b.length = a.length := by
        by_contra hc
        exact h (.inr ⟨rfl, hc⟩)
      rw [apXorInplace_ok _ he.symm]
      simp [zeroPadded, he]

theorem apXorInplace_either (dbg : Bool) (a b : Bytes) :
    apXorInplace dbg a b = .error .panic ∨ ∃ r, apXorInplace dbg a b = .ok r ∧ r.length = a.length := by
  by_cases h : Unfit dbg a.length b
  · exact .inl ((apXorInplace_any dbg).1 h)
  · refine .inr ⟨_, (apXorInplace_any dbg).2 h, ?_⟩
    have : b.length ≤ a.length := by
      by_contra hc
      exact h (.inl (by omega))
    simp [zeroPadded_length this]

/-- In a row that fits its padded messages encrypt to the same thing. -/
theorem apXorInplace_padded (dbg : Bool) {a b : Bytes} (h : ¬ Unfit dbg a.length b) :
    apXorInplace dbg a b = apXorInplace dbg a (zeroPadded a.length b) := by
  have hle : b.length ≤ a.length := by
    by_contra hc
    exact h (.inl (by omega))
  rw [(apXorInplace_any dbg).2 h, apXorInplace_ok _ (zeroPadded_length hle).symm]

theorem updateSlice_congr {v : Bytes} {off len : Nat} {f g : Bytes → R Bytes} (h : ∀ p, p.length = len → f p = g p) :
    updateSlice v off len f = updateSlice v off len g := by
  unfold updateSlice
  by_cases hc : off + len ≤ v.length
  · rw [if_pos hc, if_pos hc, h _ (by simp; omega)]
  · rw [if_neg hc, if_neg hc]

theorem apRandomizeRow_padded (X : Crypto) (delta qT : Bytes) (msg : List (Bytes × Bytes)) (ms j i : Nat) (chunk : Bytes)
    (h : ∀ m ∈ msg, ¬ Unfit X.dbg ms m.1 ∧ ¬ Unfit X.dbg ms m.2) :
    apRandomizeRow X delta qT msg ms j i chunk = apRandomizeRow X delta qT (msg.map (paddedPair ms)) ms j i chunk := by
  unfold apRandomizeRow
  cases hv : vectorRow qT j 16 with
  | error e => rfl
  | ok q =>
    rw [okb, okb]
    cases hj : msg[j]? with
    | none =>
      have e1 : idxR msg j = .error .panic := by unfold idxR; rw [hj]; rfl
      have e2 : idxR (msg.map (paddedPair ms)) j = .error .panic := by
        unfold idxR; rw [List.getElem?_map, hj]; rfl
      rw [e1, e2]
    | some m =>
      obtain ⟨h1, h2⟩ := h m (List.mem_of_getElem? hj)
      rw [idxR_ok hj, okb, idxR_ok (a := paddedPair ms m) (by rw [List.getElem?_map, hj]; rfl), okb]
      have e : ∀ (v : WireBytes) (b : Bytes), ¬ Unfit X.dbg ms b → ∀ p : Bytes, p.length = ms →
          apXorInplace X.dbg (X.fill v p.length) b = apXorInplace X.dbg (X.fill v p.length) (zeroPadded ms b) := by
        intro v b hb p hp
        have hl : (X.fill v p.length).length = ms := by rw [fill_length, hp]
        have := apXorInplace_padded X.dbg (a := X.fill v p.length) (b := b) (by rwa [hl])
        rwa [hl] at this
      rw [updateSlice_congr (e _ _ h1)]
      simp only [updateSlice_congr (e _ _ h2)]
      rfl

theorem apRandomize_padded (X : Crypto) (cores : Nat) (sched : Nat → List Nat) (delta qT : Bytes)
    (msg : List (Bytes × Bytes)) (ms : Nat) (h : ∀ m ∈ msg, ¬ Unfit X.dbg ms m.1 ∧ ¬ Unfit X.dbg ms m.2) :
    apRandomize X cores sched delta qT msg ms = apRandomize X cores sched delta qT (msg.map (paddedPair ms)) ms := by
  unfold apRandomize
  dsimp only
  rw [List.length_map]
  simp only [apRandomizeRow_padded X delta qT msg ms _ _ _ h]

/-- When every message fits, the sender does exactly what it does with the padded messages. -/
theorem apricotSender_padded (X : Crypto) (arm : Bool) (cores : Nat) (sched : Nat → List Nat) (coin : WireBytes)
    (delta : Vector Byte 16) (inner : List Bool → Proc (List Bytes)) (m0 : Bytes × Bytes) (rest : List (Bytes × Bytes))
    (h : ∀ m ∈ m0 :: rest, ¬ Unfit X.dbg m0.1.length m.1 ∧ ¬ Unfit X.dbg m0.1.length m.2) :
    apricotSender X arm cores sched coin delta inner (m0 :: rest) =
      apricotSender X arm cores sched coin delta inner ((m0 :: rest).map (paddedPair m0.1.length)) := by
  unfold apricotSender
  rw [List.length_map, idxR_ok (a := m0) rfl, idxR_ok (a := paddedPair m0.1.length m0) rfl, liftM_ok, liftM_ok]
  simp only [ret_bind]
  have e : (paddedPair m0.1.length m0).1.length = m0.1.length := zeroPadded_length (Nat.le_refl _)
  rw [e]
  unfold apricotSenderExtend
  simp only [List.length_map, apRandomize_padded X cores sched _ _ (m0 :: rest) _ h]

theorem updateSlice_either {v : Bytes} {off len : Nat} {f : Bytes → R Bytes} (hb : off + len ≤ v.length)
    (h : ∀ p : Bytes, p.length = len → f p = .error .panic ∨ ∃ r, f p = .ok r ∧ r.length = p.length) :
    updateSlice v off len f = .error .panic ∨ ∃ r, updateSlice v off len f = .ok r ∧ r.length = v.length := by
  unfold updateSlice
  rw [if_pos hb]
  have hl : ((v.drop off).take len).length = len := by simp; omega
  rcases h _ hl with e | ⟨r, e, hr⟩
  · left; rw [e]; rfl
  · right
    rw [e, okb]
    refine ⟨_, rfl, ?_⟩
    simp [hr]; omega

theorem updateSlice_panics {v : Bytes} {off len : Nat} {f : Bytes → R Bytes} (hb : off + len ≤ v.length)
    (h : ∀ p : Bytes, p.length = len → f p = .error .panic) : updateSlice v off len f = .error .panic := by
  unfold updateSlice
  rw [if_pos hb, h _ (by simp; omega)]
  rfl

/-- One row of "Randomize" in a chunk of `r` rows: it succeeds or panics, and it panics if a message of the row does not
fit. -/
theorem apRandomizeRow_either (X : Crypto) (delta qT : Bytes) (msg : List (Bytes × Bytes)) (ms j i r : Nat) (chunk : Bytes)
    (hd : delta.length = 16) (hq : 16 * msg.length ≤ qT.length) (hj : j < msg.length) (hi : i < r)
    (hc : chunk.length = r * (ms * 2)) :
    (apRandomizeRow X delta qT msg ms j i chunk = .error .panic ∨
      ∃ c, apRandomizeRow X delta qT msg ms j i chunk = .ok c ∧ c.length = r * (ms * 2)) ∧
    (Unfit X.dbg ms msg[j].1 ∨ Unfit X.dbg ms msg[j].2 → apRandomizeRow X delta qT msg ms j i chunk = .error .panic) := by
  have hle : i * (ms * 2) + ms * 2 ≤ r * (ms * 2) := by
    have := Nat.mul_le_mul_right (ms * 2) (show i + 1 ≤ r from hi)
    rwa [Nat.add_mul, Nat.one_mul] at this
  unfold apRandomizeRow
  rw [vectorRow_ok hq hj, okb, idxR_ok (a := msg[j]) (by simp), okb]
  have hbad : ∀ (v : WireBytes) (b : Bytes), Unfit X.dbg ms b → ∀ p : Bytes, p.length = ms →
      apXorInplace X.dbg (X.fill v p.length) b = .error .panic := by
    intro v b hb p hp
    refine (apXorInplace_any X.dbg).1 ?_
    rwa [fill_length, hp]
  have heither : ∀ (v : WireBytes) (b : Bytes) (p : Bytes), p.length = ms →
      apXorInplace X.dbg (X.fill v p.length) b = .error .panic ∨
        ∃ r, apXorInplace X.dbg (X.fill v p.length) b = .ok r ∧ r.length = p.length := by
    intro v b p _
    have := apXorInplace_either X.dbg (X.fill v p.length) b
    rwa [fill_length] at this
  have e1 := updateSlice_either (v := chunk) (off := i * (ms * 2)) (len := ms) (by omega)
    (heither (X.sha256 (beBytes 8 j ++ row qT 16 j)) msg[j].1)
  rw [apXor_ok _ (by rw [row_length hq hj, hd]) (by rw [row_length hq hj]; simp)]
  rcases e1 with e1 | ⟨c1, e1, hc1⟩
  · rw [e1]
    exact ⟨.inl rfl, fun _ => rfl⟩
  · rw [e1, okb, okb]
    have e2 := updateSlice_either (v := c1) (off := i * (ms * 2) + ms) (len := ms) (by omega)
      (heither (X.sha256 (beBytes 8 j ++ List.zipWith (· ^^^ ·) (row qT 16 j) delta)) msg[j].2)
    constructor
    · rcases e2 with e2 | ⟨c2, e2, hc2⟩
      · exact .inl e2
      · exact .inr ⟨c2, e2, by omega⟩
    · rintro (h | h)
      · rw [updateSlice_panics (by omega) (hbad _ _ h)] at e1
        cases e1
      · exact updateSlice_panics (by omega) (hbad _ _ h)

/-- A message that does not fit makes "Randomize" panic. -/
theorem apRandomize_unfit (X : Crypto) (cores : Nat) (sched : Nat → List Nat) (delta qT : Bytes)
    (msg : List (Bytes × Bytes)) (ms : Nat) (hc : 0 < cores) (hs : ∀ n, IsOrder n (sched n))
    (hms : 0 < ms) (hd : delta.length = 16) (hq : 16 * msg.length ≤ qT.length)
    (hbad : ∃ m ∈ msg, Unfit X.dbg ms m.1 ∨ Unfit X.dbg ms m.2) :
    apRandomize X cores sched delta qT msg ms = .error .panic := by
  obtain ⟨m, hmem, hm⟩ := hbad
  obtain ⟨j, hj, rfl⟩ := List.getElem_of_mem hmem
  have hn : 0 < msg.length := by omega
  unfold apRandomize
  obtain ⟨hp1, hp2⟩ := pick_pos hc hn
  dsimp only
  rw [divR_ok hp1, okb]
  have hk : 0 < msg.length / pickThreads cores msg.length := Nat.div_pos hp2 hp1
  generalize msg.length / pickThreads cores msg.length = k at *
  rw [chunks_rows (0 : Byte) hk (by omega), okb]
  set T := (msg.length + k - 1) / k with hT
  rw [List.length_map, List.length_range]
  have hperm : (sched T).Perm (List.range T) := hs T
  have hck : ∀ c < T, c * k ≤ msg.length := by
    intro c hc
    have h1 : (c + 1) * k ≤ T * k := Nat.mul_le_mul_right _ hc
    have h2 : T * k ≤ msg.length + k - 1 := Nat.div_mul_le_self _ _
    rw [Nat.add_mul, Nat.one_mul] at h1
    omega
  have hjT : j / k < T := by
    have h1 : msg.length ≤ T * k := ceil_cover hk
    exact (Nat.div_lt_iff_lt_mul hk).mpr (by omega)
  have job : ∀ c < T, ∀ chunk : Bytes, chunk.length = min k (msg.length - c * k) * (ms * 2) →
      (((do
        let rows ← divR chunk.length (ms * 2)
        (List.range rows).foldlM (fun chunk i => apRandomizeRow X delta qT msg ms (c * k + i) i chunk) chunk) : R Bytes) = .error .panic ∨
      ∃ d, ((do
        let rows ← divR chunk.length (ms * 2)
        (List.range rows).foldlM (fun chunk i => apRandomizeRow X delta qT msg ms (c * k + i) i chunk) chunk) : R Bytes) = .ok d ∧
        d.length = min k (msg.length - c * k) * (ms * 2)) ∧
      (c = j / k → ((do
        let rows ← divR chunk.length (ms * 2)
        (List.range rows).foldlM (fun chunk i => apRandomizeRow X delta qT msg ms (c * k + i) i chunk) chunk) : R Bytes) = .error .panic) := by
    intro c hcT chunk hch
    have := hck c hcT
    rw [hch, divR_ok (by omega), okb, Nat.mul_div_cancel _ (by omega)]
    have step : ∀ i ∈ List.range (min k (msg.length - c * k)), ∀ s : Bytes, s.length = min k (msg.length - c * k) * (ms * 2) →
        apRandomizeRow X delta qT msg ms (c * k + i) i s = .error .panic ∨
        ∃ s', apRandomizeRow X delta qT msg ms (c * k + i) i s = .ok s' ∧ s'.length = min k (msg.length - c * k) * (ms * 2) := by
      intro i hi s hs
      rw [List.mem_range] at hi
      exact (apRandomizeRow_either X delta qT msg ms (c * k + i) i _ s hd hq (by omega) hi hs).1
    refine ⟨?_, ?_⟩
    · clear hm hj hjT hmem
      generalize List.range (min k (msg.length - c * k)) = l at step
      induction l generalizing chunk with
      | nil => exact .inr ⟨chunk, rfl, hch⟩
      | cons i l ih =>
        rw [List.foldlM_cons]
        rcases step i (by simp) chunk hch with e | ⟨s', e, hs'⟩
        · left; rw [e]; rfl
        · rw [e, okb]
          exact ih s' hs' (fun i hi => step i (by simp [hi]))
    · rintro rfl
      have hmod := Nat.mod_lt j hk
      have hdm : j / k * k + j % k = j := by rw [Nat.mul_comm]; exact Nat.div_add_mod j k
      refine foldlM_fails _ _ (fun s => s.length = min k (msg.length - j / k * k) * (ms * 2)) _ _ hch step (j % k)
        (by rw [List.mem_range]; omega) ?_
      intro s hs
      refine (apRandomizeRow_either X delta qT msg ms (j / k * k + j % k) (j % k) _ s hd hq (by omega) (by omega) hs).2 ?_
      simp only [hdm]
      exact hm
  have hrun : runJobs (sched T) (fun c chunk => do
      let rows ← divR chunk.length (ms * 2)
      (List.range rows).foldlM (fun chunk i => apRandomizeRow X delta qT msg ms (c * k + i) i chunk) chunk)
      ((List.range T).map fun c => List.replicate (min k (msg.length - c * k) * (ms * 2)) (0 : Byte)) = .error .panic := by
    unfold runJobs
    refine foldlM_fails _ _ (fun cs => cs.length = T ∧ ∀ c < T, (cs.getD c []).length = min k (msg.length - c * k) * (ms * 2))
      _ _ ?_ ?_ (j / k) (hperm.mem_iff.mpr (by simpa using hjT)) ?_
    · refine ⟨by simp, fun c hc => ?_⟩
      simp [hc]
    · rintro c hc cs ⟨h1, h2⟩
      have hcT : c < T := by simpa using hperm.mem_iff.mp hc
      rw [idxR_ok (a := cs.getD c []) (by simp [h1, hcT]), okb]
      rcases (job c hcT _ (h2 c hcT)).1 with e | ⟨d, e, hdl⟩
      · left; dsimp only; rw [e]; rfl
      · right
        dsimp only
        rw [e, okb, setR_ok _ (by omega)]
        refine ⟨_, rfl, by simp [h1], fun c' hc' => ?_⟩
        by_cases hcc : c' = c
        · subst hcc
          simp [h1, hcT, hdl]
        · rw [List.getD, List.getElem?_set_ne (fun h => hcc h.symm), ← List.getD]
          exact h2 c' hc'
    · rintro cs ⟨h1, h2⟩
      rw [idxR_ok (a := cs.getD (j / k) []) (by simp [h1, hjT]), okb]
      dsimp only
      rw [(job _ hjT _ (h2 _ hjT)).2 rfl]
      rfl
  rw [hrun]
  rfl

theorem apFinish_unfit (X : Crypto) (arm : Bool) (cores : Nat) (sched : Nat → List Nat) (delta qT qSum : Bytes)
    (msg : List (Bytes × Bytes)) (ms : Nat) (xSum tSum : Bytes) (hc : 0 < cores) (hs : ∀ n, IsOrder n (sched n))
    (hms : 0 < ms) (hd : delta.length = 16) (hq : 16 * msg.length ≤ qT.length)
    (hqs : qSum.length = 16) (hx : xSum.length = 16) (ht : tSum.length = 16) (he : elt tSum = elt qSum + elt xSum * elt delta)
    (hbad : ∃ m ∈ msg, Unfit X.dbg ms m.1 ∨ Unfit X.dbg ms m.2) :
    apFinish X arm cores sched delta qT qSum msg ms xSum tSum = .fail .panic := by
  obtain ⟨out, h1, h2, h3⟩ := apricotMulAcc_elt arm qSum xSum delta hqs hx hd
  have : tSum = out := elt_inj ht h2 (by rw [he, h3])
  have hr := apRandomize_unfit X cores sched delta qT msg ms hc hs hms hd hq hbad
  unfold apFinish
  rw [debugAssertR_true (by simp [hx]), liftM_ok, ret_bind, debugAssertR_true (by simp [ht]), liftM_ok, ret_bind,
    h1, liftM_ok, ret_bind, apEq_ok _ _ _ (by omega), liftM_ok, ret_bind, if_pos (by simpa using this), hr, liftM_error, fail_bind]

end FP
