import Verif.Proof.OT
import Mathlib.Tactic.Positivity
/-
1-out-of-n oblivious transfer.
-/
namespace FP

/-! ### Masks -/

/-- Xor a list of masks into a row. -/
def applyMasks (ms : List Bytes) (r : Bytes) : Bytes :=
  ms.foldl (fun r m => List.zipWith (· ^^^ ·) r m) r

theorem applyMasks_length (ms : List Bytes) (r : Bytes) (n : Nat) (hr : r.length = n)
    (h : ∀ m ∈ ms, m.length = n) : (applyMasks ms r).length = n := by
  induction ms generalizing r with
  | nil => exact hr
  | cons m ms ih =>
    refine ih _ ?_ (fun m' hm' => h m' (by simp [hm']))
    simp [hr, h m (by simp)]

theorem zipWith_xor_right_comm (a b c : Bytes) :
    (List.zipWith (· ^^^ ·) (List.zipWith (· ^^^ ·) a b) c : Bytes) =
      List.zipWith (· ^^^ ·) (List.zipWith (· ^^^ ·) a c) b := by
  induction a generalizing b c with
  | nil => simp
  | cons x a ih =>
    cases b with
    | nil => cases c <;> simp
    | cons y b =>
      cases c with
      | nil => simp
      | cons z c =>
        simp only [List.zipWith_cons_cons, ih]
        congr 1
        rw [BitVec.xor_assoc, BitVec.xor_comm y z, ← BitVec.xor_assoc]

theorem applyMasks_xor (ms : List Bytes) (r k : Bytes) :
    applyMasks ms (List.zipWith (· ^^^ ·) r k) = List.zipWith (· ^^^ ·) (applyMasks ms r) k := by
  induction ms generalizing r with
  | nil => rfl
  | cons m ms ih =>
    show applyMasks ms (List.zipWith (· ^^^ ·) (List.zipWith (· ^^^ ·) r k) m) =
      List.zipWith (· ^^^ ·) (applyMasks ms (List.zipWith (· ^^^ ·) r m)) k
    rw [zipWith_xor_right_comm, ih]

theorem applyMasks_cancel (ms : List Bytes) (r : Bytes) (h : ∀ m ∈ ms, m.length = r.length) :
    applyMasks ms (applyMasks ms r) = r := by
  induction ms generalizing r with
  | nil => rfl
  | cons m ms ih =>
    have hm := h m (by simp)
    show applyMasks ms (List.zipWith _ (applyMasks ms (List.zipWith _ r m)) m) = r
    rw [← applyMasks_xor, zipWith_xor_cancel hm.symm]
    exact ih r (fun m' hm' => h m' (by simp [hm']))

theorem fill_length (X : Crypto) (s : WireBytes) (n : Nat) : (X.fill s n).length = n := by
  simp [Crypto.fill]

theorem fk_length (X : Crypto) (key : Bytes) (i n : Nat) : (fk X key i n).length = n := fill_length ..

/-- A loop that xors masks in place. -/
theorem foldlM_masks (dbg : Bool) (n : Nat) (mask : Nat → Bytes) (get : Nat → R Bytes) (js : List Nat)
    (hget : ∀ j ∈ js, get j = .ok (mask j)) (hlen : ∀ j ∈ js, (mask j).length = n) (r : Bytes)
    (hr : r.length = n) :
    js.foldlM (fun r j => do xorBytesInplace dbg r (← get j)) r = .ok (applyMasks (js.map mask) r) := by
  induction js generalizing r with
  | nil => rfl
  | cons j js ih =>
    rw [List.foldlM_cons, hget j (by simp), okb,
      xorBytesInplace_ok dbg (by rw [hr, hlen j (by simp)]), okb]
    exact ih (fun j hj => hget j (by simp [hj])) (fun j hj => hlen j (by simp [hj])) _
      (by simp [hr, hlen j (by simp)])

/-! ### Rows of a buffer -/

theorem flatMap_const_length {g : Nat → Bytes} {n len : Nat} (l : List Nat) (h : ∀ i ∈ l, (g i).length = len)
    (hn : l.length = n) : (l.flatMap g).length = len * n := by
  subst hn
  induction l with
  | nil => simp
  | cons a l ih =>
    rw [List.flatMap_cons, List.length_append, h a (by simp), ih (fun i hi => h i (by simp [hi]))]
    simp [Nat.mul_add, Nat.add_comm]

theorem updateRow_at {len : Nat} (pre row post : Bytes) (k : Nat) (hpre : pre.length = len * k)
    (hrow : row.length = len) (f : Bytes → R Bytes) :
    updateRow (pre ++ row ++ post) k len f = (f row >>= fun r => .ok (pre ++ r ++ post)) := by
  unfold updateRow
  rw [if_pos (by simp [hpre, hrow])]
  have h1 : (pre ++ row ++ post).take (len * k) = pre := by
    rw [List.append_assoc, ← hpre, List.take_left]
  have h2 : ((pre ++ row ++ post).drop (len * k)).take len = row := by
    rw [List.append_assoc, ← hpre, List.drop_left, ← hrow, List.take_left]
  have h3 : (pre ++ row ++ post).drop (len * k + len) = post := by
    have : (pre ++ row).length = len * k + len := by simp [hpre, hrow]
    rw [← this, List.drop_left]
  rw [h1, h2, h3]; rfl

/-- Updating the rows of a zero buffer one after the other. -/
theorem updateRows_ok {len n : Nat} (f : Nat → Bytes → R Bytes) (g : Nat → Bytes)
    (hf : ∀ i < n, f i (List.replicate len 0) = .ok (g i)) (hg : ∀ i < n, (g i).length = len) :
    (List.range n).foldlM (fun y i => updateRow y i len (f i)) (List.replicate (n * len) (0 : Byte)) =
      .ok ((List.range n).flatMap g) := by
  have key : ∀ k, k ≤ n → (List.range k).foldlM (fun y i => updateRow y i len (f i))
      (List.replicate (n * len) (0 : Byte)) =
        .ok ((List.range k).flatMap g ++ List.replicate ((n - k) * len) 0) := by
    intro k
    induction k with
    | zero => intro _; simp; rfl
    | succ k ih =>
      intro hk
      rw [List.range_succ, List.foldlM_append, ih (by omega), okb]
      have e : (n - k) * len = len + (n - (k + 1)) * len := by
        rw [show n - k = (n - (k + 1)) + 1 by omega, Nat.add_mul]; omega
      rw [e, ← List.replicate_append_replicate, ← List.append_assoc]
      show (updateRow _ k len (f k) >>= fun y => .ok y) = _
      rw [updateRow_at (len := len) _ _ _ k
        (flatMap_const_length _ (fun i hi => hg i (by rw [List.mem_range] at hi; omega)) (by simp))
        (by simp), hf k (by omega), okb, okb]
      simp
  have := key n (Nat.le_refl n)
  simpa using this

/-! ### Jobs over chunks -/

/-- Running jobs that succeed on the initial chunks, in any order without repetition. -/
theorem runJobs_ok {α : Type} (order : List Nat) (work : Nat → α → R α) (chunks : List α)
    (out : Nat → α) (hnd : order.Nodup) (hlt : ∀ c ∈ order, c < chunks.length)
    (hw : ∀ c ∈ order, ∀ x, chunks[c]? = some x → work c x = .ok (out c)) :
    ∃ cs, runJobs order work chunks = .ok cs ∧ cs.length = chunks.length ∧
      ∀ c, cs[c]? = if c ∈ order then some (out c) else chunks[c]? := by
  unfold runJobs
  induction order generalizing chunks with
  | nil => exact ⟨chunks, rfl, rfl, fun c => by simp⟩
  | cons c order ih =>
    rw [List.nodup_cons] at hnd
    have hc := hlt c (by simp)
    rw [List.foldlM_cons, idxR_ok (a := chunks[c]) (by simp [hc]), okb,
      hw c (by simp) chunks[c] (by simp [hc]), okb, setR_ok _ hc, okb]
    obtain ⟨cs, h1, h2, h3⟩ := ih (chunks.set c (out c)) hnd.2
      (fun c' hc' => by simpa using hlt c' (by simp [hc']))
      (fun c' hc' x hx => by
        have : c' ≠ c := by rintro rfl; exact hnd.1 hc'
        rw [List.getElem?_set_ne (Ne.symm this)] at hx
        exact hw c' (by simp [hc']) x hx)
    refine ⟨cs, h1, by simpa using h2, fun c' => ?_⟩
    rw [h3]
    by_cases hcc : c' = c
    · subst hcc
      simp [hnd.1, hc]
    · simp [hcc, List.getElem?_set_ne (Ne.symm hcc)]

/-- If running all jobs succeeds, every job succeeds on its initial chunk. -/
theorem runJobs_all {α : Type} (order : List Nat) (work : Nat → α → R α) (chunks cs : List α)
    (hnd : order.Nodup) (h : runJobs order work chunks = .ok cs) :
    ∀ c ∈ order, ∃ x o, chunks[c]? = some x ∧ work c x = .ok o := by
  unfold runJobs at h
  induction order generalizing chunks with
  | nil => intro c hc; cases hc
  | cons c order ih =>
    rw [List.nodup_cons] at hnd
    rw [List.foldlM_cons] at h
    cases hx : chunks[c]? with
    | none =>
      have : idxR chunks c = panicR := by simp [idxR, hx]
      rw [this] at h; exact absurd h (by intro h; cases h)
    | some x =>
      rw [idxR_ok hx, okb] at h
      cases ho : work c x with
      | error e => rw [ho, errb] at h; cases h
      | ok o =>
        have hlt : c < chunks.length := (List.getElem?_eq_some_iff.mp hx).1
        rw [ho, okb, setR_ok _ hlt, okb] at h
        intro c' hc'
        rcases List.mem_cons.mp hc' with rfl | hc''
        · exact ⟨x, o, hx, ho⟩
        · obtain ⟨x', o', h1, h2⟩ := ih _ hnd.2 h c' hc''
          have : c' ≠ c := by rintro rfl; exact hnd.1 hc''
          rw [List.getElem?_set_ne (Ne.symm this)] at h1
          exact ⟨x', o', h1, h2⟩

/-- If one job fails with `e` on its chunk and all others succeed or fail with `e`, the whole run
fails with `e`. -/
theorem runJobs_fail {α : Type} (order : List Nat) (work : Nat → α → R α) (chunks : List α) (e : Fault)
    (hnd : order.Nodup) (hlt : ∀ c ∈ order, c < chunks.length)
    (hw : ∀ c ∈ order, ∀ x, chunks[c]? = some x → (∃ o, work c x = .ok o) ∨ work c x = .error e)
    (hbad : ∃ c ∈ order, ∃ x, chunks[c]? = some x ∧ work c x = .error e) :
    runJobs order work chunks = .error e := by
  unfold runJobs
  induction order generalizing chunks with
  | nil => obtain ⟨c, hc, -⟩ := hbad; cases hc
  | cons c order ih =>
    rw [List.nodup_cons] at hnd
    have hc := hlt c (by simp)
    rw [List.foldlM_cons, idxR_ok (a := chunks[c]) (by simp [hc]), okb]
    rcases hw c (by simp) chunks[c] (by simp [hc]) with ⟨o, ho⟩ | he
    · rw [ho, okb, setR_ok _ hc, okb]
      apply ih _ hnd.2
      · intro c' hc'; simpa using hlt c' (by simp [hc'])
      · intro c' hc' x hx
        have : c' ≠ c := by rintro rfl; exact hnd.1 hc'
        rw [List.getElem?_set_ne (Ne.symm this)] at hx
        exact hw c' (by simp [hc']) x hx
      · obtain ⟨c', hc', x, hx, hxe⟩ := hbad
        have hne : c' ≠ c := by
          rintro rfl
          rw [List.getElem?_eq_getElem hc] at hx
          injection hx with hx
          rw [← hx, ho] at hxe; cases hxe
        rcases List.mem_cons.mp hc' with rfl | hc'
        · exact absurd rfl hne
        · exact ⟨c', hc', x, by rw [List.getElem?_set_ne (Ne.symm hne)]; exact hx, hxe⟩
    · rw [he]; rfl

theorem flatMap_blocks {α} (g : Nat → List α) (r t : Nat) :
    (List.range t).flatMap (fun c => (List.range r).flatMap fun i => g (r * c + i)) =
      (List.range (t * r)).flatMap g := by
  induction t with
  | zero => simp
  | succ t ih =>
    rw [List.range_succ, List.flatMap_append, ih, Nat.succ_mul, List.range_add, List.flatMap_append]
    congr 1
    simp only [List.flatMap_cons, List.flatMap_nil, List.append_nil, List.flatMap_map]
    rw [Nat.mul_comm]

/-! ### The sender -/

/-- Key of bit `j` of index `i`. -/
def selKey (keys : Nat → WireBytes × WireBytes) (i j : Nat) : Bytes :=
  if (i >>> (j % 64)) % 2 = 1 then (keys j).2.toList else (keys j).1.toList

/-- The list of keys as the sender holds them. -/
def keyList (keys : Nat → WireBytes × WireBytes) (domain : Nat) : List (Bytes × Bytes) :=
  (List.range domain).map fun j => ((keys j).1.toList, (keys j).2.toList)

/-- The masks of row `i`. -/
def rowMasks (X : Crypto) (keys : Nat → WireBytes × WireBytes) (domain len i : Nat) : List Bytes :=
  (List.range domain).map fun j => fk X (selKey keys i j) (i % 2 ^ 32) len

theorem rowMasks_length (X : Crypto) (keys : Nat → WireBytes × WireBytes) (domain len i : Nat) :
    ∀ m ∈ rowMasks X keys domain len i, m.length = len := by
  intro m hm
  obtain ⟨j, -, rfl⟩ := List.mem_map.mp hm
  exact fk_length ..

theorem zipWith_zero (m : Bytes) : List.zipWith (· ^^^ ·) (List.replicate m.length (0 : Byte)) m = m := by
  induction m with
  | nil => rfl
  | cons b m ih => simp only [List.length_cons, List.replicate_succ, List.zipWith_cons_cons, ih]; simp

theorem manyRow_ok (X : Crypto) (messages : List Bytes) (keys : Nat → WireBytes × WireBytes)
    (domain len i : Nat) (m : Bytes) (hm : messages[i]? = some m) (hl : m.length = len) :
    manyRow X messages (keyList keys domain) domain len i (List.replicate len 0) =
      .ok (applyMasks (rowMasks X keys domain len i) m) := by
  unfold manyRow
  rw [idxR_ok hm, okb, xorBytesInplace_ok _ (by simp [hl]), okb, ← hl, zipWith_zero]
  have := foldlM_masks X.dbg m.length (fun j => fk X (selKey keys i j) (i % 2 ^ 32) m.length)
    (fun j => do
      let k ← idxR (keyList keys domain) j
      return fk X (if (i >>> (j % 64)) % 2 = 1 then k.2 else k.1) (i % 2 ^ 32) m.length) (List.range domain) (by
      intro j hj
      rw [List.mem_range] at hj
      rw [idxR_ok (a := ((keys j).1.toList, (keys j).2.toList)) (by simp [keyList, hj])]
      rfl) (fun j _ => fk_length ..) m rfl
  rw [show rowMasks X keys domain m.length i = (List.range domain).map fun j =>
    fk X (selKey keys i j) (i % 2 ^ 32) m.length from rfl, ← this]
  congr 1
  funext r j
  cases idxR (keyList keys domain) j <;> rfl

/-- Row `i` of `y`. -/
def yRow (X : Crypto) (messages : List Bytes) (keys : Nat → WireBytes × WireBytes) (domain len i : Nat) :
    Bytes :=
  applyMasks (rowMasks X keys domain len i) (messages.getD i [])

theorem yRow_length (X : Crypto) (messages : List Bytes) (keys : Nat → WireBytes × WireBytes)
    (domain len i : Nat) (hi : i < messages.length) (hlen : ∀ m ∈ messages, m.length = len) :
    (yRow X messages keys domain len i).length = len := by
  unfold yRow
  apply applyMasks_length _ _ _ _ (rowMasks_length X keys domain len i)
  have : messages.getD i [] = messages[i] := by simp [hi]
  rw [this]
  exact hlen _ (by simp)

/-- The number of worker threads. -/
def manyThreads (cores domain : Nat) : Nat := if 2 ^ domain ≤ cores then 2 ^ domain else cores

/-- Rows per worker. -/
def manyRows (cores domain : Nat) : Nat := 2 ^ domain / manyThreads cores domain

theorem manyThreads_pos {cores domain : Nat} (hc : 0 < cores) : 0 < manyThreads cores domain := by
  unfold manyThreads; split <;> positivity

theorem manyThreads_le {cores domain : Nat} : manyThreads cores domain ≤ 2 ^ domain := by
  unfold manyThreads; split <;> omega

theorem manyRows_pos {cores domain : Nat} (hc : 0 < cores) : 0 < manyRows cores domain :=
  Nat.div_pos manyThreads_le (manyThreads_pos hc)

/-- The number of chunks, hence of jobs. -/
def manyJobs (cores domain len : Nat) : Nat :=
  (2 ^ domain * len + manyRows cores domain * len - 1) / (manyRows cores domain * len)

theorem manyJobs_eq (cores domain len : Nat) (hlen : 0 < len) (hc : 0 < cores)
    (hdvd : manyRows cores domain ∣ 2 ^ domain) :
    manyJobs cores domain len = 2 ^ domain / manyRows cores domain := by
  obtain ⟨t, ht⟩ := hdvd
  have hk0 : 0 < manyRows cores domain := manyRows_pos hc
  unfold manyJobs
  have hkl : 0 < manyRows cores domain * len := Nat.mul_pos hk0 hlen
  have e : 2 ^ domain * len = t * (manyRows cores domain * len) := by
    rw [ht, Nat.mul_comm _ t, Nat.mul_assoc]
  have e2 : 2 ^ domain / manyRows cores domain = t := by rw [ht, Nat.mul_div_cancel_left _ hk0]
  rw [e, e2, Nat.add_sub_assoc hkl, Nat.add_comm, Nat.add_mul_div_right _ _ hkl,
    Nat.div_eq_of_lt (by omega)]
  omega

/-- The computation of `y` up to the choice of the branch, for `2 ^ e` rows. -/
theorem manyY_eq_wide (X : Crypto) (cores : Nat) (order : List Nat) (messages : List Bytes)
    (keys : List (Bytes × Bytes)) (domain e len : Nat)
    (hd : shlOneR X.dbg 64 domain = .ok (2 ^ e))
    (hlen : ∀ m ∈ messages, m.length = len) (hn : 0 < messages.length)
    (hsize : 2 ^ e * len < 2 ^ 64) :
    manyY X cores order messages keys domain =
      if domain ≤ 2 then
        (List.range (2 ^ e)).foldlM (fun y i => updateRow y i len (manyRow X messages keys domain len i))
          (List.replicate (2 ^ e * len) (0 : Byte))
      else
        (debugAssertR X.dbg (decide (2 ^ e % manyThreads cores e = 0)) >>= fun _ =>
          chunksR (List.replicate (2 ^ e * len) (0 : Byte)) (manyRows cores e * len) >>= fun chunks =>
          runJobs order (manyJob X messages keys domain len (manyRows cores e)) chunks >>= fun chunks =>
          .ok chunks.flatten) := by
  have h0 : messages[0]? = some messages[0] := by simp
  unfold manyY
  rw [idxR_ok h0, okb, hlen messages[0] (by simp)]
  rw [hd, okb,
    show mulR X.dbg (2 ^ 64) (2 ^ e) len = .ok (2 ^ e * len) by simp only [mulR]; rw [if_pos hsize], okb]
  rfl

/-- The computation of `y` up to the choice of the branch. -/
theorem manyY_eq (X : Crypto) (cores : Nat) (order : List Nat) (messages : List Bytes)
    (keys : List (Bytes × Bytes)) (domain len : Nat) (hd : domain < 64)
    (hlen : ∀ m ∈ messages, m.length = len) (hn : 0 < messages.length)
    (hsize : 2 ^ domain * len < 2 ^ 64) :
    manyY X cores order messages keys domain =
      if domain ≤ 2 then
        (List.range (2 ^ domain)).foldlM (fun y i => updateRow y i len (manyRow X messages keys domain len i))
          (List.replicate (2 ^ domain * len) (0 : Byte))
      else
        (debugAssertR X.dbg (decide (2 ^ domain % manyThreads cores domain = 0)) >>= fun _ =>
          chunksR (List.replicate (2 ^ domain * len) (0 : Byte)) (manyRows cores domain * len) >>= fun chunks =>
          runJobs order (manyJob X messages keys domain len (manyRows cores domain)) chunks >>= fun chunks =>
          .ok chunks.flatten) :=
  manyY_eq_wide X cores order messages keys domain domain len (by simp [shlOneR, hd]) hlen hn hsize

/-- The zero chunks. -/
theorem chunks_zero {N k : Nat} (hk : 0 < k) :
    chunksR (List.replicate N (0 : Byte)) k =
      .ok ((List.range ((N + k - 1) / k)).map fun c => List.replicate (min k (N - c * k)) (0 : Byte)) := by
  unfold chunksR
  rw [if_neg (by omega)]
  refine congrArg Except.ok ?_
  rw [List.length_replicate]
  apply List.map_congr_left
  intro c _
  rw [List.drop_replicate, List.take_replicate]

theorem yrows_ok_wide (X : Crypto) (messages : List Bytes) (keys : Nat → WireBytes × WireBytes)
    (domain e len : Nat) (hlen : ∀ m ∈ messages, m.length = len) (hn : 2 ^ e ≤ messages.length) :
    ∀ i < 2 ^ e, manyRow X messages (keyList keys domain) domain len i (List.replicate len 0) =
      .ok (yRow X messages keys domain len i) := by
  intro i hi
  have hi' : i < messages.length := by omega
  have := manyRow_ok X messages keys domain len i messages[i] (by simp [hi']) (hlen _ (by simp))
  rw [this]
  simp [yRow, hi']

theorem yrows_ok (X : Crypto) (messages : List Bytes) (keys : Nat → WireBytes × WireBytes)
    (domain len : Nat) (hlen : ∀ m ∈ messages, m.length = len) (hn : 2 ^ domain ≤ messages.length) :
    ∀ i < 2 ^ domain, manyRow X messages (keyList keys domain) domain len i (List.replicate len 0) =
      .ok (yRow X messages keys domain len i) :=
  yrows_ok_wide X messages keys domain domain len hlen hn

theorem manyY_ok_wide (X : Crypto) (cores : Nat) (order : List Nat) (messages : List Bytes)
    (keys : Nat → WireBytes × WireBytes) (domain e len : Nat)
    (hd : shlOneR X.dbg 64 domain = .ok (2 ^ e)) (hc : 0 < cores)
    (hlen : ∀ m ∈ messages, m.length = len) (hn : 2 ^ e ≤ messages.length)
    (hsize : 2 ^ e * len < 2 ^ 64)
    (hpar : 2 < domain → 0 < len ∧ (X.dbg = true → manyThreads cores e ∣ 2 ^ e) ∧
      manyRows cores e ∣ 2 ^ e ∧ order.Perm (List.range (manyJobs cores e len))) :
    manyY X cores order messages (keyList keys domain) domain =
      .ok ((List.range (2 ^ e)).flatMap (yRow X messages keys domain len)) := by
  have hpos : 0 < 2 ^ e := by positivity
  have hrow := yrows_ok_wide X messages keys domain e len hlen hn
  have hrl : ∀ i < 2 ^ e, (yRow X messages keys domain len i).length = len :=
    fun i hi => yRow_length X messages keys domain len i (by omega) hlen
  rw [manyY_eq_wide X cores order messages _ domain e len hd hlen (by omega) hsize]
  by_cases hd2 : domain ≤ 2
  · rw [if_pos hd2]
    exact updateRows_ok _ _ hrow hrl
  · rw [if_neg hd2]
    obtain ⟨hl0, hdbg, hdvd, hperm⟩ := hpar (by omega)
    rw [manyJobs_eq cores e len hl0 hc hdvd] at hperm
    have hnum := manyJobs_eq cores e len hl0 hc hdvd
    obtain ⟨t, ht⟩ := hdvd
    have hk0 : 0 < manyRows cores e := manyRows_pos hc
    rw [show 2 ^ e / manyRows cores e = t by
      conv_lhs => rw [ht]
      rw [Nat.mul_div_cancel_left _ hk0]] at hperm hnum
    unfold manyJobs at hnum
    rw [show debugAssertR X.dbg (decide (2 ^ e % manyThreads cores e = 0)) = .ok () by
      cases hx : X.dbg with
      | false => rfl
      | true => exact debugAssertR_true (by simpa using Nat.mod_eq_zero_of_dvd (hdbg hx)), okb]
    generalize manyRows cores e = k at *
    have hkl : 0 < k * len := Nat.mul_pos hk0 hl0
    have hch : chunksR (List.replicate (2 ^ e * len) (0 : Byte)) (k * len) =
        .ok ((List.range t).map fun _ => List.replicate (k * len) (0 : Byte)) := by
      rw [chunks_zero hkl, hnum]
      refine congrArg Except.ok ?_
      apply List.map_congr_left
      intro c hcm
      rw [List.mem_range] at hcm
      congr 1
      have : (c + 1) * (k * len) ≤ 2 ^ e * len := by
        rw [ht, Nat.mul_comm k t, Nat.mul_assoc]; exact Nat.mul_le_mul_right _ hcm
      rw [Nat.add_mul] at this
      omega
    rw [hch, okb]
    have hjob : ∀ c < t,
        manyJob X messages (keyList keys domain) domain len k c (List.replicate (k * len) 0) =
          .ok ((List.range k).flatMap fun i => yRow X messages keys domain len (k * c + i)) := by
      intro c hcm
      have hb : ∀ i < k, k * c + i < 2 ^ e := by
        intro i hi
        have : k * (c + 1) ≤ k * t := Nat.mul_le_mul_left _ hcm
        rw [← ht, Nat.mul_add] at this
        omega
      exact updateRows_ok _ (fun i => yRow X messages keys domain len (k * c + i))
        (fun i hi => hrow _ (hb i hi)) (fun i hi => hrl _ (hb i hi))
    obtain ⟨cs, h1, h2, h3⟩ := runJobs_ok order (manyJob X messages (keyList keys domain) domain len k)
      ((List.range t).map fun _ => List.replicate (k * len) (0 : Byte))
      (fun c => (List.range k).flatMap fun i => yRow X messages keys domain len (k * c + i))
      (hperm.nodup_iff.mpr List.nodup_range)
      (fun c hcm => by simpa using (hperm.mem_iff.mp hcm))
      (fun c hcm x hx => by
        have hcl : c < t := by simpa using (hperm.mem_iff.mp hcm)
        have : x = List.replicate (k * len) 0 := by
          rw [List.getElem?_map, List.getElem?_range hcl] at hx
          simpa using hx.symm
        rw [this]; exact hjob c hcl)
    rw [h1, okb]
    refine congrArg Except.ok ?_
    have hcs : cs = (List.range t).map fun c =>
        (List.range k).flatMap fun i => yRow X messages keys domain len (k * c + i) := by
      apply List.ext_getElem?
      intro c
      rw [h3]
      by_cases hcl : c < t
      · rw [if_pos (hperm.mem_iff.mpr (by simpa using hcl))]
        simp [hcl]
      · rw [if_neg (fun h => hcl (by simpa using hperm.mem_iff.mp h))]
        simp [hcl]
    rw [hcs, ← List.flatMap_def, flatMap_blocks, ht, Nat.mul_comm]

theorem manyY_ok (X : Crypto) (cores : Nat) (order : List Nat) (messages : List Bytes)
    (keys : Nat → WireBytes × WireBytes) (domain len : Nat) (hd : domain < 64) (hc : 0 < cores)
    (hlen : ∀ m ∈ messages, m.length = len) (hn : 2 ^ domain ≤ messages.length)
    (hsize : 2 ^ domain * len < 2 ^ 64)
    (hpar : 2 < domain → 0 < len ∧ (X.dbg = true → manyThreads cores domain ∣ 2 ^ domain) ∧
      manyRows cores domain ∣ 2 ^ domain ∧ order.Perm (List.range (manyJobs cores domain len))) :
    manyY X cores order messages (keyList keys domain) domain =
      .ok ((List.range (2 ^ domain)).flatMap (yRow X messages keys domain len)) :=
  manyY_ok_wide X cores order messages keys domain domain len (by simp [shlOneR, hd]) hc hlen hn hsize hpar

/-- Updating more rows than the buffer has is undefined behaviour. -/
theorem updateRows_ub {len r n : Nat} (f : Nat → Bytes → R Bytes) (g : Nat → Bytes) (hl : 0 < len)
    (hr : r < n) (hf : ∀ i < r, f i (List.replicate len 0) = .ok (g i)) (hg : ∀ i < r, (g i).length = len) :
    (List.range n).foldlM (fun y i => updateRow y i len (f i)) (List.replicate (r * len) (0 : Byte)) =
      .error .ub := by
  obtain ⟨e, rfl⟩ : ∃ e, n = r + (1 + e) := ⟨n - r - 1, by omega⟩
  rw [List.range_add, List.foldlM_append, updateRows_ok f g hf hg, okb, List.range_add, List.map_append,
    List.foldlM_append]
  have hyl : ((List.range r).flatMap g).length = len * r :=
    flatMap_const_length _ (fun i hi => hg i (by simpa using hi)) (by simp)
  have : updateRow ((List.range r).flatMap g) r len (f r) = .error .ub := by
    unfold updateRow
    rw [if_neg (by rw [hyl]; omega)]; rfl
  simp [this, errb]

/-- On a machine where the rows per worker do not divide the number of rows, the last worker leaves
its chunk (release build; a debug build stops at the `debug_assert`). -/
theorem manyY_ub (X : Crypto) (cores : Nat) (order : List Nat) (messages : List Bytes)
    (keys : Nat → WireBytes × WireBytes) (domain len : Nat) (hd : domain < 64) (hd2 : 2 < domain)
    (hc : 0 < cores) (hl : 0 < len) (hlen : ∀ m ∈ messages, m.length = len)
    (hn : 2 ^ domain ≤ messages.length) (hsize : 2 ^ domain * len < 2 ^ 64) (hrel : X.dbg = false)
    (hdvd : ¬ manyRows cores domain ∣ 2 ^ domain)
    (hperm : order.Perm (List.range (manyJobs cores domain len))) :
    manyY X cores order messages (keyList keys domain) domain = .error .ub := by
  have hpos : 0 < 2 ^ domain := by positivity
  have hrow := yrows_ok X messages keys domain len hlen hn
  have hrl : ∀ i < 2 ^ domain, (yRow X messages keys domain len i).length = len :=
    fun i hi => yRow_length X messages keys domain len i (by omega) hlen
  rw [manyY_eq X cores order messages _ domain len hd hlen (by omega) hsize, if_neg (by omega)]
  rw [hrel, show ∀ b, debugAssertR false b = .ok () from fun b => rfl, okb]
  have hk0 : 0 < manyRows cores domain := manyRows_pos hc
  unfold manyJobs at hperm
  generalize manyRows cores domain = k at *
  have hkl : 0 < k * len := Nat.mul_pos hk0 hl
  rw [chunks_zero hkl, okb]
  generalize hJ : (2 ^ domain * len + k * len - 1) / (k * len) = J at *
  -- the number of jobs in rows
  have hJ1 : ∀ c, c < J → c * k < 2 ^ domain := by
    intro c hcJ
    by_contra hge
    have h1 : 2 ^ domain * len ≤ c * k * len := Nat.mul_le_mul_right _ (by omega)
    have h2 : J * (k * len) ≤ 2 ^ domain * len + k * len - 1 := by
      rw [← hJ]; exact Nat.div_mul_le_self _ _
    have h3 : (c + 1) * (k * len) ≤ J * (k * len) := Nat.mul_le_mul_right _ hcJ
    rw [Nat.add_mul, Nat.one_mul, ← Nat.mul_assoc c k len] at h3
    omega
  have hJ2 : 2 ^ domain ≤ J * k := by
    by_contra hlt
    have h1 : (J * k + 1) * len ≤ 2 ^ domain * len := Nat.mul_le_mul_right _ (by omega)
    have h2 : 2 ^ domain * len + k * len - 1 < (J + 1) * (k * len) := by
      rw [← hJ]; exact Nat.lt_mul_of_div_lt (Nat.lt_succ_self _) hkl
    rw [Nat.add_mul, Nat.one_mul] at h1 h2
    rw [Nat.mul_assoc] at h1
    omega
  have hJ0 : 0 < J := by
    rcases Nat.eq_zero_or_pos J with h | h
    · rw [h] at hJ2; omega
    · exact h
  have hchunk : ∀ c, c < J → min (k * len) (2 ^ domain * len - c * (k * len)) =
      min k (2 ^ domain - c * k) * len := by
    intro c _
    rw [← Nat.mul_assoc c k len, ← Nat.sub_mul]
    rcases Nat.le_total k (2 ^ domain - c * k) with h | h
    · rw [Nat.min_eq_left h, Nat.min_eq_left (Nat.mul_le_mul_right _ h)]
    · rw [Nat.min_eq_right h, Nat.min_eq_right (Nat.mul_le_mul_right _ h)]
  -- each job succeeds or leaves its chunk
  have hjob : ∀ c, c < J →
      (k ≤ 2 ^ domain - c * k → ∃ o, manyJob X messages (keyList keys domain) domain len k c
        (List.replicate (min (k * len) (2 ^ domain * len - c * (k * len))) 0) = .ok o) ∧
      (2 ^ domain - c * k < k → manyJob X messages (keyList keys domain) domain len k c
        (List.replicate (min (k * len) (2 ^ domain * len - c * (k * len))) 0) = .error .ub) := by
    intro c hcJ
    rw [hchunk c hcJ]
    refine ⟨fun h => ?_, fun h => ?_⟩
    · rw [Nat.min_eq_left h]
      have hb : ∀ i < k, k * c + i < 2 ^ domain := by
        intro i hi; rw [Nat.mul_comm]; omega
      exact ⟨_, updateRows_ok _ (fun i => yRow X messages keys domain len (k * c + i))
        (fun i hi => hrow _ (hb i hi)) (fun i hi => hrl _ (hb i hi))⟩
    · rw [Nat.min_eq_right (by omega)]
      have hb : ∀ i < 2 ^ domain - c * k, k * c + i < 2 ^ domain := by
        intro i hi; rw [Nat.mul_comm]; omega
      exact updateRows_ub _ (fun i => yRow X messages keys domain len (k * c + i)) hl h
        (fun i hi => hrow _ (hb i hi)) (fun i hi => hrl _ (hb i hi))
  rw [runJobs_fail order _ _ .ub (hperm.nodup_iff.mpr List.nodup_range)
    (fun c hcm => by simpa using (hperm.mem_iff.mp hcm))]
  · rfl
  · intro c hcm x hx
    have hcl : c < J := by simpa using (hperm.mem_iff.mp hcm)
    have : x = List.replicate (min (k * len) (2 ^ domain * len - c * (k * len))) 0 := by
      rw [List.getElem?_map, List.getElem?_range hcl] at hx
      simpa using hx.symm
    rw [this]
    rcases Nat.lt_or_ge (2 ^ domain - c * k) k with h | h
    · exact .inr ((hjob c hcl).2 h)
    · exact .inl ((hjob c hcl).1 h)
  · refine ⟨J - 1, hperm.mem_iff.mpr (by simp; omega), _, by
      rw [List.getElem?_map, List.getElem?_range (by omega)]; rfl, ?_⟩
    apply (hjob (J - 1) (by omega)).2
    have h1 := hJ1 (J - 1) (by omega)
    have h2 : 2 ^ domain ≤ (J - 1) * k + k := by
      rw [← Nat.succ_mul, Nat.succ_eq_add_one, Nat.sub_add_cancel hJ0]; exact hJ2
    rcases Nat.lt_or_ge (2 ^ domain - (J - 1) * k) k with h | h
    · exact h
    · exfalso
      apply hdvd
      refine ⟨J, ?_⟩
      have : 2 ^ domain = (J - 1) * k + k := by omega
      rw [this, ← Nat.succ_mul, Nat.succ_eq_add_one, Nat.sub_add_cancel hJ0, Nat.mul_comm]

/-- Too few messages: the sender cannot compute `y`. -/
theorem manyY_short (X : Crypto) (cores : Nat) (order : List Nat) (messages : List Bytes)
    (keys : List (Bytes × Bytes)) (domain len : Nat) (hd : domain < 64) (hc : 0 < cores)
    (hlen : ∀ m ∈ messages, m.length = len) (hn : messages.length < 2 ^ domain)
    (hsize : 2 ^ domain * len < 2 ^ 64)
    (hperm : order.Perm (List.range (manyJobs cores domain len))) (y : Bytes) :
    manyY X cores order messages keys domain ≠ .ok y := by
  intro h
  have hrow : ∀ row r, manyRow X messages keys domain len messages.length row ≠ .ok r := by
    intro row r hr
    unfold manyRow at hr
    have : idxR messages messages.length = panicR := by simp [idxR]
    rw [this] at hr
    cases hr
  have hupd : ∀ y k r, updateRow y k len (manyRow X messages keys domain len messages.length) ≠ .ok r := by
    intro y k r hr
    unfold updateRow at hr
    by_cases hle : len * k + len ≤ y.length
    · rw [if_pos hle] at hr
      cases hm : manyRow X messages keys domain len messages.length ((y.drop (len * k)).take len) with
      | ok r' => exact hrow _ _ hm
      | error e => rw [hm] at hr; cases hr
    · rw [if_neg hle] at hr; cases hr
  have hfold : ∀ (n off i : Nat) (hi : i < n) (he : off + i = messages.length) y r,
      (List.range n).foldlM (fun y i => updateRow y i len (manyRow X messages keys domain len (off + i))) y ≠ .ok r := by
    intro n off i hi he y r hr
    obtain ⟨e, rfl⟩ : ∃ e, n = i + (1 + e) := ⟨n - i - 1, by omega⟩
    rw [List.range_add, List.foldlM_append] at hr
    cases h1 : (List.range i).foldlM (fun y i => updateRow y i len (manyRow X messages keys domain len (off + i))) y with
    | error e => rw [h1] at hr; cases hr
    | ok y1 =>
      rw [h1, okb, List.range_add, List.map_append, List.foldlM_append] at hr
      cases h2 : updateRow y1 i len (manyRow X messages keys domain len messages.length) with
      | ok y2 => exact hupd _ _ _ h2
      | error e =>
        simp only [List.range_one, List.map_cons, List.map_nil, List.foldlM_cons, List.foldlM_nil,
          Nat.add_zero, he, h2, errb] at hr
        cases hr
  rcases Nat.eq_zero_or_pos messages.length with h0 | hpos
  · unfold manyY at h
    have : idxR messages 0 = panicR := by
      rw [List.length_eq_zero_iff] at h0; subst h0; rfl
    rw [this] at h; cases h
  · rw [manyY_eq X cores order messages _ domain len hd hlen hpos hsize] at h
    by_cases hd2 : domain ≤ 2
    · rw [if_pos hd2] at h
      have := hfold (2 ^ domain) 0 messages.length hn (by omega) (List.replicate (2 ^ domain * len) 0) y
      simp only [Nat.zero_add] at this
      exact this h
    · rw [if_neg hd2] at h
      cases hdb : debugAssertR X.dbg (decide (2 ^ domain % manyThreads cores domain = 0)) with
      | error e => rw [hdb] at h; cases h
      | ok u =>
        rw [hdb, okb] at h
        have hk0 : 0 < manyRows cores domain := manyRows_pos hc
        unfold manyJobs at hperm
        generalize manyRows cores domain = k at *
        rcases Nat.eq_zero_or_pos len with hl | hl
        · subst hl
          have : chunksR (List.replicate (2 ^ domain * 0) (0 : Byte)) (k * 0) = panicR := by simp [chunksR]
          rw [this] at h; cases h
        · have hkl : 0 < k * len := Nat.mul_pos hk0 hl
          rw [chunks_zero hkl, okb] at h
          cases hr : runJobs order (manyJob X messages keys domain len k)
            ((List.range ((2 ^ domain * len + k * len - 1) / (k * len))).map fun c =>
              List.replicate (min (k * len) (2 ^ domain * len - c * (k * len))) (0 : Byte)) with
          | error e => rw [hr] at h; cases h
          | ok cs =>
            have hcJ : messages.length / k < (2 ^ domain * len + k * len - 1) / (k * len) := by
              rw [Nat.lt_iff_add_one_le, Nat.le_div_iff_mul_le hkl, Nat.add_mul, Nat.one_mul]
              have h1 : messages.length / k * k ≤ messages.length := Nat.div_mul_le_self _ _
              have h2 : messages.length / k * k * len < 2 ^ domain * len :=
                Nat.mul_lt_mul_of_pos_right (by omega) hl
              rw [Nat.mul_assoc] at h2
              omega
            obtain ⟨x, o, -, ho⟩ := runJobs_all order _ _ _ (hperm.nodup_iff.mpr List.nodup_range) hr
              (messages.length / k) (hperm.mem_iff.mpr (by simpa using hcJ))
            exact hfold k (k * (messages.length / k)) (messages.length % k) (Nat.mod_lt _ hk0)
              (Nat.div_add_mod _ _) _ _ ho

/-! ### The receiver -/

theorem choice_bit (choice k : Nat) : (choice &&& 2 ^ k) >>> k = (choice >>> k) % 2 := by
  apply Nat.eq_of_testBit_eq
  intro j
  rw [Nat.testBit_shiftRight, Nat.testBit_and, Nat.testBit_two_pow]
  cases j with
  | zero => simp [Nat.testBit_shiftRight]
  | succ j =>
    have : ((choice >>> k) % 2).testBit (j + 1) = false := by
      rw [Nat.testBit_succ]
      have : (choice >>> k) % 2 / 2 = 0 := by omega
      simp [this]
    rw [this]; simp

theorem manyChoices_wide (choice domain : Nat) :
    manyChoices false choice domain = .ok ((List.range domain).map fun i => (choice >>> (i % 32)) % 2 == 1) := by
  unfold manyChoices
  apply mapM_ok
  intro i _
  have h : shlOneR false 32 i = .ok (2 ^ (i % 32)) := by
    simp only [shlOneR]
    by_cases hi : i < 32
    · rw [if_pos hi, Nat.mod_eq_of_lt hi]
    · rw [if_neg hi]; rfl
  rw [h, okb, choice_bit]
  rfl

theorem manyChoices_ok (dbg : Bool) (choice domain : Nat) (hd : domain ≤ 32) :
    manyChoices dbg choice domain = .ok ((List.range domain).map fun i => (choice >>> i) % 2 == 1) := by
  unfold manyChoices
  apply mapM_ok
  intro i hi
  rw [List.mem_range] at hi
  rw [show shlOneR dbg 32 i = .ok (2 ^ i) by simp only [shlOneR]; rw [if_pos (by omega)], okb]
  rw [Nat.mod_eq_of_lt (show i < 32 by omega), choice_bit]
  rfl

/-- The keys the receiver obtains for its choice. -/
theorem chosen_keys_wide (keys : Nat → WireBytes × WireBytes) (choice domain : Nat) (bit : Nat → Bool)
    (hbit : ∀ j < domain, bit j = choice.testBit (j % 64)) :
    Spec.chosen (keyList keys domain) ((List.range domain).map bit) =
      (List.range domain).map (selKey keys choice) := by
  unfold Spec.chosen keyList
  rw [List.zipWith_map, List.zipWith_self]
  apply List.map_congr_left
  intro j hj
  rw [List.mem_range] at hj
  unfold selKey
  rw [hbit j hj, Nat.testBit_eq_decide_div_mod_eq, Nat.shiftRight_eq_div_pow]
  by_cases h : choice / 2 ^ (j % 64) % 2 = 1 <;> simp [h]

theorem chosen_keys (keys : Nat → WireBytes × WireBytes) (choice domain : Nat) (hd : domain ≤ 64) :
    Spec.chosen (keyList keys domain) ((List.range domain).map fun i => (choice >>> i) % 2 == 1) =
      (List.range domain).map (selKey keys choice) := by
  refine chosen_keys_wide keys choice domain _ fun j hj => ?_
  rw [show j % 64 = j from Nat.mod_eq_of_lt (by omega), Nat.testBit_eq_decide_div_mod_eq, Nat.shiftRight_eq_div_pow]
  by_cases h : choice / 2 ^ j % 2 = 1 <;> simp [h]

theorem manyKeys_ok (dbg : Bool) (keys : Nat → WireBytes × WireBytes) (choice domain : Nat) :
    manyKeys dbg ((List.range domain).map (selKey keys choice)) domain =
      .ok ((List.range domain).map (selKey keys choice)) := by
  unfold manyKeys
  apply mapM_ok
  intro j hj
  rw [List.mem_range] at hj
  rw [idxR_ok (a := selKey keys choice j) (by simp [hj]), okb, debugAssertR_true, okb]
  · rfl
  · simp only [decide_eq_true_eq]
    have : (selKey keys choice j).length = 32 := by unfold selKey; split <;> simp
    omega

theorem flatMap_row {g : Nat → Bytes} {n len i : Nat} (hg : ∀ i < n, (g i).length = len) (hi : i < n) :
    (((List.range n).flatMap g).drop (len * i)).take len = g i := by
  have e : List.range n = List.range i ++ (i :: (List.range (n - i - 1)).map (i + 1 + ·)) := by
    have : n = i + (1 + (n - i - 1)) := by omega
    conv_lhs => rw [this]
    rw [List.range_add, List.range_add, List.map_append]
    simp [Nat.add_assoc]
  rw [e, List.flatMap_append, List.flatMap_cons]
  have hl : ((List.range i).flatMap g).length = len * i :=
    flatMap_const_length _ (fun j hj => hg j (by rw [List.mem_range] at hj; omega)) (by simp)
  rw [← hl, List.drop_left]
  conv_lhs => rw [← hg i hi]
  rw [List.take_left]

theorem manyUnmask_ok_wide (X : Crypto) (messages : List Bytes) (keys : Nat → WireBytes × WireBytes)
    (domain e len choice : Nat)
    (hd : shlOneR X.dbg 64 domain = .ok (2 ^ e)) (hc32 : choice < 2 ^ 32) (hlen : ∀ m ∈ messages, m.length = len)
    (hn : 2 ^ e ≤ messages.length) (hch : choice < 2 ^ e) :
    manyUnmask X ((List.range domain).map (selKey keys choice)) choice domain
      ((List.range (2 ^ e)).flatMap (yRow X messages keys domain len)) =
      .ok (messages.getD choice []) := by
  have hpos : 0 < 2 ^ e := by positivity
  have hrl : ∀ i < 2 ^ e, (yRow X messages keys domain len i).length = len :=
    fun i hi => yRow_length X messages keys domain len i (by omega) hlen
  have hyl : ((List.range (2 ^ e)).flatMap (yRow X messages keys domain len)).length = len * 2 ^ e :=
    flatMap_const_length _ (fun i hi => hrl i (by simpa using hi)) (by simp)
  unfold manyUnmask
  rw [hd, okb, hyl, Nat.mul_div_cancel _ hpos]
  unfold vectorRow
  dsimp only
  rw [if_pos (by
    rw [hyl, ← Nat.mul_succ]; exact Nat.mul_le_mul_left _ hch), flatMap_row hrl hch, okb]
  have hc32 : choice % 2 ^ 32 = choice := Nat.mod_eq_of_lt hc32
  have := foldlM_masks X.dbg len (fun j => fk X (selKey keys choice j) choice len)
    (fun j => do return fk X (← idxR ((List.range domain).map (selKey keys choice)) j) choice len)
    (List.range domain) (by
      intro j hj
      rw [List.mem_range] at hj
      rw [idxR_ok (a := selKey keys choice j) (by simp [hj])]; rfl) (fun j _ => fk_length ..)
    (yRow X messages keys domain len choice) (hrl choice hch)
  have hmasks : (List.range domain).map (fun j => fk X (selKey keys choice j) choice len) =
      rowMasks X keys domain len choice := by
    unfold rowMasks; rw [hc32]
  rw [hmasks] at this
  unfold yRow at this
  rw [applyMasks_cancel] at this
  · rw [← this]
    unfold yRow
    congr 1
    funext r j
    cases idxR ((List.range domain).map (selKey keys choice)) j <;> rfl
  · intro m hm
    rw [rowMasks_length X keys domain len choice m hm]
    have : messages.getD choice [] = messages[choice] := by
      have : choice < messages.length := by omega
      simp [this]
    rw [this]
    exact (hlen _ (by simp)).symm

theorem manyUnmask_ok (X : Crypto) (messages : List Bytes) (keys : Nat → WireBytes × WireBytes)
    (domain len choice : Nat) (hd : domain ≤ 32) (hlen : ∀ m ∈ messages, m.length = len)
    (hn : 2 ^ domain ≤ messages.length) (hch : choice < 2 ^ domain) :
    manyUnmask X ((List.range domain).map (selKey keys choice)) choice domain
      ((List.range (2 ^ domain)).flatMap (yRow X messages keys domain len)) =
      .ok (messages.getD choice []) :=
  manyUnmask_ok_wide X messages keys domain domain len choice
    (by simp only [shlOneR]; rw [if_pos (by omega)])
    (Nat.lt_of_lt_of_le hch (Nat.pow_le_pow_right (by decide) hd)) hlen hn hch

theorem many_ends (X : Crypto) (cores : Nat) (order : List Nat) (keys : Nat → WireBytes × WireBytes)
    (S : List (Bytes × Bytes) → Proc Unit) (V : List Bool → Proc (List Bytes))
    (messages : List Bytes) (domain len choice : Nat) (hot : Spec.CorrectOT 32 domain S V)
    (hd : domain ≤ 32) (hc : 0 < cores)
    (hlen : ∀ m ∈ messages, m.length = len) (hn : 2 ^ domain ≤ messages.length)
    (hch : choice < 2 ^ domain) (hsize : 2 ^ domain * len < 2 ^ 64)
    (hpar : 2 < domain → 0 < len ∧ (X.dbg = true → manyThreads cores domain ∣ 2 ^ domain) ∧
      manyRows cores domain ∣ 2 ^ domain ∧ order.Perm (List.range (manyJobs cores domain len))) :
    Ends (manySender X cores order keys S messages domain) (manyReceiver X V choice domain) ()
      (messages.getD choice []) := by
  unfold manySender manyReceiver
  have hy := manyY_ok X cores order messages keys domain len (by omega) hc hlen hn hsize hpar
  have hk : ((List.range domain).map fun j => ((keys j).1.toList, (keys j).2.toList)) =
    keyList keys domain := rfl
  simp only [hk]
  rw [hy, liftM_ok, ret_bind, manyChoices_ok _ _ _ hd, liftM_ok, ret_bind, sendP_bind, recvP_bind]
  refine .sendRecv ?_
  have hin := (hot (keyList keys domain) ((List.range domain).map fun i => (choice >>> i) % 2 == 1)
    (by simp [keyList]) (by simp) (by
      intro m hm
      obtain ⟨j, -, rfl⟩ := List.mem_map.mp hm
      simp)).ends
  rw [chosen_keys _ _ _ (by omega)] at hin
  refine .bindR hin ?_
  rw [manyKeys_ok, liftM_ok, ret_bind, manyUnmask_ok X messages keys domain len choice hd hlen hn hch]
  rfl

end FP
