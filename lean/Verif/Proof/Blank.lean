import Verif.Proof.TrafficGarble
import Verif.Spec.Blank
/-
Which rows of the table of a projection are filled.
-/
namespace FP
open Spec

/-- A row of the table of a projection is filled exactly if it is reached from some value; the others stay empty. -/
theorem garbleProj_rows (E : Env) {delta : HMap Nat Wire} (hd : DeltaDom delta) (wires : List Wire) (g : Gate) (p : ProjKind) (i : Nat)
    (win : Wire) (hi : g.inputs[0]? = some i) (hwin : wires[i]? = some win) :
    Post (fun r => (E.dbg = true → ∀ x < g.domain, x + win.color < 65536) ∧ r.2.length = g.domain ∧ ∀ k < g.domain,
      ((∃ x < g.domain, (x + win.color) % 65536 % g.domain = k) → ∃ w, r.2[k]? = some w ∧ Domain.new p.dom = .ok w.domain) ∧
      ((¬ ∃ x < g.domain, (x + win.color) % 65536 % g.domain = k) → r.2[k]? = some Wire.empty))
      (garbleProj E delta wires g p) := by
  unfold garbleProj
  rw [idxR_ok hi]
  simp only [okb]
  rw [idxR_ok hwin]
  simp only [okb]
  refine (Post.any _).bind fun dm _ => (getR_post _ _).bind fun dn hdn => ?_
  refine (Post.any _).bind fun m1 _ => (Post.any _).bind fun m2 _ => (hashWire_post ..).bind fun hw hhw => ?_
  refine (Post.any _).bind fun m3 _ => (Post.any _).bind fun m4 _ => (Post.any _).bind fun m5 _ => ?_
  refine (add_post ..).bind fun w1 hw1 => (neg_post ..).bind fun w hw => ?_
  have hwd : Domain.new p.dom = .ok w.domain := by
    rw [hw, hw1, hhw]
    exact hd _ _ hdn
  have entry : ∀ (t : List Wire) (x : Nat), Post (fun t' => (E.dbg = true → x + win.color < 65536) ∧ ∃ c, c.domain = w.domain ∧
      t' = t.set ((x + win.color) % 65536 % g.domain) c) (do
        let m ← Wire.mul E.dbg dm x
        let a ← Wire.add E.dbg win m
        let hashed ← hashWire E g.output a w
        let h2 ← Wire.add E.dbg hashed w
        let y ← p.project x
        let m ← Wire.mul E.dbg dn y
        let cipher ← Wire.add E.dbg h2 m
        let k ← addR E.dbg 65536 x win.color
        let k ← remR k g.domain
        setR t k cipher) := by
    intro t x
    refine (Post.any _).bind fun m1 _ => (Post.any _).bind fun m2 _ => (hashWire_post ..).bind fun h1 hh1 => ?_
    refine (add_post ..).bind fun h2 hh2 => (Post.any _).bind fun _ _ => (Post.any _).bind fun _ _ => ?_
    refine (add_post ..).bind fun c hc => Post.bind
      (P := fun k => (E.dbg = true → x + win.color < 65536) ∧ k = (x + win.color) % 65536) ?_ fun k hk =>
      Post.bind (P := fun y => y = k % g.domain) ?_ fun y hy => ?_
    · refine ⟨fun k e => ?_⟩
      unfold addR at e
      split at e
      · exact ⟨fun _ => ‹_›, by rw [← Except.ok.inj e, Nat.mod_eq_of_lt ‹_›]⟩
      · split at e
        · cases e
        · exact ⟨fun h => absurd h ‹_›, (Except.ok.inj e).symm⟩
    · unfold remR
      split
      · exact .err
      · exact .ok rfl
    · exact setR_post ⟨hk.1, c, by rw [hc, hh2, hh1], by rw [hy, hk.2]⟩
  have inv : ∀ n, n ≤ g.domain → Post (fun t : List Wire => (E.dbg = true → ∀ x < n, x + win.color < 65536) ∧ t.length = g.domain ∧ ∀ k < g.domain,
      ((∃ x < n, (x + win.color) % 65536 % g.domain = k) → ∃ w', t[k]? = some w' ∧ w'.domain = w.domain) ∧
      ((¬ ∃ x < n, (x + win.color) % 65536 % g.domain = k) → t[k]? = some Wire.empty)) ((List.range n).foldlM (fun tbl x => do
      let m ← Wire.mul E.dbg dm x
      let a ← Wire.add E.dbg win m
      let hashed ← hashWire E g.output a w
      let h2 ← Wire.add E.dbg hashed w
      let y ← p.project x
      let m ← Wire.mul E.dbg dn y
      let cipher ← Wire.add E.dbg h2 m
      let k ← addR E.dbg 65536 x win.color
      let k ← remR k g.domain
      setR tbl k cipher) (List.replicate g.domain Wire.empty)) := by
    intro n
    induction n with
    | zero =>
      refine fun _ => .ok ⟨fun _ x hx => by omega, by simp, fun k hk => ⟨fun ⟨x, hx, _⟩ => by omega, fun _ => ?_⟩⟩
      rw [List.getElem?_replicate, if_pos hk]
    | succ n ih =>
      intro hn
      rw [List.range_succ, List.foldlM_append]
      refine (ih (by omega)).bind fun t ht => ?_
      rw [List.foldlM_cons]
      refine (entry t n).bind ?_
      rintro t' ⟨hn', c, hcd, rfl⟩
      have hb : E.dbg = true → ∀ x < n + 1, x + win.color < 65536 := fun h x hx => by
        rcases Nat.lt_succ_iff_lt_or_eq.mp hx with h' | rfl
        · exact ht.1 h x h'
        · exact hn' h
      replace ht := ht.2
      refine .ok ⟨hb, by simp [ht.1], fun k hk => ?_⟩
      by_cases hk' : (n + win.color) % 65536 % g.domain = k
      · have : (t.set ((n + win.color) % 65536 % g.domain) c)[k]? = some c := by
          rw [hk', List.getElem?_set_self (by rw [ht.1]; exact hk)]
        exact ⟨fun _ => ⟨c, this, hcd⟩, fun h => absurd ⟨n, by omega, hk'⟩ h⟩
      · rw [List.getElem?_set_ne hk']
        refine ⟨fun ⟨x, hx, hxk⟩ => (ht.2 k hk).1 ⟨x, ?_, hxk⟩, fun h => (ht.2 k hk).2 fun ⟨x, hx, hxk⟩ => h ⟨x, by omega, hxk⟩⟩
        rcases Nat.lt_succ_iff_lt_or_eq.mp hx with h | rfl
        · exact h
        · exact absurd hxk hk'
  refine (inv g.domain le_rfl).bind fun t ht => .ok ⟨ht.1, ht.2.1, fun k hk => ⟨fun h => ?_, (ht.2.2 k hk).2⟩⟩
  obtain ⟨w', h1, h2⟩ := (ht.2.2 k hk).1 h
  exact ⟨w', h1, by rw [h2]; exact hwd⟩

/-- The rows reached are the others than those left blank. -/
theorem reached_iff {m c k : Nat} (hm : m < 65536) (hc : c < m) (hk : k < m) :
    (∃ x < m, (x + c) % 65536 % m = k) ↔ ¬ LeftBlank m c k := by
  unfold LeftBlank
  constructor
  · rintro ⟨x, hx, e⟩
    by_cases h1 : x + c < 65536
    · rw [Nat.mod_eq_of_lt h1] at e
      by_cases h2 : x + c < m
      · rw [Nat.mod_eq_of_lt h2] at e; omega
      · rw [Nat.mod_eq_sub_mod (by omega), Nat.mod_eq_of_lt (by omega)] at e; omega
    · have e1 : (x + c) % 65536 = x + c - 65536 := by omega
      rw [e1, Nat.mod_eq_of_lt (by omega)] at e; omega
  · intro h
    by_cases h1 : c ≤ k
    · refine ⟨k - c, by omega, ?_⟩
      have e1 : (k - c + c) % 65536 = k := by omega
      rw [e1, Nat.mod_eq_of_lt hk]
    · by_cases h2 : k < 65536 - m
      · refine ⟨k + m - c, by omega, ?_⟩
        have e1 : (k + m - c + c) % 65536 = k + m := by omega
        rw [e1, Nat.add_mod_right, Nat.mod_eq_of_lt hk]
      · refine ⟨k + 65536 - c, by omega, ?_⟩
        have e1 : (k + 65536 - c + c) % 65536 = k := by omega
        rw [e1, Nat.mod_eq_of_lt hk]

theorem dassert_off (b : Bool) : debugAssertR false b = .ok () := rfl

/-- Addition of two-byte components in a build without checks. -/
theorem add_words {a b : Wire} {m : Nat} (ha : a.domain = .u16 m) (hm : 0 < m) : Wire.add false a b = .ok ⟨.u16 m, ofU16 (Vector.ofFn
    fun i : Fin 16 => BitVec.ofNat 16 (((toU16 a.values)[i].toNat + (toU16 b.values)[i].toNat) % 65536 % m))⟩ := by
  unfold Wire.add
  rw [ha]
  dsimp only
  unfold Wire.mapWithAsU16
  dsimp only
  rw [dassert_off, okb, ofFnM_ok _ (fun i : Fin 16 => BitVec.ofNat 16 (((toU16 a.values)[i].toNat + (toU16 b.values)[i].toNat) % 65536 % m))
    (fun i => by rw [remR_ok hm]; rfl), ha]
  rfl

theorem mul_words {a : Wire} {m x : Nat} (ha : a.domain = .u16 m) (hm : 0 < m) : Wire.mul false a x = .ok ⟨.u16 m, ofU16 (Vector.ofFn
    fun i : Fin 16 => BitVec.ofNat 16 ((toU16 a.values)[i].toNat * x % 4294967296 % m))⟩ := by
  unfold Wire.mul
  rw [ha]
  dsimp only
  unfold Wire.mapAsU16
  dsimp only
  rw [dassert_off, okb, ofFnM_ok _ (fun i : Fin 16 => BitVec.ofNat 16 ((toU16 a.values)[i].toNat * x % 4294967296 % m))
    (fun i => by
      have : mulR false 4294967296 (toU16 a.values)[i].toNat x = .ok ((toU16 a.values)[i].toNat * x % 4294967296) := by
        unfold mulR
        split
        · rw [Nat.mod_eq_of_lt ‹_›]
        · rfl
      rw [this]
      simp only [okb]
      rw [remR_ok hm]; rfl), ha]
  rfl

theorem words_color (m : Nat) (v : Fin 16 → BitVec 16) : (⟨.u16 m, ofU16 (Vector.ofFn v)⟩ : Wire).color = (v 15).toNat := by
  simp [Wire.color, toU16_ofU16]

/-- The colour of the label for a value of a large domain. -/
theorem encoded_color {z δ : Wire} {m x : Nat} (hz : z.domain = .u16 m) (hδ : δ.domain = .u16 m) (h1 : δ.color = 1) (hm : x < m)
    (hb : m < 65536) : ∃ dx h, Wire.mul false δ x = .ok dx ∧ Wire.add false z dx = .ok h ∧
      h.color = (x + z.color) % 65536 % m := by
  refine ⟨_, _, mul_words hδ (by omega), add_words hz (by omega), ?_⟩
  rw [words_color]
  have h1' : (toU16 δ.values)[15].toNat = 1 := by
    unfold Wire.color at h1; rw [hδ] at h1; exact h1
  have hc : z.color = (toU16 z.values)[15].toNat := by unfold Wire.color; rw [hz]
  rw [toU16_ofU16]
  simp only [Fin.getElem_fin, Vector.getElem_ofFn]
  rw [hc]
  have : ((15 : Fin 16) : Nat) = 15 := rfl
  simp only [this, BitVec.toNat_ofNat, h1']
  have e1 : 1 * x % 4294967296 % m = x := by rw [Nat.one_mul, Nat.mod_eq_of_lt (show x < 4294967296 by omega), Nat.mod_eq_of_lt hm]
  rw [e1, Nat.mod_eq_of_lt (show x < 2 ^ 16 by omega), Nat.add_comm x]
  have := Nat.mod_lt (((toU16 z.values)[15].toNat + x) % 65536) (show 0 < m by omega)
  exact Nat.mod_eq_of_lt (by omega)

end FP
