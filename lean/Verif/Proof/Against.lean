import Verif.Proof.OT
import Mathlib.GroupTheory.OrderOfElement
import Mathlib.Tactic.Abel
/-
A party against an arbitrary peer.
-/
namespace FP

variable {α β γ δ : Type}

theorem against_send (m : Bytes) (p : Proc α) (inp : List Bytes) :
    (Proc.send m p).against inp = (m :: (p.against inp).1, (p.against inp).2) := rfl

theorem against_sendAll (ms : List Bytes) (k : Unit → Proc α) (inp : List Bytes) :
    (sendAll ms >>= k).against inp = (ms ++ ((k ()).against inp).1, ((k ()).against inp).2) := by
  induction ms with
  | nil => rfl
  | cons m ms ih =>
    have : ((sendAll (m :: ms)) >>= k) = .send m (sendAll ms >>= k) := rfl
    rw [this, against_send, ih]; rfl

/-- What the receiving loop does with the incoming messages. -/
theorem against_recvEach (n : Nat) (f : Bytes → R α) (β : Type) (inp : List Bytes) :
    (∃ as, n ≤ inp.length ∧ (inp.take n).mapM f = .ok as ∧ ∀ k : List α → Proc β,
      (recvEach n f >>= k).against inp = (k as).against (inp.drop n)) ∨
    (∃ r, ∀ k' : List α → Proc β, (recvEach n f >>= k').against inp = ([], r)) := by
  induction n generalizing inp with
  | zero => exact .inl ⟨[], by simp, rfl, fun _ => rfl⟩
  | succ n ih =>
    have e : ∀ k : List α → Proc β, (recvEach (n + 1) f >>= k) = .recv fun m => Proc.ofR (f m) >>= fun a =>
        recvEach n f >>= fun as => k (a :: as) := by
      intro k
      show Proc.recv (fun m => _) = _
      congr 1
      funext m
      show (((Proc.ofR (f m) >>= fun a => recvEach n f >>= fun as => pure (a :: as)) : Proc (List α)) >>= k) = _
      rw [bindP_assoc]
      congr 1
      funext a
      rw [bindP_assoc]
      rfl
    cases inp with
    | nil => exact .inr ⟨none, fun k' => by rw [e]; rfl⟩
    | cons m inp =>
      cases hf : f m with
      | error x =>
        refine .inr ⟨some (.error x), fun k' => ?_⟩
        rw [e]
        show (Proc.ofR (f m) >>= fun a => recvEach n f >>= fun as => k' (a :: as)).against inp = _
        rw [hf]; rfl
      | ok a =>
        have e' : ∀ k : List α → Proc β, (recvEach (n + 1) f >>= k).against (m :: inp) =
            (recvEach n f >>= fun as => k (a :: as)).against inp := by
          intro k
          rw [e]
          show (Proc.ofR (f m) >>= fun a => recvEach n f >>= fun as => k (a :: as)).against inp = _
          rw [hf]; rfl
        rcases ih inp with ⟨as, h1, h2, h3⟩ | ⟨r, h⟩
        · refine .inl ⟨a :: as, by simp; omega, ?_, ?_⟩
          · rw [List.take_succ_cons, List.mapM_cons, hf, okb, h2]; rfl
          · intro k; rw [e', h3]; rfl
        · exact .inr ⟨r, fun k' => by rw [e', h]⟩

theorem against_recv_nosend {f : Bytes → R α} (inp : List Bytes) :
    ((recvP >>= fun m => (liftM (f m) : Proc α)).against inp).1 = [] := by
  cases inp with
  | nil => rfl
  | cons m inp =>
    show ((liftM (f m) : Proc α).against inp).1 = []
    cases f m <;> rfl

/-! ### Group facts for the base OT -/

/-- The answer of the receiver to the key `A`. -/
def coAnswer (C : Curve) (A : C.Pt) (c : Bool) (b : Nat) : C.Pt :=
  if c then A + b • C.base else b • C.base

theorem coAnswer_mem (C : Curve) {A : C.Pt} (hA : A ∈ AddSubgroup.zmultiples C.base) (c : Bool) (b : Nat) :
    coAnswer C A c b ∈ AddSubgroup.zmultiples C.base := by
  have hb : b • C.base ∈ AddSubgroup.zmultiples C.base := AddSubgroup.nsmul_mem _ (AddSubgroup.mem_zmultiples _) b
  cases c with
  | false => exact hb
  | true => exact AddSubgroup.add_mem _ hA hb

theorem coAnswer_unique (C : Curve) (hfin : IsOfFinAddOrder C.base) {A : C.Pt}
    (hA : A ∈ AddSubgroup.zmultiples C.base) (c : Bool) {B : C.Pt}
    (hB : B ∈ AddSubgroup.zmultiples C.base) :
    ∃! b : Fin (addOrderOf C.base), coAnswer C A c b = B := by
  have key : ∀ P ∈ AddSubgroup.zmultiples C.base, ∃! b : Fin (addOrderOf C.base), (b : Nat) • C.base = P := by
    intro P hP
    let e := finEquivZMultiples hfin
    refine ⟨e.symm ⟨P, hP⟩, ?_, ?_⟩
    · have h : e (e.symm ⟨P, hP⟩) = ⟨P, hP⟩ := e.apply_symm_apply _
      have h2 : e (e.symm ⟨P, hP⟩) = ⟨((e.symm ⟨P, hP⟩ : Fin _) : Nat) • C.base, _⟩ := finEquivZMultiples_apply hfin
      rw [h2] at h
      exact congrArg Subtype.val h
    · intro b hb
      rw [Equiv.eq_symm_apply]
      show finEquivZMultiples hfin b = _
      rw [finEquivZMultiples_apply hfin]
      exact Subtype.ext hb
  cases c with
  | false => exact key B hB
  | true =>
    obtain ⟨b, hb, hu⟩ := key (B - A) (AddSubgroup.sub_mem _ hB hA)
    refine ⟨b, ?_, fun b' hb' => hu b' ?_⟩
    · show A + (b : Nat) • C.base = B
      have hb : (b : Nat) • C.base = B - A := hb
      rw [hb]; abel
    · have : A + (b' : Nat) • C.base = B := hb'
      show (b' : Nat) • C.base = B - A
      rw [← this]; abel

theorem coAnswer_equiv (C : Curve) (hfin : IsOfFinAddOrder C.base) {A : C.Pt}
    (hA : A ∈ AddSubgroup.zmultiples C.base) (c c' : Bool) :
    ∃ e : Fin (addOrderOf C.base) ≃ Fin (addOrderOf C.base),
      ∀ b : Fin (addOrderOf C.base), coAnswer C A c b = coAnswer C A c' (e b) := by
  have h : ∀ c c' (b : Fin (addOrderOf C.base)), ∃! b' : Fin (addOrderOf C.base),
      coAnswer C A c' b' = coAnswer C A c b :=
    fun c c' b => coAnswer_unique C hfin hA c' (coAnswer_mem C hA c b)
  choose f hf hu using h
  refine ⟨⟨f c c', f c' c, fun b => ?_, fun b => ?_⟩, fun b => (hf c c' b).symm⟩
  · have h1 := hu c' c (f c c' b) b
    exact (h1 (hf c c' b).symm).symm
  · have h1 := hu c c' (f c' c b) b
    exact (h1 (hf c' c b).symm).symm

theorem compress_inj (C : Curve) {P Q : C.Pt} (h : C.compress P = C.compress Q) : P = Q := by
  have := congrArg C.decompress h
  rw [C.decompress_compress, C.decompress_compress] at this
  injection this

/-- The point in message `i`, if there is one. -/
def pointAt (C : Curve) (theirs : List WireBytes) (i : Nat) : C.Pt :=
  (theirs[i]?.bind C.decompress).getD 0

theorem coRespondAll_points (C : Curve) (X : Crypto) (choices : List Bool) (b : Nat → Nat)
    (theirs : List WireBytes) (hl : theirs.length = choices.length)
    (hd : ∀ v ∈ theirs, (C.decompress v).isSome) :
    ∃ pk, coRespondAll C X choices b theirs = .ok pk ∧
        pk.map Prod.fst = (List.range choices.length).map fun i =>
          C.compress (coAnswer C (pointAt C theirs i) (choices.getD i false) (b i)) := by
  obtain ⟨pk, h1, h2⟩ := mapM_exists (l := theirs.zipIdx)
    (f := fun p : WireBytes × Nat => coRespond C X choices (b p.2) p.2 p.1)
    (P := fun (p : WireBytes × Nat) x => x.1 = C.compress (coAnswer C (pointAt C theirs p.2)
      (choices.getD p.2 false) (b p.2))) (by
      rintro ⟨v, i⟩ hp
      rw [mem_zipIdx_iff] at hp
      have hi := (List.getElem?_eq_some_iff.mp hp).1
      have hi' : i < choices.length := by omega
      obtain ⟨P, hP⟩ := Option.isSome_iff_exists.mp (hd v (List.mem_of_getElem? hp))
      simp only
      unfold coRespond
      rw [hP, unwrapR, okb, idxR_ok (a := choices[i]) (by simp [hi']), okb]
      refine ⟨_, rfl, ?_⟩
      simp [coAnswer, hi', pointAt, hp, hP])
  refine ⟨pk, h1, ?_⟩
  have hlen := h2.length_eq
  rw [List.length_zipIdx, hl] at hlen
  apply List.ext_getElem (by simp [hlen])
  intro i g1 g2
  have := h2.get (i := i) (by simp; simp at g2; omega) (by simpa using g1)
  simpa using this

theorem coRespondAll_bad (C : Curve) (X : Crypto) (choices : List Bool) (b : Nat → Nat)
    (theirs : List WireBytes) (hl : theirs.length = choices.length)
    (hd : ∃ v ∈ theirs, C.decompress v = none) :
    coRespondAll C X choices b theirs = .error .panic := by
  unfold coRespondAll
  have gen : ∀ (l : List (WireBytes × Nat)), (∀ p ∈ l, p.2 < choices.length) →
      (∃ p ∈ l, C.decompress p.1 = none) →
      l.mapM (fun p => coRespond C X choices (b p.2) p.2 p.1) = .error .panic := by
    intro l
    induction l with
    | nil => rintro - ⟨p, hp, -⟩; cases hp
    | cons p l ih =>
      intro hlt hex
      rw [List.mapM_cons]
      cases hdp : C.decompress p.1 with
      | none =>
        have : coRespond C X choices (b p.2) p.2 p.1 = .error .panic := by
          unfold coRespond; rw [hdp]; rfl
        rw [this]; rfl
      | some P =>
        have hi := hlt p (by simp)
        have : ∃ x, coRespond C X choices (b p.2) p.2 p.1 = .ok x := by
          unfold coRespond; rw [hdp, unwrapR, okb, idxR_ok (a := choices[p.2]) (by simp [hi]), okb]
          exact ⟨_, rfl⟩
        obtain ⟨x, hx⟩ := this
        rw [hx, okb, ih (fun q hq => hlt q (by simp [hq]))]
        · rfl
        · obtain ⟨q, hq, hqd⟩ := hex
          rcases List.mem_cons.mp hq with rfl | hq
          · rw [hdp] at hqd; cases hqd
          · exact ⟨q, hq, hqd⟩
  apply gen
  · rintro ⟨v, i⟩ hp
    rw [mem_zipIdx_iff] at hp
    have := (List.getElem?_eq_some_iff.mp hp).1
    simp only; omega
  · obtain ⟨v, hv, hvd⟩ := hd
    obtain ⟨i, hi, rfl⟩ := List.getElem_of_mem hv
    exact ⟨(theirs[i], i), by rw [mem_zipIdx_iff]; simp [hi], hvd⟩

/-- The receiver after round 1. -/
def coCont (C : Curve) (X : Crypto) (b : Nat → Nat) (choices : List Bool) (theirs : List WireBytes) :
    Proc (List Bytes) := do
  debugAssertR X.dbg (choices.length = theirs.length)
  let pk ← coRespondAll C X choices b theirs
  sendAll ((pk.map Prod.fst).map (·.toList))
  let payload ← recvP
  let payload ← Codec.payload.deserialize payload
  coDecryptAll X choices (pk.map Prod.snd) payload

theorem coReceiver_eq (C : Curve) (X : Crypto) (b : Nat → Nat) (choices : List Bool) :
    coReceiver C X b choices =
      validateProperties ⟨choices.length, "Chou-Orlandi"⟩ >>= fun _ =>
        recvEach choices.length fromSlice >>= coCont C X b choices := rfl

/-- `validate_properties` against an arbitrary peer. -/
theorem against_validate (pb : TransactionProperties) (β : Type) (inp : List Bytes) :
    (∃ m rest, inp = m :: rest ∧ Codec.properties.deserialize m = .ok pb ∧ ∀ k : Unit → Proc β,
      (validateProperties pb >>= k).against inp =
        (Codec.properties.enc pb :: ((k ()).against rest).1, ((k ()).against rest).2)) ∨
    (∃ r, (∀ x, r ≠ some (.ok x)) ∧ ∀ k : Unit → Proc β, (validateProperties pb >>= k).against inp =
      ([Codec.properties.enc pb], r)) := by
  cases inp with
  | nil => exact .inr ⟨none, by simp, fun k => rfl⟩
  | cons m rest =>
    have e : ∀ k : Unit → Proc β, (validateProperties pb >>= k).against (m :: rest) =
        (Codec.properties.enc pb :: (((Proc.ofR (Codec.properties.deserialize m) >>= fun pb2 =>
          if pb2 ≠ pb then .fail (.err .badProperties) else .ret ()) >>= k).against rest).1,
          (((Proc.ofR (Codec.properties.deserialize m) >>= fun pb2 =>
          if pb2 ≠ pb then .fail (.err .badProperties) else .ret ()) >>= k).against rest).2) := fun k => rfl
    cases hm : Codec.properties.deserialize m with
    | error x =>
      refine .inr ⟨some (.error x), by simp, fun k => ?_⟩
      rw [e, hm]; rfl
    | ok pb2 =>
      by_cases h : pb2 = pb
      · subst h
        refine .inl ⟨m, rest, rfl, hm, fun k => ?_⟩
        rw [e, hm, ofR_ok, ret_bind, if_neg (by simp), ret_bind]
      · refine .inr ⟨some (.error (.err .badProperties)), by simp, fun k => ?_⟩
        rw [e, hm, ofR_ok, ret_bind, if_pos h]; rfl

/-- Sent messages of a Chou-Orlandi receiver, for an arbitrary peer: either they do not depend on
choices and secrets at all, or they are the answers to `n` valid points. -/
theorem coReceiver_sent (C : Curve) (X : Crypto) (n : Nat) (inp : List Bytes) :
    (∃ s, ∀ b choices, choices.length = n → ((coReceiver C X b choices).against inp).1 = s) ∨
    (∃ m rest theirs, inp = m :: rest ∧ n ≤ rest.length ∧
      Codec.properties.deserialize m = .ok ⟨n, "Chou-Orlandi"⟩ ∧
      (rest.take n).mapM fromSlice = .ok theirs ∧
      (∀ v ∈ theirs, (C.decompress v).isSome) ∧
      ∀ b choices, choices.length = n → ((coReceiver C X b choices).against inp).1 =
        Codec.properties.enc ⟨n, "Chou-Orlandi"⟩ :: (List.range n).map fun i =>
          (C.compress (coAnswer C (pointAt C theirs i) (choices.getD i false) (b i))).toList) := by
  rcases against_validate ⟨n, "Chou-Orlandi"⟩ (List Bytes) inp with ⟨m, rest, rfl, hm, hv⟩ | ⟨r, -, hr⟩
  · rcases against_recvEach n fromSlice (List Bytes) rest with ⟨theirs, h1, h2, h3⟩ | ⟨r, hr⟩
    · have hlen : theirs.length = n := by
        rw [mapM_length h2, List.length_take]; omega
      by_cases hd : ∃ v ∈ theirs, C.decompress v = none
      · refine .inl ⟨[Codec.properties.enc ⟨n, "Chou-Orlandi"⟩], fun b choices h => ?_⟩
        rw [coReceiver_eq, h, hv, h3]
        have : coCont C X b choices theirs = .fail .panic := by
          unfold coCont
          rw [debugAssertR_true (by simp [h, hlen]), coRespondAll_bad C X choices b theirs (by omega) hd]
          rfl
        rw [this]; rfl
      · have hd' : ∀ v ∈ theirs, (C.decompress v).isSome := by
          intro v hv
          rw [Option.isSome_iff_ne_none]
          exact fun h => hd ⟨v, hv, h⟩
        refine .inr ⟨m, rest, theirs, rfl, h1, hm, h2, hd', fun b choices h => ?_⟩
        rw [coReceiver_eq, h, hv, h3]
        obtain ⟨pk, hpk, hfst⟩ := coRespondAll_points C X choices b theirs (by omega) hd'
        have : coCont C X b choices theirs = (sendAll ((pk.map Prod.fst).map (·.toList)) >>= fun _ =>
            recvP >>= fun m => (liftM ((do
              let payload ← Codec.payload.deserialize m
              coDecryptAll X choices (pk.map Prod.snd) payload : R (List Bytes))) : Proc (List Bytes))) := by
          unfold coCont
          rw [debugAssertR_true (by simp [h, hlen]), hpk, liftM_ok, ret_bind, liftM_ok, ret_bind]
          congr 1
          funext _
          rw [recvP_bind, recvP_bind]
          congr 1
          funext m
          cases Codec.payload.deserialize m <;> rfl
        rw [this, against_sendAll, against_recv_nosend, List.append_nil, hfst, h]
        simp
    · refine .inl ⟨[Codec.properties.enc ⟨n, "Chou-Orlandi"⟩], fun b choices h => ?_⟩
      rw [coReceiver_eq, h, hv, hr]
  · refine .inl ⟨[Codec.properties.enc ⟨n, "Chou-Orlandi"⟩], fun b choices h => ?_⟩
    rw [coReceiver_eq, h, hr]

theorem mapM_mem {α β} {f : α → R β} {l : List α} {bs : List β} (h : l.mapM f = .ok bs) {b : β}
    (hb : b ∈ bs) : ∃ a ∈ l, f a = .ok b := by
  obtain ⟨i, hi, rfl⟩ := List.getElem_of_mem hb
  have hl : i < l.length := by rw [← mapM_length h]; exact hi
  obtain ⟨b', hb', hf⟩ := mapM_getElem? h i l[i] (by simp [hl])
  refine ⟨_, List.getElem_mem hl, ?_⟩
  rw [List.getElem?_eq_getElem hi] at hb'
  injection hb' with hb'
  rw [hf, hb']

theorem coReceiver_sent_one (C : Curve) (X : Crypto) (A : C.Pt) (c : Bool) (b : Nat) :
    ((coReceiver C X (fun _ => b) [c]).against
        [Codec.properties.enc ⟨1, "Chou-Orlandi"⟩, (C.compress A).toList]).1 =
      [Codec.properties.enc ⟨1, "Chou-Orlandi"⟩, (C.compress (coAnswer C A c b)).toList] := by
  have hd : Codec.properties.deserialize (Codec.properties.enc ⟨1, "Chou-Orlandi"⟩) =
      .ok ⟨1, "Chou-Orlandi"⟩ := deserialize_ok properties_rt ⟨by decide, co_name⟩
  rw [coReceiver_eq]
  rcases against_validate ⟨1, "Chou-Orlandi"⟩ (List Bytes)
    [Codec.properties.enc ⟨1, "Chou-Orlandi"⟩, (C.compress A).toList] with ⟨m, rest, he, -, hv⟩ | ⟨r, hr, hk⟩
  · cases he
    rw [show [c].length = 1 from rfl, hv]
    refine congrArg₂ List.cons rfl ?_
    simp only [recvEach, recvP_bind, recv_bind, Proc.against, fromSlice_toList, liftM_ok, ret_bind, pureP_bind]
    have hr : coRespondAll C X [c] (fun _ => b) [C.compress A] =
        .ok [(C.compress (coAnswer C A c b), X.sha256 (C.compress (b • A)).toList)] := by
      unfold coRespondAll
      have : coRespond C X [c] b 0 (C.compress A) =
          .ok (C.compress (coAnswer C A c b), X.sha256 (C.compress (b • A)).toList) := by
        unfold coRespond
        rw [C.decompress_compress]; rfl
      show (do let x ← coRespond C X [c] b 0 (C.compress A); let l ← pure []; pure (x :: l)) = _
      rw [this]; rfl
    unfold coCont
    rw [debugAssertR_true (by simp), hr]; rfl
  · exfalso
    have := hk (fun _ => .ret [])
    have e : ((validateProperties ⟨1, "Chou-Orlandi"⟩ >>= fun _ => (.ret [] : Proc (List Bytes))).against
        [Codec.properties.enc ⟨1, "Chou-Orlandi"⟩, (C.compress A).toList]).2 = some (.ok []) := by
      show ((((Proc.ofR (Codec.properties.deserialize (Codec.properties.enc ⟨1, "Chou-Orlandi"⟩)) >>= fun pb2 =>
          if pb2 ≠ ⟨1, "Chou-Orlandi"⟩ then .fail (.err .badProperties) else .ret ()) : Proc Unit) >>= fun _ =>
          (.ret [] : Proc (List Bytes))).against [(C.compress A).toList]).2 = _
      rw [hd, ofR_ok, ret_bind, if_neg (by simp), ret_bind]; rfl
    rw [this] at e
    exact hr _ e

end FP
