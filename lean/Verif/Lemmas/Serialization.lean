import Verif.Model.Serialization
namespace Cmm.Ser

@[simp] theorem ok_bind {ε α β : Type} (a : α) (f : α → Except ε β) : (Except.ok a >>= f) = f a := rfl
@[simp] theorem error_bind {ε α β : Type} (e : ε) (f : α → Except ε β) :
    ((Except.error e : Except ε α) >>= f) = .error e := rfl

theorem decInt_encInt (v : BitVec 32) (rest : List Byte) : decInt (encInt v ++ rest) = .ok (v, rest) := by
  simp only [encInt, List.cons_append, List.nil_append, decInt]
  congr 2
  apply BitVec.eq_of_toNat_eq
  simp only [BitVec.toNat_ofNat]
  have := v.isLt
  omega

theorem decDouble_encDouble (v : F64) (rest : List Byte) : decDouble (encDouble v ++ rest) = .ok (v, rest) := by
  simp only [encDouble, List.cons_append, List.nil_append, decDouble]
  congr 2
  apply BitVec.eq_of_toNat_eq
  simp only [BitVec.toNat_ofNat]
  have := v.isLt
  omega

theorem decBool_encBool (v : Bool) (rest : List Byte) : decBool (encBool v ++ rest) = .ok (v, rest) := by
  cases v <;> simp [encBool, decBool]

theorem decVec4_encVec4 (v : V4) (rest : List Byte) : decVec4 (encVec4 v ++ rest) = .ok (v, rest) := by
  simp [decVec4, encVec4, List.append_assoc, decDouble_encDouble]

theorem decN_flatMap {α : Type} (e : α → List Byte) (d : Dec α)
    (h : ∀ v rest, d (e v ++ rest) = .ok (v, rest)) (l : List α) (rest : List Byte) :
    decN d l.length (l.flatMap e ++ rest) = .ok (l, rest) := by
  induction l with
  | nil => simp [decN]
  | cons a l ih => simp [decN, List.append_assoc, h, ih]

theorem toInt_ofNat_small (n : Nat) (h : n < 2 ^ 31) :
    ¬ (BitVec.ofNat 32 n).toInt < 0 ∧ (BitVec.ofNat 32 n).toNat = n := by
  have h1 : (BitVec.ofNat 32 n).toNat = n := by
    simp only [BitVec.toNat_ofNat]; omega
  refine ⟨?_, h1⟩
  rw [BitVec.toInt_eq_toNat_cond, h1]
  split <;> omega

theorem decVec_encVec {α : Type} (e : α → List Byte) (d : Dec α)
    (h : ∀ v rest, d (e v ++ rest) = .ok (v, rest)) (l : List α) (hl : l.length < 2 ^ 31) (rest : List Byte) :
    decVec d (encVec e l ++ rest) = .ok (l, rest) := by
  obtain ⟨h1, h2⟩ := toInt_ofNat_small l.length hl
  simp only [decVec, encVec, List.append_assoc, decInt_encInt, ok_bind, h1, if_false, h2]
  exact decN_flatMap e d h l rest

/-- A decoder is local: on success or exception, further bytes do not change the outcome. -/
def Local {α : Type} (d : Dec α) : Prop :=
  ∀ s t, (∀ v r, d s = .ok (v, r) → d (s ++ t) = .ok (v, r ++ t)) ∧
    (d s = .error .throws → d (s ++ t) = .error .throws)

theorem Local.bind {α β : Type} {d : Dec α} {f : α → Dec β} (hd : Local d) (hf : ∀ a, Local (f a)) :
    Local (fun s => d s >>= fun p => f p.1 p.2) := by
  intro s t
  obtain ⟨h1, h2⟩ := hd s t
  cases hds : d s with
  | error e =>
    cases e with
    | ub => simp [hds]
    | throws => simp [hds, h2 hds]
  | ok p =>
    obtain ⟨v, r⟩ := p
    simp only [hds, ok_bind, h1 v r hds]
    exact hf v r t

theorem Local.pure {α : Type} (a : α) : Local (fun s => .ok (a, s)) := by
  intro s t
  simp

theorem local_decInt : Local decInt := by
  intro s t
  rcases s with _ | ⟨b0, _ | ⟨b1, _ | ⟨b2, _ | ⟨b3, s⟩⟩⟩⟩ <;> simp [decInt] <;> rintro _ _ rfl rfl <;> simp

theorem local_decDouble : Local decDouble := by
  intro s t
  rcases s with _ | ⟨b0, _ | ⟨b1, _ | ⟨b2, _ | ⟨b3, _ | ⟨b4, _ | ⟨b5, _ | ⟨b6, _ | ⟨b7, s⟩⟩⟩⟩⟩⟩⟩⟩ <;>
    simp [decDouble] <;> rintro _ _ rfl rfl <;> simp

theorem local_decBool : Local decBool := by
  intro s t
  cases s <;> simp [decBool]

theorem local_decVec4 : Local decVec4 := by
  unfold decVec4
  refine Local.bind local_decDouble fun x => Local.bind local_decDouble fun y =>
    Local.bind local_decDouble fun z => Local.bind local_decDouble fun w => Local.pure _

theorem local_decN {α : Type} {d : Dec α} (hd : Local d) (n : Nat) : Local (decN d n) := by
  induction n with
  | zero => exact Local.pure _
  | succ n ih =>
    show Local (fun s => d s >>= fun p => decN d n p.2 >>= fun q => .ok (p.1 :: q.1, q.2))
    exact Local.bind (f := fun v s => decN d n s >>= fun q => .ok (v :: q.1, q.2)) hd
      fun v => Local.bind (f := fun vs s => .ok (v :: vs, s)) ih fun vs => Local.pure _

theorem local_error {α : Type} (e : Fault) : Local (fun _ => (.error e : Except Fault (α × List Byte))) := by
  intro s t; simp

theorem local_decVec {α : Type} {d : Dec α} (hd : Local d) : Local (decVec d) := by
  unfold decVec
  refine Local.bind (f := fun size s => if size.toInt < 0 then .error .throws else decN d size.toNat s)
    local_decInt fun size => ?_
  by_cases h : size.toInt < 0
  · simp only [h, if_true]; exact local_error _
  · simp only [h, if_false]; exact local_decN hd _

theorem local_mkCurve (cpts : List V4) (degree : BitVec 32) (knots : List F64) (p : Bool) :
    Local (fun s => mkCurve cpts degree knots p >>= fun c => .ok (c, s)) := by
  intro s t
  unfold mkCurve
  split <;> simp

theorem local_decVectorVec4 : Local decVectorVec4 := local_decVec local_decVec4
theorem local_decVectorDouble : Local decVectorDouble := local_decVec local_decDouble

theorem local_decCurve : Local decCurve := by
  unfold decCurve
  exact Local.bind local_decInt fun x => Local.bind local_decBool fun y =>
    Local.bind local_decVectorVec4 fun z => Local.bind local_decVectorDouble fun w =>
    local_mkCurve z x w y

theorem local_decCurves : Local decCurves := local_decVec local_decCurve

/-- Curves the encoder can handle and the decoder can construct. -/
def Encodable (c : Curve) : Prop :=
  c.cpts ≠ [] ∧ c.knots ≠ [] ∧ c.cpts.length < 2 ^ 31 ∧ c.knots.length < 2 ^ 31

theorem decCurve_encCurve (eqd : F64 → F64 → Bool) (c : Curve) (hc : Encodable c) (p : Bool)
    (hp : isPeriodic eqd c = some p) (b : List Byte) (hb : encCurve eqd c = some b) (rest : List Byte) :
    decCurve (b ++ rest) = .ok ({ c with periodic := p }, rest) := by
  obtain ⟨h1, h2, h3, h4⟩ := hc
  simp only [encCurve, hp, Option.bind_eq_bind, Option.bind_some, Option.some.injEq] at hb
  subst hb
  have hv : decVectorVec4 (encVectorVec4 c.cpts ++ (encVectorDouble c.knots ++ rest)) =
      .ok (c.cpts, encVectorDouble c.knots ++ rest) := decVec_encVec _ _ decVec4_encVec4 _ h3 _
  have hk : decVectorDouble (encVectorDouble c.knots ++ rest) = .ok (c.knots, rest) :=
    decVec_encVec _ _ decDouble_encDouble _ h4 _
  simp [decCurve, List.append_assoc, decInt_encInt, decBool_encBool, hv, hk, mkCurve, h1, h2]

theorem decN_encCurveList (eqd : F64 → F64 → Bool) (cs : List Curve) (hc : ∀ c ∈ cs, Encodable c)
    (b : List Byte) (hb : encCurveList eqd cs = some b) (rest : List Byte) :
    decN decCurve cs.length (b ++ rest) =
      .ok (cs.map (fun c => { c with periodic := (isPeriodic eqd c).getD false }), rest) := by
  induction cs generalizing b with
  | nil => simp [encCurveList] at hb; subst hb; simp [decN]
  | cons c cs ih =>
    simp only [encCurveList, Option.bind_eq_bind, Option.bind_eq_some_iff] at hb
    obtain ⟨b1, hb1, b2, hb2, hb3⟩ := hb
    simp only [Option.some.injEq] at hb3
    subst hb3
    have hp : ∃ p, isPeriodic eqd c = some p := by
      cases h : isPeriodic eqd c with
      | none => simp [encCurve, h] at hb1
      | some p => exact ⟨p, rfl⟩
    obtain ⟨p, hp⟩ := hp
    have := decCurve_encCurve eqd c (hc c (by simp)) p hp b1 hb1 (b2 ++ rest)
    simp [decN, List.append_assoc, this, ih (fun c h => hc c (by simp [h])) b2 hb2, hp]

theorem decCurves_serialize (eqd : F64 → F64 → Bool) (cs : List Curve) (hl : cs.length < 2 ^ 31)
    (hc : ∀ c ∈ cs, Encodable c) (b : List Byte) (hb : serializeCurves eqd cs = some b) (rest : List Byte) :
    decCurves (b ++ rest) =
      .ok (cs.map (fun c => { c with periodic := (isPeriodic eqd c).getD false }), rest) := by
  simp only [serializeCurves, Option.bind_eq_bind, Option.bind_eq_some_iff, Option.some.injEq] at hb
  obtain ⟨b1, hb1, rfl⟩ := hb
  obtain ⟨h1, h2⟩ := toInt_ofNat_small cs.length hl
  simp only [decCurves, decVec, List.append_assoc, decInt_encInt, ok_bind, h1, if_false, h2]
  exact decN_encCurveList eqd cs hc b1 hb1 rest

theorem isPeriodicFrom_spec (eqd : F64 → F64 → Bool) (cpts : List V4) (degree : Nat) (hd : degree ≤ cpts.length)
    (fuel j : Nat) (hj : j + fuel ≤ degree) :
    ∃ p, isPeriodicFrom eqd cpts degree fuel j = some p ∧
      (p = true ↔ ∀ i, j ≤ i → i < j + fuel → ∃ a b, cpts[i]? = some a ∧
        cpts[cpts.length - degree + i]? = some b ∧ sameV4 eqd a b = true) := by
  induction fuel generalizing j with
  | zero => exact ⟨true, rfl, by simp; intro i h1 h2; omega⟩
  | succ fuel ih =>
    have h1 : j < cpts.length := by omega
    have h2 : cpts.length - degree + j < cpts.length := by omega
    unfold isPeriodicFrom
    simp only [hd, if_true, List.getElem?_eq_getElem h1, List.getElem?_eq_getElem h2]
    by_cases hs : sameV4 eqd cpts[j] cpts[cpts.length - degree + j] = true
    · simp only [hs, if_true]
      obtain ⟨p, hp, hiff⟩ := ih (j + 1) (by omega)
      refine ⟨p, hp, hiff.trans ⟨?_, ?_⟩⟩
      · intro h i hi1 hi2
        by_cases hij : i = j
        · subst hij
          exact ⟨_, _, List.getElem?_eq_getElem h1, List.getElem?_eq_getElem h2, hs⟩
        · exact h i (by omega) (by omega)
      · intro h i hi1 hi2
        exact h i (by omega) (by omega)
    · refine ⟨false, by simp [hs], ?_⟩
      simp only [Bool.false_eq_true, false_iff]
      intro h
      obtain ⟨a, b, ha, hb, hab⟩ := h j (Nat.le_refl _) (by omega)
      rw [List.getElem?_eq_getElem h1] at ha
      rw [List.getElem?_eq_getElem h2] at hb
      cases ha; cases hb
      exact hs hab

theorem isPeriodic_defined (eqd : F64 → F64 → Bool) (c : Curve) (h : c.degree.toInt ≤ c.cpts.length) :
    ∃ p, isPeriodic eqd c = some p := by
  unfold isPeriodic
  by_cases h0 : c.degree.toInt ≤ 0
  · simp [h0]
  · simp only [h0, if_false]
    have : c.degree.toNat ≤ c.cpts.length := by
      rw [BitVec.toInt_eq_toNat_cond] at h h0
      split at h <;> omega
    obtain ⟨p, hp, _⟩ := isPeriodicFrom_spec eqd c.cpts c.degree.toNat this c.degree.toNat 0 (by omega)
    exact ⟨p, hp⟩

theorem encCurveList_defined (eqd : F64 → F64 → Bool) (cs : List Curve)
    (h : ∀ c ∈ cs, c.degree.toInt ≤ c.cpts.length) : ∃ b, encCurveList eqd cs = some b := by
  induction cs with
  | nil => exact ⟨[], rfl⟩
  | cons c cs ih =>
    obtain ⟨b, hb⟩ := ih fun c hc => h c (by simp [hc])
    obtain ⟨p, hp⟩ := isPeriodic_defined eqd c (h c (by simp))
    exact ⟨_, by simp [encCurveList, encCurve, hp, hb]; rfl⟩

theorem length_encVec {α : Type} (e : α → List Byte) (k : Nat) (h : ∀ v, (e v).length = k) (l : List α) :
    (encVec e l).length = 4 + k * l.length := by
  have : (l.flatMap e).length = k * l.length := by
    induction l with
    | nil => simp
    | cons a l ih => simp [h, ih, Nat.mul_add]; omega
  simp [encVec, encInt, this]; omega

theorem length_encCurve (eqd : F64 → F64 → Bool) (c : Curve) (b : List Byte) (h : encCurve eqd c = some b) :
    b.length = 13 + 32 * c.cpts.length + 8 * c.knots.length := by
  simp only [encCurve, Option.bind_eq_bind, Option.bind_eq_some_iff, Option.some.injEq] at h
  obtain ⟨p, _, rfl⟩ := h
  have h1 := length_encVec encVec4 32 (by intro v; simp [encVec4, encDouble]) c.cpts
  have h2 := length_encVec encDouble 8 (by intro v; simp [encDouble]) c.knots
  simp only [List.length_append, encVectorVec4, encVectorDouble, h1, h2]
  simp [encInt, encBool]
  omega

theorem prefix_ub {α : Type} {d : Dec α} (hd : Local d) {b : List Byte} {v : α} (h : d b = .ok (v, []))
    {p t : List Byte} (hb : b = p ++ t) (ht : t ≠ []) : d p = .error .ub := by
  obtain ⟨h1, h2⟩ := hd p t
  cases hp : d p with
  | ok q =>
    obtain ⟨w, r⟩ := q
    have := h1 w r hp
    rw [← hb, h] at this
    simp at this
    exact absurd this.2.2 ht
  | error e =>
    cases e with
    | ub => rfl
    | throws =>
      have := h2 hp
      rw [← hb, h] at this
      simp at this

end Cmm.Ser
