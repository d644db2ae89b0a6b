import Verif.Lemmas.Serialization
/-!
Properties C01-C04 and C61 of serialization.h.
`eqd` is the `==` of C++ on doubles; the statements hold for any such relation.
-/
namespace Cmm.Ser

/-- A curve the library itself can hold: both vectors non-empty and shorter than `INT_MAX + 1`,
degree not above the number of control points. -/
structure Holdable (c : Curve) : Prop where
  cpts_ne : c.cpts ≠ []
  knots_ne : c.knots ≠ []
  cpts_lt : c.cpts.length < 2 ^ 31
  knots_lt : c.knots.length < 2 ^ 31
  degree_le : c.degree.toInt ≤ c.cpts.length

/-- The English meaning of `is_periodic()`: the first `degree` control points equal the last `degree` ones,
component by component under `==`. -/
def WrapsAround (eqd : F64 → F64 → Bool) (c : Curve) : Prop :=
  ∀ j : Nat, (j : Int) < c.degree.toInt →
    ∃ a b, c.cpts[j]? = some a ∧ c.cpts[c.cpts.length - c.degree.toNat + j]? = some b ∧
      eqd a.x b.x = true ∧ eqd a.y b.y = true ∧ eqd a.z b.z = true ∧ eqd a.w b.w = true

theorem Holdable.enc {c : Curve} (h : Holdable c) : Encodable c := ⟨h.1, h.2, h.3, h.4⟩

/-- `is_periodic()` is defined on every holdable curve and decides `WrapsAround`. -/
theorem C34_isPeriodic_iff (eqd : F64 → F64 → Bool) (c : Curve) (h : c.degree.toInt ≤ c.cpts.length) :
    ∃ p, isPeriodic eqd c = some p ∧ (p = true ↔ WrapsAround eqd c) := by
  unfold isPeriodic WrapsAround
  by_cases h0 : c.degree.toInt ≤ 0
  · refine ⟨true, by simp [h0], by simp; intro j hj; omega⟩
  · simp only [h0, if_false]
    have hdeg : c.degree.toInt = c.degree.toNat := by
      rw [BitVec.toInt_eq_toNat_cond] at h0 ⊢
      split at h0 <;> omega
    obtain ⟨p, hp, hiff⟩ := isPeriodicFrom_spec eqd c.cpts c.degree.toNat (by omega) c.degree.toNat 0 (by omega)
    refine ⟨p, hp, hiff.trans ⟨?_, ?_⟩⟩
    · intro H j hj
      obtain ⟨a, b, ha, hb, hs⟩ := H j (by omega) (by omega)
      simp [sameV4, V4.comp, and_assoc] at hs
      exact ⟨a, b, ha, hb, hs⟩
    · intro H j _ hj
      obtain ⟨a, b, ha, hb, hs⟩ := H j (by omega)
      refine ⟨a, b, ha, hb, ?_⟩
      simp [sameV4, V4.comp, and_assoc]
      exact hs

/-- C01. Every list of holdable curves is encoded, and decoding the bytes gives the same list in the same order with
identical degree, control points and knots; the flag that comes back is what `is_periodic()` said at write time. -/
theorem C01_curves_roundtrip (eqd : F64 → F64 → Bool) (cs : List Curve) (hl : cs.length < 2 ^ 31)
    (hc : ∀ c ∈ cs, Holdable c) :
    ∃ b out, serializeCurves eqd cs = some b ∧ deserializeCurves b = .ok out ∧
      out.length = cs.length ∧
      ∀ (i : Nat) (c o : Curve), cs[i]? = some c → out[i]? = some o →
        o.degree = c.degree ∧ o.cpts = c.cpts ∧ o.knots = c.knots ∧
        (o.periodic = true ↔ WrapsAround eqd c) := by
  obtain ⟨body, hbody⟩ := encCurveList_defined eqd cs fun c h => (hc c h).degree_le
  have hs : serializeCurves eqd cs = some (encInt (BitVec.ofNat 32 cs.length) ++ body) := by
    simp [serializeCurves, hbody]
  refine ⟨_, cs.map (fun c => { c with periodic := (isPeriodic eqd c).getD false }), hs, ?_, by simp, ?_⟩
  · have := decCurves_serialize eqd cs hl (fun c h => (hc c h).enc) _ hs []
    simp only [List.append_nil] at this
    simp [deserializeCurves, this]
  · intro i c o hi ho
    rw [List.getElem?_map, hi] at ho
    simp at ho
    subst ho
    obtain ⟨p, hp, hiff⟩ := C34_isPeriodic_iff eqd c (hc c (List.mem_of_getElem? hi)).degree_le
    refine ⟨rfl, rfl, rfl, ?_⟩
    simpa [hp] using hiff

/-- C01, the flag: the whole list survives bit for bit exactly when every stored flag agreed with `is_periodic()`. -/
theorem C01_identity_iff_flags_agree (eqd : F64 → F64 → Bool) (cs : List Curve) (hl : cs.length < 2 ^ 31)
    (hc : ∀ c ∈ cs, Holdable c) :
    ((serializeCurves eqd cs).map deserializeCurves = some (.ok cs)) ↔
      ∀ c ∈ cs, isPeriodic eqd c = some c.periodic := by
  obtain ⟨body, hbody⟩ := encCurveList_defined eqd cs fun c h => (hc c h).degree_le
  have hs : serializeCurves eqd cs = some (encInt (BitVec.ofNat 32 cs.length) ++ body) := by
    simp [serializeCurves, hbody]
  have h1 := decCurves_serialize eqd cs hl (fun c h => (hc c h).enc) _ hs []
  simp only [List.append_nil] at h1
  simp only [hs, Option.map_some, deserializeCurves, h1, ok_bind, Option.some.injEq, Except.ok.injEq]
  constructor
  · intro h c hcm
    have h2 : ({ c with periodic := (isPeriodic eqd c).getD false } : Curve) = c :=
      List.map_inj_left.mp (h.trans (List.map_id _).symm) c hcm
    obtain ⟨p, hp⟩ := isPeriodic_defined eqd c (hc c hcm).degree_le
    have h3 := congrArg Curve.periodic h2
    simp only [hp, Option.getD_some] at h3
    rw [hp, h3]
  · intro h
    conv => rhs; rw [← List.map_id cs]
    apply List.map_inj_left.mpr
    intro c hcm
    rw [h c hcm]
    rfl

/-- C02. Every decoder leaves the cursor exactly behind what the encoder wrote. -/
theorem C02_int (v : BitVec 32) (rest : List Byte) : decInt (encInt v ++ rest) = .ok (v, rest) := decInt_encInt v rest
theorem C02_double (v : F64) (rest : List Byte) : decDouble (encDouble v ++ rest) = .ok (v, rest) :=
  decDouble_encDouble v rest
theorem C02_bool (v : Bool) (rest : List Byte) : decBool (encBool v ++ rest) = .ok (v, rest) := decBool_encBool v rest
theorem C02_vec4 (v : V4) (rest : List Byte) : decVec4 (encVec4 v ++ rest) = .ok (v, rest) := decVec4_encVec4 v rest
theorem C02_vectorDouble (l : List F64) (hl : l.length < 2 ^ 31) (rest : List Byte) :
    decVectorDouble (encVectorDouble l ++ rest) = .ok (l, rest) := decVec_encVec _ _ decDouble_encDouble l hl rest
theorem C02_vectorVec4 (l : List V4) (hl : l.length < 2 ^ 31) (rest : List Byte) :
    decVectorVec4 (encVectorVec4 l ++ rest) = .ok (l, rest) := decVec_encVec _ _ decVec4_encVec4 l hl rest
theorem C02_curve (eqd : F64 → F64 → Bool) (c : Curve) (hc : Holdable c) (rest : List Byte) :
    ∃ b p, encCurve eqd c = some b ∧ isPeriodic eqd c = some p ∧
      decCurve (b ++ rest) = .ok (⟨c.degree, p, c.cpts, c.knots⟩, rest) := by
  obtain ⟨p, hp⟩ := isPeriodic_defined eqd c hc.degree_le
  have hb : encCurve eqd c = some (encInt c.degree ++ (encBool p ++ (encVectorVec4 c.cpts ++ encVectorDouble c.knots))) := by
    simp [encCurve, hp]
  exact ⟨_, p, hb, hp, decCurve_encCurve eqd c hc.enc p hp _ hb rest⟩

/-- C02, the layout: ints and doubles are stored least significant byte first, at bytes 0..3 and 0..7. -/
theorem C02_little_endian (v : BitVec 32) (x : F64) :
    (∀ i, i < 4 → (encInt v)[i]? = some (BitVec.ofNat 8 (v.toNat / 256 ^ i))) ∧ (encInt v).length = 4 ∧
    (∀ i, i < 8 → (encDouble x)[i]? = some (BitVec.ofNat 8 (x.toNat / 256 ^ i))) ∧ (encDouble x).length = 8 := by
  refine ⟨?_, rfl, ?_, rfl⟩
  · intro i hi
    rcases i with _ | _ | _ | _ | i <;> first | (simp [encInt]; done) | omega
  · intro i hi
    rcases i with _ | _ | _ | _ | _ | _ | _ | _ | i <;> first | (simp [encDouble]; done) | omega

/-- C02, the flag byte: any non-zero byte reads as `true`, only zero as `false`. -/
theorem C02_bool_any_nonzero (b : Byte) (rest : List Byte) :
    decBool (b :: rest) = .ok (true, rest) ↔ b ≠ 0 := by
  simp [decBool]

/-- C03. Two lists with the same bytes hold the same curves (up to the flag), also when one of the two byte strings is
only a prefix of the other: the encoding is uniquely decodable and prefix-free. -/
theorem C03_prefix_free (eqd : F64 → F64 → Bool) (cs ds : List Curve)
    (hcl : cs.length < 2 ^ 31) (hdl : ds.length < 2 ^ 31)
    (hc : ∀ c ∈ cs, Holdable c) (hd : ∀ c ∈ ds, Holdable c)
    (b1 b2 t : List Byte) (h1 : serializeCurves eqd cs = some b1) (h2 : serializeCurves eqd ds = some b2)
    (hpre : b1 ++ t = b2) :
    t = [] ∧ cs.length = ds.length ∧
      ∀ (i : Nat) (c d : Curve), cs[i]? = some c → ds[i]? = some d → c.degree = d.degree ∧ c.cpts = d.cpts ∧ c.knots = d.knots := by
  have e1 := decCurves_serialize eqd cs hcl (fun c h => (hc c h).enc) b1 h1 t
  have e2 := decCurves_serialize eqd ds hdl (fun c h => (hd c h).enc) b2 h2 []
  rw [hpre] at e1
  rw [List.append_nil, e1] at e2
  simp only [Except.ok.injEq, Prod.mk.injEq] at e2
  obtain ⟨e3, e4⟩ := e2
  refine ⟨e4, by simpa using congrArg List.length e3, ?_⟩
  intro i c d hi hj
  have := congrArg (fun l => l[i]?) e3
  simp only [List.getElem?_map, hi, hj, Option.map_some, Option.some.injEq, Curve.mk.injEq] at this
  exact ⟨this.1, this.2.2.1, this.2.2.2⟩

/-- C04, what the code does instead of rejecting: it has no bounds check, so every proper prefix of every valid encoding
makes the decoder read past the end of the buffer. -/
theorem C04_every_truncation_reads_out_of_bounds (eqd : F64 → F64 → Bool) (cs : List Curve)
    (hl : cs.length < 2 ^ 31) (hc : ∀ c ∈ cs, Holdable c) (b p t : List Byte)
    (hb : serializeCurves eqd cs = some b) (hp : b = p ++ t) (ht : t ≠ []) :
    deserializeCurves p = .error .ub := by
  have h := decCurves_serialize eqd cs hl (fun c h => (hc c h).enc) b hb []
  rw [List.append_nil] at h
  have := prefix_ub local_decCurves h hp ht
  simp [deserializeCurves, this]

/-- C04, the one rejection that exists: a stored list length with the sign bit set throws, whatever follows. -/
theorem C04_negative_length_throws_partial (n : BitVec 32) (h : n.toInt < 0) (rest : List Byte) :
    deserializeCurves (encInt n ++ rest) = .error .throws ∧
    decVectorDouble (encInt n ++ rest) = .error .throws ∧
    decVectorVec4 (encInt n ++ rest) = .error .throws := by
  simp [deserializeCurves, decCurves, decVectorDouble, decVectorVec4, decVec, decInt_encInt, h]

/-- C04, an empty vector in the buffer is not rejected either: the constructor dereferences an empty range. -/
theorem C04_empty_vectors_undefined (degree : BitVec 32) (per : Bool) (cpts : List V4) (knots : List F64)
    (hc : cpts.length < 2 ^ 31) (hk : knots.length < 2 ^ 31) (h : cpts = [] ∨ knots = []) (rest : List Byte) :
    decCurve (encInt degree ++ (encBool per ++ (encVectorVec4 cpts ++ (encVectorDouble knots ++ rest))))
      = .error .ub := by
  have hv := C02_vectorVec4 cpts hc (encVectorDouble knots ++ rest)
  have hw := C02_vectorDouble knots hk rest
  simp only [decCurve, decInt_encInt, decBool_encBool, hv, hw, ok_bind, mkCurve]
  rcases h with rfl | rfl <;> simp

/-- C04, trailing garbage is silently accepted: the reader ignores whatever follows a complete encoding. -/
theorem C04_trailing_bytes_ignored (eqd : F64 → F64 → Bool) (cs : List Curve)
    (hl : cs.length < 2 ^ 31) (hc : ∀ c ∈ cs, Holdable c) (b t : List Byte)
    (hb : serializeCurves eqd cs = some b) : deserializeCurves (b ++ t) = deserializeCurves b := by
  have h1 := decCurves_serialize eqd cs hl (fun c h => (hc c h).enc) b hb t
  have h2 := decCurves_serialize eqd cs hl (fun c h => (hc c h).enc) b hb []
  rw [List.append_nil] at h2
  simp [deserializeCurves, h1, h2]

/-- C61. The exact size of an encoding in bytes. -/
theorem C61_curve_size (eqd : F64 → F64 → Bool) (c : Curve) (b : List Byte) (h : encCurve eqd c = some b) :
    b.length = 13 + 32 * c.cpts.length + 8 * c.knots.length := length_encCurve eqd c b h

theorem C61_list_size (eqd : F64 → F64 → Bool) (cs : List Curve) (b : List Byte)
    (h : serializeCurves eqd cs = some b) :
    b.length = 4 + (cs.map fun c => 13 + 32 * c.cpts.length + 8 * c.knots.length).sum := by
  simp only [serializeCurves, Option.bind_eq_bind, Option.bind_eq_some_iff, Option.some.injEq] at h
  obtain ⟨body, hbody, rfl⟩ := h
  have : body.length = (cs.map fun c => 13 + 32 * c.cpts.length + 8 * c.knots.length).sum := by
    induction cs generalizing body with
    | nil => simp [encCurveList] at hbody; subst hbody; simp
    | cons c cs ih =>
      simp only [encCurveList, Option.bind_eq_bind, Option.bind_eq_some_iff, Option.some.injEq] at hbody
      obtain ⟨b1, hb1, b2, hb2, rfl⟩ := hbody
      simp [length_encCurve eqd c b1 hb1, ih b2 hb2]
  simp [encInt, this]; omega

/-! ### Non-vacuity -/

/-- A linear curve with two control points, one of them holding a NaN pattern. -/
def sampleCurve : Curve :=
  ⟨1#32, false, [⟨0#64, 1#64, 0x7ff8000000000001#64, 4607182418800017408#64⟩, ⟨5#64, 6#64, 7#64, 8#64⟩],
   [0#64, 0#64, 4607182418800017408#64, 4607182418800017408#64]⟩

example : Holdable sampleCurve ∧ (∀ c ∈ [sampleCurve, sampleCurve], Holdable c) := by
  have : Holdable sampleCurve := ⟨by decide, by decide, by decide, by decide, by decide⟩
  exact ⟨this, by simpa using this⟩

example : isPeriodic (fun a b => a == b) sampleCurve = some false := by decide
/-- A curve whose stored flag disagrees with `is_periodic()`: the round trip changes it. -/
example : isPeriodic (fun a b => a == b) { sampleCurve with periodic := true } ≠ some true := by decide
/-- A curve that does wrap around. -/
example : isPeriodic (fun a b => a == b) { sampleCurve with cpts := [⟨1, 2, 3, 4⟩, ⟨5, 6, 7, 8⟩, ⟨1, 2, 3, 4⟩] }
    = some true := by decide
/-- A proper prefix exists. -/
example : ∃ b, serializeCurves (fun a b => a == b) [sampleCurve] = some b ∧ b ≠ [] :=
  ⟨_, rfl, by decide⟩
example : (0xffffffff#32 : BitVec 32).toInt < 0 := by decide

end Cmm.Ser
