import Verif.Lemmas.Refine
import Verif.Lemmas.RefineParams
import Mathlib.Data.Rat.Floor
/-! C96: knot refinement. -/
namespace Cmm.Nurbs
variable {K : Type} [Field K] [LinearOrder K] [IsStrictOrderedRing K]

theorem ApartBy.count {U : List K} {R : K → Prop} (h : ApartBy (1 / 10 ^ 8) U R) {x : K} (hx : R x) : findMultiplicity x U = U.count x := by
  apply findMultiplicity_eq_count
  intro y hy hne
  have := h x hx y (Or.inl hy) hne
  rw [abs_sub_comm]
  refine lt_of_lt_of_le ?_ this
  norm_num

/-- C96: refinement of a curve over a sorted knot vector, at parameters of its domain that lie at least 1e-8 apart from each other and from the knots.
If one of them has multiplicity below `p`, the result is a sorted knot vector in which exactly the requested parameters are raised to multiplicity `p`,
with as many points as it needs, and each coordinate of the new curve has the same value at each parameter of the domain. -/
theorem C96_refinement {p : Nat} {U : List K} {P : List (Vec4 K)} {knotList addList : List K} {density : Nat}
    (hp : 1 ≤ p) (hlen : U.length = P.length + p + 1) (hU : SortedKnots U) (hpn : p < P.length)
    (hdom : ∀ x, RefineAt p U knotList addList density x → ix U p ≤ x ∧ x ≤ ix U P.length)
    (hsep : ApartBy (1 / 10 ^ 8) U (RefineAt p U knotList addList density))
    (hsome : ∃ x, RefineAt p U knotList addList density x ∧ U.count x < p) :
    ∃ Q W, knotRefinement p U P knotList addList density = .ok (Q, W) ∧ SortedKnots W ∧ W.length = Q.length + p + 1 ∧
      (∀ u, RefineAt p U knotList addList density u → W.count u = max (U.count u) p) ∧
      (∀ u, ¬ RefineAt p U knotList addList density u → W.count u = U.count u) ∧
      ∀ φ : Vec4 K → K, IsCoord φ → ∀ t, ix U p ≤ t → t < ix U P.length →
        splineSum (ix W) p 0 Q.length (fun j => φ (ix Q j)) t = splineSum (ix U) p 0 P.length (fun j => φ (ix P j)) t := by
  obtain ⟨params, hR⟩ := refineParams_ok (p := p) (U := U) (knotList := knotList) (addList := addList) (density := density) (fun _ => by omega)
  obtain ⟨hps, hpm⟩ := refineParams_spec hR
  have hcnt : ∀ x, (knotsToInsert p U params).count x = if x ∈ params then p - U.count x else 0 := by
    intro x
    rw [count_knotsToInsert p U params hps]
    split
    · rename_i h
      rw [hsep.count ((hpm x).mp h)]
    · rfl
  have hmem : ∀ x, x ∈ knotsToInsert p U params ↔ RefineAt p U knotList addList density x ∧ U.count x < p := by
    intro x
    rw [mem_knotsToInsert, hpm]
    refine and_congr_right fun h => ?_
    rw [hsep.count h]
  obtain ⟨y, hy⟩ := hsome
  cases hX : knotsToInsert p U params with
  | nil =>
    have := (hmem y).mpr hy
    rw [hX] at this
    simp at this
  | cons x0 X =>
    rw [hX] at hcnt hmem
    have hcnt2 : ∀ x, (U ++ (x0 :: X)).count x = if x ∈ params then max (U.count x) p else U.count x := by
      intro x
      rw [List.count_append, hcnt]
      split <;> omega
    obtain ⟨Q, W, e, hQ, hW, hWp, hsame⟩ := knotRefinement_core hlen hU hpn hR hX (hX ▸ knotsToInsert_sorted p U params hps) hp (fun x hx => by
      obtain ⟨h1, h2⟩ := (hmem x).mp hx
      obtain ⟨d1, d2⟩ := hdom x h1
      refine ⟨d1, d2, fun y hy hne => hsep x h1 y ?_ hne, ?_⟩
      · rcases List.mem_append.mp hy with h | h
        · exact Or.inl h
        · exact Or.inr ((hmem y).mp h).1
      · rw [hcnt2, if_pos ((hpm x).mpr h1)]; omega)
    refine ⟨Q, W, e, hW, ?_, fun u hu => ?_, fun u hu => ?_, hsame⟩
    · rw [hWp.length_eq, List.length_append, List.length_cons, hQ]; omega
    · rw [hWp.count_eq, hcnt2, if_pos ((hpm u).mpr hu)]
    · rw [hWp.count_eq, hcnt2, if_neg (fun h => hu ((hpm u).mp h))]

/-- C96: the refinement throws if every requested parameter has multiplicity `p` or more. -/
theorem C96_nothing_to_insert {p : Nat} {U : List K} {P : List (Vec4 K)} {knotList addList : List K} {density : Nat}
    (hP : P ≠ []) (hU : knotList = [] → 2 * p < U.length) (hsep : ApartBy (1 / 10 ^ 8) U (RefineAt p U knotList addList density))
    (hall : ∀ x, RefineAt p U knotList addList density x → p ≤ U.count x) :
    knotRefinement p U P knotList addList density = .throws := by
  obtain ⟨params, hR⟩ := refineParams_ok (p := p) (U := U) (knotList := knotList) (addList := addList) (density := density) hU
  obtain ⟨hps, hpm⟩ := refineParams_spec hR
  have hX : knotsToInsert p U params = [] := by
    rw [List.eq_nil_iff_forall_not_mem]
    intro x hx
    obtain ⟨h1, h2⟩ := (mem_knotsToInsert p U params x).mp hx
    have h1 := (hpm x).mp h1
    rw [hsep.count h1] at h2
    have := hall x h1
    omega
  rw [knotRefinement, if_neg (by simpa using hP), hR, Res.ok_bind, hX]

omit [IsStrictOrderedRing K] in
theorem refShift_stop {p : Nat} {U : List K} {P : List (Vec4 K)} {a : Nat} {x : K} {i k : Nat} {Q : Nat → Vec4 K} {kv : Nat → K} (h : ix U i < x) :
    refShift p U P a x i k Q kv = ⟨i, k, Q, kv⟩ := by
  rw [refShift, if_neg (fun h' => absurd h (not_lt.mpr h'.1))]

/-- C96: with a requested parameter beyond all knots the routine writes past the end of its vector of control points. -/
theorem C96_beyond_end {p : Nat} {U : List K} {P : List (Vec4 K)} {knotList addList : List K} {density : Nat}
    (hp : 1 ≤ p) (hlen : U.length = P.length + p + 1) (hpn : p < P.length) {x : K} (hx : RefineAt p U knotList addList density x)
    (hgt : ∀ y ∈ U, y + 1 / 10 ^ 12 < x) : knotRefinement p U P knotList addList density = .ub := by
  obtain ⟨params, hR⟩ := refineParams_ok (p := p) (U := U) (knotList := knotList) (addList := addList) (density := density) (fun _ => by omega)
  obtain ⟨hps, hpm⟩ := refineParams_spec hR
  have h12 : (0 : K) < 1 / 10 ^ 12 := by positivity
  have hcl : ClearOf (1 / 10 ^ 12) U x := fun y hy _ => lt_of_lt_of_le (by have := hgt y hy; linarith) (le_abs_self (x - y))
  have hxU : x ∉ U := fun h => by have := hgt x h; linarith
  have hxX : x ∈ knotsToInsert p U params := (mem_knotsToInsert p U params x).mpr ⟨(hpm x).mpr hx, by
    rw [findMultiplicity_eq_count hcl, List.count_eq_zero_of_not_mem hxU]; omega⟩
  have hsX := knotsToInsert_sorted p U params hps
  cases hX : knotsToInsert p U params with
  | nil => rw [hX] at hxX; simp at hxX
  | cons x0 X =>
    rw [hX] at hxX hsX
    set xl := (x0 :: X).getLastD x0 with hxl
    have hxl' : (x0 :: X).getLast? = some xl := by rw [hxl, List.getLast?_cons, List.getLastD_cons, List.getLastD_eq_getLast?]
    obtain ⟨L, hL⟩ := List.getLast?_eq_some_iff.mp hxl'
    have hle : x ≤ xl := by
      rw [hL] at hxX hsX
      rcases List.mem_append.mp hxX with h | h
      · exact (List.pairwise_append.mp hsX).2.2 x h xl (by simp)
      · exact le_of_eq (by simpa using h)
    have hbig : ∀ i < U.length, ix U i < xl := by
      intro i hi
      have := hgt _ (List.getElem_mem hi)
      rw [ix_eq_getElem hi]
      linarith
    have hb : findSpan (P.length - 1) p xl (ix U) = P.length - 1 := by
      have e2 := findSpan_le (n := P.length - 1) (by omega) xl (ix U) (p := p)
      rcases Nat.eq_or_lt_of_le e2 with h | h
      · exact h
      · have h1 := findSpan_lt xl (ix U) h
        exact absurd h1 (not_lt.mpr (le_of_lt (hbig _ (by omega))))
    rw [knotRefinement, if_neg (by
      intro h
      rw [List.isEmpty_iff.mp h] at hpn
      simp at hpn), hR, Res.ok_bind, hX]
    dsimp only
    rw [if_neg (by omega), ← hxl, hb, hL, List.reverse_append]
    simp only [List.reverse_cons, List.reverse_nil, List.nil_append, List.singleton_append, refLoop]
    rw [refShift_stop (hbig (P.length - 1 + 1 + p - 1) (by omega)), if_pos (by show _ ≤ P.length - 1 + 1 + p + X.length; omega), Res.ub_bind]

omit [IsStrictOrderedRing K] in
/-- C96: the routine is undefined without control points, without a list on a knot vector with fewer than `2 p` knots, and when an empty set of parameters
is to be made denser. -/
theorem C96_undefined (p : Nat) (U : List K) (P : List (Vec4 K)) (knotList addList : List K) (density : Nat)
    (h : P = [] ∨ (knotList = [] ∧ U.length < 2 * p) ∨ (knotList = [] ∧ U.length = 2 * p ∧ addList = [] ∧ 2 ≤ density)) :
    knotRefinement p U P knotList addList density = .ub := by
  rw [knotRefinement]
  split
  · rfl
  · rename_i hP
    rcases h with h | ⟨h1, h2⟩ | ⟨h1, h2, h3, h4⟩
    · subst h; simp at hP
    · rw [refineParams, if_pos ⟨by simp [h1], h2⟩]; rfl
    · subst h1 h3
      obtain ⟨d, rfl⟩ : ∃ d, density = d + 2 := ⟨density - 2, by omega⟩
      have he : (U.take (U.length - p)).drop p = [] := by
        apply List.drop_eq_nil_of_le
        rw [List.length_take]; omega
      rw [refineParams, if_neg (by rintro ⟨-, h⟩; omega)]
      simp only [List.isEmpty_nil, if_true, he, List.append_nil]
      rfl

/-- C96: a knot vector that is too short for the control points is read past its end. -/
theorem C96_short_knots {p : Nat} {U : List K} {P : List (Vec4 K)} {knotList addList : List K} {density : Nat}
    (hk : knotList = [] → 2 * p < U.length) (hP : P ≠ []) (hlen : U.length < P.length + p + 1)
    (hsep : ApartBy (1 / 10 ^ 8) U (RefineAt p U knotList addList density))
    (hsome : ∃ x, RefineAt p U knotList addList density x ∧ U.count x < p) :
    knotRefinement p U P knotList addList density = .ub := by
  obtain ⟨params, hR⟩ := refineParams_ok (p := p) (U := U) (knotList := knotList) (addList := addList) (density := density) hk
  obtain ⟨hps, hpm⟩ := refineParams_spec hR
  obtain ⟨x, h1, h2⟩ := hsome
  have hxX : x ∈ knotsToInsert p U params := (mem_knotsToInsert p U params x).mpr ⟨(hpm x).mpr h1, by rw [hsep.count h1]; exact h2⟩
  have : 0 < P.length := List.length_pos_iff.mpr hP
  rw [knotRefinement, if_neg (by simpa using hP), hR, Res.ok_bind]
  cases hX : knotsToInsert p U params with
  | nil => rw [hX] at hxX; simp at hxX
  | cons x0 X =>
    dsimp only
    rw [if_pos (by omega)]

/-- C96: a parameter before the domain is not refused; the resulting knots are not sorted. -/
theorem C96_before_start_counterexample : ∃ Q W, knotRefinement (K := ℚ) 1 [0, 0, 1, 1] [⟨0, 0, 0, 1⟩, ⟨1, 0, 0, 1⟩] [-1] [] 1 = .ok (Q, W) ∧ ¬ SortedKnots W := by
  refine ⟨[⟨0, 0, 0, 1⟩, ⟨-1, 0, 0, 1⟩, ⟨1, 0, 0, 1⟩], [0, 0, -1, 1, 1], by decide +kernel, ?_⟩
  unfold SortedKnots
  decide +kernel

/-- A parabola on `[0, 1]` with density 3 is refined at `1/4`, `1/2` and `3/4`. -/
example : knotRefinement (K := ℚ) 2 [0, 0, 0, 1, 1, 1] [⟨0, 0, 0, 1⟩, ⟨1, 2, 0, 1⟩, ⟨2, 0, 0, 1⟩] [] [] 3 =
    .ok ([⟨0, 0, 0, 1⟩, ⟨1/4, 1/2, 0, 1⟩, ⟨1/2, 3/4, 0, 1⟩, ⟨3/4, 1, 0, 1⟩, ⟨1, 1, 0, 1⟩, ⟨5/4, 1, 0, 1⟩, ⟨3/2, 3/4, 0, 1⟩, ⟨7/4, 1/2, 0, 1⟩, ⟨2, 0, 0, 1⟩],
      [0, 0, 0, 1/4, 1/4, 1/2, 1/2, 3/4, 3/4, 1, 1, 1]) := by decide +kernel

/-- The hypotheses of `C96_refinement` can be met: that parabola. -/
example : ∃ Q W, knotRefinement (K := ℚ) 2 [0, 0, 0, 1, 1, 1] [⟨0, 0, 0, 1⟩, ⟨1, 2, 0, 1⟩, ⟨2, 0, 0, 1⟩] [] [] 3 = .ok (Q, W) ∧ SortedKnots W ∧
    W.count (1/4) = 2 := by
  have hm := (refineParams_spec (K := ℚ) (p := 2) (U := [0, 0, 0, 1, 1, 1]) (knotList := []) (addList := []) (density := 3)
    (params := [0, 1/4, 1/2, 3/4, 1]) (by decide +kernel)).2
  obtain ⟨Q, W, h1, h2, -, h3, -, -⟩ := C96_refinement (K := ℚ) (p := 2) (U := [0, 0, 0, 1, 1, 1]) (knotList := []) (addList := []) (density := 3)
    (P := [⟨0, 0, 0, 1⟩, ⟨1, 2, 0, 1⟩, ⟨2, 0, 0, 1⟩]) (by decide) (by decide) (by unfold SortedKnots; decide +kernel) (by decide)
    (fun x hx => (show ∀ x ∈ [0, 1/4, 1/2, 3/4, (1 : ℚ)], ix [0, 0, 0, 1, 1, 1] 2 ≤ x ∧ x ≤ ix [0, 0, 0, 1, 1, 1] 3 by decide +kernel) x ((hm x).mpr hx))
    (fun x hx y hy => (show ∀ x ∈ [0, 1/4, 1/2, 3/4, (1 : ℚ)], ∀ y ∈ [0, 0, 0, 1, 1, 1] ++ [0, 1/4, 1/2, 3/4, (1 : ℚ)], y ≠ x → 1 / 10 ^ 8 ≤ |y - x| by
      decide +kernel) x ((hm x).mpr hx) y (List.mem_append.mpr (hy.imp id (hm y).mpr)))
    ⟨1/4, (hm _).mp (by decide +kernel), by decide +kernel⟩
  exact ⟨Q, W, h1, h2, (h3 _ ((hm _).mp (by decide +kernel))).trans (by decide +kernel)⟩

/-- The hypotheses of `C96_nothing_to_insert` can be met: a polyline is already refined at its knots. -/
example : knotRefinement (K := ℚ) 1 [0, 0, 1, 2, 2] [⟨0, 0, 0, 1⟩, ⟨1, 2, 0, 1⟩, ⟨2, 0, 0, 1⟩] [] [] 1 = .throws := by
  have hm := (refineParams_spec (K := ℚ) (p := 1) (U := [0, 0, 1, 2, 2]) (knotList := []) (addList := []) (density := 1)
    (params := [0, 1, 2]) (by decide +kernel)).2
  exact C96_nothing_to_insert (by decide) (by decide)
    (fun x hx y hy => (show ∀ x ∈ [0, 1, (2 : ℚ)], ∀ y ∈ [0, 0, 1, 2, 2] ++ [0, 1, (2 : ℚ)], y ≠ x → 1 / 10 ^ 8 ≤ |y - x| by
      decide +kernel) x ((hm x).mpr hx) y (List.mem_append.mpr (hy.imp id (hm y).mpr)))
    (fun x hx => (show ∀ x ∈ [0, 1, (2 : ℚ)], 1 ≤ [0, 0, 1, 2, 2].count x by decide +kernel) x ((hm x).mpr hx))

/-- The hypotheses of `C96_beyond_end` can be met. -/
example : knotRefinement (K := ℚ) 1 [0, 0, 1, 2, 2] [⟨0, 0, 0, 1⟩, ⟨1, 2, 0, 1⟩, ⟨2, 0, 0, 1⟩] [1/2, 3] [] 1 = .ub :=
  C96_beyond_end (x := 3) (by decide) (by decide) (by decide) (Or.inl (Or.inl ⟨by simp, by simp⟩)) (by decide +kernel)

/-- The hypotheses of `C96_short_knots` can be met. -/
example : knotRefinement (K := ℚ) 2 [0, 0, 1, 1] [⟨0, 0, 0, 1⟩, ⟨1, 2, 0, 1⟩, ⟨2, 0, 0, 1⟩] [1/2] [] 1 = .ub := by
  have hm := (refineParams_spec (K := ℚ) (p := 2) (U := [0, 0, 1, 1]) (knotList := [1/2]) (addList := []) (density := 1)
    (params := [1/2]) (by decide +kernel)).2
  exact C96_short_knots (by simp) (by simp) (by decide)
    (fun x hx y hy => (show ∀ x ∈ [(1/2 : ℚ)], ∀ y ∈ [0, 0, 1, 1] ++ [(1/2 : ℚ)], y ≠ x → 1 / 10 ^ 8 ≤ |y - x| by
      decide +kernel) x ((hm x).mpr hx) y (List.mem_append.mpr (hy.imp id (hm y).mpr)))
    ⟨1/2, (hm _).mp (by decide +kernel), by decide +kernel⟩

end Cmm.Nurbs
