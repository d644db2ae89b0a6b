import Verif.Lemmas.CurveOps
import Mathlib.Algebra.Order.Field.Rat
/-! Properties C26-C30 and C66: B-spline basis functions and curves (nurbs_utils.h, nurbs.h). -/
namespace Cmm.Nurbs
variable {K : Type} [Field K] [LinearOrder K] [IsStrictOrderedRing K]

/-! ### Test data -/

/-- A quadratic curve with five control points of weight 1. -/
def demoCurve : Curve ℚ :=
  ⟨[⟨0, 0, 0, 1⟩, ⟨1, 2, 0, 1⟩, ⟨3, 3, 1, 1⟩, ⟨4, 0, 2, 1⟩, ⟨6, 1, 0, 1⟩], 2, [0, 0, 0, 1, 2, 3, 3, 3], false, 0, 3⟩

/-- A straight line with weights 1 and 3. -/
def weightedLine : Curve ℚ := ⟨[⟨0, 0, 0, 1⟩, ⟨1, 0, 0, 3⟩], 1, [0, 0, 1, 1], false, 0, 1⟩

theorem demoCurve_valid : ValidCurve demoCurve :=
  ⟨by decide, by decide, by decide, by decide, by unfold SortedKnots; decide +kernel, by decide +kernel⟩

theorem weightedLine_valid : ValidCurve weightedLine :=
  ⟨by decide, by decide, by decide, by decide, by unfold SortedKnots; decide +kernel, by decide +kernel⟩

theorem demoCurve_equal : EqualWeights demoCurve := ⟨1, by decide +kernel, by decide +kernel⟩

/-! ### C26 -/

/-- C26. At a parameter `U_p ≤ u < U_n` the span found by `find_span` and `basis_funs` give the Cox-de Boor functions
`N_{i-p,p}(u), …, N_{i,p}(u)`, in order; every other basis function of the knot vector is zero at `u`. -/
theorem C26_basis_functions {U : List K} {n p : Nat} (hs : SortedKnots U) (hn : p < n) (hlen : U.length = n + p + 1) {u : K}
    (h1 : ix U p ≤ u) (h2 : u < ix U n) :
    let i := findSpan (n - 1) p u (ix U)
    basisFuns i u (ix U) p = (List.range (p + 1)).map (fun r => coxDeBoor (ix U) p (i - p + r) u) ∧
    ∀ k < n, k + p < i ∨ i < k → coxDeBoor (ix U) p k u = 0 := by
  have g1 := findSpan_ge (n - 1) p u (ix U)
  have g2 := findSpan_le (n := n - 1) (by omega) u (ix U) (p := p)
  have g3 := findSpan_knot_le u (ix U) h1 g1 (le_refl _) (n := n - 1)
  have g4 : u < ix U (findSpan (n - 1) p u (ix U) + 1) := by
    rcases Nat.eq_or_lt_of_le g2 with h | h
    · rw [h, Nat.sub_add_cancel (by omega)]; exact h2
    · exact findSpan_lt u (ix U) h
  have hmono : ∀ a b, a ≤ b → b < n + p + 1 → ix U a ≤ ix U b :=
    fun a b h h' => ix_mono hs h (by rw [hlen]; exact h')
  simp only
  generalize findSpan (n - 1) p u (ix U) = i at *
  have hpc := fun k hk => piece_eq_cdb hmono g3 g4 (by omega) p k hk
  constructor
  · rw [basisFuns_eq_piece _ _ _ _ g1, seg]
    apply List.map_congr_left
    intro r hr
    rw [List.mem_range] at hr
    rw [zero_add, hpc _ (by omega)]
  · intro k hk hc
    rw [← hpc k (by omega), piece_zero _ _ _ _ _ hc]

example : SortedKnots demoCurve.knots ∧ findSpan 4 2 (3 / 2) (ix demoCurve.knots) = 3 ∧
    basisFuns 3 (3 / 2) (ix demoCurve.knots) 2 = [1 / 8, 3 / 4, 1 / 8] := by
  unfold SortedKnots; decide +kernel

/-- C26. At the right end of the domain (where every half-open span excludes the parameter) the code evaluates the
polynomials of the last span. -/
theorem C26_basis_at_end {U : List K} {n p : Nat} (hV : ValidKnots n p U) :
    let i := findSpan (n - 1) p (ix U n) (ix U)
    i = n - 1 ∧ basisFuns i (ix U n) (ix U) p =
      (List.range (p + 1)).map (fun r => coxDeBoorPiece (ix U) i p (i - p + r) (ix U n)) := by
  have hn := hV.enough
  obtain ⟨i, hi, a1, a2, a3, a4, a5, a6, a7⟩ := hV.span (hV.mono p n (by omega) (by omega)) (le_refl _)
  simp only [hi]
  have hin : i = n - 1 := by
    rcases a6 with h | h
    · exact h
    · exact absurd h (not_lt.mpr (hV.mono _ _ (by omega) (by omega)))
  refine ⟨hin, ?_⟩
  rw [basisFuns_eq_piece _ _ _ _ a1, seg]
  apply List.map_congr_left
  intro r _
  rw [zero_add]

/-- C26. Over the whole closed domain the computed values are `p + 1` non-negative numbers that sum to one. -/
theorem C26_partition_of_unity {U : List K} {n p : Nat} (hV : ValidKnots n p U) {u : K} (h1 : ix U p ≤ u) (h2 : u ≤ ix U n) :
    let N := basisFuns (findSpan (n - 1) p u (ix U)) u (ix U) p
    N.length = p + 1 ∧ (∀ x ∈ N, 0 ≤ x) ∧ N.sum = 1 := by
  obtain ⟨i, hi, a1, a2, a3, a4, a5, a6, a7⟩ := hV.span h1 h2
  simp only [hi]
  exact ⟨basisFuns_length _ _ _ _, basisFuns_nonneg hV.mono a3 a4 p a1 (by omega), basisFuns_sum a1 a7 u⟩

/-- C26. No denominator `right[r+1] + left[j-r]` of the recurrence is zero. -/
theorem C26_no_zero_division {U : List K} {n p : Nat} (hV : ValidKnots n p U) {u : K} (h1 : ix U p ≤ u) (h2 : u ≤ ix U n)
    (j r : Nat) (hj1 : 1 ≤ j) (hj : j ≤ p) (hr : r < j) :
    let i := findSpan (n - 1) p u (ix U)
    0 < (ix U (i + (r + 1)) - u) + (u - ix U (i + 1 - (j - r))) := by
  obtain ⟨i, hi, a1, a2, a3, a4, a5, a6, a7⟩ := hV.span h1 h2
  simp only [hi]
  have := a7 (i + 1 - (j - r)) (i + (r + 1)) (by omega) (by omega) (by omega) (by omega)
  have e : (ix U (i + (r + 1)) - u) + (u - ix U (i + 1 - (j - r))) = ix U (i + (r + 1)) - ix U (i + 1 - (j - r)) := by ring
  rw [e]; exact sub_pos.mpr this

/-! ### C27 -/

/-- C27. With positive weights the point of the curve at a parameter of the domain is a convex combination of the
positions of the `degree + 1` control points that belong to the span. -/
theorem C27_convex_combination (c : Curve K) (V : ValidCurve c) (hw : PositiveWeights c) (t : K) (hd : InDomain c t) :
    ∃ i r, c.degree ≤ i ∧ i < c.cpts.length ∧ ix c.knots i ≤ t ∧ t ≤ ix c.knots (i + 1) ∧ c.evaluate t = .ok r ∧
      ConvexCombination r (((c.cpts.drop (i - c.degree)).take (c.degree + 1)).map Vec4.pos) := by
  obtain ⟨i, hi, a1, a2, a7, hn, hs, hS, he⟩ := curve_eval_sum V hw hd
  obtain ⟨i', hi', _, _, a3, a4, _⟩ := ValidKnots.span V hd.1 hd.2
  obtain rfl : i = i' := by rw [← hi, ← hi']
  have hl := basisFuns_length i t (ix c.knots) c.degree
  set N := basisFuns i t (ix c.knots) c.degree with hN
  set S := splineVal (ix c.knots) c.degree (fun r => (ix c.cpts r).w) i t with hSdef
  obtain ⟨r1, r2⟩ := ratCoef_spec S c.cpts N (i - c.degree) (by omega)
  rw [hl] at r1 r2
  refine ⟨i, _, a1, a2, a3, a4, he, ratCoef S N ((c.cpts.drop (i - c.degree)).take (c.degree + 1)), ?_, ?_, ?_, ?_⟩
  · simp only [ratCoef, List.length_zipWith, List.length_map, List.length_take, List.length_drop]; omega
  · intro x hx
    rw [ratCoef, List.mem_iff_getElem] at hx
    obtain ⟨j, hj, rfl⟩ := hx
    rw [List.getElem_zipWith]
    apply div_nonneg (mul_nonneg (hn _ (List.getElem_mem _)) (le_of_lt (hw _ _))) (le_of_lt hS)
    exact List.mem_of_mem_drop (List.mem_of_mem_take (List.getElem_mem _))
  · rw [r1]; exact div_self (ne_of_gt hS)
  · rw [r2, curvePointAt_eq]; rfl

example : PositiveWeights weightedLine ∧ InDomain weightedLine (1 / 2) ∧
    weightedLine.evaluate (1 / 2) = .ok ⟨3 / 4, 0, 0⟩ := by
  unfold PositiveWeights InDomain; decide +kernel

/-- C27. Hence any box that contains the control point positions contains the curve. -/
theorem C27_curve_in_box (c : Curve K) (V : ValidCurve c) (hw : PositiveWeights c) (b : AABB K)
    (hb : ∀ q ∈ c.cpts, InBox (Vec4.pos q) b) (t : K) (hd : InDomain c t) :
    ∃ r, c.evaluate t = .ok r ∧ InBox r b := by
  obtain ⟨i, r, _, _, _, _, he, hc⟩ := C27_convex_combination c V hw t hd
  refine ⟨r, he, hc.inBox ?_⟩
  intro q hq
  obtain ⟨q', hq', rfl⟩ := List.mem_map.mp hq
  exact hb _ (List.mem_of_mem_drop (List.mem_of_mem_take hq'))

/-- C27. With unit weights the curve's own `aabb()` contains the curve. -/
theorem C27_own_box_unit_weights (c : Curve K) (V : ValidCurve c) (hw : ∀ q ∈ c.cpts, q.w = 1) :
    ∃ b, c.bbox = .ok b ∧ ∀ t, InDomain c t → ∃ r, c.evaluate t = .ok r ∧ InBox r b := by
  have hne : c.cpts ≠ [] := by
    intro h
    have := V.enough
    rw [h] at this
    simp at this
  unfold Curve.bbox
  match hm : c.cpts, hne with
  | p :: ps, _ =>
    refine ⟨_, rfl, fun t hd => C27_curve_in_box c V ?_ _ ?_ t hd⟩
    · intro q hq; rw [hw q hq]; exact one_pos
    · intro q hq
      have e : Vec4.pos q = q.toVec3 := by
        unfold Vec4.pos Vec4.toVec3; rw [hw q hq, div_one, div_one, div_one]
      rw [e]
      have h1 := (foldl_expand_spec ((p :: ps).map Vec4.toVec3) ⟨p.toVec3, p.toVec3⟩ _).mp (BoxLe.refl _)
      rw [List.foldl_map] at h1
      exact (inBox_iff _ _).mpr (h1.2 _ (List.mem_map.mpr ⟨q, by rw [hm] at hq; exact hq, rfl⟩))

/-- C27. With other weights it need not: the box of the weighted line ends at 1/3 and the curve reaches 3/4. -/
theorem C27_own_box_counterexample :
    ∃ c : Curve ℚ, ValidCurve c ∧ PositiveWeights c ∧ ∃ b t r, c.bbox = .ok b ∧ InDomain c t ∧ c.evaluate t = .ok r ∧
      ¬ InBox r b := by
  refine ⟨weightedLine, weightedLine_valid, by unfold PositiveWeights; decide +kernel, ⟨⟨0, 0, 0⟩, ⟨1 / 3, 0, 0⟩⟩, 1 / 2,
    ⟨3 / 4, 0, 0⟩, by decide +kernel, by unfold InDomain; decide +kernel, by decide +kernel, ?_⟩
  unfold InBox
  decide +kernel

/-! ### C28 -/

/-- C28. Moving the control points by an affine map (weights kept) moves every point of the curve by the same map. -/
theorem C28_affine_invariance (c : Curve K) (V : ValidCurve c) (hw : PositiveWeights c) (f : Affine3 K) (t : K)
    (hd : InDomain c t) :
    ∃ r, c.evaluate t = .ok r ∧ Curve.evaluate { c with cpts := c.cpts.map f.applyCpt } t = .ok (f.apply r) := by
  obtain ⟨i, hi, a1, a2, a7, hn, hs, hS, he⟩ := curve_eval_sum V hw hd
  have V' : ValidCurve { c with cpts := c.cpts.map f.applyCpt } := by
    have := V
    unfold ValidCurve at this ⊢
    simpa using this
  have hd' : InDomain { c with cpts := c.cpts.map f.applyCpt } t := by
    unfold InDomain at hd ⊢
    simpa using hd
  refine ⟨_, he, ?_⟩
  rw [curve_eval V' hd']
  simp only [List.length_map, hi]
  rw [curvePointAt_eq, curvePointAt_eq]
  have hix : ∀ r, r < c.cpts.length → ix (c.cpts.map f.applyCpt) r = f.applyCpt (ix c.cpts r) := by
    intro r hr
    rw [ix_eq_getElem (by simpa using hr), ix_eq_getElem hr, List.getElem_map]
  have hW : splineVal (ix c.knots) c.degree (fun r => (ix (c.cpts.map f.applyCpt) r).w) i t =
      splineVal (ix c.knots) c.degree (fun r => (ix c.cpts r).w) i t :=
    splineVal_congr t a1 fun x hx _ => by rw [hix x (by omega)]; rfl
  have hlin : ∀ (g : Nat → K) (a b d e : K), (∀ x < c.cpts.length,
      g x = (ix c.cpts x).w * (a * (ix c.cpts x).x + b * (ix c.cpts x).y + d * (ix c.cpts x).z + e)) →
      splineVal (ix c.knots) c.degree g i t =
      a * splineVal (ix c.knots) c.degree (fun r => (ix c.cpts r).w * (ix c.cpts r).x) i t +
      b * splineVal (ix c.knots) c.degree (fun r => (ix c.cpts r).w * (ix c.cpts r).y) i t +
      d * splineVal (ix c.knots) c.degree (fun r => (ix c.cpts r).w * (ix c.cpts r).z) i t +
      e * splineVal (ix c.knots) c.degree (fun r => (ix c.cpts r).w) i t := by
    intro g a b d e hg
    rw [splineVal_congr (P₂ := fun r => a * ((ix c.cpts r).w * (ix c.cpts r).x) + b * ((ix c.cpts r).w * (ix c.cpts r).y)
      + d * ((ix c.cpts r).w * (ix c.cpts r).z) + e * (ix c.cpts r).w) t a1 (fun x hx _ => by
        rw [hg x (by omega)]; ring)]
    unfold splineVal
    simp only [dotL_add, dotL_mul]
  have hne := ne_of_gt hS
  rw [hW, hlin (fun r => (ix (c.cpts.map f.applyCpt) r).w * (ix (c.cpts.map f.applyCpt) r).x) f.rx.x f.rx.y f.rx.z f.t.x
      (fun x hx => by simp only [hix x hx]; rfl),
    hlin (fun r => (ix (c.cpts.map f.applyCpt) r).w * (ix (c.cpts.map f.applyCpt) r).y) f.ry.x f.ry.y f.ry.z f.t.y
      (fun x hx => by simp only [hix x hx]; rfl),
    hlin (fun r => (ix (c.cpts.map f.applyCpt) r).w * (ix (c.cpts.map f.applyCpt) r).z) f.rz.x f.rz.y f.rz.z f.t.z
      (fun x hx => by simp only [hix x hx]; rfl)]
  congr 1
  unfold Affine3.apply
  ext <;> simp only <;> field_simp

example : InDomain demoCurve (5 / 2) ∧ PositiveWeights demoCurve ∧
    demoCurve.evaluate (5 / 2) = .ok ⟨35 / 8, 5 / 8, 11 / 8⟩ := by
  unfold InDomain PositiveWeights; decide +kernel

/-- C28. A clamped curve starts at its first control point and ends at its last one, whatever the positive weights. -/
theorem C28_end_points (c : Curve K) (V : ValidCurve c) (hw : PositiveWeights c) (hc : Clamped c)
    (h0 : ix c.knots c.degree < ix c.knots (c.degree + 1)) :
    c.evaluate (ix c.knots c.degree) = .ok (Vec4.pos (ix c.cpts 0)) ∧
    c.evaluate (ix c.knots c.cpts.length) = .ok (Vec4.pos (ix c.cpts (c.cpts.length - 1))) := by
  have hlen := V.len
  have hen := V.enough
  have hpos : ∀ x, x < c.cpts.length → (ix c.cpts x).w ≠ 0 := fun x hx => ne_of_gt (hw _ (mem_ix hx))
  have hdom : ix c.knots c.degree ≤ ix c.knots c.cpts.length := ValidKnots.mono V _ _ (by omega) (by omega)
  constructor
  · rw [curve_eval V ⟨le_refl _, hdom⟩]
    have : findSpan (c.cpts.length - 1) c.degree (ix c.knots c.degree) (ix c.knots) = c.degree :=
      findSpan_eq (le_refl _) (by omega) (fun j h h' => by omega) (fun _ => h0)
    have hst : ∀ P : Nat → K, splineVal (ix c.knots) c.degree P c.degree (ix c.knots c.degree) = P (c.degree - c.degree) :=
      fun P => splineVal_start (le_refl _) (fun a _ ha => hc.1 a ha) (ne_of_gt h0)
    rw [this, curvePointAt_eq, hst, hst, hst, hst, Nat.sub_self]
    have := hpos 0 (by omega)
    rw [mul_div_cancel_left₀ _ this, mul_div_cancel_left₀ _ this, mul_div_cancel_left₀ _ this]; rfl
  · rw [curve_eval V ⟨hdom, le_refl _⟩]
    have hsp := (C26_basis_at_end V).1
    have hst : ∀ P : Nat → K, splineVal (ix c.knots) c.degree P (c.cpts.length - 1) (ix c.knots c.cpts.length) =
        P (c.cpts.length - 1) :=
      fun P => splineVal_end (by omega) (fun a h h' => hc.2 a (by omega) (by omega)) (ne_of_lt V.last_span)
    rw [hsp, curvePointAt_eq, hst, hst, hst, hst]
    have := hpos (c.cpts.length - 1) (by omega)
    rw [mul_div_cancel_left₀ _ this, mul_div_cancel_left₀ _ this, mul_div_cancel_left₀ _ this]; rfl

example : Clamped demoCurve ∧ ix demoCurve.knots 2 < ix demoCurve.knots 3 := by
  refine ⟨⟨by decide +kernel, ?_⟩, by decide +kernel⟩
  intro i h1 h2
  have h1' : 5 ≤ i := h1
  have h2' : i ≤ 7 := h2
  obtain rfl | rfl | rfl : i = 5 ∨ i = 6 ∨ i = 7 := by omega
  all_goals decide +kernel

/-! ### C29 -/

/-- C29. Inserting a knot `u` of the domain `count` times, where the total multiplicity stays at most the degree and no
other knot is within 1e-12 of `u`, succeeds; the new curve is valid with the same degree and domain, has `count` more
control points and `count` more copies of `u` in its knots, and evaluates to the same point at every parameter.
Proved for curves whose weights are all equal. -/
theorem C29_insertion_keeps_curve (c : Curve K) (V : ValidCurve c) (hw : EqualWeights c) (u : K)
    (h1 : ix c.knots c.degree ≤ u) (h2 : u < ix c.knots c.cpts.length) (hsep : ClearOf (1 / 10 ^ 12) c.knots u) (count : Nat)
    (hc : count + c.knots.count u ≤ c.degree) :
    ∃ c', c.insertKnot u count = .ok c' ∧ ValidCurve c' ∧ EqualWeights c' ∧ IntervalOk c' ∧ c'.degree = c.degree ∧
      c'.periodic = c.periodic ∧ c'.cpts.length = c.cpts.length + count ∧
      c'.knots.Perm (List.replicate count u ++ c.knots) ∧
      ∀ t, (InDomain c' t ↔ InDomain c t) ∧ (InDomain c t → c'.evaluate t = c.evaluate t) := by
  obtain ⟨k, s, hk, hs, hpk, hkn, k1, k2, hsk, hm, hlt⟩ := ValidKnots.insertion V h1 h2 hsep
  obtain ⟨w, hw0, hw⟩ := hw
  have hcnt := findMultiplicity_eq_count hsep
  obtain ⟨junk, lo, hi, he, hupd⟩ := insertKnot_ok V (u := u) (count := count) hk hpk hkn (by omega)
  obtain ⟨V', e1, e2⟩ := ValidKnots.insert V count hpk hkn k1 k2
  rw [hs] at he hcnt
  have hlen := V.len
  set Q := (List.range (c.cpts.length + count)).map (insArray lerp4 c.degree (ix c.knots) (ix c.cpts) u count s k junk)
    with hQ
  have hQl : Q.length = c.cpts.length + count := by rw [hQ]; simp
  have hQx : ∀ (φ : Vec4 K → K) (_ : ∀ α a b, φ (lerp4 α a b) = lerp1 α (φ a) (φ b)) x, x < c.cpts.length + count →
      φ (ix Q x) = insArray lerp1 c.degree (ix c.knots) (fun r => φ (ix c.cpts r)) u count s k (fun r => φ (junk r)) x := by
    intro φ hφ x hx
    rw [hQ, ix_map_range _ hx, insArray_map hφ hpk (by omega)]
  set c' : Curve K := ⟨Q, c.degree, knotInsertionKv c.knots u k count, c.periodic, lo, hi⟩ with hc'
  have Vc : ValidCurve c' := by
    unfold ValidCurve
    rw [show c'.cpts.length = c.cpts.length + count from hQl]
    exact V'
  have hdom : ∀ t, InDomain c' t ↔ InDomain c t := by
    intro t
    unfold InDomain
    rw [show c'.cpts.length = c.cpts.length + count from hQl, show c'.knots = knotInsertionKv c.knots u k count from rfl,
      show c'.degree = c.degree from rfl, e1, e2]
  have hw' : ∀ q ∈ c'.cpts, q.w = w := by
    intro q hq
    obtain ⟨x, hx, rfl⟩ := List.getElem_of_mem hq
    rw [← ix_eq_getElem]
    have hx' : x < c.cpts.length + count := by rw [← hQl]; exact hx
    rw [show c'.cpts = Q from rfl, hQx Vec4.w lerp4_w x hx']
    exact insArray_const hpk (by omega) hkn (fun r hr => hw _ (mem_ix hr)) x hx'
  refine ⟨c', he, Vc, ⟨w, hw0, hw'⟩, intervalOk_of (hupd.trans he), rfl, rfl, hQl, ?_, fun t => ⟨hdom t, fun hd => ?_⟩⟩
  · rw [show c'.knots = knotInsertionKv c.knots u k count from rfl, knotInsertionKv_eq _ _ _ _ (by omega)]
    conv_rhs => rw [← List.take_append_drop (k + 1) c.knots]
    rw [← List.append_assoc, ← List.append_assoc]
    exact List.Perm.append_right _ List.perm_append_comm
  · rw [curve_eval_equal Vc (ne_of_gt hw0) hw' ((hdom t).mpr hd), curve_eval_equal V (ne_of_gt hw0) hw hd]
    have hval : ∀ (φ : Vec4 K → K) (_ : ∀ α a b, φ (lerp4 α a b) = lerp1 α (φ a) (φ b)),
        splineVal (ix (knotInsertionKv c.knots u k count)) c.degree (fun r => φ (ix Q r))
          (findSpan (c.cpts.length + count - 1) c.degree t (ix (knotInsertionKv c.knots u k count))) t =
        splineVal (ix c.knots) c.degree (fun r => φ (ix c.cpts r))
          (findSpan (c.cpts.length - 1) c.degree t (ix c.knots)) t := by
      intro φ hφ
      rw [← ValidKnots.insert_eval V (init := fun r => φ (junk r)) (s := s) (num := count) hpk hkn k1 k2 hm (by omega) hd.1
        hd.2]
      obtain ⟨i, hi', b1, b2, _⟩ := V'.span (t := t) (by rw [e1]; exact hd.1) (by rw [e2]; exact hd.2)
      rw [hi']
      exact splineVal_congr t b1 fun x hx _ => hQx φ hφ x (by omega)
    simp only [hc', hQl]
    rw [hval Vec4.x lerp4_x, hval Vec4.y lerp4_y, hval Vec4.z lerp4_z]

example : ClearOf (1 / 10 ^ 12) demoCurve.knots 1 ∧ 1 + demoCurve.knots.count 1 ≤ demoCurve.degree ∧
    ∃ c', demoCurve.insertKnot 1 1 = .ok c' ∧ c'.evaluate (5 / 2) = demoCurve.evaluate (5 / 2) := by
  have h1 : ClearOf (1 / 10 ^ 12) demoCurve.knots 1 := by unfold ClearOf; decide +kernel
  have h2 : 1 + demoCurve.knots.count 1 ≤ demoCurve.degree := by decide +kernel
  obtain ⟨c', h, _, _, _, _, _, _, _, he⟩ := C29_insertion_keeps_curve demoCurve demoCurve_valid demoCurve_equal 1
    (by decide +kernel) (by decide +kernel) h1 1 h2
  exact ⟨h1, h2, c', h, (he _).2 (by unfold InDomain; decide +kernel)⟩

/-- C29. With unequal weights insertion moves the curve: the middle of the weighted line jumps from 3/4 to 1/2. -/
theorem C29_unequal_weights_counterexample :
    ∃ (c c' : Curve ℚ) (u t : ℚ), ValidCurve c ∧ PositiveWeights c ∧ InDomain c t ∧ c.insertKnot u 1 = .ok c' ∧
      c.evaluate t = .ok ⟨3 / 4, 0, 0⟩ ∧ c'.evaluate t = .ok ⟨1 / 2, 0, 0⟩ := by
  refine ⟨weightedLine, ⟨[⟨0, 0, 0, 1⟩, ⟨1 / 2, 0, 0, 2⟩, ⟨1, 0, 0, 3⟩], 1, [0, 0, 1 / 2, 1, 1], false, 0, 1⟩, 1 / 2, 1 / 2,
    weightedLine_valid, by unfold PositiveWeights; decide +kernel, by unfold InDomain; decide +kernel, by decide +kernel,
    by decide +kernel, by decide +kernel⟩

/-- C29. Asking for more copies than the degree allows runs out of the work array. -/
theorem C29_too_many_copies (c : Curve K) (u : K) (count : Nat) (h : c.degree < count + findMultiplicity u c.knots) :
    c.insertKnot u count = .ub := by
  unfold Curve.insertKnot
  simp only
  split
  · rfl
  · rw [knotInsertion, if_pos (.inl h)]; rfl

example : demoCurve.degree < 2 + findMultiplicity 1 demoCurve.knots := by decide +kernel

/-! ### C66 -/

/-- C66. Normalising the knots only reparametrises the curve: the new domain parameter of `t` is its relative position
between the first and the last knot, and the point there is the same. All weights are allowed. -/
theorem C66_normalize_keeps_shape (c : Curve K) (V : ValidCurve c) (hr : ix c.knots 0 < ix c.knots (c.knots.length - 1)) :
    ∃ c', c.normalizeKnots = .ok c' ∧ ValidCurve c' ∧ c'.cpts = c.cpts ∧ c'.degree = c.degree ∧ c'.lo = 0 ∧ c'.hi = 1 ∧
      (∀ x, ix c.knots 0 ≤ x → ∀ j < c.knots.length, ix c.knots j = x →
        ix c'.knots j = (x - ix c.knots 0) / (ix c.knots (c.knots.length - 1) - ix c.knots 0)) ∧
      ∀ t, InDomain c t →
        InDomain c' ((t - ix c.knots 0) / (ix c.knots (c.knots.length - 1) - ix c.knots 0)) ∧
        c'.evaluate ((t - ix c.knots 0) / (ix c.knots (c.knots.length - 1) - ix c.knots 0)) = c.evaluate t := by
  have hlen := V.len
  have hen := V.enough
  have hne : c.knots ≠ [] := by intro h; rw [h] at hlen; simp at hlen
  set a := ix c.knots 0 with ha
  set b := ix c.knots (c.knots.length - 1) with hb
  set d := 1 / (b - a) with hd
  have hdp : 0 < d := one_div_pos.mpr (sub_pos.mpr hr)
  have hmn : minElement c.knots = .ok a := by
    obtain ⟨m, h1, h2, h3⟩ := minElement_ok hne
    rw [h1]; congr 1
    obtain ⟨j, hj, e⟩ := List.getElem_of_mem h2
    rw [← ix_eq_getElem] at e
    exact le_antisymm (h3 _ (mem_ix (by omega))) (e ▸ ValidKnots.mono V 0 j (by omega) (by omega))
  have hmx : maxElement c.knots = .ok b := by
    obtain ⟨m, h1, h2, h3⟩ := maxElement_ok hne
    rw [h1]; congr 1
    obtain ⟨j, hj, e⟩ := List.getElem_of_mem h2
    rw [← ix_eq_getElem] at e
    exact le_antisymm (e ▸ ValidKnots.mono V j _ (by omega) (by omega)) (h3 _ (mem_ix (by omega)))
  set U' := c.knots.map fun k => (k - a) * d with hU'
  have hnk : Nurbs.normalizeKnots c.knots = .ok U' := by
    unfold Nurbs.normalizeKnots; rw [hmn, hmx]; rfl
  have hl' : U'.length = c.knots.length := by rw [hU']; simp
  have hix : ∀ x < c.knots.length, ix U' x = (ix c.knots x - a) * d := by
    intro x hx
    rw [ix_eq_getElem (by omega), ix_eq_getElem hx]
    simp only [hU', List.getElem_map]
  have hle : ∀ x y : K, x ≤ y → (x - a) * d ≤ (y - a) * d := fun x y h =>
    mul_le_mul_of_nonneg_right (sub_le_sub_right h a) (le_of_lt hdp)
  have hltm : ∀ x y : K, x < y → (x - a) * d < (y - a) * d := fun x y h =>
    mul_lt_mul_of_pos_right (sub_lt_sub_right h a) hdp
  have hsort : SortedKnots U' := by
    unfold SortedKnots
    rw [List.pairwise_iff_getElem]
    intro i j hi hj hij
    rw [← ix_eq_getElem, ← ix_eq_getElem, hix i (by omega), hix j (by omega)]
    exact hle _ _ (ValidKnots.mono V i j (by omega) (by omega))
  have V' : ValidKnots c.cpts.length c.degree U' :=
    ⟨V.deg_pos, V.deg_le, V.enough, by rw [hl', hlen], hsort, by
      rw [hix _ (by omega), hix _ (by omega)]; exact hltm _ _ V.last_span⟩
  have hU'ne : U' ≠ [] := by intro h; rw [h] at hl'; simp at hl'; omega
  obtain ⟨lo, hi, hup, ⟨hlo1, hlo2⟩, ⟨hhi1, hhi2⟩⟩ := updateInterval_ok (c := { c with knots := U' }) hU'ne
  have hlo0 : lo = 0 := by
    obtain ⟨j, hj, e⟩ := List.getElem_of_mem hlo1
    have hj' : j < c.knots.length := by rw [← hl']; exact hj
    rw [← ix_eq_getElem, hix j hj'] at e
    have h0 := hlo2 _ (mem_ix (l := U') (x := 0) (by omega))
    rw [hix 0 (by omega), ← ha, sub_self, zero_mul] at h0
    refine le_antisymm h0 (e ▸ mul_nonneg (sub_nonneg.mpr ?_) (le_of_lt hdp))
    exact ValidKnots.mono V 0 j (by omega) (by omega)
  have hhi0 : hi = 1 := by
    have hone : (b - a) * d = 1 := by rw [hd]; exact mul_one_div_cancel (ne_of_gt (sub_pos.mpr hr))
    obtain ⟨j, hj, e⟩ := List.getElem_of_mem hhi1
    have hj' : j < c.knots.length := by rw [← hl']; exact hj
    rw [← ix_eq_getElem, hix j hj'] at e
    have h0 := hhi2 _ (mem_ix (l := U') (x := c.knots.length - 1) (by omega))
    rw [hix _ (by omega), ← hb, hone] at h0
    refine le_antisymm (e ▸ hone ▸ hle _ _ ?_) h0
    exact ValidKnots.mono V j _ (by omega) (by omega)
  refine ⟨{ c with knots := U', lo := lo, hi := hi }, ?_, V', rfl, rfl, hlo0, hhi0, ?_, ?_⟩
  · unfold Curve.normalizeKnots; rw [hnk]; exact hup
  · intro x _ j hj hx
    rw [hix j hj, hx, hd, mul_one_div]
  · intro t hdm
    have ht : (t - a) / (b - a) = (t - a) * d := by rw [hd, mul_one_div]
    rw [ht]
    have hd' : InDomain ({ c with knots := U', lo := lo, hi := hi } : Curve K) ((t - a) * d) := by
      refine ⟨?_, ?_⟩
      · change ix U' c.degree ≤ _
        rw [hix _ (by omega)]; exact hle _ _ hdm.1
      · change _ ≤ ix U' c.cpts.length
        rw [hix _ (by omega)]; exact hle _ _ hdm.2
    refine ⟨hd', ?_⟩
    rw [curve_eval (c := { c with knots := U', lo := lo, hi := hi }) V' hd', curve_eval V hdm]
    obtain ⟨i, hi', b1, b2, _⟩ := ValidKnots.span V hdm.1 hdm.2
    simp only
    rw [findSpan_affine hdp (by omega) (fun x hx => hix x (by omega)) hdm.1, hi']
    unfold curvePointAt
    rw [basisFuns_affine (ne_of_gt hdp) _ b1 (fun x hx => hix x (by omega))]

example : ix demoCurve.knots 0 < ix demoCurve.knots (demoCurve.knots.length - 1) := by decide +kernel

/-! ### C30 -/

theorem ofKnots_ok {cpts : List (Vec4 K)} {p : Nat} {U : List K} {b : Bool} (hc : cpts ≠ []) (hU : U ≠ []) :
    ∃ lo hi, Curve.ofKnots cpts p U b = .ok ⟨cpts, p, U, b, lo, hi⟩ ∧ IntervalOk (⟨cpts, p, U, b, lo, hi⟩ : Curve K) := by
  obtain ⟨lo, hi, h, _⟩ := updateInterval_ok (c := (⟨cpts, p, U, b, 0, 1⟩ : Curve K)) hU
  refine ⟨lo, hi, ?_, intervalOk_of h⟩
  unfold Curve.ofKnots
  rw [h, Res.ok_bind, if_neg (by simpa using hc)]

/-- The split with all that is known about the pieces. -/
theorem split_core (c : Curve K) (V : ValidCurve c) (hw : EqualWeights c) (u : K) (h1 : ix c.knots c.degree < u)
    (h2 : u < ix c.knots c.cpts.length) (hlo : c.lo + 1 / 10 ^ 12 < u) (hhi : u < c.hi - 1 / 10 ^ 12)
    (hsep : ClearOf (1 / 10 ^ 12) c.knots u) (hc : c.knots.count u ≤ c.degree) :
    ∃ a b, c.split u false = .ok (a, b) ∧ (ValidCurve a ∧ EqualWeights a ∧ IntervalOk a ∧ a.degree = c.degree) ∧
      (ValidCurve b ∧ EqualWeights b ∧ IntervalOk b ∧ b.degree = c.degree) ∧
      (∀ t, (InDomain a t ↔ ix c.knots c.degree ≤ t ∧ t ≤ u) ∧ (InDomain b t ↔ u ≤ t ∧ t ≤ ix c.knots c.cpts.length)) ∧
      (∀ t, InDomain a t → a.evaluate t = c.evaluate t) ∧ (∀ t, InDomain b t → b.evaluate t = c.evaluate t) ∧
      (a.knots = c.knots.filter (fun x => decide (x < u)) ++ List.replicate (c.degree + 1) u ∧
        b.knots = List.replicate (c.degree + 1) u ++ c.knots.filter (fun x => decide (u < x))) ∧
      (∀ w, (∀ q ∈ c.cpts, q.w = w) → (∀ q ∈ a.cpts, q.w = w) ∧ (∀ q ∈ b.cpts, q.w = w)) ∧
      ∃ (k s : Nat) (junk : Nat → Vec4 K), SplitAt c.cpts.length c.degree c.knots u k s ∧ a.cpts.length = k - s + 1 ∧ b.cpts.length = c.cpts.length + c.degree - k ∧
        ∀ (φ : Vec4 K → K), (∀ α a b, φ (lerp4 α a b) = lerp1 α (φ a) (φ b)) →
          (∀ x < a.cpts.length, φ (ix a.cpts x) = insArray lerp1 c.degree (ix c.knots) (fun r => φ (ix c.cpts r)) u (c.degree - s) s k (fun r => φ (junk r)) x) ∧
          (∀ x < b.cpts.length, φ (ix b.cpts x) = insArray lerp1 c.degree (ix c.knots) (fun r => φ (ix c.cpts r)) u (c.degree - s) s k (fun r => φ (junk r)) (k - s + x)) := by
  obtain ⟨k, s, hk, hs, hpk, hkn, k1, k2, hsk, hm, hlt⟩ := ValidKnots.insertion V (le_of_lt h1) h2 hsep
  obtain ⟨w, hw0, hw⟩ := hw
  have hcnt := findMultiplicity_eq_count hsep
  have hlen := V.len
  have hen := V.enough
  have hps : c.degree + s ≤ k := by
    by_contra hcon
    have := hm c.degree (by omega) hpk
    exact absurd h1 (by rw [this]; exact lt_irrefl _)
  have S : SplitAt c.cpts.length c.degree c.knots u k s := ⟨hpk, hkn, k1, k2, hm, hlt, by omega, hps⟩
  have hcne : c.cpts ≠ [] := by intro h; rw [h] at hen; simp at hen
  have hkne : c.knots ≠ [] := by intro h; rw [h] at hlen; simp at hlen
  have htol : (0 : K) < 1 / 10 ^ 12 := multTol_pos
  have hguard : ¬ (u ≤ c.lo ∨ c.hi ≤ u ∨ absA (u - c.lo) ≤ splitTol ∨ absA (u - c.hi) ≤ splitTol) := by
    rw [splitTol_eq, absA_eq, absA_eq]
    have hl : 1 / 10 ^ 12 < u - c.lo := by linarith
    have hh : 1 / 10 ^ 12 < c.hi - u := by linarith
    rintro (h | h | h | h)
    · linarith
    · linarith
    · rw [abs_of_pos (by linarith)] at h; linarith
    · rw [abs_of_neg (by linarith)] at h; linarith
  obtain ⟨lo0, hi0, h0, _⟩ := ofKnots_ok (p := c.degree) (b := c.periodic) hcne hkne
  have V0 : ValidCurve (⟨c.cpts, c.degree, c.knots, c.periodic, lo0, hi0⟩ : Curve K) := V
  obtain ⟨junk, lo1, hi1, he, _⟩ := insertKnot_ok V0 (u := u) (count := c.degree - s) hk hpk hkn (by
    rw [show findMultiplicity u (⟨c.cpts, c.degree, c.knots, c.periodic, lo0, hi0⟩ : Curve K).knots = s from hs]
    change c.degree - s + s ≤ c.degree; omega)
  simp only [hs] at he
  set Q := (List.range (c.cpts.length + (c.degree - s))).map
    (insArray lerp4 c.degree (ix c.knots) (ix c.cpts) u (c.degree - s) s k junk) with hQ
  have hQl : Q.length = c.cpts.length + (c.degree - s) := by rw [hQ]; simp
  have hQx : ∀ (φ : Vec4 K → K) (_ : ∀ α a b, φ (lerp4 α a b) = lerp1 α (φ a) (φ b)) x,
      x < c.cpts.length + (c.degree - s) → φ (ix Q x) =
        insArray lerp1 c.degree (ix c.knots) (fun r => φ (ix c.cpts r)) u (c.degree - s) s k (fun r => φ (junk r)) x := by
    intro φ hφ x hx
    rw [hQ, ix_map_range _ hx, insArray_map hφ hpk (by omega)]
  have hQw : ∀ x, x < c.cpts.length + (c.degree - s) → (ix Q x).w = w := by
    intro x hx
    rw [hQx Vec4.w lerp4_w x hx]
    exact insArray_const hpk (by omega) hkn (fun r hr => hw _ (mem_ix hr)) x hx
  have hks : findSpan c.cpts.length c.degree u (ix c.knots) - c.degree + 1 + (c.degree - s) = k - s + 1 := by
    rw [findSpan_eq (i := k) hpk (by omega) (fun j _ hj => le_trans (ValidKnots.mono V j k hj (by omega)) k1)
      (fun _ => k2)]
    omega
  have hspan : findSpan Q.length c.degree u (ix (knotInsertionKv c.knots u k (c.degree - s))) + 1 =
      k + (c.degree - s) + 1 := by
    congr 1
    rw [ix_insKnots (by omega)]
    apply findSpan_eq (by omega) (by omega)
    · intro j _ hj
      rw [insKnots]
      by_cases c1 : j ≤ k
      · rw [if_pos c1]; exact le_trans (ValidKnots.mono V j k c1 (by omega)) k1
      · rw [if_neg c1, if_pos hj]
    · intro _
      rw [insKnots, if_neg (by omega), if_neg (by omega)]
      have : k + (c.degree - s) + 1 - (c.degree - s) = k + 1 := by omega
      rw [this]; exact k2
  obtain ⟨Va, ea1, ea2⟩ := kv1_valid V S
  obtain ⟨Vb, eb1, eb2⟩ := kv2_valid V S
  have hl1 : (Q.take (k - s + 1)).length = k - s + 1 := by rw [List.length_take]; omega
  have hl2 : (Q.drop (k - s)).length = c.cpts.length + c.degree - k := by rw [List.length_drop]; omega
  obtain ⟨la, ha, hofa, Ia⟩ := ofKnots_ok (cpts := Q.take (k - s + 1)) (p := c.degree) (b := false)
    (U := (knotInsertionKv c.knots u k (c.degree - s)).take (k + (c.degree - s) + 1) ++ [u])
    (by intro h; rw [h] at hl1; simp at hl1) (by simp)
  obtain ⟨lb, hb, hofb, Ib⟩ := ofKnots_ok (cpts := Q.drop (k - s)) (p := c.degree) (b := false)
    (U := List.replicate (c.degree + 1) u ++ (knotInsertionKv c.knots u k (c.degree - s)).drop (k + (c.degree - s) + 1))
    (by intro h; rw [h] at hl2; simp at hl2; omega) (by simp)
  refine ⟨_, _, ?_, ⟨?_, ⟨w, hw0, ?_⟩, Ia, rfl⟩, ⟨?_, ⟨w, hw0, ?_⟩, Ib, rfl⟩, ?_, ?_, ?_, ⟨kv1_eq V S, kv2_eq V S⟩, ?_, k, s, junk, S, hl1, hl2, ?_⟩
  · unfold Curve.split
    rw [if_neg hguard]
    simp only [hs]
    rw [if_neg (by omega), h0, Res.ok_bind, he, Res.ok_bind, hks, hspan, hofa, Res.ok_bind]
    have : k - s + 1 - 1 = k - s := by omega
    rw [this, hofb, Res.ok_bind]
    simp
  · unfold ValidCurve; rw [hl1]; exact Va
  · intro q hq
    obtain ⟨x, hx, rfl⟩ := List.getElem_of_mem hq
    simp only [hl1] at hx
    rw [← ix_eq_getElem, ix_take hx]
    exact hQw x (by omega)
  · unfold ValidCurve; rw [hl2]; exact Vb
  · intro q hq
    obtain ⟨x, hx, rfl⟩ := List.getElem_of_mem hq
    simp only [hl2] at hx
    rw [← ix_eq_getElem, ix_drop]
    exact hQw _ (by omega)
  · intro t
    unfold InDomain
    simp only [hl1, hl2, ea1, ea2, eb1, eb2, and_self]
  · intro t hd
    have hd' : ix c.knots c.degree ≤ t ∧ t ≤ u := by
      unfold InDomain at hd
      simpa only [hl1, ea1, ea2] using hd
    have hdc : InDomain c t := ⟨hd'.1, le_trans hd'.2 (le_of_lt h2)⟩
    rw [curve_eval_equal (w := w) (by unfold ValidCurve; rw [hl1]; exact Va) (ne_of_gt hw0) (by
      intro q hq
      obtain ⟨x, hx, rfl⟩ := List.getElem_of_mem hq
      simp only [hl1] at hx
      rw [← ix_eq_getElem, ix_take hx]
      exact hQw x (by omega)) hd, curve_eval_equal V (ne_of_gt hw0) hw hdc]
    simp only [hl1]
    have hv := fun (φ : Vec4 K → K) (hφ : ∀ α a b, φ (lerp4 α a b) = lerp1 α (φ a) (φ b)) =>
      split_left V S (t := t) (P := fun r => φ (ix c.cpts r)) (init := fun r => φ (junk r))
        (Q := fun r => φ (ix (Q.take (k - s + 1)) r)) (fun x hx => by
          simp only [ix_take hx]; exact hQx φ hφ x (by omega)) hd'.1 hd'.2
    rw [hv Vec4.x lerp4_x, hv Vec4.y lerp4_y, hv Vec4.z lerp4_z]
  · intro t hd
    have hd' : u ≤ t ∧ t ≤ ix c.knots c.cpts.length := by
      unfold InDomain at hd
      simpa only [hl2, eb1, eb2] using hd
    have hdc : InDomain c t := ⟨le_trans (le_of_lt h1) hd'.1, hd'.2⟩
    rw [curve_eval_equal (w := w) (by unfold ValidCurve; rw [hl2]; exact Vb) (ne_of_gt hw0) (by
      intro q hq
      obtain ⟨x, hx, rfl⟩ := List.getElem_of_mem hq
      simp only [hl2] at hx
      rw [← ix_eq_getElem, ix_drop]
      exact hQw _ (by omega)) hd, curve_eval_equal V (ne_of_gt hw0) hw hdc]
    simp only [hl2]
    have hv := fun (φ : Vec4 K → K) (hφ : ∀ α a b, φ (lerp4 α a b) = lerp1 α (φ a) (φ b)) =>
      split_right V S (t := t) (P := fun r => φ (ix c.cpts r)) (init := fun r => φ (junk r))
        (Q := fun r => φ (ix (Q.drop (k - s)) r)) (fun x hx => by
          simp only [ix_drop]
          rw [Nat.add_comm x]
          exact hQx φ hφ _ (by omega)) hd'.1 hd'.2
    rw [hv Vec4.x lerp4_x, hv Vec4.y lerp4_y, hv Vec4.z lerp4_z]
  · intro w' hw'
    have hcl : 0 < c.cpts.length := by omega
    have hww : w' = w := by rw [← hw' _ (mem_ix hcl), hw _ (mem_ix hcl)]
    subst hww
    constructor
    · intro q hq
      obtain ⟨x, hx, rfl⟩ := List.getElem_of_mem hq
      simp only [hl1] at hx
      rw [← ix_eq_getElem, ix_take hx]
      exact hQw x (by omega)
    · intro q hq
      obtain ⟨x, hx, rfl⟩ := List.getElem_of_mem hq
      simp only [hl2] at hx
      rw [← ix_eq_getElem, ix_drop]
      exact hQw _ (by omega)
  · intro φ hφ
    refine ⟨fun x hx => ?_, fun x hx => ?_⟩
    · simp only [hl1] at hx
      simp only [ix_take hx]; exact hQx φ hφ x (by omega)
    · simp only [hl2] at hx
      simp only [ix_drop]
      exact hQx φ hφ _ (by omega)

/-- C30. Splitting at a parameter strictly inside the domain, whose multiplicity is at most the degree and which is more
than 1e-12 away from every other knot, gives two valid curves with domains `[start, u]` and `[u, end]` that evaluate to
the original on their domains; they keep the knots below and above `u` and have `degree + 1` knots `u`, and keep a common weight. Proved for curves whose weights are all equal. -/
theorem C30_split_reproduces (c : Curve K) (V : ValidCurve c) (hw : EqualWeights c) (u : K) (h1 : ix c.knots c.degree < u)
    (h2 : u < ix c.knots c.cpts.length) (hlo : c.lo + 1 / 10 ^ 12 < u) (hhi : u < c.hi - 1 / 10 ^ 12)
    (hsep : ClearOf (1 / 10 ^ 12) c.knots u) (hc : c.knots.count u ≤ c.degree) :
    ∃ a b, c.split u false = .ok (a, b) ∧ (ValidCurve a ∧ EqualWeights a ∧ IntervalOk a ∧ a.degree = c.degree) ∧
      (ValidCurve b ∧ EqualWeights b ∧ IntervalOk b ∧ b.degree = c.degree) ∧
      (∀ t, (InDomain a t ↔ ix c.knots c.degree ≤ t ∧ t ≤ u) ∧ (InDomain b t ↔ u ≤ t ∧ t ≤ ix c.knots c.cpts.length)) ∧
      (∀ t, InDomain a t → a.evaluate t = c.evaluate t) ∧ (∀ t, InDomain b t → b.evaluate t = c.evaluate t) ∧
      (a.knots = c.knots.filter (fun x => decide (x < u)) ++ List.replicate (c.degree + 1) u ∧
        b.knots = List.replicate (c.degree + 1) u ++ c.knots.filter (fun x => decide (u < x))) ∧
      (∀ w, (∀ q ∈ c.cpts, q.w = w) → (∀ q ∈ a.cpts, q.w = w) ∧ (∀ q ∈ b.cpts, q.w = w)) := by
  obtain ⟨a, b, e1, e2, e3, e4, e5, e6, e7, e8, -⟩ := split_core c V hw u h1 h2 hlo hhi hsep hc
  exact ⟨a, b, e1, e2, e3, e4, e5, e6, e7, e8⟩

example : ClearOf (1 / 10 ^ 12) demoCurve.knots 1 ∧ demoCurve.knots.count 1 ≤ demoCurve.degree ∧
    ∃ a b, demoCurve.split 1 false = .ok (a, b) ∧ a.cpts.length = 3 ∧ b.cpts.length = 4 := by
  refine ⟨by unfold ClearOf; decide +kernel, by decide +kernel,
    ⟨[⟨0, 0, 0, 1⟩, ⟨1, 2, 0, 1⟩, ⟨2, 5 / 2, 1 / 2, 1⟩], 2, [0, 0, 0, 1, 1, 1], false, 0, 1⟩,
    ⟨[⟨2, 5 / 2, 1 / 2, 1⟩, ⟨3, 3, 1, 1⟩, ⟨4, 0, 2, 1⟩, ⟨6, 1, 0, 1⟩], 2, [1, 1, 1, 2, 3, 3, 3], false, 1, 3⟩,
    by decide +kernel, rfl, rfl⟩

/-- C30. With normalisation the same two halves come back on the unit interval: the parameter `t` of a half becomes its
relative position between the first and the last knot of that half. -/
theorem C30_split_normalized (c : Curve K) (V : ValidCurve c) (hw : EqualWeights c) (u : K) (h1 : ix c.knots c.degree < u)
    (h2 : u < ix c.knots c.cpts.length) (hlo : c.lo + 1 / 10 ^ 12 < u) (hhi : u < c.hi - 1 / 10 ^ 12)
    (hsep : ClearOf (1 / 10 ^ 12) c.knots u) (hc : c.knots.count u ≤ c.degree) :
    ∃ a b a' b', c.split u false = .ok (a, b) ∧ c.split u true = .ok (a', b') ∧ a'.lo = 0 ∧ a'.hi = 1 ∧ b'.lo = 0 ∧
      b'.hi = 1 ∧
      (∀ t, InDomain a t →
        a'.evaluate ((t - ix a.knots 0) / (ix a.knots (a.knots.length - 1) - ix a.knots 0)) = c.evaluate t) ∧
      (∀ t, InDomain b t →
        b'.evaluate ((t - ix b.knots 0) / (ix b.knots (b.knots.length - 1) - ix b.knots 0)) = c.evaluate t) := by
  obtain ⟨a, b, hs, ⟨Va, _, _, _⟩, ⟨Vb, _, _, _⟩, hdom, hea, heb, -, -⟩ := C30_split_reproduces c V hw u h1 h2 hlo hhi hsep hc
  have hrange : ∀ x : Curve K, ValidCurve x → ix x.knots 0 < ix x.knots (x.knots.length - 1) := by
    intro x Vx
    have hl := Vx.len
    have he := Vx.enough
    exact lt_of_le_of_lt (ValidKnots.mono Vx 0 (x.cpts.length - 1) (by omega) (by omega))
      (lt_of_lt_of_le Vx.last_span (ValidKnots.mono Vx _ _ (by omega) (by omega)))
  obtain ⟨a', na, _, _, _, la, ha, _, ea⟩ := C66_normalize_keeps_shape a Va (hrange a Va)
  obtain ⟨b', nb, _, _, _, lb, hb, _, eb⟩ := C66_normalize_keeps_shape b Vb (hrange b Vb)
  refine ⟨a, b, a', b', hs, ?_, la, ha, lb, hb, fun t ht => ?_, fun t ht => ?_⟩
  · unfold Curve.split at hs ⊢
    split at hs
    · exact absurd hs (by simp)
    · rename_i hg1
      rw [if_neg hg1]
      simp only at hs ⊢
      split at hs
      · exact absurd hs (by simp)
      · rename_i hg2
        rw [if_neg hg2]
        revert hs
        generalize Curve.ofKnots c.cpts c.degree c.knots c.periodic = x0
        cases x0 with
        | throws => simp
        | ub => simp
        | ok x0 =>
          simp only [Res.ok_bind]
          generalize x0.insertKnot u (c.degree - findMultiplicity u c.knots) = x1
          cases x1 with
          | throws => simp
          | ub => simp
          | ok x1 =>
            simp only [Res.ok_bind]
            generalize Curve.ofKnots (x1.cpts.take _) _ _ _ = x2
            cases x2 with
            | throws => simp
            | ub => simp
            | ok x2 =>
              simp only [Res.ok_bind]
              generalize Curve.ofKnots (x1.cpts.drop _) _ _ _ = x3
              cases x3 with
              | throws => simp
              | ub => simp
              | ok x3 =>
                intro hs
                simp at hs
                obtain ⟨rfl, rfl⟩ := hs
                rw [Res.ok_bind, if_pos trivial, na, Res.ok_bind, nb, Res.ok_bind]
  · rw [(ea t ht).2, hea t ht]
  · rw [(eb t ht).2, heb t ht]

/-- C30. At, outside or within 1e-12 of the ends of the interval `split` throws. -/
theorem C30_split_throws (c : Curve K) (u : K) (b : Bool)
    (h : u ≤ c.lo ∨ c.hi ≤ u ∨ |u - c.lo| ≤ 1 / 10 ^ 12 ∨ |u - c.hi| ≤ 1 / 10 ^ 12) : c.split u b = .throws := by
  unfold Curve.split
  rw [splitTol_eq, absA_eq, absA_eq]
  exact if_pos h

example : (3 : ℚ) ≤ 3 ∧ demoCurve.split 3 true = .throws := by decide +kernel

end Cmm.Nurbs
