import Verif.Lemmas.QuickDet
/-!
Exact distances, and the check of the initial simplex, which always succeeds.
-/
namespace Cmm.Quick
open Cmm.Geom Cmm.Newton
variable {K : Type} [Field K] [LinearOrder K] [IsStrictOrderedRing K]

/-- What the computations need: distinct, not too large integer points of which no four are in a plane. -/
structure Good (eps B : K) (P : Nat → Vec3 K) (n : Nat) : Prop where
  four : 4 ≤ n
  gen : Gen P n
  grid : ∀ p < n, Grid B (P p)
  eps0 : 0 ≤ eps
  one : 1 ≤ B
  small : eps * (14 * B ^ 2) < 1

variable {eps B : K} {P : Nat → Vec3 K} {n : Nat} {sqrt : K → K}

theorem Good.small2 (h : Good eps B P n) : eps * (2 * B ^ 2) < 1 := by
  have := h.small
  have : 0 ≤ eps * B ^ 2 := mul_nonneg h.eps0 (sq_nonneg _)
  nlinarith

theorem exists_fourth {n : Nat} (h : 4 ≤ n) (vs : Fin 3 → Nat) : ∃ p < n, ∀ i, p ≠ vs i := by
  by_contra hc
  push Not at hc
  choose k hk using fun p : Fin 4 => hc p.val (by omega)
  have hi : Function.Injective k := fun i j e => Fin.ext (by rw [hk i, hk j, e])
  have := Fintype.card_le_of_injective k hi
  simp at this

/-- The length of the normal. -/
theorem Good.len (h : Good eps B P n) (hsq : IsSqrt sqrt) {vs : Fin 3 → Nat} (hv : Function.Injective vs) (hl : ∀ k, vs k < n) :
    0 < sqrt (normal (P (vs 0)) (P (vs 1)) (P (vs 2))).sqLength ∧ sqrt (normal (P (vs 0)) (P (vs 1)) (P (vs 2))).sqLength ≤ 14 * B ^ 2 := by
  obtain ⟨p, hp, hpv⟩ := exists_fourth h.four vs
  have ho := h.gen vs hv hl p hp hpv
  rw [ov, orient_normal] at ho
  have hpos : 0 < (normal (P (vs 0)) (P (vs 1)) (P (vs 2))).sqLength := by
    set m := normal (P (vs 0)) (P (vs 1)) (P (vs 2)) with hm
    have hnn : 0 ≤ m.sqLength := by
      simp only [Vec3.sqLength]; nlinarith [mul_self_nonneg m.x, mul_self_nonneg m.y, mul_self_nonneg m.z]
    refine lt_of_le_of_ne hnn fun e => ho ?_
    have hx : m.x = 0 := by
      simp only [Vec3.sqLength] at e
      nlinarith [mul_self_nonneg m.x, mul_self_nonneg m.y, mul_self_nonneg m.z]
    have hy : m.y = 0 := by
      simp only [Vec3.sqLength] at e
      nlinarith [mul_self_nonneg m.x, mul_self_nonneg m.y, mul_self_nonneg m.z]
    have hz : m.z = 0 := by
      simp only [Vec3.sqLength] at e
      nlinarith [mul_self_nonneg m.x, mul_self_nonneg m.y, mul_self_nonneg m.z]
    simp only [Vec3.dot, hx, hy, hz]; ring
  obtain ⟨h1, h2⟩ := hsq _ hpos
  refine ⟨h1, ?_⟩
  have hb := normal_bound h.one (h.grid _ (hl 0)) (h.grid _ (hl 1)) (h.grid _ (hl 2))
  rw [← h2] at hb
  have := h.one
  refine le_of_sq_le_sq ?_ (by positivity)
  rw [sq]; exact hb

/-- The computed distance. -/
theorem Good.dist (h : Good eps B P n) (sqrt : K → K) {vs : Fin 3 → Nat} (hl : ∀ k, vs k < n) (x : Vec3 K) :
    planeDistance sqrt eps (P (vs 0)) (P (vs 1)) (P (vs 2)) x = ov P vs x / sqrt (normal (P (vs 0)) (P (vs 1)) (P (vs 2))).sqLength :=
  planeDistance_eq sqrt h.eps0 h.one h.small2 (h.grid _ (hl 0)) (h.grid _ (hl 1)) (h.grid _ (hl 2)) x

omit [LinearOrder K] [IsStrictOrderedRing K] in
theorem orient_int {a b c p : Vec3 K} (ha : IsInt a.x ∧ IsInt a.y ∧ IsInt a.z) (hb : IsInt b.x ∧ IsInt b.y ∧ IsInt b.z)
    (hc : IsInt c.x ∧ IsInt c.y ∧ IsInt c.z) (hp : IsInt p.x ∧ IsInt p.y ∧ IsInt p.z) : IsInt (orient a b c p) := by
  have e : orient a b c p = det (b - a) (c - a) (p - a) := by simp [orient, det, Vec3.dot, Vec3.cross]
  rw [e]
  refine det_int ?_ ?_ ?_
  · simp only [Vec3.sub_x, Vec3.sub_y, Vec3.sub_z]; exact ⟨hb.1.sub ha.1, hb.2.1.sub ha.2.1, hb.2.2.sub ha.2.2⟩
  · simp only [Vec3.sub_x, Vec3.sub_y, Vec3.sub_z]; exact ⟨hc.1.sub ha.1, hc.2.1.sub ha.2.1, hc.2.2.sub ha.2.2⟩
  · simp only [Vec3.sub_x, Vec3.sub_y, Vec3.sub_z]; exact ⟨hp.1.sub ha.1, hp.2.1.sub ha.2.1, hp.2.2.sub ha.2.2⟩

theorem Good.exact (h : Good eps B P n) (hsq : IsSqrt sqrt) :
    Exact eps (fun vs i => planeDistance sqrt eps (P (vs 0)) (P (vs 1)) (P (vs 2)) (P i)) P n := by
  refine ⟨h.eps0, fun vs hv hl p hp => ?_, fun vs hv hl p hp => ?_⟩
  · rw [h.dist sqrt hl]
    obtain ⟨h1, -⟩ := h.len hsq hv hl
    exact ⟨fun hh => by rwa [lt_div_iff₀ h1, zero_mul] at hh, fun hh => div_pos hh h1⟩
  · rw [h.dist sqrt hl]
    obtain ⟨h1, h2⟩ := h.len hsq hv hl
    rw [lt_div_iff₀ h1]
    constructor
    · intro hh; exact lt_of_le_of_lt (mul_nonneg h.eps0 h1.le) hh
    · intro hh
      have hi : IsInt (ov P vs (P p)) := orient_int (h.grid _ (hl 0)).int (h.grid _ (hl 1)).int (h.grid _ (hl 2)).int (h.grid _ hp).int
      have h3 := hi.one_le_abs hh.ne'
      rw [abs_of_pos hh] at h3
      have h4 : eps * sqrt (normal (P (vs 0)) (P (vs 1)) (P (vs 2))).sqLength ≤ eps * (14 * B ^ 2) := mul_le_mul_of_nonneg_left h2 h.eps0
      have := h.small
      linarith

omit [LinearOrder K] [IsStrictOrderedRing K] in
/-- The distance from a plane is affine. -/
theorem dist_mean3 (m : Vec3 K) (D : K) (a b c : Vec3 K) (h3 : (3 : K) ≠ 0) :
    D + m.dot ((a + b + c).sdiv 3) = ((D + m.dot a) + (D + m.dot b) + (D + m.dot c)) / 3 := by
  simp only [Vec3.dot, Vec3.sdiv, Vec3.add_x, Vec3.add_y, Vec3.add_z]
  field_simp; ring

omit [LinearOrder K] [IsStrictOrderedRing K] in
theorem dist_mean4 (m : Vec3 K) (D : K) (a b c d : Vec3 K) (h4 : (4 : K) ≠ 0) :
    D + m.dot ((d + a + b + c).sdiv 4) = ((D + m.dot a) + (D + m.dot b) + (D + m.dot c) + (D + m.dot d)) / 4 := by
  simp only [Vec3.dot, Vec3.sdiv, Vec3.add_x, Vec3.add_y, Vec3.add_z]
  field_simp; ring

omit [LinearOrder K] [IsStrictOrderedRing K] in
theorem dot_diff (m : Vec3 K) (D : K) (x y : Vec3 K) : (x - y).dot m = (D + m.dot x) - (D + m.dot y) := by
  simp only [Vec3.dot, Vec3.sub_x, Vec3.sub_y, Vec3.sub_z]; ring

theorem fin4_cases : ∀ f : Fin 4, f = 0 ∨ f = 1 ∨ f = 2 ∨ f = 3 := by decide

omit [LinearOrder K] [IsStrictOrderedRing K] in
theorem sum4 (g : Fin 4 → K) (f : Fin 4) (h : ∀ i, i ≠ f → g i = 0) : (g 0 + g 1 + g 2 + g 3) / 4 = g f / 4 := by
  rcases fin4_cases f with rfl | rfl | rfl | rfl
  · rw [h 1 (by decide), h 2 (by decide), h 3 (by decide)]; simp
  · rw [h 0 (by decide), h 2 (by decide), h 3 (by decide)]; simp
  · rw [h 0 (by decide), h 1 (by decide), h 3 (by decide)]; simp
  · rw [h 0 (by decide), h 1 (by decide), h 2 (by decide)]; simp

omit [LinearOrder K] [IsStrictOrderedRing K] in
theorem sum3 (swap : Bool) (g : Fin 4 → K) (f : Fin 4) (h : ∀ i, i ≠ f → g i = 0) :
    (g (corner swap 0 0) + g (corner swap 0 1) + g (corner swap 0 2)) / 3 = if f = 0 then 0 else g f / 3 := by
  have e : g (corner swap 0 0) + g (corner swap 0 1) + g (corner swap 0 2) = g 1 + g 2 + g 3 := by
    cases swap
    · show g 3 + g 2 + g 1 = _; ring
    · rfl
  rw [e]
  rcases fin4_cases f with rfl | rfl | rfl | rfl
  · rw [h 1 (by decide), h 2 (by decide), h 3 (by decide)]; simp
  · rw [h 2 (by decide), h 3 (by decide)]; simp
  · rw [h 1 (by decide), h 3 (by decide)]; simp
  · rw [h 1 (by decide), h 2 (by decide)]; simp

/-- The check of a simplex whose planes are exact. -/
theorem check_simplex (h0 : 0 ≤ eps) {plane : (Fin 3 → Nat) → Vec3 K × K} {simplex : Fin 4 → Nat} {swap : Bool} {s : State K} (hsz : s.size = 4)
    (hv : ∀ f : Fin 4, (s.facets f).vertices = (simplexFacet simplex swap f).vertices)
    (hn : ∀ f : Fin 4, (s.facets f).neighbours = (simplexFacet simplex swap f).neighbours)
    (hzero : ∀ f i : Fin 4, i ≠ f → (plane (simplexFacet simplex swap f).vertices).2 + (plane (simplexFacet simplex swap f).vertices).1.dot (P (simplex i)) = 0)
    (hneg : ∀ f : Fin 4, (plane (simplexFacet simplex swap f).vertices).2 + (plane (simplexFacet simplex swap f).vertices).1.dot (P (simplex f)) < 0) :
    check eps P plane ((P (simplex 3) + P (simplex 0) + P (simplex 1) + P (simplex 2)).sdiv 4) s = some true := by
  have h3 : (3 : K) ≠ 0 := by norm_num
  have h4 : (4 : K) ≠ 0 := by norm_num
  -- the inner point is below all planes
  have hin : ∀ f : Fin 4, (plane (s.facets f).vertices).2 + (plane (s.facets f).vertices).1.dot ((P (simplex 3) + P (simplex 0) + P (simplex 1) + P (simplex 2)).sdiv 4) =
      ((plane (s.facets f).vertices).2 + (plane (s.facets f).vertices).1.dot (P (simplex f))) / 4 := by
    intro f
    rw [hv, dist_mean4 _ _ _ _ _ _ h4]
    exact sum4 (fun i => (plane (simplexFacet simplex swap f).vertices).2 + (plane (simplexFacet simplex swap f).vertices).1.dot (P (simplex i))) f (hzero f)
  have hneg' : ∀ f : Fin 4, (plane (s.facets f).vertices).2 + (plane (s.facets f).vertices).1.dot (P (simplex f)) < 0 := fun f => by rw [hv]; exact hneg f
  have hzero' : ∀ f i : Fin 4, i ≠ f → (plane (s.facets f).vertices).2 + (plane (s.facets f).vertices).1.dot (P (simplex i)) = 0 :=
    fun f i hi => by rw [hv]; exact hzero f i hi
  have hvs : ∀ (f : Fin 4) k, (s.facets f).vertices k = simplex (corner swap f k) := fun f k => by rw [hv, simplexFacet_vertices]
  have hns : ∀ (f : Fin 4) k, (s.facets f).neighbours k = (corner swap f k).val := fun f k => by rw [hn, simplexFacet_neighbours]
  have hloc : ∀ f : Fin 4, localConvex eps P plane s f = true := by
    intro f
    rw [localConvex, List.all_eq_true]
    intro k _
    dsimp only
    split
    · split
      · rfl
      · rename_i v hfv
        have hm := List.find?_some hfv
        rw [decide_eq_true_iff, hns f k, hns] at hm
        have hm : corner swap (corner swap f k) v = f := Fin.ext hm
        rw [hns f k, hvs, hm]
        simp only [Bool.not_eq_true', decide_eq_false_iff_not, not_lt]
        exact (hneg' f).le.trans h0
    · rfl
  -- the centre of the first facet
  have hcen : ∀ f : Fin 4, (plane (s.facets f).vertices).2 + (plane (s.facets f).vertices).1.dot ((P ((s.facets 0).vertices 0) + P ((s.facets 0).vertices 1) +
      P ((s.facets 0).vertices 2)).sdiv 3) = if f = 0 then 0 else ((plane (s.facets f).vertices).2 + (plane (s.facets f).vertices).1.dot (P (simplex f))) / 3 := by
    intro f
    have e0 := hvs 0 0
    have e1 := hvs 0 1
    have e2 := hvs 0 2
    rw [show (((0 : Fin 4) : Nat)) = 0 from rfl] at e0 e1 e2
    rw [dist_mean3 _ _ _ _ _ h3, e0, e1, e2]
    exact sum3 swap (fun i => (plane (s.facets f).vertices).2 + (plane (s.facets f).vertices).1.dot (P (simplex i))) f (hzero' f)
  have hray : ∀ f : Fin 4, ((P ((s.facets 0).vertices 0) + P ((s.facets 0).vertices 1) + P ((s.facets 0).vertices 2)).sdiv 3 -
      (P (simplex 3) + P (simplex 0) + P (simplex 1) + P (simplex 2)).sdiv 4).dot (plane (s.facets f).vertices).1 =
      (if f = 0 then 0 else ((plane (s.facets f).vertices).2 + (plane (s.facets f).vertices).1.dot (P (simplex f))) / 3) -
        ((plane (s.facets f).vertices).2 + (plane (s.facets f).vertices).1.dot (P (simplex f))) / 4 := by
    intro f
    rw [dot_diff _ (plane (s.facets f).vertices).2, hin, hcen]
  have hr0 := hray 0
  rw [if_pos rfl] at hr0
  have hrf : ∀ f : Fin 4, f ≠ 0 → ¬ 0 < ((P ((s.facets 0).vertices 0) + P ((s.facets 0).vertices 1) + P ((s.facets 0).vertices 2)).sdiv 3 -
      (P (simplex 3) + P (simplex 0) + P (simplex 1) + P (simplex 2)).sdiv 4).dot (plane (s.facets f).vertices).1 := by
    intro f hf
    rw [hray, if_neg hf]
    have := hneg' f
    linarith
  have hd : ∀ f : Fin 4, (plane (s.facets f).vertices).2 + (plane (s.facets f).vertices).1.dot ((P (simplex 3) + P (simplex 0) + P (simplex 1) + P (simplex 2)).sdiv 4) < 0 := by
    intro f
    rw [hin]
    have := hneg' f
    linarith
  have hd0 := hd 0
  have hd1 := hd 1
  have hd2 := hd 2
  have hd3 := hd 3
  have hr1 := hrf 1 (by decide)
  have hr2 := hrf 2 (by decide)
  have hr3 := hrf 3 (by decide)
  rw [show ((0 : Fin 4) : Nat) = 0 from rfl] at hd0
  rw [show ((1 : Fin 4) : Nat) = 1 from rfl] at hd1 hr1
  rw [show ((2 : Fin 4) : Nat) = 2 from rfl] at hd2 hr2
  rw [show ((3 : Fin 4) : Nat) = 3 from rfl] at hd3 hr3
  rw [check]
  dsimp only
  rw [if_neg, if_neg (not_not.mpr hd0), if_neg (not_not.mpr ?_), hsz]
  · show List.foldr _ _ [1, 2, 3] = _
    simp only [List.foldr_cons, List.foldr_nil]
    rw [if_neg (not_not.mpr hd1), if_neg hr1, if_neg (not_not.mpr hd2), if_neg hr2, if_neg (not_not.mpr hd3), if_neg hr3]
  · rw [show (plane (s.facets 0).vertices).1 = (plane (s.facets ((0 : Fin 4) : Nat)).vertices).1 from rfl, hr0]
    have := hneg' 0
    linarith
  · rw [not_not, hsz, List.all_eq_true]
    intro f hf
    exact hloc ⟨f, List.mem_range.mp hf⟩

end Cmm.Quick
