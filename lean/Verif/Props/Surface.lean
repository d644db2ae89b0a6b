import Verif.Lemmas.SurfaceOps
import Verif.Props.Curve
import Verif.Props.Knots
/-!
Properties of `NURBSSurface`: C31 (convex hull, corners), C32 (iso-curves), C33 (knot insertion, splitting, subdivision)
and C67 (the derivative net). The vocabulary is in Spec/Curve.lean and Spec/Surface.lean.
-/
namespace Cmm.Nurbs
variable {K : Type} [Field K] [LinearOrder K] [IsStrictOrderedRing K]

/-- A quadratic by linear patch with an inner u knot and unit weights. -/
def demoSurface : Surface ℚ :=
  ⟨[[⟨0, 0, 0, 1⟩, ⟨0, 1, 1, 1⟩], [⟨1, 0, 2, 1⟩, ⟨1, 1, 0, 1⟩], [⟨2, 0, 1, 1⟩, ⟨2, 2, 3, 1⟩], [⟨3, 0, 0, 1⟩, ⟨3, 1, 1, 1⟩]],
   2, 1, 4, 2, [0, 0, 0, 1/3, 1, 1, 1], [0, 0, 2, 2], 0, 1, 0, 2⟩

theorem demoSurface_valid : ValidSurface demoSurface :=
  ⟨rfl, by decide +kernel, ⟨by decide, by decide, by decide, rfl, by unfold SortedKnots; decide +kernel, by decide +kernel⟩,
   ⟨by decide, by decide, by decide, rfl, by unfold SortedKnots; decide +kernel, by decide +kernel⟩⟩

/-- A patch with unequal (homogeneous) weights. -/
def weightedSurface : Surface ℚ :=
  ⟨[[⟨0, 0, 0, 1⟩, ⟨0, 1, 1, 1⟩], [⟨2, 0, 4, 2⟩, ⟨3, 3, 0, 3⟩]], 1, 1, 2, 2, [0, 0, 1, 1], [0, 0, 1, 1], 0, 1, 0, 1⟩

theorem weightedSurface_valid : ValidSurface weightedSurface :=
  ⟨rfl, by decide +kernel, ⟨by decide, by decide, by decide, rfl, by unfold SortedKnots; decide +kernel, by decide +kernel⟩,
   ⟨by decide, by decide, by decide, rfl, by unfold SortedKnots; decide +kernel, by decide +kernel⟩⟩

/-! ### C31: convex hull and corners -/

/-- **C31**: with positive weights `evaluate` answers, and the point is a convex combination of the projected control
points that belong to the two knot spans. -/
theorem C31_convex_combination (s : Surface K) (S : ValidSurface s) (hw : SurfPositive s) (u v : K) (hd : SurfInDomain s u v) :
    ∃ i j r, (s.du ≤ i ∧ i < s.su ∧ ix s.ku i ≤ u ∧ u ≤ ix s.ku (i + 1)) ∧
      (s.dv ≤ j ∧ j < s.sv ∧ ix s.kv j ≤ v ∧ v ≤ ix s.kv (j + 1)) ∧ s.evaluate u v = .ok r ∧
      ConvexCombination r (((s.cpts.drop (i - s.du)).take (s.du + 1)).flatMap fun row =>
        ((row.drop (j - s.dv)).take (s.dv + 1)).map Vec4.toVec3) := by
  obtain ⟨i, hi, a1, a2, a3, a4, a5, _, a7⟩ := S.knots_u.span hd.1.1 hd.1.2
  obtain ⟨j, hj, b1, b2, b3, b4, b5, _, b7⟩ := S.knots_v.span hd.2.1 hd.2.2
  have hN := basisFuns_nonneg S.knots_u.mono a3 a4 s.du a1 (by omega)
  have hM := basisFuns_nonneg S.knots_v.mono b3 b4 s.dv b1 (by omega)
  have hlN := basisFuns_length i u (ix s.ku) s.du
  have hlM := basisFuns_length j v (ix s.kv) s.dv
  have hr := S.rows
  have hc := comb_rows s.cpts hw (basisFuns j v (ix s.kv) s.dv) hM (j - s.dv)
    (fun r hr => by rw [S.cols r hr, hlM]; omega) (basisFuns i u (ix s.ku) s.du) hN (i - s.du) (by rw [hlN]; omega)
  have hpos : 0 < dotL (basisFuns i u (ix s.ku) s.du) (fun x => dotL (basisFuns j v (ix s.kv) s.dv)
      (fun y => (cell s.cpts x y).w) (j - s.dv)) (i - s.du) := by
    refine (dotL_pos _ _ _ hN ?_).2 (by rw [basisFuns_sum a1 a7]; exact one_pos)
    intro x hx
    refine (dotL_pos _ _ _ hM ?_).2 (by rw [basisFuns_sum b1 b7]; exact one_pos)
    intro y hy
    obtain ⟨row, h1, h2⟩ := S.cell_mem (i := i - s.du + x) (j := j - s.dv + y) (by omega) (by omega)
    exact hw row h1 _ h2
  rw [hlN, hlM] at hc
  set W := dotL (basisFuns i u (ix s.ku) s.du) (fun x => dotL (basisFuns j v (ix s.kv) s.dv)
      (fun y => (cell s.cpts x y).w) (j - s.dv)) (i - s.du) with hW
  have key : ∀ φ : Vec4 K → K, spline2 s.du s.dv (ix s.ku) (ix s.kv) (fun x y => φ (cell s.cpts x y)) i j u v =
      dotL (basisFuns i u (ix s.ku) s.du) (fun x => dotL (basisFuns j v (ix s.kv) s.dv)
      (fun y => φ (cell s.cpts x y)) (j - s.dv)) (i - s.du) := by
    intro φ; rw [spline2_comm]; rfl
  have hev := surf_eval S hd
  rw [hi, hj, dehomog, surfaceSum_comp _ cw rfl, surfaceSum_comp _ cx rfl, surfaceSum_comp _ cy rfl, surfaceSum_comp _ cz rfl,
    key Vec4.w, key Vec4.x, key Vec4.y, key Vec4.z, ← hW, if_neg (ne_of_gt hpos)] at hev
  refine ⟨i, j, _, ⟨a1, a2, a3, a4⟩, ⟨b1, b2, b3, b4⟩, hev, ?_⟩
  obtain ⟨c, c1, c2, c3, c4⟩ := hc.smul (n := 1 / W) (by positivity)
  refine ⟨c, c1, c2, ?_, ?_⟩
  · rw [c3]; field_simp
  · rw [← c4]; ext <;> simp <;> ring

example : SurfPositive demoSurface ∧ SurfInDomain demoSurface (1 / 2) (1 / 2) := by
  unfold SurfPositive SurfInDomain; decide +kernel
example : SurfPositive weightedSurface ∧ SurfInDomain weightedSurface (1 / 2) (1 / 2) := by
  unfold SurfPositive SurfInDomain; decide +kernel

/-- C31: every box that contains the projected control points contains the surface. -/
theorem C31_surface_in_box (s : Surface K) (S : ValidSurface s) (hw : SurfPositive s) (b : AABB K)
    (hb : ∀ r ∈ s.cpts, ∀ q ∈ r, InBox q.toVec3 b) (u v : K) (hd : SurfInDomain s u v) :
    ∃ r, s.evaluate u v = .ok r ∧ InBox r b := by
  obtain ⟨i, j, r, _, _, he, hc⟩ := C31_convex_combination s S hw u v hd
  refine ⟨r, he, hc.inBox fun q hq => ?_⟩
  obtain ⟨row, hrow, hq⟩ := List.mem_flatMap.mp hq
  obtain ⟨q', hq', rfl⟩ := List.mem_map.mp hq
  exact hb row (List.mem_of_mem_drop (List.mem_of_mem_take hrow)) q' (List.mem_of_mem_drop (List.mem_of_mem_take hq'))

/-- C31: the surface's own `bbox` contains the surface, for all positive weights. -/
theorem C31_own_box (s : Surface K) (S : ValidSurface s) (hw : SurfPositive s) :
    ∃ b, s.bbox = .ok b ∧ ∀ u v, SurfInDomain s u v → ∃ r, s.evaluate u v = .ok r ∧ InBox r b := by
  have hu := S.knots_u.enough
  have hv := S.knots_v.enough
  unfold Surface.bbox
  rw [if_neg (by rw [S.covered]; simp; omega)]
  refine ⟨_, rfl, fun u v hd => C31_surface_in_box s S hw _ ?_ u v hd⟩
  intro r hr q hq
  have h1 := (foldl_expand_spec ((List.range s.su).flatMap fun i => (List.range s.sv).map fun j => (cell s.cpts i j).toVec3)
    ⟨(cell s.cpts 0 0).toVec3, (cell s.cpts 0 0).toVec3⟩ _).mp (BoxLe.refl _)
  refine (inBox_iff _ _).mpr (h1.2 _ ?_)
  obtain ⟨i, hi, rfl⟩ := List.mem_iff_getElem.mp hr
  obtain ⟨j, hj, rfl⟩ := List.mem_iff_getElem.mp hq
  have hj' : j < s.sv := by rw [← S.cols _ hr]; exact hj
  refine List.mem_flatMap.mpr ⟨i, by rw [List.mem_range, ← S.rows]; exact hi, List.mem_map.mpr ⟨j, by simpa using hj', ?_⟩⟩
  rw [cell_eq hi, ix_eq_getElem hj]

/-- C31: a clamped surface passes through its four corner control points (projected), for nonzero weights there. -/
theorem C31_corners (s : Surface K) (S : ValidSurface s) (hu : ClampedKnots s.su s.du s.ku) (hv : ClampedKnots s.sv s.dv s.kv)
    (hu0 : ix s.ku s.du < ix s.ku (s.du + 1)) (hv0 : ix s.kv s.dv < ix s.kv (s.dv + 1))
    (hw : ∀ i j, i < s.su → j < s.sv → (cell s.cpts i j).w ≠ 0) :
    s.evaluate (ix s.ku s.du) (ix s.kv s.dv) = .ok (cell s.cpts 0 0).toVec3 ∧
    s.evaluate (ix s.ku s.su) (ix s.kv s.dv) = .ok (cell s.cpts (s.su - 1) 0).toVec3 ∧
    s.evaluate (ix s.ku s.du) (ix s.kv s.sv) = .ok (cell s.cpts 0 (s.sv - 1)).toVec3 ∧
    s.evaluate (ix s.ku s.su) (ix s.kv s.sv) = .ok (cell s.cpts (s.su - 1) (s.sv - 1)).toVec3 := by
  have ends : ∀ {n p : Nat} {U : List K}, ValidKnots n p U → ClampedKnots n p U → ix U p < ix U (p + 1) →
      (∃ i, findSpan (n - 1) p (ix U p) (ix U) = i ∧ ∀ P : Nat → K, splineVal (ix U) p P i (ix U p) = P 0) ∧
      (∃ i, findSpan (n - 1) p (ix U n) (ix U) = i ∧ ∀ P : Nat → K, splineVal (ix U) p P i (ix U n) = P (n - 1)) ∧
      ix U p ≤ ix U n := by
    intro n p U V hc h0
    have hen := V.enough
    refine ⟨⟨p, findSpan_eq (le_refl _) (by omega) (fun j h h' => by omega) (fun _ => h0), fun P => ?_⟩,
      ⟨n - 1, (C26_basis_at_end V).1, fun P =>
        splineVal_end (by omega) (fun a h h' => hc.2 a (by omega) (by omega)) (ne_of_lt V.last_span)⟩,
      V.mono _ _ (by omega) (by omega)⟩
    rw [splineVal_start (le_refl _) (fun a _ ha => hc.1 a ha) (ne_of_gt h0), Nat.sub_self]
  obtain ⟨⟨i0, h1, h1'⟩, ⟨i1, h2, h2'⟩, h3⟩ := ends S.knots_u hu hu0
  obtain ⟨⟨j0, g1, g1'⟩, ⟨j1, g2, g2'⟩, g3⟩ := ends S.knots_v hv hv0
  have e1 := S.knots_u.enough
  have e2 := S.knots_v.enough
  refine ⟨?_, ?_, ?_, ?_⟩
  · rw [surf_eval S ⟨⟨le_refl _, h3⟩, ⟨le_refl _, g3⟩⟩, h1, g1, dehomog, surfaceSum_comp _ cw rfl, surfaceSum_comp _ cx rfl,
      surfaceSum_comp _ cy rfl, surfaceSum_comp _ cz rfl]
    simp only [spline2, h1', g1']
    rw [if_neg (hw _ _ (by omega) (by omega))]; rfl
  · rw [surf_eval S ⟨⟨h3, le_refl _⟩, ⟨le_refl _, g3⟩⟩, h2, g1, dehomog, surfaceSum_comp _ cw rfl, surfaceSum_comp _ cx rfl,
      surfaceSum_comp _ cy rfl, surfaceSum_comp _ cz rfl]
    simp only [spline2, h2', g1']
    rw [if_neg (hw _ _ (by omega) (by omega))]; rfl
  · rw [surf_eval S ⟨⟨le_refl _, h3⟩, ⟨g3, le_refl _⟩⟩, h1, g2, dehomog, surfaceSum_comp _ cw rfl, surfaceSum_comp _ cx rfl,
      surfaceSum_comp _ cy rfl, surfaceSum_comp _ cz rfl]
    simp only [spline2, h1', g2']
    rw [if_neg (hw _ _ (by omega) (by omega))]; rfl
  · rw [surf_eval S ⟨⟨h3, le_refl _⟩, ⟨g3, le_refl _⟩⟩, h2, g2, dehomog, surfaceSum_comp _ cw rfl, surfaceSum_comp _ cx rfl,
      surfaceSum_comp _ cy rfl, surfaceSum_comp _ cz rfl]
    simp only [spline2, h2', g2']
    rw [if_neg (hw _ _ (by omega) (by omega))]; rfl

example : ClampedKnots weightedSurface.su weightedSurface.du weightedSurface.ku ∧
    ix weightedSurface.ku 1 < ix weightedSurface.ku 2 ∧
    ∀ i j, i < weightedSurface.su → j < weightedSurface.sv → (cell weightedSurface.cpts i j).w ≠ 0 := by
  refine ⟨⟨by decide +kernel, ?_⟩, by decide +kernel, ?_⟩
  · intro i h1 h2
    have h1' : 2 ≤ i := h1
    have h2' : i ≤ 3 := h2
    obtain rfl | rfl : i = 2 ∨ i = 3 := by omega
    all_goals decide +kernel
  · intro i j h1 h2
    have h1' : i < 2 := h1
    have h2' : j < 2 := h2
    obtain rfl | rfl : i = 0 ∨ i = 1 := by omega
    all_goals obtain rfl | rfl : j = 0 ∨ j = 1 := by omega
    all_goals decide +kernel

/-! ### C33: knot insertion -/

/-- **C33**: inserting a u knot (direction 0) into a surface keeps every point, whatever the weights, and keeps the domain;
the grid gets `count` more rows. -/
theorem C33_insert_u (s : Surface K) (S : ValidSurface s) (t : K) (h1 : ix s.ku s.du ≤ t) (h2 : t < ix s.ku s.su)
    (hsep : ClearOf (1 / 10 ^ 12) s.ku t) (count : Nat) (hc : count + s.ku.count t ≤ s.du) :
    ∃ s', s.insertKnot t 0 count = .ok s' ∧ ValidSurface s' ∧ s'.du = s.du ∧ s'.dv = s.dv ∧ s'.su = s.su + count ∧
      s'.sv = s.sv ∧ s'.ku.Perm (List.replicate count t ++ s.ku) ∧ s'.kv = s.kv ∧ (SurfIntervalOk s → SurfIntervalOk s') ∧
      ∀ u v, (SurfInDomain s' u v ↔ SurfInDomain s u v) ∧ (SurfInDomain s u v → s'.evaluate u v = s.evaluate u v) := by
  obtain ⟨k, m, hk, hm, hpk, hkn, k1, k2, hmk, hmul, hlt⟩ := S.knots_u.insertion h1 h2 hsep
  have hcnt := findMultiplicity_eq_count hsep
  have hins := insertKnotU_ok S hk hpk hkn (count := count) (by rw [hcnt]; exact hc)
  rw [hm] at hins
  have hlen := S.knots_u.len
  have hen := S.knots_u.enough
  obtain ⟨V', e1, e2⟩ := S.knots_u.insert count hpk hkn k1 k2
  have S' : ValidSurface { s with
      cpts := insRowsU s t count m k, su := s.su + count, ku := knotInsertionKv s.ku t k count } :=
    ⟨insRowsU_length _ _ _ _ _, insRowsU_cols _ _ _ _ _, V', S.knots_v⟩
  refine ⟨_, by rw [Surface.insertKnot, if_pos rfl]; exact hins, S', rfl, rfl, rfl, rfl, ?_, rfl, ?_, fun u v => ?_⟩
  · exact knotInsertionKv_perm (by omega)
  · intro hI
    unfold SurfIntervalOk at hI ⊢
    rw [surf_updateInterval (by exact S.knots_u.ne_nil) (by exact S.knots_v.ne_nil)] at hI
    rw [surf_updateInterval (by exact V'.ne_nil) (by exact S.knots_v.ne_nil)]
    have hI' := Res.ok.inj hI
    have f0 : ix s.ku 0 = s.u0 := by rw [← hI']
    have f1 : ix s.ku (s.ku.length - 1) = s.u1 := by rw [← hI']
    have f2 : ix s.kv 0 = s.v0 := by rw [← hI']
    have f3 : ix s.kv (s.kv.length - 1) = s.v1 := by rw [← hI']
    have g0 : ix (knotInsertionKv s.ku t k count) 0 = s.u0 := by
      rw [ix_insKnots (by omega), insKnots, if_pos (by omega), f0]
    have g1 : ix (knotInsertionKv s.ku t k count) ((knotInsertionKv s.ku t k count).length - 1) = s.u1 := by
      rw [V'.len, ix_insKnots (by omega), insKnots, if_neg (by omega), if_neg (by omega), ← f1, hlen]
      congr 1; omega
    simp only [g0, g1, f2, f3]
  · have hdom : SurfInDomain { s with
        cpts := insRowsU s t count m k, su := s.su + count, ku := knotInsertionKv s.ku t k count } u v ↔
        SurfInDomain s u v := by
      unfold SurfInDomain
      simp only [e1, e2]
    refine ⟨hdom, fun hd => surf_eval_eq S S' hd (hdom.mpr hd) fun φ hφ => ?_⟩
    obtain ⟨i, hi, a1, a2, _⟩ := S.knots_u.span hd.1.1 hd.1.2
    obtain ⟨j, hj, b1, b2, _⟩ := S.knots_v.span hd.2.1 hd.2.2
    simp only [hj]
    refine spline2_congr_u b1 fun y hy => ?_
    obtain ⟨i', hi', a1', a2', _⟩ := V'.span (t := u) (by rw [e1]; exact hd.1.1) (by rw [e2]; exact hd.1.2)
    rw [← S.knots_u.insert_eval (num := count) (init := fun _ => φ 0) hpk hkn k1 k2 hmul (by omega) hd.1.1 hd.1.2, hi']
    exact splineVal_congr u a1' fun x hx _ => cell_insRowsU_num φ hφ (by omega) (by omega) hpk (by omega)

/-- **C33**: inserting a v knot (any direction other than 0) keeps every point and the domain; every row gets `count` more
control points; the cached interval is refreshed. -/
theorem C33_insert_v (s : Surface K) (S : ValidSurface s) (t : K) (h1 : ix s.kv s.dv ≤ t) (h2 : t < ix s.kv s.sv)
    (hsep : ClearOf (1 / 10 ^ 12) s.kv t) (count : Nat) (hc : count + s.kv.count t ≤ s.dv) (direction : Int)
    (hdir : direction ≠ 0) :
    ∃ s', s.insertKnot t direction count = .ok s' ∧ ValidSurface s' ∧ s'.du = s.du ∧ s'.dv = s.dv ∧ s'.su = s.su ∧
      s'.sv = s.sv + count ∧ s'.ku = s.ku ∧ s'.kv.Perm (List.replicate count t ++ s.kv) ∧ SurfIntervalOk s' ∧
      ∀ u v, (SurfInDomain s' u v ↔ SurfInDomain s u v) ∧ (SurfInDomain s u v → s'.evaluate u v = s.evaluate u v) := by
  obtain ⟨k, m, hk, hm, hpk, hkn, k1, k2, hmk, hmul, hlt⟩ := S.knots_v.insertion h1 h2 hsep
  have hcnt := findMultiplicity_eq_count hsep
  obtain ⟨v0, v1, hins, hv0, hv1⟩ := insertKnotV_ok S hk hpk hkn (count := count) (by rw [hcnt]; exact hc)
  rw [hm] at hins
  have hlen := S.knots_v.len
  have hen := S.knots_v.enough
  obtain ⟨V', e1, e2⟩ := S.knots_v.insert count hpk hkn k1 k2
  have S' : ValidSurface { s with
      cpts := insRowsV s t count m k, sv := s.sv + count, kv := knotInsertionKv s.kv t k count,
      u0 := ix s.ku 0, u1 := ix s.ku (s.ku.length - 1), v0 := v0, v1 := v1 } :=
    ⟨(insRowsV_length _ _ _ _ _).trans S.rows, insRowsV_cols _ _ _ _ _, S.knots_u, V'⟩
  refine ⟨_, by rw [Surface.insertKnot, if_neg hdir]; exact hins, S', rfl, rfl, rfl, rfl, rfl, ?_, ?_, fun u v => ?_⟩
  · exact knotInsertionKv_perm (by omega)
  · unfold SurfIntervalOk
    rw [surf_updateInterval (by exact S.knots_u.ne_nil) (by exact V'.ne_nil)]
    simp only [hv0, hv1]
  · have hdom : SurfInDomain { s with
        cpts := insRowsV s t count m k, sv := s.sv + count, kv := knotInsertionKv s.kv t k count,
        u0 := ix s.ku 0, u1 := ix s.ku (s.ku.length - 1), v0 := v0, v1 := v1 } u v ↔
        SurfInDomain s u v := by
      unfold SurfInDomain
      simp only [e1, e2]
    refine ⟨hdom, fun hd => surf_eval_eq S S' hd (hdom.mpr hd) fun φ hφ => ?_⟩
    obtain ⟨i, hi, a1, a2, _⟩ := S.knots_u.span hd.1.1 hd.1.2
    simp only [hi]
    refine spline2_congr_v a1 fun x hx => ?_
    obtain ⟨j', hj', b1', b2', _⟩ := V'.span (t := v) (by rw [e1]; exact hd.2.1) (by rw [e2]; exact hd.2.2)
    rw [← S.knots_v.insert_eval (num := count) (init := fun _ => φ 0) hpk hkn k1 k2 hmul (by omega) hd.2.1 hd.2.2, hj']
    exact splineVal_congr v b1' fun y hy _ => cell_insRowsV_num S φ hφ (by omega) (by omega) hpk hkn (by omega)

example : ix demoSurface.ku 2 ≤ 1 / 2 ∧ 1 / 2 < ix demoSurface.ku 4 ∧ ClearOf (1 / 10 ^ 12) demoSurface.ku (1 / 2) ∧
    2 + demoSurface.ku.count (1 / 2) ≤ demoSurface.du ∧ ix demoSurface.kv 1 ≤ 1 ∧ 1 < ix demoSurface.kv 2 ∧
    ClearOf (1 / 10 ^ 12) demoSurface.kv 1 ∧ 1 + demoSurface.kv.count 1 ≤ demoSurface.dv := by
  unfold ClearOf; decide +kernel

/-- C33: more copies than the degree allows are undefined behaviour (the work array is overrun), in both directions. -/
theorem C33_too_many_copies (s : Surface K) (S : ValidSurface s) (t : K) (count : Nat) :
    (s.du < count + findMultiplicity t s.ku → s.insertKnot t 0 count = .ub) ∧
    (s.dv < count + findMultiplicity t s.kv → s.insertKnot t 1 count = .ub) := by
  have hu := S.knots_u.enough
  have hv := S.knots_v.enough
  have hr := S.rows
  refine ⟨fun h => ?_, fun h => ?_⟩
  · rw [Surface.insertKnot, if_pos rfl, Surface.insertKnotU]
    simp only
    split
    · rfl
    · rw [flat_ok S, Res.ok_bind]
      obtain ⟨n, hn⟩ : ∃ n, s.sv = n + 1 := ⟨s.sv - 1, by omega⟩
      rw [hn, List.range_succ_eq_map, mapRes, knotInsertion, if_pos (.inl h)]; rfl
  · rw [Surface.insertKnot, if_neg (by decide), Surface.insertKnotV]
    match s.cpts, hr with
    | [], hr => simp at hr; omega
    | r0 :: rest, hr =>
      simp only
      split
      · rfl
      · rw [mapRes, knotInsertion, if_pos (.inl h)]; rfl

example : demoSurface.du < 2 + findMultiplicity (1 / 3) demoSurface.ku := by decide +kernel

/-! ### C33: splitting -/

/-- **C33**: `split_surface_u` at an inner parameter gives two valid surfaces with fresh intervals whose domains are the two
parts of the domain; each evaluates to the original surface there, whatever the weights. -/
theorem C33_split_u (s : Surface K) (S : ValidSurface s) (t tol : K) (htol : 0 ≤ tol) (h1 : ix s.ku s.du < t)
    (h2 : t < ix s.ku s.su) (hlo : s.u0 + tol < t) (hhi : t < s.u1 - tol) (hsep : ClearOf (1 / 10 ^ 12) s.ku t)
    (hc : s.ku.count t ≤ s.du) :
    ∃ a b, s.splitU t tol = .ok (a, b) ∧ (ValidSurface a ∧ SurfIntervalOk a ∧ a.du = s.du ∧ a.dv = s.dv ∧ a.kv = s.kv) ∧
      (ValidSurface b ∧ SurfIntervalOk b ∧ b.du = s.du ∧ b.dv = s.dv ∧ b.kv = s.kv) ∧
      (∀ u v, SurfInDomain a u v ↔ (ix s.ku s.du ≤ u ∧ u ≤ t) ∧ (ix s.kv s.dv ≤ v ∧ v ≤ ix s.kv s.sv)) ∧
      (∀ u v, SurfInDomain b u v ↔ (t ≤ u ∧ u ≤ ix s.ku s.su) ∧ (ix s.kv s.dv ≤ v ∧ v ≤ ix s.kv s.sv)) ∧
      (∀ u v, SurfInDomain a u v → a.evaluate u v = s.evaluate u v) ∧
      (∀ u v, SurfInDomain b u v → b.evaluate u v = s.evaluate u v) ∧
      (a.ku = s.ku.filter (fun x => decide (x < t)) ++ List.replicate (s.du + 1) t ∧
        b.ku = List.replicate (s.du + 1) t ++ s.ku.filter (fun x => decide (t < x))) := by
  obtain ⟨k, m, hk, hm, A⟩ := S.knots_u.splitAt h1 h2 hsep hc
  have hpk := A.hpk
  have hkn := A.hkn
  have hsp := A.hsp
  have hps := A.hps
  have hlen := S.knots_u.len
  have hen := S.knots_u.enough
  have henv := S.knots_v.enough
  have hins := insertKnotU_ok S hk hpk hkn (count := s.du - m) (by rw [hm]; omega)
  rw [hm] at hins
  obtain ⟨Va, ea1, ea2⟩ := kv1_valid S.knots_u A
  obtain ⟨Vb, eb1, eb2⟩ := kv2_valid S.knots_u A
  set U1 := (knotInsertionKv s.ku t k (s.du - m)).take (k + (s.du - m) + 1) ++ [t] with hU1
  set U2 := List.replicate (s.du + 1) t ++ (knotInsertionKv s.ku t k (s.du - m)).drop (k + (s.du - m) + 1) with hU2
  set Q := insRowsU s t (s.du - m) m k with hQ
  have hQl : Q.length = s.su + (s.du - m) := insRowsU_length _ _ _ _ _
  have hQc : ∀ r ∈ Q, r.length = s.sv := insRowsU_cols _ _ _ _ _
  have hks : k - s.du + 1 + (s.du - m) = k - m + 1 := by omega
  have hl1 : (Q.take (k - m + 1)).length = k - m + 1 := by rw [List.length_take]; omega
  have hl2 : (Q.drop (k - m)).length = s.su + s.du - k := by rw [List.length_drop]; omega
  have hc1 : ∀ r ∈ Q.take (k - m + 1), r.length = s.sv := fun r hr => hQc r (List.mem_of_mem_take hr)
  have hc2 : ∀ r ∈ Q.drop (k - m), r.length = s.sv := fun r hr => hQc r (List.mem_of_mem_drop hr)
  have m1 := make_ok (du := s.du) (dv := s.dv) hl1 (by omega) hc1 (by omega) Va.ne_nil S.knots_v.ne_nil
  have m2 := make_ok (du := s.du) (dv := s.dv) hl2 (by omega) hc2 (by omega) Vb.ne_nil S.knots_v.ne_nil
  have hsplit : s.splitU t tol = .ok (⟨Q.take (k - m + 1), s.du, s.dv, k - m + 1, s.sv, U1, s.kv, ix U1 0,
      ix U1 (U1.length - 1), ix s.kv 0, ix s.kv (s.kv.length - 1)⟩, ⟨Q.drop (k - m), s.du, s.dv, s.su + s.du - k, s.sv, U2,
      s.kv, ix U2 0, ix U2 (U2.length - 1), ix s.kv 0, ix s.kv (s.kv.length - 1)⟩) := by
    unfold Surface.splitU
    rw [absA_eq, absA_eq, if_neg (split_guard htol hlo hhi)]
    simp only [hk, hm]
    rw [if_neg (by omega), hins, Res.ok_bind]
    simp only
    rw [split_span S.knots_u A (by omega), hks, ← hU1, ← hU2, m1, Res.ok_bind, Nat.add_sub_cancel, m2, Res.ok_bind]
  have Sa : ValidSurface (⟨Q.take (k - m + 1), s.du, s.dv, k - m + 1, s.sv, U1, s.kv, ix U1 0,
      ix U1 (U1.length - 1), ix s.kv 0, ix s.kv (s.kv.length - 1)⟩ : Surface K) := ⟨hl1, hc1, Va, S.knots_v⟩
  have Sb : ValidSurface (⟨Q.drop (k - m), s.du, s.dv, s.su + s.du - k, s.sv, U2,
      s.kv, ix U2 0, ix U2 (U2.length - 1), ix s.kv 0, ix s.kv (s.kv.length - 1)⟩ : Surface K) := ⟨hl2, hc2, Vb, S.knots_v⟩
  have da : ∀ u v, SurfInDomain (⟨Q.take (k - m + 1), s.du, s.dv, k - m + 1, s.sv, U1, s.kv, ix U1 0,
      ix U1 (U1.length - 1), ix s.kv 0, ix s.kv (s.kv.length - 1)⟩ : Surface K) u v ↔
      (ix s.ku s.du ≤ u ∧ u ≤ t) ∧ (ix s.kv s.dv ≤ v ∧ v ≤ ix s.kv s.sv) := by
    intro u v; unfold SurfInDomain; simp only [ea1, ea2]
  have db : ∀ u v, SurfInDomain (⟨Q.drop (k - m), s.du, s.dv, s.su + s.du - k, s.sv, U2,
      s.kv, ix U2 0, ix U2 (U2.length - 1), ix s.kv 0, ix s.kv (s.kv.length - 1)⟩ : Surface K) u v ↔
      (t ≤ u ∧ u ≤ ix s.ku s.su) ∧ (ix s.kv s.dv ≤ v ∧ v ≤ ix s.kv s.sv) := by
    intro u v; unfold SurfInDomain; simp only [eb1, eb2]
  refine ⟨_, _, hsplit, ⟨Sa, surf_updateInterval Va.ne_nil S.knots_v.ne_nil, rfl, rfl, rfl⟩,
    ⟨Sb, surf_updateInterval Vb.ne_nil S.knots_v.ne_nil, rfl, rfl, rfl⟩, da, db, fun u v hd' => ?_, fun u v hd' => ?_,
    ⟨(hU1.trans (kv1_eq S.knots_u A)), (hU2.trans (kv2_eq S.knots_u A))⟩⟩
  · have hd0 := (da u v).mp hd'
    have hd : SurfInDomain s u v := ⟨⟨hd0.1.1, le_trans hd0.1.2 (le_of_lt h2)⟩, hd0.2⟩
    refine surf_eval_eq S Sa hd hd' fun φ hφ => ?_
    obtain ⟨j, hj, b1, b2, _⟩ := S.knots_v.span hd.2.1 hd.2.2
    simp only [hj]
    refine spline2_congr_u b1 fun y hy => ?_
    refine split_left S.knots_u A (P := fun i => φ (cell s.cpts i y)) (init := fun _ => φ 0) (fun x hx => ?_) hd0.1.1 hd0.1.2
    rw [cell_take hx, hQ]
    exact cell_insRowsU_num φ hφ (by omega) (by omega) hpk (by omega)
  · have hd0 := (db u v).mp hd'
    have hd : SurfInDomain s u v := ⟨⟨le_trans (le_of_lt h1) hd0.1.1, hd0.1.2⟩, hd0.2⟩
    refine surf_eval_eq S Sb hd hd' fun φ hφ => ?_
    obtain ⟨j, hj, b1, b2, _⟩ := S.knots_v.span hd.2.1 hd.2.2
    simp only [hj]
    refine spline2_congr_u b1 fun y hy => ?_
    refine split_right S.knots_u A (P := fun i => φ (cell s.cpts i y)) (init := fun _ => φ 0) (fun x hx => ?_) hd0.1.1 hd0.1.2
    rw [cell_drop, hQ, Nat.add_comm]
    exact cell_insRowsU_num φ hφ (by omega) (by omega) hpk (by omega)

/-- **C33**: `split_surface_v`, as for u. -/
theorem C33_split_v (s : Surface K) (S : ValidSurface s) (t tol : K) (htol : 0 ≤ tol) (h1 : ix s.kv s.dv < t)
    (h2 : t < ix s.kv s.sv) (hlo : s.v0 + tol < t) (hhi : t < s.v1 - tol) (hsep : ClearOf (1 / 10 ^ 12) s.kv t)
    (hc : s.kv.count t ≤ s.dv) :
    ∃ a b, s.splitV t tol = .ok (a, b) ∧ (ValidSurface a ∧ SurfIntervalOk a ∧ a.du = s.du ∧ a.dv = s.dv ∧ a.ku = s.ku) ∧
      (ValidSurface b ∧ SurfIntervalOk b ∧ b.du = s.du ∧ b.dv = s.dv ∧ b.ku = s.ku) ∧
      (∀ u v, SurfInDomain a u v ↔ (ix s.ku s.du ≤ u ∧ u ≤ ix s.ku s.su) ∧ (ix s.kv s.dv ≤ v ∧ v ≤ t)) ∧
      (∀ u v, SurfInDomain b u v ↔ (ix s.ku s.du ≤ u ∧ u ≤ ix s.ku s.su) ∧ (t ≤ v ∧ v ≤ ix s.kv s.sv)) ∧
      (∀ u v, SurfInDomain a u v → a.evaluate u v = s.evaluate u v) ∧
      (∀ u v, SurfInDomain b u v → b.evaluate u v = s.evaluate u v) ∧
      (a.kv = s.kv.filter (fun x => decide (x < t)) ++ List.replicate (s.dv + 1) t ∧
        b.kv = List.replicate (s.dv + 1) t ++ s.kv.filter (fun x => decide (t < x))) := by
  obtain ⟨k, m, hk, hm, A⟩ := S.knots_v.splitAt h1 h2 hsep hc
  have hpk := A.hpk
  have hkn := A.hkn
  have hsp := A.hsp
  have hps := A.hps
  have hlen := S.knots_v.len
  have hen := S.knots_v.enough
  have henu := S.knots_u.enough
  obtain ⟨v0, v1, hins, _⟩ := insertKnotV_ok S hk hpk hkn (count := s.dv - m) (by rw [hm]; omega)
  rw [hm] at hins
  obtain ⟨Va, ea1, ea2⟩ := kv1_valid S.knots_v A
  obtain ⟨Vb, eb1, eb2⟩ := kv2_valid S.knots_v A
  set U1 := (knotInsertionKv s.kv t k (s.dv - m)).take (k + (s.dv - m) + 1) ++ [t] with hU1
  set U2 := List.replicate (s.dv + 1) t ++ (knotInsertionKv s.kv t k (s.dv - m)).drop (k + (s.dv - m) + 1) with hU2
  set Q := insRowsV s t (s.dv - m) m k with hQ
  have hQl : Q.length = s.su := (insRowsV_length _ _ _ _ _).trans S.rows
  have hQc : ∀ r ∈ Q, r.length = s.sv + (s.dv - m) := insRowsV_cols _ _ _ _ _
  have hks : k - s.dv + 1 + (s.dv - m) = k - m + 1 := by omega
  have hl1 : (Q.map fun r => r.take (k - m + 1)).length = s.su := by rw [List.length_map]; exact hQl
  have hl2 : (Q.map fun r => r.drop (k - m)).length = s.su := by rw [List.length_map]; exact hQl
  have hc1 : ∀ r ∈ Q.map fun r => r.take (k - m + 1), r.length = k - m + 1 := by
    intro r hr
    obtain ⟨r', hr', rfl⟩ := List.mem_map.mp hr
    rw [List.length_take, hQc r' hr']; omega
  have hc2 : ∀ r ∈ Q.map fun r => r.drop (k - m), r.length = s.sv + s.dv - k := by
    intro r hr
    obtain ⟨r', hr', rfl⟩ := List.mem_map.mp hr
    rw [List.length_drop, hQc r' hr']; omega
  have m1 := make_ok (du := s.du) (dv := s.dv) hl1 (by omega) hc1 (by omega) S.knots_u.ne_nil Va.ne_nil
  have m2 := make_ok (du := s.du) (dv := s.dv) hl2 (by omega) hc2 (by omega) S.knots_u.ne_nil Vb.ne_nil
  have hsplit : s.splitV t tol = .ok (⟨Q.map fun r => r.take (k - m + 1), s.du, s.dv, s.su, k - m + 1, s.ku, U1, ix s.ku 0,
      ix s.ku (s.ku.length - 1), ix U1 0, ix U1 (U1.length - 1)⟩, ⟨Q.map fun r => r.drop (k - m), s.du, s.dv, s.su,
      s.sv + s.dv - k, s.ku, U2, ix s.ku 0, ix s.ku (s.ku.length - 1), ix U2 0, ix U2 (U2.length - 1)⟩) := by
    unfold Surface.splitV
    rw [absA_eq, absA_eq, if_neg (split_guard htol hlo hhi)]
    simp only [hk, hm]
    rw [if_neg (by omega), hins, Res.ok_bind]
    simp only
    rw [if_neg (by omega), split_span S.knots_v A (by omega), hks, ← hU1, ← hU2, List.take_of_length_le (by omega), m1,
      Res.ok_bind, Nat.add_sub_cancel, m2, Res.ok_bind]
  have Sa : ValidSurface (⟨Q.map fun r => r.take (k - m + 1), s.du, s.dv, s.su, k - m + 1, s.ku, U1, ix s.ku 0,
      ix s.ku (s.ku.length - 1), ix U1 0, ix U1 (U1.length - 1)⟩ : Surface K) := ⟨hl1, hc1, S.knots_u, Va⟩
  have Sb : ValidSurface (⟨Q.map fun r => r.drop (k - m), s.du, s.dv, s.su,
      s.sv + s.dv - k, s.ku, U2, ix s.ku 0, ix s.ku (s.ku.length - 1), ix U2 0, ix U2 (U2.length - 1)⟩ : Surface K) :=
    ⟨hl2, hc2, S.knots_u, Vb⟩
  have da : ∀ u v, SurfInDomain (⟨Q.map fun r => r.take (k - m + 1), s.du, s.dv, s.su, k - m + 1, s.ku, U1, ix s.ku 0,
      ix s.ku (s.ku.length - 1), ix U1 0, ix U1 (U1.length - 1)⟩ : Surface K) u v ↔
      (ix s.ku s.du ≤ u ∧ u ≤ ix s.ku s.su) ∧ (ix s.kv s.dv ≤ v ∧ v ≤ t) := by
    intro u v; unfold SurfInDomain; simp only [ea1, ea2]
  have db : ∀ u v, SurfInDomain (⟨Q.map fun r => r.drop (k - m), s.du, s.dv, s.su,
      s.sv + s.dv - k, s.ku, U2, ix s.ku 0, ix s.ku (s.ku.length - 1), ix U2 0, ix U2 (U2.length - 1)⟩ : Surface K) u v ↔
      (ix s.ku s.du ≤ u ∧ u ≤ ix s.ku s.su) ∧ (t ≤ v ∧ v ≤ ix s.kv s.sv) := by
    intro u v; unfold SurfInDomain; simp only [eb1, eb2]
  refine ⟨_, _, hsplit, ⟨Sa, surf_updateInterval S.knots_u.ne_nil Va.ne_nil, rfl, rfl, rfl⟩,
    ⟨Sb, surf_updateInterval S.knots_u.ne_nil Vb.ne_nil, rfl, rfl, rfl⟩, da, db, fun u v hd' => ?_, fun u v hd' => ?_,
    ⟨(hU1.trans (kv1_eq S.knots_v A)), (hU2.trans (kv2_eq S.knots_v A))⟩⟩
  · have hd0 := (da u v).mp hd'
    have hd : SurfInDomain s u v := ⟨hd0.1, ⟨hd0.2.1, le_trans hd0.2.2 (le_of_lt h2)⟩⟩
    refine surf_eval_eq S Sa hd hd' fun φ hφ => ?_
    obtain ⟨i, hi, a1, a2, _⟩ := S.knots_u.span hd.1.1 hd.1.2
    simp only [hi]
    refine spline2_congr_v a1 fun x hx => ?_
    refine split_left S.knots_v A (P := fun j => φ (cell s.cpts x j)) (init := fun _ => φ 0) (fun y hy => ?_) hd0.2.1 hd0.2.2
    rw [cell_map_take hy, hQ]
    exact cell_insRowsV_num S φ hφ (by omega) (by omega) hpk hkn (by omega)
  · have hd0 := (db u v).mp hd'
    have hd : SurfInDomain s u v := ⟨hd0.1, ⟨le_trans (le_of_lt h1) hd0.2.1, hd0.2.2⟩⟩
    refine surf_eval_eq S Sb hd hd' fun φ hφ => ?_
    obtain ⟨i, hi, a1, a2, _⟩ := S.knots_u.span hd.1.1 hd.1.2
    simp only [hi]
    refine spline2_congr_v a1 fun x hx => ?_
    refine split_right S.knots_v A (P := fun j => φ (cell s.cpts x j)) (init := fun _ => φ 0) (fun y hy => ?_) hd0.2.1 hd0.2.2
    rw [cell_map_drop, hQ, Nat.add_comm]
    exact cell_insRowsV_num S φ hφ (by omega) (by omega) hpk hkn (by omega)

example : SurfIntervalOk demoSurface ∧ ix demoSurface.ku 2 < 1 / 2 ∧ 1 / 2 < ix demoSurface.ku 4 ∧
    demoSurface.u0 + surfSplitTol < 1 / 2 ∧ 1 / 2 < demoSurface.u1 - surfSplitTol ∧ demoSurface.ku.count (1 / 2) ≤ 2 := by
  unfold SurfIntervalOk; decide +kernel

/-- C33: at, outside or within the tolerance of an end of the interval, splitting throws. -/
theorem C33_split_throws (s : Surface K) (t tol : K) :
    ((t ≤ s.u0 ∨ s.u1 ≤ t ∨ |t - s.u0| ≤ tol ∨ |t - s.u1| ≤ tol) → s.splitU t tol = .throws) ∧
    ((t ≤ s.v0 ∨ s.v1 ≤ t ∨ |t - s.v0| ≤ tol ∨ |t - s.v1| ≤ tol) → s.splitV t tol = .throws) := by
  simp only [← absA_eq]
  unfold Surface.splitU Surface.splitV
  exact ⟨fun h => if_pos h, fun h => if_pos h⟩

example : demoSurface.u1 ≤ 1 ∧ demoSurface.splitU 1 surfSplitTol = .throws := by decide +kernel

/-- The quarter of the domain a piece of `subdivide` covers, and agreement with the surface on it. -/
def IsQuarter (s q : Surface K) (ulo uhi vlo vhi : K) : Prop :=
  ValidSurface q ∧ SurfIntervalOk q ∧ q.du = s.du ∧ q.dv = s.dv ∧
    ∀ u v, (SurfInDomain q u v ↔ (ulo ≤ u ∧ u ≤ uhi) ∧ (vlo ≤ v ∧ v ≤ vhi)) ∧
      (SurfInDomain q u v → q.evaluate u v = s.evaluate u v)

/-- **C33**: subdividing at inner parameters gives four valid surfaces, one per quarter of the domain in the order
(low u, low v), (low u, high v), (high u, low v), (high u, high v), each equal to the surface on its quarter. -/
theorem C33_subdivide_at (s : Surface K) (S : ValidSurface s) (hI : SurfIntervalOk s) (um vm : K)
    (hu1 : ix s.ku s.du < um) (hu2 : um < ix s.ku s.su) (hulo : s.u0 + 1 / 10 ^ 7 < um) (huhi : um < s.u1 - 1 / 10 ^ 7)
    (husep : ClearOf (1 / 10 ^ 12) s.ku um) (huc : s.ku.count um ≤ s.du)
    (hv1 : ix s.kv s.dv < vm) (hv2 : vm < ix s.kv s.sv) (hvlo : s.v0 + 1 / 10 ^ 7 < vm) (hvhi : vm < s.v1 - 1 / 10 ^ 7)
    (hvsep : ClearOf (1 / 10 ^ 12) s.kv vm) (hvc : s.kv.count vm ≤ s.dv) :
    ∃ a b c d, s.subdivideAt um vm = .ok (a, b, c, d) ∧
      IsQuarter s a (ix s.ku s.du) um (ix s.kv s.dv) vm ∧ IsQuarter s b (ix s.ku s.du) um vm (ix s.kv s.sv) ∧
      IsQuarter s c um (ix s.ku s.su) (ix s.kv s.dv) vm ∧ IsQuarter s d um (ix s.ku s.su) vm (ix s.kv s.sv) := by
  have htol : (0 : K) ≤ 1 / 10 ^ 7 := by positivity
  obtain ⟨p, q, hs, ⟨Sp, Ip, dp1, dp2, kp⟩, ⟨Sq, Iq, dq1, dq2, kq⟩, domp, domq, evp, evq, -⟩ :=
    C33_split_u s S um (1 / 10 ^ 7) htol hu1 hu2 hulo huhi husep huc
  have iv : ∀ {s' : Surface K}, ValidSurface s' → SurfIntervalOk s' →
      s'.u0 = ix s'.ku 0 ∧ s'.u1 = ix s'.ku (s'.ku.length - 1) ∧ s'.v0 = ix s'.kv 0 ∧ s'.v1 = ix s'.kv (s'.kv.length - 1) := by
    intro s' S' I'
    unfold SurfIntervalOk at I'
    rw [surf_updateInterval S'.knots_u.ne_nil S'.knots_v.ne_nil] at I'
    have I'' := Res.ok.inj I'
    refine ⟨?_, ?_, ?_, ?_⟩
    · rw [← I'']
    · rw [← I'']
    · rw [← I'']
    · rw [← I'']
  have svv : ∀ {s' : Surface K}, ValidSurface s' → s'.dv = s.dv → s'.kv = s.kv → s'.sv = s.sv := by
    intro s' S' hd' hk'
    have h1 := S'.knots_v.len
    have h2 := S.knots_v.len
    rw [hk', hd'] at h1; omega
  have hp := C33_split_v p Sp vm (1 / 10 ^ 7) htol (by rw [kp, dp2]; exact hv1) (by rw [kp, svv Sp dp2 kp]; exact hv2)
    (by rw [(iv Sp Ip).2.2.1, kp, ← (iv S hI).2.2.1]; exact hvlo) (by rw [(iv Sp Ip).2.2.2, kp, ← (iv S hI).2.2.2]; exact hvhi)
    (by rw [kp]; exact hvsep) (by rw [kp, dp2]; exact hvc)
  have hq := C33_split_v q Sq vm (1 / 10 ^ 7) htol (by rw [kq, dq2]; exact hv1) (by rw [kq, svv Sq dq2 kq]; exact hv2)
    (by rw [(iv Sq Iq).2.2.1, kq, ← (iv S hI).2.2.1]; exact hvlo) (by rw [(iv Sq Iq).2.2.2, kq, ← (iv S hI).2.2.2]; exact hvhi)
    (by rw [kq]; exact hvsep) (by rw [kq, dq2]; exact hvc)
  obtain ⟨a, b, hab, ⟨Sa, Ia, da1, da2, _⟩, ⟨Sb, Ib, db1, db2, _⟩, doma, domb, eva, evb, -⟩ := hp
  obtain ⟨c, d, hcd, ⟨Sc, Ic, dc1, dc2, _⟩, ⟨Sd, Id, dd1, dd2, _⟩, domc, domd, evc, evd, -⟩ := hq
  have pu : ∀ u, (ix p.ku p.du ≤ u ∧ u ≤ ix p.ku p.su) ↔ (ix s.ku s.du ≤ u ∧ u ≤ um) := by
    intro u
    have h := domp u vm
    have hm : ix s.kv s.dv ≤ vm ∧ vm ≤ ix s.kv s.sv := ⟨le_of_lt hv1, le_of_lt hv2⟩
    unfold SurfInDomain at h
    rw [kp, dp2, svv Sp dp2 kp] at h
    exact ⟨fun h' => (h.mp ⟨h', hm⟩).1, fun h' => (h.mpr ⟨h', hm⟩).1⟩
  have qu : ∀ u, (ix q.ku q.du ≤ u ∧ u ≤ ix q.ku q.su) ↔ (um ≤ u ∧ u ≤ ix s.ku s.su) := by
    intro u
    have h := domq u vm
    have hm : ix s.kv s.dv ≤ vm ∧ vm ≤ ix s.kv s.sv := ⟨le_of_lt hv1, le_of_lt hv2⟩
    unfold SurfInDomain at h
    rw [kq, dq2, svv Sq dq2 kq] at h
    exact ⟨fun h' => (h.mp ⟨h', hm⟩).1, fun h' => (h.mpr ⟨h', hm⟩).1⟩
  refine ⟨a, b, c, d, ?_, ⟨Sa, Ia, da1.trans dp1, da2.trans dp2, fun u v => ?_⟩,
    ⟨Sb, Ib, db1.trans dp1, db2.trans dp2, fun u v => ?_⟩, ⟨Sc, Ic, dc1.trans dq1, dc2.trans dq2, fun u v => ?_⟩,
    ⟨Sd, Id, dd1.trans dq1, dd2.trans dq2, fun u v => ?_⟩⟩
  · unfold Surface.subdivideAt
    rw [surfSplitTol_eq, hs, Res.ok_bind]
    simp only
    rw [hab, Res.ok_bind, hcd, Res.ok_bind]
  · have e := doma u v
    rw [pu, kp, dp2] at e
    refine ⟨e, fun h => ?_⟩
    rw [eva u v h]
    have h' := e.mp h
    exact evp u v ((domp u v).mpr ⟨h'.1, h'.2.1, le_trans h'.2.2 (le_of_lt hv2)⟩)
  · have e := domb u v
    rw [pu, kp, svv Sp dp2 kp] at e
    refine ⟨e, fun h => ?_⟩
    rw [evb u v h]
    have h' := e.mp h
    exact evp u v ((domp u v).mpr ⟨h'.1, le_trans (le_of_lt hv1) h'.2.1, h'.2.2⟩)
  · have e := domc u v
    rw [qu, kq, dq2] at e
    refine ⟨e, fun h => ?_⟩
    rw [evc u v h]
    have h' := e.mp h
    exact evq u v ((domq u v).mpr ⟨h'.1, h'.2.1, le_trans h'.2.2 (le_of_lt hv2)⟩)
  · have e := domd u v
    rw [qu, kq, svv Sq dq2 kq] at e
    refine ⟨e, fun h => ?_⟩
    rw [evd u v h]
    have h' := e.mp h
    exact evq u v ((domq u v).mpr ⟨h'.1, le_trans (le_of_lt hv1) h'.2.1, h'.2.2⟩)

/-- C33: `subdivide()` subdivides at the middle of the interval in both directions. -/
theorem C33_subdivide_mid (s : Surface K) :
    s.subdivide = s.subdivideAt ((s.u0 + s.u1) / 2) ((s.v0 + s.v1) / 2) := by
  unfold Surface.subdivide
  congr 1 <;> ring

example : ix demoSurface.kv 1 < 1 ∧ 1 < ix demoSurface.kv 2 ∧ demoSurface.v0 + 1 / 10 ^ 7 < 1 ∧
    1 < demoSurface.v1 - 1 / 10 ^ 7 ∧ ClearOf (1 / 10 ^ 12) demoSurface.kv 1 ∧ demoSurface.kv.count 1 ≤ 1 ∧
    (demoSurface.u0 + demoSurface.u1) / 2 = 1 / 2 ∧ (demoSurface.v0 + demoSurface.v1) / 2 = 1 := by
  unfold ClearOf; decide +kernel

/-! ### C32: iso-curves -/

theorem ofSize_ok {m p : Nat} (h : p < m) : ∃ lo hi k, generateKnots (K := K) m p = .ok k ∧ k.length = m + p + 1 ∧
    (Curve.ofSize m p : Res (Curve K)) = .ok ⟨List.replicate m 0, p, k, false, lo, hi⟩ := by
  obtain ⟨k, hk, hl, _⟩ := C23_generated_clamped (K := K) m p h
  have hne : k ≠ [] := by intro h'; rw [h'] at hl; simp at hl
  obtain ⟨lo, hi, h1, _⟩ := updateInterval_ok (c := (⟨List.replicate m 0, p, k, false, 0, 1⟩ : Curve K)) hne
  obtain ⟨lo', hi', h2, _⟩ := updateInterval_ok (c := (⟨List.replicate m 0, p, k, false, lo, hi⟩ : Curve K)) hne
  refine ⟨lo', hi', k, hk, hl, ?_⟩
  unfold Curve.ofSize Curve.generateKnots
  simp only [List.length_replicate]
  rw [hk, Res.ok_bind, h1, Res.ok_bind, h2]

/-- Shared by the iso-curve theorems: a curve whose control points are the splines of the columns. -/
theorem iso_eval {s : Surface K} (S : ValidSurface s) (hw : SurfUnit s) {c : Curve K} {u v : K} (hd : SurfInDomain s u v)
    (hV : ValidCurve c) (hdeg : c.degree = s.dv) (hk : c.knots = s.kv) (hl : c.cpts.length = s.sv)
    (hc : ∀ j, j < s.sv → ix c.cpts j = acc4 (fun i => cell s.cpts i j)
      (basisFuns (findSpan (s.su - 1) s.du u (ix s.ku)) u (ix s.ku) s.du) (findSpan (s.su - 1) s.du u (ix s.ku) - s.du) 0) :
    c.evaluate v = s.evaluate u v := by
  obtain ⟨i, hi, a1, a2, a3, a4, a5, _, a7⟩ := S.knots_u.span hd.1.1 hd.1.2
  obtain ⟨j, hj, b1, b2, b3, b4, b5, _, b7⟩ := S.knots_v.span hd.2.1 hd.2.2
  have hunit : ∀ x y, x < s.su → y < s.sv → (cell s.cpts x y).w = 1 := by
    intro x y hx hy
    obtain ⟨r, h1, h2⟩ := S.cell_mem hx hy
    exact hw r h1 _ h2
  have hcφ : ∀ (φ : Vec4 K → K) (_ : ∀ (a b : Vec4 K) (n : K), φ (a + b.smul n) = φ a + n * φ b) (_ : φ 0 = 0) (y : Nat),
      y < s.sv → φ (ix c.cpts y) = splineVal (ix s.ku) s.du (fun x => φ (cell s.cpts x y)) i u := by
    intro φ h h0 y hy
    rw [hc y hy, acc4_comp φ h, h0, zero_add, hi]; rfl
  have hcw : ∀ q ∈ c.cpts, q.w = 1 := by
    intro q hq
    obtain ⟨y, hy, rfl⟩ := List.mem_iff_getElem.mp hq
    rw [← ix_eq_getElem hy, hcφ Vec4.w cw rfl y (by omega)]
    exact splineVal_const a1 a7 (fun x hx _ => hunit x y (by omega) (by omega)) u
  have hdc : InDomain c v := by
    unfold InDomain; rw [hk, hdeg, hl]; exact hd.2
  have key : ∀ (φ : Vec4 K → K) (_ : ∀ (a b : Vec4 K) (n : K), φ (a + b.smul n) = φ a + n * φ b) (_ : φ 0 = 0),
      splineVal (ix s.kv) s.dv (fun r => φ (ix c.cpts r)) j v =
        spline2 s.du s.dv (ix s.ku) (ix s.kv) (fun x y => φ (cell s.cpts x y)) i j u v :=
    fun φ h h0 => splineVal_congr v b1 fun y hy _ => hcφ φ h h0 y (by omega)
  have h1 := curve_eval_equal hV one_ne_zero hcw hdc
  simp only [hk, hdeg, hl, hj] at h1
  rw [h1, key _ cx rfl, key _ cy rfl, key _ cz rfl, surf_eval S hd, hi, hj, dehomog, surfaceSum_comp _ cw rfl,
    surfaceSum_comp _ cx rfl, surfaceSum_comp _ cy rfl, surfaceSum_comp _ cz rfl]
  have hW : spline2 s.du s.dv (ix s.ku) (ix s.kv) (fun x y => (cell s.cpts x y).w) i j u v = 1 := by
    rw [← key _ cw rfl]
    exact splineVal_const b1 b7 (fun y hy _ => hcw _ (mem_ix (by omega))) v
  rw [hW, if_neg one_ne_zero, div_one, div_one, div_one]

/-- The surface with its two directions exchanged (only used to reduce the V case to the U case). -/
def Surface.swap (s : Surface K) : Surface K :=
  ⟨(List.range s.sv).map fun j => (List.range s.su).map fun i => cell s.cpts i j, s.dv, s.du, s.sv, s.su, s.kv, s.ku,
    s.v0, s.v1, s.u0, s.u1⟩

theorem swap_valid {s : Surface K} (S : ValidSurface s) : ValidSurface s.swap :=
  ⟨by simp [Surface.swap], by intro r hr; simp only [Surface.swap, List.mem_map] at hr; obtain ⟨_, _, rfl⟩ := hr; simp [Surface.swap],
   S.knots_v, S.knots_u⟩

theorem swap_cell {s : Surface K} {i j : Nat} (hi : i < s.su) (hj : j < s.sv) : cell s.swap.cpts j i = cell s.cpts i j :=
  cell_table _ hj hi

theorem swap_eval {s : Surface K} (S : ValidSurface s) {u v : K} (hd : SurfInDomain s u v) :
    s.swap.evaluate v u = s.evaluate u v := by
  refine surf_eval_eq S (swap_valid S) hd ⟨hd.2, hd.1⟩ fun φ _ => ?_
  obtain ⟨i, hi, a1, a2, _⟩ := S.knots_u.span hd.1.1 hd.1.2
  obtain ⟨j, hj, b1, b2, _⟩ := S.knots_v.span hd.2.1 hd.2.2
  rw [spline2_comm]
  change spline2 s.du s.dv (ix s.ku) (ix s.kv) (fun x y => φ (cell s.swap.cpts y x)) (findSpan (s.su - 1) s.du u (ix s.ku))
    (findSpan (s.sv - 1) s.dv v (ix s.kv)) u v = _
  rw [hi, hj]
  refine spline2_congr_u b1 fun y hy => splineVal_congr u a1 fun x hx _ => ?_
  simp only [swap_cell (s := s) (i := x) (j := y) (by omega) (by omega)]

/-- **C32**: for a surface with unit weights, `extract_isocurve` with the u parameter fixed gives a valid curve whose domain
is the v domain and which evaluates to the surface at the fixed u. -/
theorem C32_isocurve_u_partial (s : Surface K) (S : ValidSurface s) (hw : SurfUnit s) (u : K) (h0 : s.u0 ≤ u) (h1 : u ≤ s.u1)
    (hu : ix s.ku s.du ≤ u ∧ u ≤ ix s.ku s.su) :
    ∃ c, s.isocurveU u = .ok c ∧ ValidCurve c ∧ IntervalOk c ∧ c.degree = s.dv ∧ c.knots = s.kv ∧
      ∀ v, (InDomain c v ↔ SurfInDomain s u v) ∧ (InDomain c v → c.evaluate v = s.evaluate u v) := by
  obtain ⟨i, hi, a1, a2, _⟩ := S.knots_u.span hu.1 hu.2
  have hl := S.knots_u.len
  have h8 := S.knots_u.deg_le
  have hev := S.knots_v.enough
  obtain ⟨lo, hi', k, hk, hkl, hof⟩ := ofSize_ok (K := K) hev
  obtain ⟨lo2, hi2, hup, _⟩ := updateInterval_ok (c := (⟨(List.range s.sv).map fun x => acc4 (fun y => cell s.cpts y x)
    (basisFuns i u (ix s.ku) s.du) (i - s.du) 0, s.dv, s.kv, false, lo, hi'⟩ : Curve K)) S.knots_v.ne_nil
  have hV : ValidCurve (⟨(List.range s.sv).map fun x => acc4 (fun y => cell s.cpts y x)
    (basisFuns i u (ix s.ku) s.du) (i - s.du) 0, s.dv, s.kv, false, lo2, hi2⟩ : Curve K) := by
    unfold ValidCurve
    simp only [List.length_map, List.length_range]
    exact S.knots_v
  refine ⟨_, ?_, hV, intervalOk_of hup, rfl, rfl, fun v => ?_⟩
  · unfold Surface.isocurveU
    simp only [hi]
    rw [if_neg (by rintro (h | h) <;> exact absurd h (not_lt.mpr (by assumption))), if_neg (by
      rw [S.covered]
      unfold maxDegree
      simp only [Bool.true_eq_false, false_or]
      omega), hof, Res.ok_bind]
    exact hup
  · have hdom : InDomain (⟨(List.range s.sv).map fun x => acc4 (fun y => cell s.cpts y x)
        (basisFuns i u (ix s.ku) s.du) (i - s.du) 0, s.dv, s.kv, false, lo2, hi2⟩ : Curve K) v ↔ SurfInDomain s u v := by
      unfold InDomain SurfInDomain
      simp only [List.length_map, List.length_range]
      exact ⟨fun h => ⟨hu, h⟩, fun h => h.2⟩
    refine ⟨hdom, fun hd => iso_eval S hw (hdom.mp hd) hV rfl rfl (by simp) fun j hj => ?_⟩
    rw [hi]
    exact ix_map_range _ hj

/-- **C32**: the same with the v parameter fixed. -/
theorem C32_isocurve_v_partial (s : Surface K) (S : ValidSurface s) (hw : SurfUnit s) (v : K) (h0 : s.v0 ≤ v) (h1 : v ≤ s.v1)
    (hv : ix s.kv s.dv ≤ v ∧ v ≤ ix s.kv s.sv) :
    ∃ c, s.isocurveV v = .ok c ∧ ValidCurve c ∧ IntervalOk c ∧ c.degree = s.du ∧ c.knots = s.ku ∧
      ∀ u, (InDomain c u ↔ SurfInDomain s u v) ∧ (InDomain c u → c.evaluate u = s.evaluate u v) := by
  obtain ⟨j, hj, b1, b2, _⟩ := S.knots_v.span hv.1 hv.2
  have hl := S.knots_v.len
  have h8 := S.knots_v.deg_le
  have heu := S.knots_u.enough
  have hw' : SurfUnit s.swap := by
    intro r hr q hq
    simp only [Surface.swap, List.mem_map, List.mem_range] at hr
    obtain ⟨y, hy, rfl⟩ := hr
    simp only [List.mem_map, List.mem_range] at hq
    obtain ⟨x, hx, rfl⟩ := hq
    obtain ⟨r, g1, g2⟩ := S.cell_mem hx hy
    exact hw r g1 _ g2
  obtain ⟨lo, hi', k, hk, hkl, hof⟩ := ofSize_ok (K := K) heu
  obtain ⟨lo2, hi2, hup, _⟩ := updateInterval_ok (c := (⟨(List.range s.su).map fun x => acc4 (fun y => cell s.cpts x y)
    (basisFuns j v (ix s.kv) s.dv) (j - s.dv) 0, s.du, s.ku, false, lo, hi'⟩ : Curve K)) S.knots_u.ne_nil
  have hV : ValidCurve (⟨(List.range s.su).map fun x => acc4 (fun y => cell s.cpts x y)
    (basisFuns j v (ix s.kv) s.dv) (j - s.dv) 0, s.du, s.ku, false, lo2, hi2⟩ : Curve K) := by
    unfold ValidCurve
    simp only [List.length_map, List.length_range]
    exact S.knots_u
  refine ⟨_, ?_, hV, intervalOk_of hup, rfl, rfl, fun u => ?_⟩
  · unfold Surface.isocurveV
    simp only [hj]
    rw [if_neg (by rintro (h | h) <;> exact absurd h (not_lt.mpr (by assumption))), if_neg (by
      rw [S.covered]
      unfold maxDegree
      simp only [Bool.true_eq_false, false_or]
      omega), hof, Res.ok_bind]
    exact hup
  · have hdom : InDomain (⟨(List.range s.su).map fun x => acc4 (fun y => cell s.cpts x y)
        (basisFuns j v (ix s.kv) s.dv) (j - s.dv) 0, s.du, s.ku, false, lo2, hi2⟩ : Curve K) u ↔ SurfInDomain s u v := by
      unfold InDomain SurfInDomain
      simp only [List.length_map, List.length_range]
      exact ⟨fun h => ⟨h, hv⟩, fun h => h.1⟩
    refine ⟨hdom, fun hd => ?_⟩
    have hd' := hdom.mp hd
    rw [← swap_eval S hd']
    refine iso_eval (swap_valid S) hw' (u := v) ⟨hd'.2, hd'.1⟩ hV rfl rfl (by simp [Surface.swap]) fun i hi => ?_
    have hi' : i < s.su := hi
    rw [ix_map_range _ hi']
    change _ = acc4 _ (basisFuns (findSpan (s.sv - 1) s.dv v (ix s.kv)) v (ix s.kv) s.dv)
      (findSpan (s.sv - 1) s.dv v (ix s.kv) - s.dv) 0
    rw [hj]
    refine acc4_congr fun y hy1 hy2 => ?_
    rw [basisFuns_length] at hy2
    exact (swap_cell (s := s) hi' (by omega)).symm

example : SurfUnit demoSurface ∧ demoSurface.u0 ≤ 1 / 2 ∧ 1 / 2 ≤ demoSurface.u1 ∧ ix demoSurface.ku 2 ≤ 1 / 2 ∧
    1 / 2 ≤ ix demoSurface.ku 4 ∧ demoSurface.v0 ≤ 1 ∧ 1 ≤ demoSurface.v1 ∧ ix demoSurface.kv 1 ≤ 1 ∧ 1 ≤ ix demoSurface.kv 2 := by
  unfold SurfUnit; decide +kernel

/-- C32: outside the interval extraction throws, for both directions and for the free functions. -/
theorem C32_out_of_range (s : Surface K) (t : K) :
    ((t < s.u0 ∨ s.u1 < t) → s.isocurveU t = .throws ∧ freeIsocurveU s t = .throws) ∧
    ((t < s.v0 ∨ s.v1 < t) → s.isocurveV t = .throws ∧ freeIsocurveV s t = .throws) := by
  unfold Surface.isocurveU Surface.isocurveV freeIsocurveU freeIsocurveV
  exact ⟨fun h => ⟨if_pos h, if_pos h⟩, fun h => ⟨if_pos h, if_pos h⟩⟩

example : (1 : ℚ) < 2 ∧ demoSurface.isocurveU 2 = .throws := by decide +kernel

/-- **C32 fails for other weights**: the curve's control points are homogeneous sums but curve evaluation multiplies by the
weight again, so the iso-curve of `weightedSurface` at u = 1/2 misses the surface at v = 1/2. -/
theorem C32_unequal_weights_counterexample :
    ∃ s : Surface ℚ, ValidSurface s ∧ SurfPositive s ∧ SurfIntervalOk s ∧ ∃ c u v p q, s.isocurveU u = .ok c ∧ InDomain c v ∧
      c.evaluate v = .ok p ∧ s.evaluate u v = .ok q ∧ p ≠ q := by
  refine ⟨weightedSurface, weightedSurface_valid, by unfold SurfPositive; decide +kernel,
    by unfold SurfIntervalOk; decide +kernel,
    ⟨[⟨1, 0, 2, 3 / 2⟩, ⟨3 / 2, 2, 1 / 2, 2⟩], 1, [0, 0, 1, 1], false, 0, 1⟩, 1 / 2, 1 / 2, ⟨9 / 7, 8 / 7, 8 / 7⟩,
    ⟨5 / 7, 4 / 7, 5 / 7⟩, by decide +kernel, by unfold InDomain; decide +kernel, by decide +kernel, by decide +kernel,
    by decide +kernel⟩

/-- C32: the four boundary curves are the iso-curves at the ends of the interval, u first. -/
theorem C32_boundaries_partial (s : Surface K) (S : ValidSurface s) (hw : SurfUnit s) (hI : SurfIntervalOk s)
    (hcu : ClampedKnots s.su s.du s.ku) (hcv : ClampedKnots s.sv s.dv s.kv) :
    ∃ a b c d, s.boundaries = .ok [a, b, c, d] ∧
      (∀ v, (InDomain a v ↔ ix s.kv s.dv ≤ v ∧ v ≤ ix s.kv s.sv) ∧ (InDomain a v → a.evaluate v = s.evaluate (ix s.ku s.du) v)) ∧
      (∀ v, (InDomain b v ↔ ix s.kv s.dv ≤ v ∧ v ≤ ix s.kv s.sv) ∧ (InDomain b v → b.evaluate v = s.evaluate (ix s.ku s.su) v)) ∧
      (∀ u, (InDomain c u ↔ ix s.ku s.du ≤ u ∧ u ≤ ix s.ku s.su) ∧ (InDomain c u → c.evaluate u = s.evaluate u (ix s.kv s.dv))) ∧
      (∀ u, (InDomain d u ↔ ix s.ku s.du ≤ u ∧ u ≤ ix s.ku s.su) ∧ (InDomain d u → d.evaluate u = s.evaluate u (ix s.kv s.sv))) := by
  unfold SurfIntervalOk at hI
  rw [surf_updateInterval S.knots_u.ne_nil S.knots_v.ne_nil] at hI
  have hI' := Res.ok.inj hI
  have hlu := S.knots_u.len
  have hlv := S.knots_v.len
  have heu := S.knots_u.enough
  have hev := S.knots_v.enough
  have u0 : s.u0 = ix s.ku s.du := by rw [← hcu.1 0 (by omega)]; rw [← hI']
  have u1 : s.u1 = ix s.ku s.su := by
    rw [← hcu.2 (s.su + s.du) (by omega) (by omega), show s.su + s.du = s.ku.length - 1 by omega]; rw [← hI']
  have v0 : s.v0 = ix s.kv s.dv := by rw [← hcv.1 0 (by omega)]; rw [← hI']
  have v1 : s.v1 = ix s.kv s.sv := by
    rw [← hcv.2 (s.sv + s.dv) (by omega) (by omega), show s.sv + s.dv = s.kv.length - 1 by omega]; rw [← hI']
  have hu : ix s.ku s.du ≤ ix s.ku s.su := S.knots_u.mono _ _ (by omega) (by omega)
  have hv : ix s.kv s.dv ≤ ix s.kv s.sv := S.knots_v.mono _ _ (by omega) (by omega)
  obtain ⟨a, ha, _, _, _, _, ea⟩ := C32_isocurve_u_partial s S hw (ix s.ku s.du) (by rw [u0]) (by rw [u1]; exact hu) ⟨le_refl _, hu⟩
  obtain ⟨b, hb, _, _, _, _, eb⟩ := C32_isocurve_u_partial s S hw (ix s.ku s.su) (by rw [u0]; exact hu) (by rw [u1]) ⟨hu, le_refl _⟩
  obtain ⟨c, hc, _, _, _, _, ec⟩ := C32_isocurve_v_partial s S hw (ix s.kv s.dv) (by rw [v0]) (by rw [v1]; exact hv) ⟨le_refl _, hv⟩
  obtain ⟨d, hd, _, _, _, _, ed⟩ := C32_isocurve_v_partial s S hw (ix s.kv s.sv) (by rw [v0]; exact hv) (by rw [v1]) ⟨hv, le_refl _⟩
  refine ⟨a, b, c, d, ?_, fun v => ⟨(ea v).1.trans ⟨fun h => h.2, fun h => ⟨⟨le_refl _, hu⟩, h⟩⟩, (ea v).2⟩,
    fun v => ⟨(eb v).1.trans ⟨fun h => h.2, fun h => ⟨⟨hu, le_refl _⟩, h⟩⟩, (eb v).2⟩,
    fun u => ⟨(ec u).1.trans ⟨fun h => h.1, fun h => ⟨h, ⟨le_refl _, hv⟩⟩⟩, (ec u).2⟩,
    fun u => ⟨(ed u).1.trans ⟨fun h => h.1, fun h => ⟨h, ⟨hv, le_refl _⟩⟩⟩, (ed u).2⟩⟩
  unfold Surface.boundaries
  rw [u0, u1, v0, v1, ha, Res.ok_bind, hb, Res.ok_bind, hc, Res.ok_bind, hd, Res.ok_bind]

/-- C32: on a valid surface the free function with u fixed gives the same result as the member function. -/
theorem C32_free_u_agrees (s : Surface K) (S : ValidSurface s) (u : K) : freeIsocurveU s u = s.isocurveU u := by
  obtain ⟨lo, hi, k, hk, hkl, hof⟩ := ofSize_ok (K := K) S.knots_v.enough
  have hl := S.knots_v.len
  unfold freeIsocurveU Surface.isocurveU
  rw [hof]
  simp only [Res.ok_bind]
  rw [if_neg (c := k.length < s.kv.length) (by omega), List.drop_eq_nil_of_le (by omega), List.append_nil]

/-- **C32 fails for the free function with v fixed**: it always answers with the generated knots, never the surface's. -/
theorem C32_free_v_drops_knots (s : Surface K) (S : ValidSurface s) (v : K) (c : Curve K) (h : freeIsocurveV s v = .ok c) :
    generateKnots s.su s.du = .ok c.knots := by
  obtain ⟨lo, hi, k, hk, hkl, hof⟩ := ofSize_ok (K := K) S.knots_u.enough
  unfold freeIsocurveV at h
  rw [hof] at h
  simp only [Res.ok_bind] at h
  split at h
  · exact absurd h (by simp)
  · split at h
    · exact absurd h (by simp)
    · rw [← Res.ok.inj h]; exact hk

/-- C32: the free function with v fixed agrees with the member function if the surface's u knots are the generated ones. -/
theorem C32_free_v_agrees_partial (s : Surface K) (S : ValidSurface s) (hk : generateKnots s.su s.du = .ok s.ku) (v : K) :
    freeIsocurveV s v = s.isocurveV v := by
  have hne := S.knots_u.ne_nil
  obtain ⟨a, ha, _⟩ := minElement_ok hne
  obtain ⟨b, hb, _⟩ := maxElement_ok hne
  have hof : (Curve.ofSize s.su s.du : Res (Curve K)) = .ok ⟨List.replicate s.su 0, s.du, s.ku, false, a, b⟩ := by
    unfold Curve.ofSize Curve.generateKnots Curve.updateInterval
    simp only [List.length_replicate]
    simp only [hk, ha, hb, Res.ok_bind]
  unfold freeIsocurveV Surface.isocurveV
  rw [hof]
  simp only [Res.ok_bind, Curve.updateInterval, ha, hb]

/-- `demoSurface` with generated u knots. -/
def plainSurface : Surface ℚ :=
  ⟨[[⟨0, 0, 0, 1⟩, ⟨0, 1, 1, 1⟩], [⟨1, 0, 2, 1⟩, ⟨1, 1, 0, 1⟩], [⟨2, 0, 1, 1⟩, ⟨2, 2, 3, 1⟩], [⟨3, 0, 0, 1⟩, ⟨3, 1, 1, 1⟩]],
   2, 1, 4, 2, [0, 0, 0, 1, 2, 2, 2], [0, 0, 2, 2], 0, 2, 0, 2⟩

example : ValidSurface plainSurface ∧ generateKnots plainSurface.su plainSurface.du = .ok plainSurface.ku :=
  ⟨⟨rfl, by decide +kernel, ⟨by decide, by decide, by decide, rfl, by unfold SortedKnots; decide +kernel, by decide +kernel⟩,
    ⟨by decide, by decide, by decide, rfl, by unfold SortedKnots; decide +kernel, by decide +kernel⟩⟩, by decide +kernel⟩

/-- **C32 fails for the free function with v fixed**, witness: a unit-weight patch over `[0, 1]` whose free iso-curve lives
over `[0, 2]` and leaves the surface at u = 1. -/
theorem C32_free_v_counterexample :
    ∃ s : Surface ℚ, ValidSurface s ∧ SurfUnit s ∧ SurfIntervalOk s ∧ ∃ c v u p q, freeIsocurveV s v = .ok c ∧
      SurfInDomain s u v ∧ InDomain c u ∧ c.evaluate u = .ok p ∧ s.evaluate u v = .ok q ∧ p ≠ q := by
  refine ⟨demoSurface, demoSurface_valid, by unfold SurfUnit; decide +kernel, by unfold SurfIntervalOk; decide +kernel,
    ⟨[⟨0, 0, 0, 1⟩, ⟨1, 0, 2, 1⟩, ⟨2, 0, 1, 1⟩, ⟨3, 0, 0, 1⟩], 2, [0, 0, 0, 1, 2, 2, 2], false, 0, 2⟩, 0, 1,
    ⟨3 / 2, 0, 3 / 2⟩, ⟨3, 0, 0⟩, by decide +kernel, by unfold SurfInDomain; decide +kernel, by unfold InDomain; decide +kernel,
    by decide +kernel, by decide +kernel, by decide +kernel⟩

/-! ### C67: the derivative net -/

/-- C67: a direction other than 0 and 1 throws. -/
theorem C67_bad_direction (s : Surface K) (direction : Int) (h0 : direction ≠ 0) (h1 : direction ≠ 1) :
    s.derivativeNet direction = .throws := by
  unfold Surface.derivativeNet; exact if_pos ⟨h0, h1⟩

/-- C67: direction 0 gives the net of scaled differences in u: degree one less, one row less, first and last u knot
removed. -/
theorem C67_net_u_partial (s : Surface K) (S : ValidSurface s) (hk : ∀ i, i + 1 < s.su → ix s.ku (i + 1) < ix s.ku (i + s.du + 1)) :
    ∃ d, s.derivativeNet 0 = .ok d ∧ d.du = s.du - 1 ∧ d.dv = s.dv ∧ d.cpts.length = s.su - 1 ∧
      (∀ r ∈ d.cpts, r.length = s.sv) ∧ d.kv = s.kv ∧ d.ku.length = s.ku.length - 2 ∧
      (∀ i, i < s.ku.length - 2 → ix d.ku i = ix s.ku (i + 1)) ∧
      ∀ i j, i + 1 < s.su → j < s.sv → cell d.cpts i j =
        (cell s.cpts (i + 1) j - cell s.cpts i j).smul (s.du / (ix s.ku (i + s.du + 1) - ix s.ku (i + 1))) := by
  have hl := S.knots_u.len
  have he := S.knots_u.enough
  have hd := S.knots_u.deg_pos
  have hev := S.knots_v.enough
  have hany : (List.range (s.su - 1)).any (fun i => decide (ix s.ku (i + s.du + 1) - ix s.ku (i + 1) = 0)) = false := by
    rw [List.any_eq_false]
    intro i hi h
    rw [List.mem_range] at hi
    have := hk i (by omega)
    rw [decide_eq_true_iff] at h
    linarith
  refine ⟨⟨(List.range (s.su - 1)).map fun i => (List.range s.sv).map fun j =>
        (cell s.cpts (i + 1) j - cell s.cpts i j).smul ((s.du : K) / (ix s.ku (i + s.du + 1) - ix s.ku (i + 1))),
      s.du - 1, s.dv, 0, 0, s.ku.tail.dropLast, s.kv, 0, 0, 0, 0⟩, ?_, rfl, rfl, by simp, ?_, rfl, ?_, ?_, ?_⟩
  · unfold Surface.derivativeNet
    rw [if_neg (by simp), if_neg (by rw [S.covered]; simp; omega), if_pos rfl, hany, if_neg (by simp; omega)]
  · intro r hr
    simp only [List.mem_map] at hr
    obtain ⟨_, _, rfl⟩ := hr
    simp
  · simp; omega
  · intro i hi
    simp only [ix, List.getD_eq_getElem?_getD]
    rw [List.getElem?_dropLast, List.length_tail, if_pos (by omega), List.getElem?_tail]
  · intro i j hi hj
    exact cell_table (fun i j => (cell s.cpts (i + 1) j - cell s.cpts i j).smul
      ((s.du : K) / (ix s.ku (i + s.du + 1) - ix s.ku (i + 1)))) (by omega) hj

/-- C67: direction 1, likewise in v. -/
theorem C67_net_v_partial (s : Surface K) (S : ValidSurface s) (hk : ∀ j, j + 1 < s.sv → ix s.kv (j + 1) < ix s.kv (j + s.dv + 1)) :
    ∃ d, s.derivativeNet 1 = .ok d ∧ d.du = s.du ∧ d.dv = s.dv - 1 ∧ d.cpts.length = s.su ∧
      (∀ r ∈ d.cpts, r.length = s.sv - 1) ∧ d.ku = s.ku ∧ d.kv.length = s.kv.length - 2 ∧
      (∀ i, i < s.kv.length - 2 → ix d.kv i = ix s.kv (i + 1)) ∧
      ∀ i j, i < s.su → j + 1 < s.sv → cell d.cpts i j =
        (cell s.cpts i (j + 1) - cell s.cpts i j).smul (s.dv / (ix s.kv (j + s.dv + 1) - ix s.kv (j + 1))) := by
  have hl := S.knots_v.len
  have he := S.knots_v.enough
  have hd := S.knots_v.deg_pos
  have heu := S.knots_u.enough
  have hany : (List.range (s.sv - 1)).any (fun i => decide (ix s.kv (i + s.dv + 1) - ix s.kv (i + 1) = 0)) = false := by
    rw [List.any_eq_false]
    intro i hi h
    rw [List.mem_range] at hi
    have := hk i (by omega)
    rw [decide_eq_true_iff] at h
    linarith
  refine ⟨⟨(List.range s.su).map fun i => (List.range (s.sv - 1)).map fun j =>
        (cell s.cpts i (j + 1) - cell s.cpts i j).smul ((s.dv : K) / (ix s.kv (j + s.dv + 1) - ix s.kv (j + 1))),
      s.du, s.dv - 1, 0, 0, s.ku, s.kv.tail.dropLast, 0, 0, 0, 0⟩, ?_, rfl, rfl, by simp, ?_, rfl, ?_, ?_, ?_⟩
  · unfold Surface.derivativeNet
    rw [if_neg (by simp), if_neg (by rw [S.covered]; simp; omega), if_neg (by decide), hany, if_neg (by simp; omega)]
  · intro r hr
    simp only [List.mem_map] at hr
    obtain ⟨_, _, rfl⟩ := hr
    simp
  · simp; omega
  · intro i hi
    simp only [ix, List.getD_eq_getElem?_getD]
    rw [List.getElem?_dropLast, List.length_tail, if_pos (by omega), List.getElem?_tail]
  · intro i j hi hj
    exact cell_table (fun i j => (cell s.cpts i (j + 1) - cell s.cpts i j).smul
      ((s.dv : K) / (ix s.kv (j + s.dv + 1) - ix s.kv (j + 1)))) hi (by omega)

theorem demoSurface_knots : (∀ i, i + 1 < demoSurface.su → ix demoSurface.ku (i + 1) < ix demoSurface.ku (i + demoSurface.du + 1)) ∧
    (∀ j, j + 1 < demoSurface.sv → ix demoSurface.kv (j + 1) < ix demoSurface.kv (j + demoSurface.dv + 1)) := by
  constructor
  · intro i h
    have h' : i + 1 < 4 := h
    obtain rfl | rfl | rfl : i = 0 ∨ i = 1 ∨ i = 2 := by omega
    all_goals decide +kernel
  · intro j h
    have h' : j + 1 < 2 := h
    obtain rfl : j = 0 := by omega
    decide +kernel

/-- **C67 fails**: the surface returned by `get_derivative` reports size zero and an empty interval, whatever the input, so
`find_span` never leaves its first span. -/
theorem C67_size_lost (s d : Surface K) (direction : Int) (h : s.derivativeNet direction = .ok d) :
    d.su = 0 ∧ d.sv = 0 ∧ d.u0 = 0 ∧ d.u1 = 0 ∧ d.v0 = 0 ∧ d.v1 = 0 := by
  unfold Surface.derivativeNet at h
  split at h
  · exact absurd h (by simp)
  · split at h
    · exact absurd h (by simp)
    · split at h
      · split at h
        · exact absurd h (by simp)
        · rw [← Res.ok.inj h]; exact ⟨rfl, rfl, rfl, rfl, rfl, rfl⟩
      · split at h
        · exact absurd h (by simp)
        · rw [← Res.ok.inj h]; exact ⟨rfl, rfl, rfl, rfl, rfl, rfl⟩

/-- **C67 fails**: for a surface whose weights are all equal (every polynomial surface) the derivative net has weight zero
everywhere and evaluating it is a division by zero at every parameter. -/
theorem C67_equal_weights_unusable (s d : Surface K) (S : ValidSurface s) (w : K) (hw : ∀ r ∈ s.cpts, ∀ q ∈ r, q.w = w)
    (direction : Int) (h : s.derivativeNet direction = .ok d) (u v : K) : d.evaluate u v = .ub := by
  have hcell : ∀ i j, i < s.su → j < s.sv → (cell s.cpts i j).w = w := by
    intro i j hi hj
    obtain ⟨r, h1, h2⟩ := S.cell_mem hi hj
    exact hw r h1 _ h2
  have hz : ∀ r ∈ d.cpts, ∀ q ∈ r, q.w = 0 := by
    unfold Surface.derivativeNet at h
    split at h
    · exact absurd h (by simp)
    · split at h
      · exact absurd h (by simp)
      · split at h
        · split at h
          · exact absurd h (by simp)
          · rw [← Res.ok.inj h]
            intro r hr q hq
            simp only [List.mem_map, List.mem_range] at hr
            obtain ⟨i, hi, rfl⟩ := hr
            simp only [List.mem_map, List.mem_range] at hq
            obtain ⟨j, hj, rfl⟩ := hq
            simp [hcell (i + 1) j (by omega) hj, hcell i j (by omega) hj]
        · split at h
          · exact absurd h (by simp)
          · rw [← Res.ok.inj h]
            intro r hr q hq
            simp only [List.mem_map, List.mem_range] at hr
            obtain ⟨i, hi, rfl⟩ := hr
            simp only [List.mem_map, List.mem_range] at hq
            obtain ⟨j, hj, rfl⟩ := hq
            simp [hcell i (j + 1) hi (by omega), hcell i j hi (by omega)]
  have hz' : ∀ i j, (cell d.cpts i j).w = 0 := by
    intro i j
    unfold cell
    rw [List.getD_eq_getElem?_getD]
    cases hr : d.cpts[i]? with
    | none => rfl
    | some r =>
      simp only [Option.getD_some, ix, List.getD_eq_getElem?_getD]
      cases hq : r[j]? with
      | none => rfl
      | some q => exact hz r (List.mem_of_getElem? hr) q (List.mem_of_getElem? hq)
  unfold Surface.evaluate
  simp only
  split
  · rfl
  · rw [dehomog, if_pos]
    rw [surfaceSum_comp _ cw rfl, spline2]
    simp only [hz']
    simp only [splineVal, dotL_const, mul_zero]

example : (∀ r ∈ demoSurface.cpts, ∀ q ∈ r, q.w = 1) ∧ (∃ d, demoSurface.derivativeNet 0 = .ok d) := by
  obtain ⟨d, hd, _⟩ := C67_net_u_partial demoSurface demoSurface_valid demoSurface_knots.1
  exact ⟨by decide +kernel, d, hd⟩

end Cmm.Nurbs
