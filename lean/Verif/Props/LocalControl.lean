import Verif.Lemmas.Smooth
import Verif.Props.Join
import Verif.Props.Surface
/-!
C101: control points act locally.
-/
namespace Cmm.Nurbs
variable {K : Type} [Field K] [LinearOrder K] [IsStrictOrderedRing K]

/-- The parameter lies outside the reach of control point `k`, for `n` control points of degree `p`: before knot `k` or after knot
`k + p + 1`, or on the latter if that is not the end of the domain. -/
def OutOfReach (n p : Nat) (U : List K) (k : Nat) (t : K) : Prop :=
  t < ix U k ∨ ix U (k + p + 1) < t ∨ (ix U (k + p + 1) = t ∧ t < ix U n)

/-- The parameter lies strictly between two neighbouring knots that belong to the reach of control point `k`. -/
def WithinReach (p : Nat) (U : List K) (k : Nat) (t : K) : Prop := ∃ i, k ≤ i ∧ i ≤ k + p ∧ ix U i < t ∧ t < ix U (i + 1)

/-- The control point moved by `d`, with the same weight. -/
def movedBy (q : Vec4 K) (d : Vec3 K) : Vec4 K := ⟨q.x + d.x, q.y + d.y, q.z + d.z, q.w⟩

theorem outOfReach_span {n p : Nat} {U : List K} (V : ValidKnots n p U) {t : K} (h1 : ix U p ≤ t) (h2 : t ≤ ix U n) {k : Nat} (hk : k < n)
    (h : OutOfReach n p U k t) : findSpan (n - 1) p t (ix U) < k ∨ k + p < findSpan (n - 1) p t (ix U) := by
  obtain ⟨i, hi, a1, a2, a3, a4, a5, a6, -⟩ := V.span h1 h2
  have hm := ValidKnots.mono V
  rw [hi]
  rcases h with h | h | ⟨h, h'⟩
  · left
    by_contra hc
    have := hm k i (by omega) (by omega)
    linarith
  · right
    by_contra hc
    have := hm (i + 1) (k + p + 1) (by omega) (by omega)
    linarith
  · right
    by_contra hc
    have h3 := hm (i + 1) (k + p + 1) (by omega) (by omega)
    rcases a6 with a6 | a6
    · rw [a6, show n - 1 + 1 = n by omega] at h3
      linarith
    · linarith

theorem ix_set {l : List (Vec4 K)} {k : Nat} {q : Vec4 K} (x : Nat) (hk : k < l.length) : ix (l.set k q) x = if x = k then q else ix l x := by
  unfold ix
  by_cases h : x = k
  · subst h
    rw [List.getD_eq_getElem?_getD, List.getElem?_set_self hk, if_pos rfl]; rfl
  · rw [List.getD_eq_getElem?_getD, List.getElem?_set_ne (Ne.symm h), if_neg h, List.getD_eq_getElem?_getD]

/-- **C101**: replacing one control point, weight included, leaves the curve alone outside the reach of that point. -/
theorem C101_local (c : Curve K) (V : ValidCurve c) (k : Nat) (hk : k < c.cpts.length) (q : Vec4 K) :
    ∃ c', c.setControlPoints (c.cpts.set k q) = .ok c' ∧ ValidCurve c' ∧
      ∀ t, InDomain c t → OutOfReach c.cpts.length c.degree c.knots k t → c'.evaluate t = c.evaluate t := by
  obtain ⟨c', h, e1, e2, e3, -, -, -, V'⟩ := C88_same_count c (c.cpts.set k q) V (by simp)
  refine ⟨c', h, V', fun t hd ho => ?_⟩
  have hs := outOfReach_span V hd.1 hd.2 hk ho
  have hl : c'.cpts.length = c.cpts.length := by rw [e1]; simp
  obtain ⟨i, hi, a1, -⟩ := ValidKnots.span V hd.1 hd.2
  rw [hi] at hs
  rw [curve_eval V hd, curve_eval V' (by unfold InDomain; rw [e3, e2, hl]; exact hd), e3, e2, hl, hi, curvePointAt_eq, curvePointAt_eq]
  have hP : ∀ x, x ≤ i → i ≤ x + c.degree → ix c'.cpts x = ix c.cpts x := by
    intro x h1 h2
    rw [e1, ix_set x hk, if_neg (by omega)]
  have key : ∀ φ : Vec4 K → K, splineVal (ix c.knots) c.degree (fun r => φ (ix c'.cpts r)) i t =
      splineVal (ix c.knots) c.degree (fun r => φ (ix c.cpts r)) i t := fun φ => splineVal_congr t a1 fun x h1 h2 => by rw [hP x h1 h2]
  rw [key fun q => q.w * q.x, key fun q => q.w * q.y, key fun q => q.w * q.z, key Vec4.w]

/-- **C101**: moving one control point by `d` moves each point of the curve by `l d` with `0 ≤ l ≤ 1`: nothing outside its reach,
something strictly between two knots of its reach. -/
theorem C101_move (c : Curve K) (V : ValidCurve c) (hw : PositiveWeights c) (k : Nat) (hk : k < c.cpts.length) (d : Vec3 K) :
    ∃ c', c.setControlPoints (c.cpts.set k (movedBy (ix c.cpts k) d)) = .ok c' ∧ ∀ t, InDomain c t →
      ∃ l r, 0 ≤ l ∧ l ≤ 1 ∧ c.evaluate t = .ok r ∧ c'.evaluate t = .ok ⟨r.x + l * d.x, r.y + l * d.y, r.z + l * d.z⟩ ∧
        (OutOfReach c.cpts.length c.degree c.knots k t → l = 0) ∧ (WithinReach c.degree c.knots k t → 0 < l) := by
  obtain ⟨c', h, e1, e2, e3, -, -, -, V'⟩ := C88_same_count c (c.cpts.set k (movedBy (ix c.cpts k) d)) V (by simp)
  refine ⟨c', h, fun t hd => ?_⟩
  have hl : c'.cpts.length = c.cpts.length := by rw [e1]; simp
  have hlen := V.len
  have hm := ValidKnots.mono V
  obtain ⟨i, hi, a1, a2, -, -, -, hpos, hev⟩ := curve_eval_sum V hw hd
  obtain ⟨i', hi', -, -, b1, b2, -⟩ := ValidKnots.span V hd.1 hd.2
  rw [hi] at hi'
  obtain rfl := hi'
  have hwk : 0 < (ix c.cpts k).w := hw _ (mem_ix hk)
  set n := c.cpts.length with hn
  set N := coxDeBoorPiece (ix c.knots) i c.degree k t with hN
  have hN0 : 0 ≤ N := piece_nonneg hm b1 b2 c.degree k (by omega)
  set W := splineVal (ix c.knots) c.degree (fun r => (ix c.cpts r).w) i t with hW
  have hsum : ∀ P, splineVal (ix c.knots) c.degree P i t = ∑ x ∈ Finset.range n, coxDeBoorPiece (ix c.knots) i c.degree x t * P x :=
    fun P => splineVal_sum a1 P t n a2
  have hNW : N * (ix c.cpts k).w ≤ W := by
    rw [hW, hsum]
    refine Finset.single_le_sum (f := fun x => coxDeBoorPiece (ix c.knots) i c.degree x t * (ix c.cpts x).w) (fun x hx => ?_)
      (Finset.mem_range.mpr hk)
    rw [Finset.mem_range] at hx
    exact mul_nonneg (piece_nonneg hm b1 b2 c.degree x (by omega)) (hw _ (mem_ix (by omega))).le
  have hcp : ∀ x, ix c'.cpts x = if x = k then movedBy (ix c.cpts k) d else ix c.cpts x := fun x => by rw [e1, ix_set x hk]
  have hw' : (fun r => (ix c'.cpts r).w) = fun r => (ix c.cpts r).w := by
    funext x
    rw [hcp]
    by_cases hx : x = k
    · rw [if_pos hx, hx]; rfl
    · rw [if_neg hx]
  have hco : ∀ (φ : Vec4 K → K) (e : K), φ (movedBy (ix c.cpts k) d) = φ (ix c.cpts k) + e →
      splineVal (ix c.knots) c.degree (fun r => (ix c'.cpts r).w * φ (ix c'.cpts r)) i t =
      splineVal (ix c.knots) c.degree (fun r => (ix c.cpts r).w * φ (ix c.cpts r)) i t + N * (ix c.cpts k).w * e := by
    intro φ e hφ
    rw [hsum, hsum, ← Finset.add_sum_erase _ _ (Finset.mem_range.mpr hk),
      ← Finset.add_sum_erase _ (fun x => coxDeBoorPiece (ix c.knots) i c.degree x t * ((ix c.cpts x).w * φ (ix c.cpts x))) (Finset.mem_range.mpr hk)]
    have hrest : ∑ x ∈ (Finset.range n).erase k, coxDeBoorPiece (ix c.knots) i c.degree x t * ((ix c'.cpts x).w * φ (ix c'.cpts x)) =
        ∑ x ∈ (Finset.range n).erase k, coxDeBoorPiece (ix c.knots) i c.degree x t * ((ix c.cpts x).w * φ (ix c.cpts x)) :=
      Finset.sum_congr rfl fun x hx => by rw [hcp, if_neg (Finset.ne_of_mem_erase hx)]
    rw [hrest, hcp k, if_pos rfl, hφ]
    have : (movedBy (ix c.cpts k) d).w = (ix c.cpts k).w := rfl
    rw [this, ← hN]
    ring
  refine ⟨N * (ix c.cpts k).w / W, _, div_nonneg (mul_nonneg hN0 hwk.le) hpos.le, (div_le_one hpos).mpr hNW, hev, ?_, fun ho => ?_, fun hin => ?_⟩
  · rw [curve_eval V' (by unfold InDomain; rw [e3, e2, hl]; exact hd), e3, e2, hl, hi, curvePointAt_eq, curvePointAt_eq, hw',
      hco Vec4.x d.x rfl, hco Vec4.y d.y rfl, hco Vec4.z d.z rfl]
    refine congrArg Res.ok ?_
    ext <;> simp only [← hW] <;> field_simp
  · have hs := outOfReach_span V hd.1 hd.2 hk ho
    rw [hi] at hs
    rw [hN, piece_zero _ _ _ _ _ (by omega), zero_mul, zero_div]
  · obtain ⟨j, h1, h2, h3, h4⟩ := hin
    have hji : j = i := by
      by_contra hne
      rcases Nat.lt_or_gt_of_ne hne with hlt | hgt
      · have := hm (j + 1) i (by omega) (by omega)
        linarith
      · have := hm (i + 1) j (by omega) (by omega)
        linarith
    subst hji
    exact div_pos (mul_pos (piece_pos hm h3 h4 c.degree k (by omega) h1 h2) hwk) hpos

/-- **C101**: two surfaces that differ only in control point `(k, l)` agree wherever the first parameter is outside the reach of `k` or
the second one outside the reach of `l`. -/
theorem C101_surface (s s' : Surface K) (S : ValidSurface s) (S' : ValidSurface s') (k l : Nat) (hk : k < s.su) (hl : l < s.sv)
    (h1 : s'.du = s.du ∧ s'.dv = s.dv) (h2 : s'.su = s.su ∧ s'.sv = s.sv) (h3 : s'.ku = s.ku ∧ s'.kv = s.kv)
    (h4 : ∀ i < s.su, ∀ j < s.sv, ¬ (i = k ∧ j = l) → cell s'.cpts i j = cell s.cpts i j) (u v : K) (hd : SurfInDomain s u v)
    (ho : OutOfReach s.su s.du s.ku k u ∨ OutOfReach s.sv s.dv s.kv l v) : s'.evaluate u v = s.evaluate u v := by
  have hd' : SurfInDomain s' u v := by
    unfold SurfInDomain
    rw [h1.1, h1.2, h2.1, h2.2, h3.1, h3.2]
    exact hd
  obtain ⟨i, hi, a1, a2, -⟩ := S.knots_u.span hd.1.1 hd.1.2
  obtain ⟨j, hj, b1, b2, -⟩ := S.knots_v.span hd.2.1 hd.2.2
  rw [surf_eval S hd, surf_eval S' hd', h1.1, h1.2, h2.1, h2.2, h3.1, h3.2, hi, hj]
  refine congrArg dehomog (surfaceSum_congr fun φ _ _ _ => ?_)
  refine splineVal_congr v b1 fun y y1 y2 => splineVal_congr u a1 fun x x1 x2 => ?_
  show φ (cell s'.cpts x y) = φ (cell s.cpts x y)
  rw [h4 x (by omega) y (by omega)]
  rintro ⟨rfl, rfl⟩
  rcases ho with ho | ho
  · have := outOfReach_span S.knots_u hd.1.1 hd.1.2 hk ho
    omega
  · have := outOfReach_span S.knots_v hd.2.1 hd.2.2 hl ho
    omega

/-! Concrete cases -/

/-- A quadratic curve with two inner knots. -/
def localCurve : Curve ℚ := ⟨[⟨0, 0, 0, 1⟩, ⟨1, 2, 0, 1⟩, ⟨2, 0, 1, 3⟩, ⟨3, 1, 0, 2⟩, ⟨4, 0, 0, 1⟩], 2, [0, 0, 0, 1, 2, 3, 3, 3], false, 0, 3⟩

example : ValidCurve localCurve ∧ PositiveWeights localCurve ∧ 1 < localCurve.cpts.length ∧ InDomain localCurve 2 ∧
    OutOfReach localCurve.cpts.length localCurve.degree localCurve.knots 1 2 ∧ InDomain localCurve (3 / 2) ∧
    WithinReach localCurve.degree localCurve.knots 1 (3 / 2) := by
  refine ⟨⟨by decide, by decide, by decide, rfl, by unfold SortedKnots; decide +kernel, by decide +kernel⟩,
    by unfold PositiveWeights; decide +kernel, by decide, by unfold InDomain; decide +kernel, .inr (.inr (by decide +kernel)),
    by unfold InDomain; decide +kernel, 3, by decide, by decide, by decide +kernel, by decide +kernel⟩

/-- What this looks like: the second point is moved by (8,0,0). -/
example : (localCurve.setControlPoints (localCurve.cpts.set 1 (movedBy (ix localCurve.cpts 1) ⟨8, 0, 0⟩))).bind (fun c => c.evaluate 2) =
      localCurve.evaluate 2 ∧
    (localCurve.setControlPoints (localCurve.cpts.set 1 (movedBy (ix localCurve.cpts 1) ⟨8, 0, 0⟩))).bind (fun c => c.evaluate (3 / 2)) ≠
      localCurve.evaluate (3 / 2) := by decide +kernel

example : ValidSurface demoSurface ∧ SurfInDomain demoSurface (1 / 4) 1 ∧ OutOfReach demoSurface.su demoSurface.du demoSurface.ku 3 (1 / 4) :=
  ⟨demoSurface_valid, by unfold SurfInDomain; decide +kernel, .inl (by decide +kernel)⟩

end Cmm.Nurbs
