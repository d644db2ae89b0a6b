import Verif.Lemmas.DerivNets
import Verif.Props.Outcomes
import Mathlib.Algebra.Order.Field.Rat
/-! Properties C94 and C95: control points of the derivatives of curves and surfaces (nurbs_utils.h). -/
namespace Cmm.Nurbs
open Polynomial
variable {K : Type} [Field K] [LinearOrder K] [IsStrictOrderedRing K]

/-! ### C94 -/

/-- C94. Whenever `curve_deriv_cpts` returns, row `k` of its table holds control points of the `k`-th derivative: on every knot span between the points `r1` and
`r2`, if the curve `Σ N_{j,p} P_j` is the polynomial `F`, then `F^(k)` is `Σ N_{r1+k+j,p-k} PK[k][j]`. This holds in each of the four coordinates. -/
theorem C94_derivative {p : Nat} {U : List K} {P : List (Vec4 K)} {d r1 r2 : Nat} {PK : List (List (Vec4 K))}
    (hs : SortedKnots U) (hl : U.length = P.length + p + 1) (h : curveDerivCpts p U P d r1 r2 = .ok PK) {φ : Vec4 K → K} (hφ : IsCoord φ)
    {i : Nat} (h1 : r1 + p ≤ i) (h2 : i ≤ r2) {F : K[X]} (hF : PieceOn (ix U) i (splineSum (ix U) p 0 P.length fun j => φ (ix P j)) F)
    (k : Nat) (hk : k ≤ d) :
    PieceOn (ix U) i (splineSum (ix U) (p - k) (r1 + k) (r2 - r1 + 1 - k) fun j => φ (tab2 PK k j)) (derivative^[k] F) := by
  obtain ⟨c1, c2, -⟩ := curveDerivCpts_ok.mp h
  have hm : ∀ a b, a ≤ b → b < U.length → ix U a ≤ ix U b := fun a b h h' => ix_mono hs h h'
  refine tab_derivative hs (by omega) h hφ h1 h2 (fun t t1 t2 => ?_) k hk
  rw [← hF t t1 t2, splineSum_eq _ hm t1 t2 h1 (by omega) (by omega) (by omega), splineSum_eq _ hm t1 t2 (by omega) (by omega) (by omega) (by omega),
    splineVal, splineVal]
  apply dotL_congr
  intro r hr
  rw [show r1 + (i - p + r - r1) = i - p + r by omega, Nat.sub_zero]

/-- C94. The table has `d + 1` rows of `r2 - r1 + 1` points. Row 0 is the range of the control points; the last `k` points of row `k` are zero. -/
theorem C94_shape {p : Nat} {U : List K} {P : List (Vec4 K)} {d r1 r2 : Nat} {PK : List (List (Vec4 K))} (h : curveDerivCpts p U P d r1 r2 = .ok PK) :
    PK.length = d + 1 ∧ (∀ row ∈ PK, row.length = r2 - r1 + 1) ∧ PK[0]? = some ((P.drop r1).take (r2 - r1 + 1)) ∧
    ∀ k ≤ d, ∀ j, r2 - r1 < j + k → tab2 PK k j = 0 := by
  obtain ⟨c1, c2, c3, c4, -⟩ := curveDerivCpts_ok.mp h
  refine ⟨c3, fun row hrow => ?_, ?_, fun k hk => (tab_zero h k hk).2⟩
  · obtain ⟨k, hk, rfl⟩ := List.mem_iff_getElem.mp hrow
    have := (tab_zero h k (by omega)).1
    simpa [List.getD_eq_getElem?_getD, List.getElem?_eq_getElem hk] using this
  · have h0 : 0 < PK.length := by omega
    rw [List.getD_eq_getElem?_getD, List.getElem?_eq_getElem h0, Option.getD_some] at c4
    rw [List.getElem?_eq_getElem h0, c4]
    congr 1
    apply List.ext_getElem
    · simp; omega
    · intro i hi hi'
      simp only [List.length_map, List.length_range] at hi
      simp [ix, List.getD_eq_getElem?_getD, List.getElem?_eq_getElem (show r1 + i < P.length by omega)]

/-- C94. It returns exactly when the range of points is not empty and lies inside the control points and no denominator is zero; otherwise it is undefined. -/
theorem C94_defined {p : Nat} {U : List K} {P : List (Vec4 K)} (hl : U.length = P.length + p + 1) (d r1 r2 : Nat) :
    ((∃ PK, curveDerivCpts p U P d r1 r2 = .ok PK) ↔ r1 ≤ r2 ∧ r2 < P.length ∧
      ∀ k j, 1 ≤ k → k ≤ d → r1 + j + k ≤ r2 → ix U (r1 + j + k) ≠ ix U (r1 + j + p + 1)) ∧
    ((¬ ∃ PK, curveDerivCpts p U P d r1 r2 = .ok PK) → curveDerivCpts p U P d r1 r2 = .ub) := by
  unfold curveDerivCpts
  split
  next h => simp; omega
  next h =>
    obtain ⟨a, b⟩ := derivRows_defined (p := p) (U := U) (r1 := r1) (r := r2 - r1) d 1 ((List.range (r2 - r1 + 1)).map fun i => ix P (r1 + i))
    have e : (∀ m < d, RowDefined p U r1 (r2 - r1) (1 + m)) ↔
        ∀ k j, 1 ≤ k → k ≤ d → r1 + j + k ≤ r2 → ix U (r1 + j + k) ≠ ix U (r1 + j + p + 1) := by
      constructor
      · intro H k j k1 k2 k3
        have := (H (k - 1) (by omega) j (by omega)).2.2.symm
        rwa [show 1 + (k - 1) = k by omega] at this
      · intro H m hm j hj
        exact ⟨by omega, by omega, (H (1 + m) j (by omega) (by omega) (by omega)).symm⟩
    rw [e] at a b
    by_cases hc : ∀ k j, 1 ≤ k → k ≤ d → r1 + j + k ≤ r2 → ix U (r1 + j + k) ≠ ix U (r1 + j + p + 1)
    · obtain ⟨rest, hr⟩ := a hc
      dsimp only
      rw [hr, Res.ok_bind]
      exact ⟨⟨fun _ => ⟨by omega, by omega, hc⟩, fun _ => ⟨_, rfl⟩⟩, fun hn => absurd ⟨_, rfl⟩ hn⟩
    · dsimp only
      rw [b hc, Res.ub_bind]
      simp only [reduceCtorEq, exists_false, false_iff, not_false_eq_true, forall_const, and_true]
      exact fun h' => hc h'.2.2

/-- A quadratic spline with five points, the second derivative and the middle points 1 to 4. -/
example : curveDerivCpts 2 ([0, 0, 0, 1, 2, 3, 3, 3] : List ℚ) [⟨0, 0, 0, 1⟩, ⟨1, 2, 0, 1⟩, ⟨3, 3, 1, 1⟩, ⟨4, 0, 2, 1⟩, ⟨6, 1, 0, 1⟩] 2 1 4 =
    .ok [[⟨1, 2, 0, 1⟩, ⟨3, 3, 1, 1⟩, ⟨4, 0, 2, 1⟩, ⟨6, 1, 0, 1⟩], [⟨2, 1, 1, 0⟩, ⟨1, -3, 1, 0⟩, ⟨4, 2, -4, 0⟩, 0],
      [⟨-1, -4, 0, 0⟩, ⟨3, 5, -5, 0⟩, 0, 0]] := by decide +kernel

/-- With a double knot inside, the second derivatives are undefined (the assertion fails). -/
example : curveDerivCpts 2 ([0, 0, 0, 1, 1, 2, 2, 2] : List ℚ) [⟨0, 0, 0, 1⟩, ⟨1, 2, 0, 1⟩, ⟨3, 3, 1, 1⟩, ⟨4, 0, 2, 1⟩, ⟨6, 1, 0, 1⟩] 2 0 4 = .ub := by
  decide +kernel

/-- A piece of a quadratic curve with its polynomial: the hypotheses of `C94_derivative` hold for it. -/
example : PieceOn (ix ([0, 0, 0, 1, 1, 1] : List ℚ)) 2
    (splineSum (ix ([0, 0, 0, 1, 1, 1] : List ℚ)) 2 0 3 fun j => (ix ([⟨0, 0, 0, 1⟩, ⟨0, 0, 0, 1⟩, ⟨1, 0, 0, 1⟩] : List (Vec4 ℚ)) j).x) (X ^ 2) := by
  intro t t1 t2
  simp only [ix, List.getD_cons_zero, List.getD_cons_succ] at t1 t2
  simp [splineSum, Finset.sum_range_succ, coxDeBoor, ix, t1, t2, not_lt.mpr t1]
  ring

/-! ### C95 -/

/-- `t[k][l][i][j]`. -/
def tab4 (t : List (List (List (List (Vec4 K))))) (k l i j : Nat) : Vec4 K := tab2 ((t.getD k []).getD l []) i j

/-- What the table is made of. -/
theorem surfaceDerivCpts_ok {p q : Nat} {kv0 kv1 : List K} {cpts : List (List (Vec4 K))} {c0 c1 rs0 rs1 ss0 ss1 d : Nat}
    {T : List (List (List (List (Vec4 K))))} (h : surfaceDerivCpts p q kv0 kv1 cpts c0 c1 rs0 rs1 ss0 ss1 d = .ok T) :
    ss0 ≤ ss1 ∧ ss1 < cpts.length ∧ ss1 - ss0 < c1 ∧ ∃ (ut : Nat → List (List (Vec4 K))) (vt : Nat → Nat → List (List (Vec4 K))),
      (∀ j ≤ ss1 - ss0, curveDerivCpts p kv0 ((cpts.getD (ss0 + j) []).take c0) (min p d) rs0 rs1 = .ok (ut j)) ∧
      (∀ k ≤ min p d, ∀ i, i + k ≤ rs1 - rs0 → curveDerivCpts q kv1 ((List.range (ss1 - ss0 + 1)).map (fun j => tab2 (ut j) k i) ++
        List.replicate (c1 - (ss1 - ss0 + 1)) 0) (min (d - k) (min q d)) ss0 ss1 = .ok (vt k i)) ∧
      T = (List.range (min p d + 1)).map fun k => (List.range (min q d + 1)).map fun l => (List.range (rs1 - rs0 + 1)).map fun i =>
        (List.range (ss1 - ss0 + 1)).map fun j =>
          if rs1 - rs0 < i + k then 0
          else if l = 0 then tab2 (ut j) k i
          else if l ≤ d - k ∧ j + l ≤ ss1 - ss0 then tab2 (vt k i) l j
          else 0 := by
  unfold surfaceDerivCpts at h
  split at h
  next => simp at h
  next hc =>
    obtain ⟨ut, h1, h2⟩ := Csx.ok_of_bind h
    obtain ⟨vt, h3, h4⟩ := Csx.ok_of_bind h2
    simp only [Res.ok.injEq] at h4
    obtain ⟨-, a⟩ := mapRes_range [] h1
    obtain ⟨-, b⟩ := mapRes_range [] h3
    refine ⟨by omega, by omega, by omega, fun j => ut.getD j [], fun k i => (vt.getD k []).getD i [], fun j hj => a j (by omega), fun k hk i hi => ?_, h4.symm⟩
    obtain ⟨-, b'⟩ := mapRes_range [] (b k (by omega))
    exact b' i (by omega)

theorem tab4_map {a b c d : Nat} (f : Nat → Nat → Nat → Nat → Vec4 K) (k l i j : Nat) (hk : k < a) (hl : l < b) (hi : i < c) (hj : j < d) :
    tab4 ((List.range a).map fun k => (List.range b).map fun l => (List.range c).map fun i => (List.range d).map fun j => f k l i j) k l i j =
      f k l i j := by
  simp [tab4, tab2, List.getD_eq_getElem?_getD, List.getElem?_range, hk, hl, hi, hj]

/-- C95. The table of `surface_deriv_cpts` holds control points of the mixed partial derivatives: on every rectangle between the chosen points, if the surface
`ΣΣ N_a(s) M_b(t) P_{b,a}` is the polynomial `F`, then `∂^k_s ∂^l_t F` is `ΣΣ N_{rs0+k+a,p-k}(s) M_{ss0+l+b,q-l}(t) PKL[k][l][a][b]`.
Partial: for `l > 0` the range of the second direction has to begin at 0 (see the counterexample below). -/
theorem C95_surface_derivative_partial {p q : Nat} {kv0 kv1 : List K} {cpts : List (List (Vec4 K))} {c0 c1 rs0 rs1 ss0 ss1 d : Nat}
    {T : List (List (List (List (Vec4 K))))} (hs0 : SortedKnots kv0) (hs1 : SortedKnots kv1) (l0 : kv0.length = c0 + p + 1)
    (l1 : kv1.length = c1 + q + 1) (hc : cpts.length = c1) (hrow : ∀ row ∈ cpts, row.length = c0)
    (h : surfaceDerivCpts p q kv0 kv1 cpts c0 c1 rs0 rs1 ss0 ss1 d = .ok T) {φ : Vec4 K → K} (hφ : IsCoord φ)
    {i j : Nat} (i1 : rs0 + p ≤ i) (i2 : i ≤ rs1) (j1 : ss0 + q ≤ j) (j2 : j ≤ ss1) {F : MvPolynomial (Fin 2) K}
    (hF : PieceOn2 (ix kv0) (ix kv1) i j (tensorSum (ix kv0) (ix kv1) p q 0 0 c0 c1 fun a b => φ (tab2 cpts b a)) F)
    (k l : Nat) (hk : k ≤ p) (hl : l ≤ q) (hkl : k + l ≤ d) (hss : l = 0 ∨ ss0 = 0) :
    PieceOn2 (ix kv0) (ix kv1) i j
      (tensorSum (ix kv0) (ix kv1) (p - k) (q - l) (rs0 + k) (ss0 + l) (rs1 - rs0 + 1 - k) (ss1 - ss0 + 1 - l) fun a b => φ (tab4 T k l a b))
      ((MvPolynomial.pderiv 0)^[k] ((MvPolynomial.pderiv 1)^[l] F)) := by
  intro s t s1 s2 t1 t2
  obtain ⟨g1, g2, g3, ut, vt, hut, hvt, rfl⟩ := surfaceDerivCpts_ok h
  have hm0 : ∀ a b, a ≤ b → b < kv0.length → ix kv0 a ≤ ix kv0 b := fun a b h h' => ix_mono hs0 h h'
  have hm1 : ∀ a b, a ≤ b → b < kv1.length → ix kv1 a ≤ ix kv1 b := fun a b h h' => ix_mono hs1 h h'
  have hU : ix kv0 i < ix kv0 (i + 1) := lt_of_le_of_lt s1 s2
  have hV : ix kv1 j < ix kv1 (j + 1) := lt_of_le_of_lt t1 t2
  have hrow' : ∀ b, b ≤ ss1 - ss0 → ((cpts.getD (ss0 + b) []).take c0) = cpts.getD (ss0 + b) [] ∧ (cpts.getD (ss0 + b) []).length = c0 := by
    intro b hb
    have hb' : ss0 + b < cpts.length := by omega
    rw [List.getD_eq_getElem?_getD, List.getElem?_eq_getElem hb', Option.getD_some]
    have := hrow _ (List.getElem_mem hb')
    exact ⟨List.take_of_length_le (by omega), this⟩
  have hr1 : rs1 < c0 := by
    have := (curveDerivCpts_ok.mp (hut 0 (by omega))).2.1
    rw [(hrow' 0 (by omega)).1, (hrow' 0 (by omega)).2] at this
    exact this
  -- the pieces
  have hA : ∀ b, ∃ A : K[X], PieceOn (ix kv0) i (splineSum (ix kv0) p rs0 (rs1 - rs0 + 1) fun a => φ (tab2 cpts (ss0 + b) (rs0 + a))) A :=
    fun b => piece_exists _ hm0 hU i1 (by omega) (by omega)
  have hB : ∀ b, ∃ B : K[X], b < ss1 - ss0 + 1 → PieceOn (ix kv1) j (coxDeBoor (ix kv1) q (ss0 + b)) B := by
    intro b
    by_cases hb : b < ss1 - ss0 + 1
    · obtain ⟨B, hB⟩ := basis_exists (U := ix kv1) (p := q) (a := ss0) b hb hm1 hV j1 (by omega) (by omega)
      exact ⟨B, fun _ => hB⟩
    · exact ⟨0, fun h => absurd h hb⟩
  choose A hA using hA
  choose B hB using hB
  have hFs : F = ∑ b ∈ Finset.range (ss1 - ss0 + 1), Polynomial.aeval (MvPolynomial.X 0) (A b) * Polynomial.aeval (MvPolynomial.X 1) (B b) := by
    apply MvPolynomial.funext_set (fun a : Fin 2 => if a = 0 then Set.Ico (ix kv0 i) (ix kv0 (i + 1)) else Set.Ico (ix kv1 j) (ix kv1 (j + 1)))
    · intro a
      split
      · exact Set.Ico_infinite hU
      · exact Set.Ico_infinite hV
    · intro x hx
      have x0 := hx 0 (Set.mem_univ _)
      have x1 := hx 1 (Set.mem_univ _)
      simp only [if_true, one_ne_zero, if_false, Set.mem_Ico] at x0 x1
      have ex : x = ![x 0, x 1] := by
        funext a
        match a with
        | 0 => rfl
        | 1 => rfl
      rw [ex, ← hF _ _ x0.1 x0.2 x1.1 x1.2, map_sum]
      have e1 : tensorSum (ix kv0) (ix kv1) p q 0 0 c0 c1 (fun a b => φ (tab2 cpts b a)) (x 0) (x 1) =
          splineSum (ix kv1) q 0 c1 (fun b => splineSum (ix kv0) p 0 c0 (fun a => φ (tab2 cpts b a)) (x 0)) (x 1) := by
        rw [tensorSum, Finset.sum_comm]
        refine Finset.sum_congr rfl fun b _ => ?_
        simp only [splineSum, Finset.mul_sum]
        exact Finset.sum_congr rfl fun a _ => by ring
      rw [e1, splineSum_restrict _ hm1 x1.1 x1.2 j1 j2 (by omega) (by omega), splineSum]
      refine Finset.sum_congr rfl fun b hb => ?_
      rw [eval_tensor, ← hA b _ x0.1 x0.2, ← hB b (Finset.mem_range.mp hb) _ x1.1 x1.2, splineSum_restrict _ hm0 x0.1 x0.2 i1 i2 hr1 (by omega), mul_comm]
  rw [hFs, pderiv_tensor, map_sum]
  have hDA : ∀ b ∈ Finset.range (ss1 - ss0 + 1), (derivative^[k] (A b)).eval s =
      splineSum (ix kv0) (p - k) (rs0 + k) (rs1 - rs0 + 1 - k) (fun a => φ (tab2 (ut b) k a)) s := by
    intro b hb
    have hb := Finset.mem_range.mp hb
    have h1 := hut b (by omega)
    obtain ⟨q1, q2⟩ := hrow' b (by omega)
    rw [q1] at h1
    exact (tab_derivative hs0 (by omega) h1 hφ i1 i2 (hA b) k (by omega) s s1 s2).symm
  have hval : ∑ b ∈ Finset.range (ss1 - ss0 + 1), MvPolynomial.eval ![s, t]
        (Polynomial.aeval (MvPolynomial.X 0) (derivative^[k] (A b)) * Polynomial.aeval (MvPolynomial.X 1) (derivative^[l] (B b)) : MvPolynomial (Fin 2) K) =
      ∑ a ∈ Finset.range (rs1 - rs0 + 1 - k), coxDeBoor (ix kv0) (p - k) (rs0 + k + a) s *
        (derivative^[l] (∑ b ∈ Finset.range (ss1 - ss0 + 1), C (φ (tab2 (ut b) k a)) * B b)).eval t := by
    have e2 : ∀ a, (derivative^[l] (∑ b ∈ Finset.range (ss1 - ss0 + 1), C (φ (tab2 (ut b) k a)) * B b)).eval t =
        ∑ b ∈ Finset.range (ss1 - ss0 + 1), φ (tab2 (ut b) k a) * (derivative^[l] (B b)).eval t := by
      intro a
      rw [Polynomial.iterate_derivative_sum, Polynomial.eval_finsetSum]
      exact Finset.sum_congr rfl fun b _ => by rw [Polynomial.iterate_derivative_C_mul, Polynomial.eval_mul, Polynomial.eval_C]
    simp only [e2, Finset.mul_sum]
    rw [Finset.sum_comm]
    refine Finset.sum_congr rfl fun b hb => ?_
    rw [eval_tensor, hDA b hb, splineSum, Finset.sum_mul]
    exact Finset.sum_congr rfl fun a _ => by ring
  rw [hval, tensorSum]
  refine Finset.sum_congr rfl fun a ha => ?_
  have ha := Finset.mem_range.mp ha
  have hG : PieceOn (ix kv1) j (splineSum (ix kv1) q ss0 (ss1 - ss0 + 1) fun b => φ (tab2 (ut b) k a))
      (∑ b ∈ Finset.range (ss1 - ss0 + 1), C (φ (tab2 (ut b) k a)) * B b) := by
    intro y y1 y2
    rw [Polynomial.eval_finsetSum, splineSum]
    refine Finset.sum_congr rfl fun b hb => ?_
    rw [Polynomial.eval_mul, Polynomial.eval_C, ← hB b (Finset.mem_range.mp hb) y y1 y2, mul_comm]
  have hD : (derivative^[l] (∑ b ∈ Finset.range (ss1 - ss0 + 1), C (φ (tab2 (ut b) k a)) * B b)).eval t =
      splineSum (ix kv1) (q - l) (ss0 + l) (ss1 - ss0 + 1 - l) (fun b => φ (if l = 0 then tab2 (ut b) k a else tab2 (vt k a) l b)) t := by
    by_cases hl0 : l = 0
    · subst hl0
      simp only [if_true, Nat.sub_zero, Nat.add_zero]
      exact (hG t t1 t2).symm
    · have hz : ss0 = 0 := by omega
      subst hz
      simp only [if_neg hl0]
      have h2 := hvt k (by omega) a (by omega)
      refine (tab_derivative hs1 ?_ h2 hφ j1 j2 (fun y y1 y2 => ?_) l (by omega) t t1 t2).symm
      · simp only [List.length_append, List.length_map, List.length_range, List.length_replicate]; omega
      · rw [← hG y y1 y2, splineSum, splineSum]
        refine Finset.sum_congr rfl fun b hb => ?_
        have hb := Finset.mem_range.mp hb
        congr 2
        rw [ix, List.getD_eq_getElem?_getD, List.getElem?_append_left (by simp; omega), List.getElem?_map, Nat.zero_add, List.getElem?_range (by omega)]
        rfl
  rw [hD, splineSum, Finset.mul_sum]
  refine Finset.sum_congr rfl fun b hb => ?_
  have hb := Finset.mem_range.mp hb
  rw [tab4_map _ k l a b (by omega) (by omega) (by omega) (by omega), if_neg (by omega)]
  by_cases hl0 : l = 0
  · simp [hl0, mul_assoc]
  · rw [if_neg hl0, if_neg hl0, if_pos ⟨by omega, by omega⟩, mul_assoc]

/-- C95. The table has `min(p, d) + 1` by `min(q, d) + 1` nets of `rs1 - rs0 + 1` by `ss1 - ss0 + 1` points. The net `PKL[0][0]` is the chosen part of the
control net; the last `k` rows and `l` columns of `PKL[k][l]` are zero, and so are the nets of total order above `d`. -/
theorem C95_shape {p q : Nat} {kv0 kv1 : List K} {cpts : List (List (Vec4 K))} {c0 c1 rs0 rs1 ss0 ss1 d : Nat}
    {T : List (List (List (List (Vec4 K))))} (h : surfaceDerivCpts p q kv0 kv1 cpts c0 c1 rs0 rs1 ss0 ss1 d = .ok T) :
    T.length = min p d + 1 ∧ (∀ x ∈ T, x.length = min q d + 1 ∧ ∀ y ∈ x, y.length = rs1 - rs0 + 1 ∧ ∀ z ∈ y, z.length = ss1 - ss0 + 1) ∧
    (∀ a b, rs0 + a ≤ rs1 → ss0 + b ≤ ss1 → rs1 < c0 → tab4 T 0 0 a b = tab2 cpts (ss0 + b) (rs0 + a)) ∧
    ∀ k ≤ p, ∀ l ≤ q, ∀ a b, k ≤ d → l ≤ d → a ≤ rs1 - rs0 → b ≤ ss1 - ss0 → (rs1 - rs0 < a + k ∨ ss1 - ss0 < b + l ∨ (1 ≤ l ∧ d < k + l)) →
      tab4 T k l a b = 0 := by
  obtain ⟨g1, g2, g3, ut, vt, hut, hvt, rfl⟩ := surfaceDerivCpts_ok h
  refine ⟨by simp, fun x hx => ?_, fun a b ha hb hr => ?_, fun k hk l hl a b hkd hld ha hb hz => ?_⟩
  · obtain ⟨k, -, rfl⟩ := List.mem_map.mp hx
    refine ⟨by simp, fun y hy => ?_⟩
    obtain ⟨l, -, rfl⟩ := List.mem_map.mp hy
    refine ⟨by simp, fun z hz => ?_⟩
    obtain ⟨i, -, rfl⟩ := List.mem_map.mp hz
    simp
  · rw [tab4_map _ 0 0 a b (by omega) (by omega) (by omega) (by omega), if_neg (by omega), if_pos rfl]
    obtain ⟨-, -, -, e, -⟩ := curveDerivCpts_ok.mp (hut b (by omega))
    rw [tab2, e, List.getD_eq_getElem?_getD, List.getElem?_map, List.getElem?_range (by omega), tab2, Option.map_some, Option.getD_some, ix,
      List.getD_eq_getElem?_getD, List.getElem?_take_of_lt (by omega), List.getD_eq_getElem?_getD (l := cpts.getD (ss0 + b) [])]
  · rw [tab4_map _ k l a b (by omega) (by omega) (by omega) (by omega)]
    split
    · rfl
    split
    · exact (by omega : False).elim
    split
    · exact (by omega : False).elim
    · rfl

theorem curveDerivCpts_ne_throws {p : Nat} {U : List K} {P : List (Vec4 K)} {d r1 r2 : Nat} : curveDerivCpts p U P d r1 r2 ≠ .throws := by
  unfold curveDerivCpts
  split
  · simp
  · refine bind_ne_throws ?_ fun _ _ => by simp
    obtain ⟨a, b⟩ := derivRows_defined (p := p) (U := U) (r1 := r1) (r := r2 - r1) d 1 ((List.range (r2 - r1 + 1)).map fun i => ix P (r1 + i))
    by_cases hc : ∀ m < d, RowDefined p U r1 (r2 - r1) (1 + m)
    · obtain ⟨rest, e⟩ := a hc
      rw [e]; simp
    · rw [b hc]; simp

theorem mapRes_exists {A B : Type} {f : A → Res B} : ∀ {l : List A}, (∀ a ∈ l, ∃ b, f a = .ok b) → ∃ m, mapRes f l = .ok m
  | [], _ => ⟨[], rfl⟩
  | a :: l, h => by
    obtain ⟨b, hb⟩ := h a (by simp)
    obtain ⟨m, hm⟩ := mapRes_exists (l := l) fun x hx => h x (by simp [hx])
    exact ⟨b :: m, by rw [mapRes, hb, Res.ok_bind, hm, Res.ok_bind]⟩

/-- C95. On a full control net it returns exactly when both ranges are inside the net and no denominator is zero; otherwise it is undefined. -/
theorem C95_defined {p q : Nat} {kv0 kv1 : List K} {cpts : List (List (Vec4 K))} {c0 c1 : Nat} (l0 : kv0.length = c0 + p + 1)
    (l1 : kv1.length = c1 + q + 1) (hc : cpts.length = c1) (hrow : ∀ row ∈ cpts, row.length = c0) (rs0 rs1 ss0 ss1 d : Nat) :
    ((∃ T, surfaceDerivCpts p q kv0 kv1 cpts c0 c1 rs0 rs1 ss0 ss1 d = .ok T) ↔ rs0 ≤ rs1 ∧ rs1 < c0 ∧ ss0 ≤ ss1 ∧ ss1 < c1 ∧
      (∀ k j, 1 ≤ k → k ≤ p → k ≤ d → rs0 + j + k ≤ rs1 → ix kv0 (rs0 + j + k) ≠ ix kv0 (rs0 + j + p + 1)) ∧
      ∀ k j, 1 ≤ k → k ≤ q → k ≤ d → ss0 + j + k ≤ ss1 → ix kv1 (ss0 + j + k) ≠ ix kv1 (ss0 + j + q + 1)) ∧
    ((¬ ∃ T, surfaceDerivCpts p q kv0 kv1 cpts c0 c1 rs0 rs1 ss0 ss1 d = .ok T) → surfaceDerivCpts p q kv0 kv1 cpts c0 c1 rs0 rs1 ss0 ss1 d = .ub) := by
  have hrow' : ∀ b, b < c1 → ((cpts.getD b []).take c0).length = c0 := by
    intro b hb
    have hb' : b < cpts.length := by omega
    rw [List.getD_eq_getElem?_getD, List.getElem?_eq_getElem hb', Option.getD_some, List.length_take, hrow _ (List.getElem_mem hb')]
    simp
  constructor
  · constructor
    · rintro ⟨T, h⟩
      obtain ⟨g1, g2, g3, ut, vt, hut, hvt, -⟩ := surfaceDerivCpts_ok h
      have hu := hut 0 (by omega)
      obtain ⟨a1, a2, a3⟩ := (C94_defined (p := p) (U := kv0) (P := (cpts.getD (ss0 + 0) []).take c0) (by rw [hrow' _ (by omega), l0]) (min p d) rs0 rs1).1.mp
        ⟨_, hu⟩
      rw [hrow' _ (by omega)] at a2
      have hv := hvt 0 (by omega) 0 (by omega)
      obtain ⟨-, -, b3⟩ := (C94_defined (p := q) (U := kv1) (by simp; omega) _ ss0 ss1).1.mp ⟨_, hv⟩
      exact ⟨a1, a2, g1, by omega, fun k j k1 k2 k3 k4 => a3 k j k1 (by omega) k4, fun k j k1 k2 k3 k4 => b3 k j k1 (by omega) k4⟩
    · rintro ⟨a1, a2, a3, a4, a5, a6⟩
      unfold surfaceDerivCpts
      rw [if_neg]
      · obtain ⟨ut, hu⟩ : ∃ ut, mapRes (fun j => curveDerivCpts p kv0 ((cpts.getD (ss0 + j) []).take c0) (min p d) rs0 rs1)
            (List.range (ss1 - ss0 + 1)) = .ok ut := by
          refine mapRes_exists fun j hj => ?_
          have hj := List.mem_range.mp hj
          refine (C94_defined (by rw [hrow' _ (by omega), l0]) _ _ _).1.mpr ⟨a1, by rw [hrow' _ (by omega)]; exact a2, fun k j k1 k2 k3 => a5 k j k1 (by omega) (by omega) k3⟩
        dsimp only
        rw [hu, Res.ok_bind]
        obtain ⟨vt, hv⟩ : ∃ vt, mapRes (fun k => mapRes (fun i => curveDerivCpts q kv1 ((List.range (ss1 - ss0 + 1)).map (fun j => tab2 (ut.getD j []) k i) ++
            List.replicate (c1 - (ss1 - ss0 + 1)) 0) (min (d - k) (min q d)) ss0 ss1) (List.range (rs1 - rs0 + 1 - k))) (List.range (min p d + 1)) = .ok vt := by
          refine mapRes_exists fun k hk => mapRes_exists fun i hi => ?_
          refine (C94_defined (by simp; omega) _ _ _).1.mpr ⟨a3, by simp; omega, fun k j k1 k2 k3 => a6 k j k1 (by omega) (by omega) k3⟩
        rw [hv, Res.ok_bind]
        exact ⟨_, rfl⟩
      · rintro (h | h | h | h)
        · omega
        · omega
        · obtain ⟨row, hr, hlt⟩ := List.any_eq_true.mp h
          have := hrow row (List.mem_of_mem_drop (List.mem_of_mem_take hr))
          simp only [decide_eq_true_eq] at hlt
          omega
        · omega
  · intro hn
    have hth : surfaceDerivCpts p q kv0 kv1 cpts c0 c1 rs0 rs1 ss0 ss1 d ≠ .throws := by
      unfold surfaceDerivCpts
      split
      · simp
      · exact bind_ne_throws (mapRes_ne_throws fun _ _ => curveDerivCpts_ne_throws) fun _ _ =>
          bind_ne_throws (mapRes_ne_throws fun _ _ => mapRes_ne_throws fun _ _ => curveDerivCpts_ne_throws) fun _ _ => by simp
    cases h : surfaceDerivCpts p q kv0 kv1 cpts c0 c1 rs0 rs1 ss0 ss1 d with
    | ok T => exact absurd ⟨T, h⟩ hn
    | throws => exact absurd h hth
    | ub => rfl

/-- The control net of the surface `(x, y) = (t, s)` over `[0, 1] × [0, 2]`, bilinear with three rows. -/
def rampNet : List (List (Vec4 ℚ)) := [[⟨0, 0, 0, 1⟩, ⟨0, 1, 0, 1⟩], [⟨1, 0, 0, 1⟩, ⟨1, 1, 0, 1⟩], [⟨2, 0, 0, 1⟩, ⟨2, 1, 0, 1⟩]]

/-- On its second rectangle the first coordinate of the ramp is `t`. -/
theorem rampNet_piece : PieceOn2 (ix ([0, 0, 1, 1] : List ℚ)) (ix ([0, 0, 1, 2, 2] : List ℚ)) 1 2
    (tensorSum (ix ([0, 0, 1, 1] : List ℚ)) (ix ([0, 0, 1, 2, 2] : List ℚ)) 1 1 0 0 2 3 fun a b => (tab2 rampNet b a).x) (MvPolynomial.X 1) := by
  intro s t s1 s2 t1 t2
  simp only [ix, List.getD_cons_zero, List.getD_cons_succ] at s1 s2 t1 t2
  simp [tensorSum, Finset.sum_range_succ, coxDeBoor, ix, s1, s2, t1, t2, not_lt.mpr s1, not_lt.mpr t1, not_lt.mpr (zero_le_one.trans t1), tab2, rampNet]
  ring

/-- The hypotheses of the theorem hold for the ramp with the full range. -/
example : ∃ T, surfaceDerivCpts 1 1 ([0, 0, 1, 1] : List ℚ) [0, 0, 1, 2, 2] rampNet 2 3 0 1 0 2 1 = .ok T ∧ tab4 T 0 1 0 0 = ⟨1, 0, 0, 0⟩ ∧
    tab4 T 1 0 0 2 = ⟨0, 1, 0, 0⟩ := by
  refine ⟨[[[[⟨0, 0, 0, 1⟩, ⟨1, 0, 0, 1⟩, ⟨2, 0, 0, 1⟩], [⟨0, 1, 0, 1⟩, ⟨1, 1, 0, 1⟩, ⟨2, 1, 0, 1⟩]],
    [[⟨1, 0, 0, 0⟩, ⟨1, 0, 0, 0⟩, 0], [⟨1, 0, 0, 0⟩, ⟨1, 0, 0, 0⟩, 0]]], [[[⟨0, 1, 0, 0⟩, ⟨0, 1, 0, 0⟩, ⟨0, 1, 0, 0⟩], [0, 0, 0]], [[0, 0, 0], [0, 0, 0]]]],
    ?_, ?_, ?_⟩ <;> decide +kernel

omit [IsStrictOrderedRing K] in
/-- C95: a row of the requested range that is shorter than promised is read beyond its end. -/
theorem C95_short_row {p q : Nat} {kv0 kv1 : List K} {cpts : List (List (Vec4 K))} {c0 c1 rs0 rs1 ss0 ss1 d b : Nat} (h1 : ss0 ≤ b) (h2 : b ≤ ss1)
    (h3 : (cpts.getD b []).length < c0) : surfaceDerivCpts p q kv0 kv1 cpts c0 c1 rs0 rs1 ss0 ss1 d = .ub := by
  rw [surfaceDerivCpts]
  refine if_pos ?_
  by_cases hb : cpts.length ≤ ss1
  · exact Or.inr (Or.inl hb)
  · refine Or.inr (Or.inr (Or.inl (List.any_eq_true.mpr ⟨cpts.getD b [], ?_, decide_eq_true h3⟩)))
    have e : ((cpts.drop ss0).take (ss1 + 1 - ss0))[b - ss0]? = some (cpts.getD b []) := by
      rw [List.getElem?_take_of_lt (by omega), List.getElem?_drop, show ss0 + (b - ss0) = b by omega, List.getD_eq_getElem?_getD,
        List.getElem?_eq_getElem (show b < cpts.length by omega), Option.getD_some]
    exact List.mem_of_getElem? e

/-- The hypotheses of `C95_short_row` can be met in the last row. -/
example : surfaceDerivCpts 1 1 ([0, 0, 1, 1] : List ℚ) [0, 0, 1, 1] [[⟨0, 0, 0, 1⟩, ⟨1, 0, 0, 1⟩], [⟨0, 0, 0, 1⟩]] 2 2 0 1 0 1 1 = .ub :=
  C95_short_row (b := 1) (by omega) (by omega) (by decide)

/-- C95 is false in general: when the range of the second direction does not begin at 0, the derivatives in that direction are taken from the wrong points.
For the ramp and the points 1 to 2 of the second direction, `∂x/∂t` is 1, but the table gives -2. -/
theorem C95_range_counterexample : ∃ (T : List (List (List (List (Vec4 ℚ))))) (F : MvPolynomial (Fin 2) ℚ),
    surfaceDerivCpts 1 1 ([0, 0, 1, 1] : List ℚ) [0, 0, 1, 2, 2] rampNet 2 3 0 1 1 2 1 = .ok T ∧
    PieceOn2 (ix ([0, 0, 1, 1] : List ℚ)) (ix ([0, 0, 1, 2, 2] : List ℚ)) 1 2
      (tensorSum (ix ([0, 0, 1, 1] : List ℚ)) (ix ([0, 0, 1, 2, 2] : List ℚ)) 1 1 0 0 2 3 fun a b => (tab2 rampNet b a).x) F ∧
    MvPolynomial.eval ![0, 1] (MvPolynomial.pderiv 1 F) = 1 ∧
    tensorSum (ix ([0, 0, 1, 1] : List ℚ)) (ix ([0, 0, 1, 2, 2] : List ℚ)) 1 0 0 2 2 1 (fun a b => (tab4 T 0 1 a b).x) 0 1 = -2 := by
  refine ⟨[[[[⟨1, 0, 0, 1⟩, ⟨2, 0, 0, 1⟩], [⟨1, 1, 0, 1⟩, ⟨2, 1, 0, 1⟩]], [[⟨-2, 0, 0, -1⟩, 0], [⟨-2, -1, 0, -1⟩, 0]]],
    [[[⟨0, 1, 0, 0⟩, ⟨0, 1, 0, 0⟩], [0, 0]], [[0, 0], [0, 0]]]], MvPolynomial.X 1, by decide +kernel, rampNet_piece, by simp, by decide +kernel⟩

end Cmm.Nurbs
