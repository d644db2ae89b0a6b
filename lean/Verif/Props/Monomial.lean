import Verif.Lemmas.MonomialPatch
import Mathlib.Tactic.FinCases
/-!
Properties of cmmcore/binom.h and cmmcore/monomial.h: C40 (binomial table), C41 (Bernstein and monomial form), C42 (derivative
and cross product tensors).
-/
namespace Cmm.Mono
open Finset Cmm.Mat Cmm.Nurbs
variable {K : Type} [Field K]

/-! ### C40 -/

/-- **C40**: the table contains the binomial coefficients for all `n`, `k` up to 30, with zeros for `k > n`. -/
theorem C40_table (n k : Nat) (hn : n ≤ 30) (hk : k ≤ 30) : binomialCoefficient n k = .ok (n.choose k : Int) :=
  binomial_ok (by omega) (by omega)

example : binomialCoefficient 30 15 = .ok 155117520 ∧ binomialCoefficient 3 5 = .ok 0 := by decide +kernel

/-- **C40**: any other call is out of bounds. -/
theorem C40_out_of_bounds (n k : Int) : binomialCoefficient n k = .ub ↔ ¬ (0 ≤ n ∧ n ≤ 30 ∧ 0 ≤ k ∧ k ≤ 30) := by
  unfold binomialCoefficient
  split
  · simp only [true_iff]; omega
  · simp only [reduceCtorEq, false_iff]; omega

/-! ### C41 -/
variable [LinearOrder K] [IsStrictOrderedRing K]

/-- The conversion matrices of an object are the ones for its sizes. -/
def GoodMatrices (q : Monomial K) : Prop :=
  Represents q.Mu q.n q.n (bpEntry (q.n - 1)) ∧ Represents q.Mv q.m q.m (bpEntry (q.m - 1)) ∧
  (∃ B, Represents q.MuInv q.n q.n B ∧
    (∀ i < q.n, ∀ j < q.n, ∑ k ∈ range q.n, bpEntry (q.n - 1) i k * B k j = if i = j then 1 else 0) ∧
    ∀ i < q.n, ∀ j < q.n, ∑ k ∈ range q.n, B i k * bpEntry (q.n - 1) k j = if i = j then 1 else 0) ∧
  (∃ B, Represents q.MvInv q.m q.m B ∧
    (∀ i < q.m, ∀ j < q.m, ∑ k ∈ range q.m, bpEntry (q.m - 1) i k * B k j = if i = j then 1 else 0) ∧
    ∀ i < q.m, ∀ j < q.m, ∑ k ∈ range q.m, B i k * bpEntry (q.m - 1) k j = if i = j then 1 else 0)

theorem make_ok (n m : Nat) (c : Tensor K) (hn : n ≤ 31) (hm : m ≤ 31) :
    ∃ q, Monomial.make n m c = .ok q ∧ q.n = n ∧ q.m = m ∧ q.coefficients = c ∧ GoodMatrices q := by
  obtain ⟨p, B, h1, h2, h3, h4⟩ := bp_inverse (K := K) n
  obtain ⟨p', B', h1', h2', h3', h4'⟩ := bp_inverse (K := K) m
  unfold Monomial.make
  rw [bpmat_ok hn, bpmat_ok hm, Res.ok_bind, Res.ok_bind, h1, Res.ok_bind, h1', Res.ok_bind]
  exact ⟨_, rfl, rfl, rfl, rfl, fill_represents _ _ _, fill_represents _ _ _, ⟨B, h2, h3, h4⟩, ⟨B', h2', h3', h4'⟩⟩

/-- Conversion of a control net `P` gives the coefficients of the Bezier patch of `P`. -/
theorem value_of_sandwich {n m : Nat} (hn : 0 < n) (hm : 0 < m) (P : Nat → Nat → K) (u v : K) :
    ∑ i ∈ range n, ∑ j ∈ range m, (∑ l ∈ range m, (∑ k ∈ range n, bpEntry (n - 1) i k * P k l) * bpEntry (m - 1) j l) *
      u ^ i * v ^ j = bezierValue n m P u v := by
  rw [sum_sandwich n m (bpEntry (n - 1)) (bpEntry (m - 1)) P (fun i => u ^ i) (fun j => v ^ j)]
  unfold bezierValue
  refine Finset.sum_congr rfl fun k hk => Finset.sum_congr rfl fun l hl => ?_
  have hk := mem_range.1 hk
  have hl := mem_range.1 hl
  have e1 := bpEntry_bernstein (n := n - 1) (k := k) (by omega) u
  have e2 := bpEntry_bernstein (n := m - 1) (k := l) (by omega) v
  rw [show n - 1 + 1 = n by omega] at e1
  rw [show m - 1 + 1 = m by omega] at e2
  rw [e1, e2]

/-- The outcome of the constructor from a surface. -/
theorem ofSurface_ok (s : Surface K) (hu : 0 < s.su ∧ s.su ≤ 31) (hv : 0 < s.sv ∧ s.sv ≤ 31) (hr : s.cpts.length = s.su)
    (hc : ∀ r ∈ s.cpts, r.length = s.sv) (hw : ∀ r ∈ s.cpts, ∀ p ∈ r, p.w ≠ 0) :
    ∃ q, Monomial.ofSurface s = .ok q ∧ q.n = s.su ∧ q.m = s.sv ∧ GoodMatrices q ∧ Rect q.coefficients s.su s.sv ∧
      ∀ i < s.su, ∀ j < s.sv, tcell q.coefficients i j =
        ⟨∑ l ∈ range s.sv, (∑ k ∈ range s.su, bpEntry (s.su - 1) i k * (cell s.cpts k l).toVec3.x) * bpEntry (s.sv - 1) j l,
         ∑ l ∈ range s.sv, (∑ k ∈ range s.su, bpEntry (s.su - 1) i k * (cell s.cpts k l).toVec3.y) * bpEntry (s.sv - 1) j l,
         ∑ l ∈ range s.sv, (∑ k ∈ range s.su, bpEntry (s.su - 1) i k * (cell s.cpts k l).toVec3.z) * bpEntry (s.sv - 1) j l⟩ := by
  obtain ⟨p, B, h1, h2, h3, h4⟩ := bp_inverse (K := K) s.su
  obtain ⟨p', B', h1', h2', h3', h4'⟩ := bp_inverse (K := K) s.sv
  obtain ⟨T, hT, hT'⟩ := C36_transpose _ _ _ _ (fill_represents s.sv s.sv (bpEntry (s.sv - 1) : Nat → Nat → K))
  have hcov : s.covered = true := by
    unfold Surface.covered
    rw [Bool.and_eq_true, decide_eq_true_iff, List.all_eq_true]
    refine ⟨by rw [hr], fun r hr => ?_⟩
    rw [decide_eq_true_iff, hc r (List.mem_of_mem_take hr)]
  have hcp : controlPoints3d s = .ok ((List.range s.su).map fun i => (List.range s.sv).map fun j => (cell s.cpts i j).toVec3) := by
    unfold controlPoints3d
    rw [if_neg (by simp [hcov])]
    refine mapRes_ok fun i hi => ?_
    refine mapRes_ok fun j hj => ?_
    rw [if_neg]
    have hi' : i < s.cpts.length := by rw [hr]; exact List.mem_range.1 hi
    rw [cell_eq hi']
    exact hw _ (List.getElem_mem hi') _ (mem_ix (by rw [hc _ (List.getElem_mem _)]; exact List.mem_range.1 hj))
  obtain ⟨x, y, z, hs, hx, hy, hz⟩ := sandwich_ok (fill_represents s.su s.su (bpEntry (s.su - 1) : Nat → Nat → K)) hT'
    (table_rect s.su s.sv fun i j => (cell s.cpts i j).toVec3) hu.1
  refine ⟨⟨s.su, s.sv, setComponents s.su s.sv x y z, MatrixD.fill s.su s.su (bpEntry (s.su - 1)),
    MatrixD.fill s.sv s.sv (bpEntry (s.sv - 1)), p, p'⟩, ?_, rfl, rfl,
    ⟨fill_represents _ _ _, fill_represents _ _ _, ⟨B, h2, h3, h4⟩, ⟨B', h2', h3', h4'⟩⟩, setComponents_rect _ _ _ _ _, ?_⟩
  · unfold Monomial.ofSurface
    rw [bpmat_ok hu.2, bpmat_ok hv.2, Res.ok_bind, Res.ok_bind, h1, Res.ok_bind, h1', Res.ok_bind, hcp, Res.ok_bind, hT,
      Res.ok_bind, hs, Res.ok_bind]
  · intro i hi j hj
    rw [tcell_setComponents _ _ _ hi hj, hx.2.2.2 i hi j hj, hy.2.2.2 i hi j hj, hz.2.2.2 i hi j hj]
    have e : ∀ φ : Vec3 K → K, (∑ l ∈ range s.sv, (∑ k ∈ range s.su, bpEntry (s.su - 1) i k *
        φ (tcell ((List.range s.su).map fun i => (List.range s.sv).map fun j => (cell s.cpts i j).toVec3) k l)) *
          bpEntry (s.sv - 1) j l) =
        ∑ l ∈ range s.sv, (∑ k ∈ range s.su, bpEntry (s.su - 1) i k * φ (cell s.cpts k l).toVec3) * bpEntry (s.sv - 1) j l := by
      intro φ
      refine Finset.sum_congr rfl fun l hl => ?_
      congr 1
      refine Finset.sum_congr rfl fun k hk => ?_
      rw [tcell_table _ (mem_range.1 hk) (mem_range.1 hl)]
    beta_reduce
    rw [e Vec3.x, e Vec3.y, e Vec3.z]

/-- C41: for every control net of up to 31 by 31 points with nonzero weights, the constructor from a surface succeeds and its
coefficients are those of the polynomial Bezier patch of the Cartesian control points, at every parameter. -/
theorem C41_control_net (s : Surface K) (hu : 0 < s.su ∧ s.su ≤ 31) (hv : 0 < s.sv ∧ s.sv ≤ 31) (hr : s.cpts.length = s.su)
    (hc : ∀ r ∈ s.cpts, r.length = s.sv) (hw : ∀ r ∈ s.cpts, ∀ p ∈ r, p.w ≠ 0) :
    ∃ q, Monomial.ofSurface s = .ok q ∧ Rect q.coefficients s.su s.sv ∧
      ∀ u v, mono q.coefficients u v = bezier s.su s.sv (fun i j => (cell s.cpts i j).toVec3) u v := by
  obtain ⟨q, h1, _, _, _, h5, h6⟩ := ofSurface_ok s hu hv hr hc hw
  refine ⟨q, h1, h5, fun u v => ?_⟩
  unfold mono bezier
  rw [monoValue_rect _ h5, monoValue_rect _ h5, monoValue_rect _ h5, ← value_of_sandwich hu.1 hv.1, ← value_of_sandwich hu.1 hv.1,
    ← value_of_sandwich hu.1 hv.1]
  congr 1 <;>
    exact Finset.sum_congr rfl fun i hi => Finset.sum_congr rfl fun j hj => by rw [h6 i (mem_range.1 hi) j (mem_range.1 hj)]

/-- A patch of degrees 2 and 1, all weights 2. -/
def demoPatch : Surface ℚ :=
  ⟨[[⟨0, 0, 0, 2⟩, ⟨0, 2, 0, 2⟩], [⟨2, 0, 4, 2⟩, ⟨2, 2, 6, 2⟩], [⟨4, 0, 0, 2⟩, ⟨4, 2, 1, 2⟩]], 2, 1, 3, 2,
    [0, 0, 0, 1, 1, 1], [0, 0, 1, 1], 0, 1, 0, 1⟩

theorem demoPatch_bezier : BezierPatch demoPatch 2 :=
  ⟨by decide, by decide, by decide, by decide, by decide, by decide +kernel, by decide +kernel, by decide +kernel⟩

/-- **C41**: converting a Bezier patch to monomial form preserves the surface: the polynomial takes the value of `evaluate` at
every parameter. -/
theorem C41_surface (s : Surface K) (w : K) (B : BezierPatch s w) :
    ∃ q, Monomial.ofSurface s = .ok q ∧ ∀ u v, 0 ≤ u → u ≤ 1 → 0 ≤ v → v ≤ 1 →
      s.evaluate u v = .ok (mono q.coefficients u v) := by
  have ⟨a1, a2⟩ := B.size_u
  have ⟨b1, b2⟩ := B.size_v
  obtain ⟨q, h1, _, h3⟩ := C41_control_net s ⟨by omega, by omega⟩ ⟨by omega, by omega⟩ B.rows B.cols
    (fun r hr p hp => by rw [B.weight.2 r hr p hp]; exact B.weight.1)
  refine ⟨q, h1, fun u v hu0 hu1 hv0 hv1 => ?_⟩
  rw [h3, patch_eval B ⟨hu0, hu1⟩ ⟨hv0, hv1⟩]

example : BezierPatch demoPatch 2 := demoPatch_bezier

/-- The outcome of `to_bezier` on an object whose matrices fit. -/
theorem toBezier_ok (q : Monomial K) (hn : 0 < q.n) (hm : 0 < q.m) (hG : GoodMatrices q) (hR : Rect q.coefficients q.n q.m) :
    ∃ (s : Surface K) (B B' : Nat → Nat → K), q.toBezier = .ok s ∧
      (∀ i < q.n, ∀ j < q.n, ∑ k ∈ range q.n, bpEntry (q.n - 1) i k * B k j = if i = j then 1 else 0) ∧
      (∀ i < q.n, ∀ j < q.n, ∑ k ∈ range q.n, B i k * bpEntry (q.n - 1) k j = if i = j then 1 else 0) ∧
      (∀ i < q.m, ∀ j < q.m, ∑ k ∈ range q.m, bpEntry (q.m - 1) i k * B' k j = if i = j then 1 else 0) ∧
      (∀ i < q.m, ∀ j < q.m, ∑ k ∈ range q.m, B' i k * bpEntry (q.m - 1) k j = if i = j then 1 else 0) ∧
      s.su = q.n ∧ s.sv = q.m ∧ s.du = q.n - 1 ∧ s.dv = q.m - 1 ∧ s.cpts.length = q.n ∧ (∀ r ∈ s.cpts, r.length = q.m) ∧
      s.ku = List.replicate q.n 0 ++ List.replicate q.n 1 ∧ s.kv = List.replicate q.m 0 ++ List.replicate q.m 1 ∧
      (s.u0 = 0 ∧ s.u1 = 1 ∧ s.v0 = 0 ∧ s.v1 = 1) ∧
      ∀ i < q.n, ∀ j < q.m, cell s.cpts i j =
        ⟨∑ l ∈ range q.m, (∑ k ∈ range q.n, B i k * (tcell q.coefficients k l).x) * B' j l,
         ∑ l ∈ range q.m, (∑ k ∈ range q.n, B i k * (tcell q.coefficients k l).y) * B' j l,
         ∑ l ∈ range q.m, (∑ k ∈ range q.n, B i k * (tcell q.coefficients k l).z) * B' j l, 1⟩ := by
  obtain ⟨_, _, ⟨B, hB, hB1, hB2⟩, ⟨B', hB', hB1', hB2'⟩⟩ := hG
  obtain ⟨T, hT, hT'⟩ := C36_transpose _ _ _ _ hB'
  obtain ⟨x, y, z, hs, hx, hy, hz⟩ := sandwich_ok hB hT' hR hn
  refine ⟨?_, B, B', ?_, hB1, hB2, hB1', hB2', ?_⟩
  · exact ⟨(setComponents q.n q.m x y z).map fun row => row.map fun p => ⟨p.x, p.y, p.z, 1⟩, q.n - 1, q.m - 1, q.n, q.m,
      List.replicate q.n 0 ++ List.replicate q.n 1, List.replicate q.m 0 ++ List.replicate q.m 1, 0, 1, 0, 1⟩
  · unfold Monomial.toBezier
    rw [hT, Res.ok_bind, hs, Res.ok_bind, if_neg (by omega), generateKnots_bezier hn, Res.ok_bind, generateKnots_bezier hm,
      Res.ok_bind, surf_updateInterval (by simp; omega) (by simp; omega)]
    simp only [List.length_append, List.length_replicate]
    rw [bez_ix_zero hn, bez_ix_zero hm, bez_ix_one (n := q.n) (by omega) (by omega), bez_ix_one (n := q.m) (by omega) (by omega)]
  · refine ⟨rfl, rfl, rfl, rfl, by simp [setComponents], ?_, rfl, rfl, ⟨rfl, rfl, rfl, rfl⟩, ?_⟩
    · intro r hr
      simp only [List.mem_map] at hr
      obtain ⟨a, ha, rfl⟩ := hr
      rw [List.length_map]
      exact (setComponents_rect _ _ _ _ _).2 a ha
    · intro i hi j hj
      have e : cell ((setComponents q.n q.m x y z).map fun row => row.map fun p => (⟨p.x, p.y, p.z, 1⟩ : Vec4 K)) i j =
          ⟨x.get i j, y.get i j, z.get i j, 1⟩ := by
        simp [cell, ix, setComponents, hi, hj]
      simp only [e]
      rw [hx.2.2.2 i hi j hj, hy.2.2.2 i hi j hj, hz.2.2.2 i hi j hj]

/-- **C41**: converting a surface to monomial form and back returns the original control points (in Cartesian form, with
weight one), with the Bezier knots and full degree. -/
theorem C41_roundtrip (s : Surface K) (hu : 0 < s.su ∧ s.su ≤ 31) (hv : 0 < s.sv ∧ s.sv ≤ 31) (hr : s.cpts.length = s.su)
    (hc : ∀ r ∈ s.cpts, r.length = s.sv) (hw : ∀ r ∈ s.cpts, ∀ p ∈ r, p.w ≠ 0) :
    ∃ q s', Monomial.ofSurface s = .ok q ∧ q.toBezier = .ok s' ∧
      s'.su = s.su ∧ s'.sv = s.sv ∧ s'.du = s.su - 1 ∧ s'.dv = s.sv - 1 ∧
      s'.ku = List.replicate s.su 0 ++ List.replicate s.su 1 ∧ s'.kv = List.replicate s.sv 0 ++ List.replicate s.sv 1 ∧
      s'.cpts.length = s.su ∧ (∀ r ∈ s'.cpts, r.length = s.sv) ∧
      ∀ i < s.su, ∀ j < s.sv, cell s'.cpts i j = ⟨(cell s.cpts i j).x / (cell s.cpts i j).w,
        (cell s.cpts i j).y / (cell s.cpts i j).w, (cell s.cpts i j).z / (cell s.cpts i j).w, 1⟩ := by
  obtain ⟨q, h1, h2, h3, h4, h5, h6⟩ := ofSurface_ok s hu hv hr hc hw
  obtain ⟨s', B, B', g1, g2, g3, g4, g5, g6, g7, g8, g9, g10, g11, g12, g13, _, g14⟩ :=
    toBezier_ok q (by omega) (by omega) h4 (by rw [h2, h3]; exact h5)
  rw [h2, h3] at *
  refine ⟨q, s', h1, g1, g6, g7, g8, g9, g12, g13, g10, g11, fun i hi j hj => ?_⟩
  rw [g14 i hi j hj]
  have e : ∀ φ : Vec3 K → K, (∀ k < s.su, ∀ l < s.sv, φ (tcell q.coefficients k l) = ∑ l' ∈ range s.sv,
      (∑ k' ∈ range s.su, bpEntry (s.su - 1) k k' * φ (cell s.cpts k' l').toVec3) * bpEntry (s.sv - 1) l l') →
      (∑ l ∈ range s.sv, (∑ k ∈ range s.su, B i k * φ (tcell q.coefficients k l)) * B' j l) = φ (cell s.cpts i j).toVec3 := by
    intro φ hφ
    rw [Finset.sum_congr rfl fun l hl => by
      rw [Finset.sum_congr rfl fun k hk => by rw [hφ k (mem_range.1 hk) l (mem_range.1 hl)]]]
    exact sandwich_cancel s.su s.sv (bpEntry (s.su - 1)) (bpEntry (s.sv - 1)) B B' (fun i j => φ (cell s.cpts i j).toVec3)
      g3 g5 hi hj
  rw [e Vec3.x fun k hk l hl => by rw [h6 k hk l hl], e Vec3.y fun k hk l hl => by rw [h6 k hk l hl],
    e Vec3.z fun k hk l hl => by rw [h6 k hk l hl]]
  rfl

example : (0 < demoPatch.su ∧ demoPatch.su ≤ 31) ∧ (0 < demoPatch.sv ∧ demoPatch.sv ≤ 31) ∧
    demoPatch.cpts.length = demoPatch.su ∧ (∀ r ∈ demoPatch.cpts, r.length = demoPatch.sv) ∧
    ∀ r ∈ demoPatch.cpts, ∀ p ∈ r, p.w ≠ 0 := by
  refine ⟨by decide, by decide, by decide, by decide, ?_⟩
  intro r hr p hp
  rw [demoPatch_bezier.weight.2 r hr p hp]
  decide +kernel

theorem ofCoeffs_ok (c : Tensor K) (n m : Nat) (hc : Rect c n m) (hn : 0 < n ∧ n ≤ 31) (hm : 0 < m ∧ m ≤ 31) :
    ∃ q, Monomial.ofCoeffs c = .ok q ∧ q.n = n ∧ q.m = m ∧ q.coefficients = c ∧ GoodMatrices q := by
  obtain ⟨r0, rest, rfl, h1, _⟩ := hc.cons hn.1
  unfold Monomial.ofCoeffs
  obtain ⟨q, a1, a2, a3, a4, a5⟩ := make_ok (r0 :: rest).length r0.length (r0 :: rest) (by rw [hc.1]; exact hn.2)
    (by rw [h1]; exact hm.2)
  exact ⟨q, a1, by rw [a2, hc.1], by rw [a3, h1], a4, a5⟩

/-- **C41**: from any coefficients, `to_bezier` gives control points of unit weight whose Bezier patch is the polynomial; up to
9 by 9 coefficients the result is a patch whose `evaluate` gives the value of the polynomial. -/
theorem C41_to_bezier (c : Tensor K) (n m : Nat) (hc : Rect c n m) (hn : 0 < n ∧ n ≤ 31) (hm : 0 < m ∧ m ≤ 31) :
    ∃ q s, Monomial.ofCoeffs c = .ok q ∧ q.toBezier = .ok s ∧ s.su = n ∧ s.sv = m ∧
      (∀ i < n, ∀ j < m, (cell s.cpts i j).w = 1) ∧
      (∀ u v, bezier n m (fun i j => (cell s.cpts i j).toVec3) u v = mono c u v) ∧
      (2 ≤ n → n ≤ 9 → 2 ≤ m → m ≤ 9 → BezierPatch s 1 ∧ ∀ u v, 0 ≤ u → u ≤ 1 → 0 ≤ v → v ≤ 1 →
        s.evaluate u v = .ok (mono c u v)) := by
  obtain ⟨q, a1, a2, a3, a4, a5⟩ := ofCoeffs_ok c n m hc hn hm
  obtain ⟨s, B, B', g1, g2, g3, g4, g5, g6, g7, g8, g9, g10, g11, g12, g13, _, g14⟩ :=
    toBezier_ok q (by omega) (by omega) a5 (by rw [a2, a3, a4]; exact hc)
  rw [a2, a3, a4] at *
  have hw : ∀ i < n, ∀ j < m, (cell s.cpts i j).w = 1 := fun i hi j hj => by rw [g14 i hi j hj]
  have hb : ∀ u v, bezier n m (fun i j => (cell s.cpts i j).toVec3) u v = mono c u v := by
    intro u v
    unfold bezier mono
    have e : ∀ (φ : Vec3 K → K), (∀ i < n, ∀ j < m, φ (cell s.cpts i j).toVec3 =
        ∑ l ∈ range m, (∑ k ∈ range n, B i k * φ (tcell c k l)) * B' j l) →
        bezierValue n m (fun i j => φ (cell s.cpts i j).toVec3) u v = monoValue φ c u v := by
      intro φ hφ
      rw [← value_of_sandwich hn.1 hm.1, monoValue_rect φ hc]
      refine Finset.sum_congr rfl fun i hi => Finset.sum_congr rfl fun j hj => ?_
      congr 2
      rw [Finset.sum_congr rfl fun l hl => by
        rw [Finset.sum_congr rfl fun k hk => by rw [hφ k (mem_range.1 hk) l (mem_range.1 hl)]]]
      exact sandwich_cancel n m B B' (bpEntry (n - 1)) (bpEntry (m - 1)) (fun i j => φ (tcell c i j)) g2 g4
        (mem_range.1 hi) (mem_range.1 hj)
    rw [e Vec3.x fun i hi j hj => by rw [g14 i hi j hj]; simp [Vec4.toVec3],
      e Vec3.y fun i hi j hj => by rw [g14 i hi j hj]; simp [Vec4.toVec3],
      e Vec3.z fun i hi j hj => by rw [g14 i hi j hj]; simp [Vec4.toVec3]]
  refine ⟨q, s, a1, g1, g6, g7, hw, hb, fun h1 h2 h3 h4 => ?_⟩
  have P : BezierPatch s 1 := by
    refine ⟨by omega, by omega, by omega, fun r hr => by rw [g11 r hr, g7], ⟨by omega, by omega⟩, by rw [g12, g6], by rw [g13, g7],
      one_ne_zero, fun r hr p hp => ?_⟩
    obtain ⟨i, hi, rfl⟩ := List.getElem_of_mem hr
    obtain ⟨j, hj, rfl⟩ := List.getElem_of_mem hp
    have := hw i (by omega) j (by rw [← g11 _ hr]; exact hj)
    rw [cell_eq hi, ix_eq_getElem hj] at this
    exact this
  refine ⟨P, fun u v h5 h6 h7 h8 => ?_⟩
  rw [patch_eval P ⟨h5, h6⟩ ⟨h7, h8⟩, g6, g7, hb]

/-- Coefficients of `(u, v, u v + 2 u²)`. -/
def demoCoeffs : Tensor ℚ := [[⟨0, 0, 0⟩, ⟨0, 1, 0⟩], [⟨1, 0, 0⟩, ⟨0, 0, 1⟩], [⟨0, 0, 2⟩, ⟨0, 0, 0⟩]]

theorem demoCoeffs_rect : Rect demoCoeffs 3 2 := ⟨rfl, by decide⟩

example : Rect demoCoeffs 3 2 ∧
    mono demoCoeffs (1 / 2) (1 / 3) = ⟨1 / 2, 1 / 3, 2 / 3⟩ := by
  refine ⟨demoCoeffs_rect, ?_⟩
  unfold mono
  rw [monoValue_rect _ demoCoeffs_rect, monoValue_rect _ demoCoeffs_rect, monoValue_rect _ demoCoeffs_rect]
  simp only [Finset.sum_range_succ, Finset.sum_range_zero, demoCoeffs, tcell]
  norm_num

/-- C41: beyond 31 control points in a direction the binomial table is read out of bounds. -/
theorem C41_too_large (c : Tensor K) (n m : Nat) (hc : Rect c n m) (hn : 31 < n) : Monomial.ofCoeffs c = .ub := by
  obtain ⟨r0, rest, rfl, h1, _⟩ := hc.cons (by omega)
  unfold Monomial.ofCoeffs Monomial.make
  simp only
  rw [hc.1, bpmat_ub hn]; rfl

/-- C41: `operator=` copies the coefficients and sizes only; after assigning to an object made for another number of rows,
`to_bezier` throws. -/
theorem C41_assign_drops_matrices (dst src : Monomial K) (hd : GoodMatrices dst) (hR : Rect src.coefficients src.n src.m)
    (hn : 0 < src.n) (h : dst.n ≠ src.n) : (dst.assign src).coefficients = src.coefficients ∧ (dst.assign src).toBezier = .throws := by
  refine ⟨rfl, ?_⟩
  obtain ⟨_, _, ⟨B, hB, _⟩, ⟨B', hB', _⟩⟩ := hd
  obtain ⟨T, hT, _⟩ := C36_transpose _ _ _ _ hB'
  obtain ⟨M, h1, h2⟩ := getComponent_ok hR hn 0
  unfold Monomial.toBezier Monomial.assign sandwich
  simp only [hT, Res.ok_bind, h1]
  rw [C36_mul_throws _ _ (by rw [hB.2.1, h2.1]; exact h)]
  rfl

example : ∃ dst src : Monomial ℚ, GoodMatrices dst ∧ Rect src.coefficients src.n src.m ∧ 0 < src.n ∧ dst.n ≠ src.n := by
  obtain ⟨d, _, h2, _, _, h5⟩ := make_ok (K := ℚ) 2 2 [] (by omega) (by omega)
  obtain ⟨s, _, g2, g3, g4, _⟩ := ofCoeffs_ok demoCoeffs 3 2 demoCoeffs_rect (by omega) (by omega)
  exact ⟨d, s, h5, by rw [g2, g3, g4]; exact demoCoeffs_rect, by omega, by omega⟩

/-- C41: a default-constructed object has no rows and columns and cannot be converted; assigning a patch to it gives it the coefficients and the sizes, but
not the matrices, and `to_bezier` throws. -/
theorem C41_default_object (src : Monomial K) (hR : Rect src.coefficients src.n src.m) (hn : 0 < src.n) :
    (Monomial.empty : Monomial K).toBezier = .ub ∧ (Monomial.empty : Monomial K).n = 0 ∧ (Monomial.empty : Monomial K).m = 0 ∧
    (Monomial.empty : Monomial K).coefficients = [] ∧ (Monomial.empty.assign src).n = src.n ∧ (Monomial.empty.assign src).m = src.m ∧
    (Monomial.empty.assign src).coefficients = src.coefficients ∧ (Monomial.empty.assign src).toBezier = .throws := by
  refine ⟨rfl, rfl, rfl, rfl, rfl, rfl, rfl, ?_⟩
  obtain ⟨M, h1, h2⟩ := getComponent_ok hR hn 0
  have hT : ∃ T, (⟨[], 0, 0⟩ : MatrixD K).transpose = .ok T := ⟨_, rfl⟩
  obtain ⟨T, hT⟩ := hT
  unfold Monomial.toBezier Monomial.assign Monomial.empty sandwich
  simp only [hT, Res.ok_bind, h1]
  rw [C36_mul_throws _ _ (by rw [h2.1]; exact hn.ne)]
  rfl

example : ∃ src : Monomial ℚ, Rect src.coefficients src.n src.m ∧ 0 < src.n := by
  obtain ⟨s, _, g2, g3, g4, _⟩ := ofCoeffs_ok demoCoeffs 3 2 demoCoeffs_rect (by omega) (by omega)
  exact ⟨s, by rw [g2, g3, g4]; exact demoCoeffs_rect, by omega⟩

/-- C41: a coefficient tensor with a row that is not as long as its first row is accepted by the constructor, but the conversion to a Bézier patch is
undefined: it writes over other coefficients or past the end of a matrix. -/
theorem C41_ragged (r0 : List (Vec3 K)) (rest : Tensor K) (hr : ∃ r ∈ rest, r.length ≠ r0.length)
    (hn : rest.length + 1 ≤ 31) (hm : 1 ≤ r0.length ∧ r0.length ≤ 31) :
    ∃ q, Monomial.ofCoeffs (r0 :: rest) = .ok q ∧ q.coefficients = r0 :: rest ∧ q.toBezier = .ub := by
  obtain ⟨q, h1, h2, h3, h4, h5⟩ := make_ok (K := K) (rest.length + 1) r0.length (r0 :: rest) (by omega) (by omega)
  obtain ⟨_, _, ⟨B, hB, _⟩, ⟨B', hB', _⟩⟩ := h5
  obtain ⟨T, hT, _⟩ := C36_transpose _ _ _ _ hB'
  refine ⟨q, h1, h4, ?_⟩
  have : ((r0 :: rest).all fun r => decide (r.length = r0.length)) = false := by
    obtain ⟨r, m, h⟩ := hr
    rw [List.all_eq_false]
    exact ⟨r, List.mem_cons_of_mem _ m, by simpa using h⟩
  unfold Monomial.toBezier sandwich
  rw [hT, h4]
  unfold getComponent
  simp only [Res.ok_bind, this]
  rfl

example : ∃ r ∈ ([[0]] : Tensor ℚ), r.length ≠ ([0, 0] : List (Vec3 ℚ)).length := by simp

/-! ### C42 -/
omit [IsStrictOrderedRing K]

/-- **C42**: the `U` derivative tensor evaluates to the derivative of the patch in `u`, in each coordinate. -/
theorem C42_partial_u (c : Tensor K) (n m : Nat) (hc : Rect c n m) (hn : 0 < n) :
    ∃ d, partialDerivative c .U = .ok d ∧ Rect d (n - 1) m ∧ ∀ u v, mono d u v =
      ⟨(polyU (·.x) c v).derivative.eval u, (polyU (·.y) c v).derivative.eval u, (polyU (·.z) c v).derivative.eval u⟩ := by
  refine ⟨_, derivative_u_ok hc hn, table_rect _ _ _, fun u v => ?_⟩
  unfold mono
  rw [polyU_derivative _ hc hn, polyU_derivative _ hc hn, polyU_derivative _ hc hn]
  congr 1 <;>
  · rw [monoValue_rect _ (table_rect _ _ _)]
    refine Finset.sum_congr rfl fun i hi => Finset.sum_congr rfl fun j hj => ?_
    rw [tcell_table _ (mem_range.1 hi) (mem_range.1 hj)]
    simp only [Vec3.smul]; ring

/-- **C42**: the `V` derivative tensor evaluates to the derivative of the patch in `v`. -/
theorem C42_partial_v (c : Tensor K) (n m : Nat) (hc : Rect c n m) (hn : 0 < n) (hm : 0 < m) :
    ∃ d, partialDerivative c .V = .ok d ∧ Rect d n (m - 1) ∧ ∀ u v, mono d u v =
      ⟨(polyV (·.x) c u).derivative.eval v, (polyV (·.y) c u).derivative.eval v, (polyV (·.z) c u).derivative.eval v⟩ := by
  refine ⟨_, derivative_v_ok hc hn hm, table_rect _ _ _, fun u v => ?_⟩
  unfold mono
  rw [polyV_derivative _ hc hm, polyV_derivative _ hc hm, polyV_derivative _ hc hm]
  congr 1 <;>
  · rw [monoValue_rect _ (table_rect _ _ _)]
    refine Finset.sum_congr rfl fun i hi => Finset.sum_congr rfl fun j hj => ?_
    rw [tcell_table _ (mem_range.1 hi) (mem_range.1 hj)]
    simp only [Vec3.smul]; ring

/-- C42: the polynomials in `C42_partial_u` and `C42_partial_v` are the patch itself. -/
theorem C42_poly_is_patch (φ : Vec3 K → K) (c : Tensor K) (u v : K) :
    (polyU φ c v).eval u = monoValue φ c u v ∧ (polyV φ c u).eval v = monoValue φ c u v := by
  unfold polyU polyV monoValue
  simp only [Polynomial.eval_finsetSum, Polynomial.eval_mul, Polynomial.eval_C, Polynomial.eval_pow, Polynomial.eval_X, and_true]
  exact Finset.sum_congr rfl fun i _ => Finset.sum_congr rfl fun j _ => by ring

/-- **C42**: the cross product tensor evaluates to the cross product of the evaluated vectors. -/
theorem C42_cross (a b : Tensor K) (n1 m1 n2 m2 : Nat) (ha : Rect a n1 m1) (hb : Rect b n2 m2) (h1 : 0 < n1) (h2 : 0 < n2)
    (hm : 0 < m1 + m2) :
    ∃ t, crossTensor a b = .ok t ∧ Rect t (n1 + n2 - 1) (m1 + m2 - 1) ∧
      ∀ u v, mono t u v = (mono a u v).cross (mono b u v) := by
  obtain ⟨t, ht, hr, hv⟩ := cross_ok ha hb h1 h2 hm
  refine ⟨t, ht, hr, fun u v => ?_⟩
  unfold mono
  rw [hv _ linear_x, hv _ linear_y, hv _ linear_z]
  simp only [Vec3.cross]
  congr 1 <;>
  · simp only [monoValue_mul _ _ ha hb, ← Finset.sum_sub_distrib]
    refine Finset.sum_congr rfl fun _ _ => Finset.sum_congr rfl fun _ _ => Finset.sum_congr rfl fun _ _ =>
      Finset.sum_congr rfl fun _ _ => ?_
    ring

example : ∃ t, crossTensor demoCoeffs demoCoeffs = .ok t ∧ ∀ u v, mono t u v = 0 := by
  obtain ⟨t, h1, _, h3⟩ := C42_cross demoCoeffs demoCoeffs 3 2 3 2 demoCoeffs_rect demoCoeffs_rect (by omega) (by omega) (by omega)
  refine ⟨t, h1, fun u v => ?_⟩
  rw [h3]
  ext <;> simp [Vec3.cross] <;> ring

variable [IsStrictOrderedRing K]

/-- **C42**: the normal object evaluates to the cross product of the two partial derivatives (patches of at least 2 by 2 and at
most 16 by 16 coefficients: the result must stay in the table). -/
theorem C42_normal (q : Monomial K) (n m : Nat) (hc : Rect q.coefficients n m) (hn : 2 ≤ n ∧ n ≤ 16) (hm : 1 ≤ m ∧ m ≤ 16) :
    ∃ r, q.normal = .ok r ∧ r.n = 2 * n - 2 ∧ r.m = 2 * m - 2 ∧ ∀ u v, mono r.coefficients u v =
      Vec3.cross ⟨(polyU (·.x) q.coefficients v).derivative.eval u, (polyU (·.y) q.coefficients v).derivative.eval u,
        (polyU (·.z) q.coefficients v).derivative.eval u⟩
        ⟨(polyV (·.x) q.coefficients u).derivative.eval v, (polyV (·.y) q.coefficients u).derivative.eval v,
        (polyV (·.z) q.coefficients u).derivative.eval v⟩ := by
  obtain ⟨cu, a1, a2, a3⟩ := C42_partial_u q.coefficients n m hc (by omega)
  obtain ⟨cv, b1, b2, b3⟩ := C42_partial_v q.coefficients n m hc (by omega) (by omega)
  obtain ⟨t, t1, t2, t3⟩ := C42_cross cu cv (n - 1) m n (m - 1) a2 b2 (by omega) (by omega) (by omega)
  obtain ⟨r0, rest, rfl, e1, _⟩ := t2.cons (by omega)
  obtain ⟨r, r1, r2, r3, r4, _⟩ := make_ok (r0 :: rest).length r0.length (r0 :: rest) (by rw [t2.1]; omega) (by omega)
  refine ⟨r, ?_, by rw [r2, t2.1]; omega, by rw [r3, e1]; omega, fun u v => ?_⟩
  · unfold Monomial.normal
    rw [a1, Res.ok_bind, b1, Res.ok_bind, t1, Res.ok_bind]
    exact r1
  · rw [r4, t3, a3, b3]

/-- C42: `computePartialDerivative` stores the derivative tensor with matching sizes and matrices. -/
theorem C42_object (q : Monomial K) (n m : Nat) (hc : Rect q.coefficients n m) (hn : 2 ≤ n ∧ n ≤ 31) (hm : 1 ≤ m ∧ m ≤ 31) :
    (∃ d r, partialDerivative q.coefficients .U = .ok d ∧ q.partialDerivative .U = .ok r ∧ r.coefficients = d ∧
      r.n = n - 1 ∧ r.m = m ∧ GoodMatrices r) ∧
    (∃ d r, partialDerivative q.coefficients .V = .ok d ∧ q.partialDerivative .V = .ok r ∧ r.coefficients = d ∧
      r.n = n ∧ r.m = m - 1 ∧ GoodMatrices r) := by
  constructor
  · obtain ⟨cu, a1, a2, a3⟩ := C42_partial_u q.coefficients n m hc (by omega)
    obtain ⟨r0, rest, rfl, e1, _⟩ := a2.cons (by omega)
    obtain ⟨r, r1, r2, r3, r4, r5⟩ := make_ok (r0 :: rest).length r0.length (r0 :: rest) (by rw [a2.1]; omega) (by omega)
    refine ⟨_, r, a1, ?_, r4, by rw [r2, a2.1], by rw [r3, e1], r5⟩
    unfold Monomial.partialDerivative
    rw [a1, Res.ok_bind]
    exact r1
  · obtain ⟨cu, a1, a2, a3⟩ := C42_partial_v q.coefficients n m hc (by omega) (by omega)
    obtain ⟨r0, rest, rfl, e1, _⟩ := a2.cons (by omega)
    obtain ⟨r, r1, r2, r3, r4, r5⟩ := make_ok (r0 :: rest).length r0.length (r0 :: rest) (by rw [a2.1]; omega) (by omega)
    refine ⟨_, r, a1, ?_, r4, by rw [r2, a2.1], by rw [r3, e1], r5⟩
    unfold Monomial.partialDerivative
    rw [a1, Res.ok_bind]
    exact r1

/-- C42: the edge cases. The `U` derivative of a patch constant in `u` cannot be stored in an object, nor can its normal be
computed: both read the first row of an empty tensor. -/
theorem C42_single_row (q : Monomial K) (m : Nat) (hc : Rect q.coefficients 1 m) (hm : 0 < m) :
    partialDerivative q.coefficients .U = .ok [] ∧ q.partialDerivative .U = .ub ∧ q.normal = .ub := by
  have h := derivative_u_ok hc (by omega)
  have h' := derivative_v_ok hc (by omega) hm
  simp only [Nat.sub_self, List.range_zero, List.map_nil] at h
  refine ⟨h, ?_, ?_⟩
  · unfold Monomial.partialDerivative; rw [h]; rfl
  · unfold Monomial.normal; rw [h, h']; rfl

/-- C42: no rows is undefined, and rows without entries throw in `V`. -/
theorem C42_degenerate (v : Param) (rest : Tensor K) :
    partialDerivative ([] : Tensor K) v = .ub ∧ partialDerivative ([] :: rest) .V = .throws ∧
    crossTensor ([] : Tensor K) rest = .ub := ⟨rfl, rfl, rfl⟩

end Cmm.Mono
