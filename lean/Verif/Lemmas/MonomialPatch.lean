import Verif.Lemmas.Monomial
import Verif.Props.Knots
/-! Lemmas about Bezier patches as NURBS surfaces, and about derivative and product tensors. -/
namespace Cmm.Mono
open Finset Cmm.Mat Cmm.Nurbs
variable {K : Type} [Field K]

/-! ### Tensors -/

theorem tcell_table {n m : Nat} (f : Nat → Nat → Vec3 K) {i j : Nat} (hi : i < n) (hj : j < m) :
    tcell ((List.range n).map fun i => (List.range m).map (f i)) i j = f i j := by
  simp [tcell, hi, hj]

theorem table_rect (n m : Nat) (f : Nat → Nat → Vec3 K) : Rect ((List.range n).map fun i => (List.range m).map (f i)) n m := by
  refine ⟨by simp, fun r hr => ?_⟩
  simp only [List.mem_map] at hr
  obtain ⟨i, _, rfl⟩ := hr
  simp

theorem Rect.row {t : Tensor K} {n m : Nat} (ht : Rect t n m) {i : Nat} (hi : i < n) : (t.getD i []).length = m := by
  have hi' : i < t.length := by rw [ht.1]; exact hi
  rw [List.getD_eq_getElem?_getD, List.getElem?_eq_getElem hi']
  exact ht.2 _ (List.getElem_mem hi')

theorem Rect.cons {t : Tensor K} {n m : Nat} (ht : Rect t n m) (hn : 0 < n) :
    ∃ r0 rest, t = r0 :: rest ∧ r0.length = m ∧ rest.all (fun r => decide (r0.length ≤ r.length)) = true := by
  obtain ⟨h1, h2⟩ := ht
  cases t with
  | nil => simp at h1; omega
  | cons r0 rest =>
    refine ⟨r0, rest, rfl, h2 r0 (by simp), ?_⟩
    simp only [List.all_eq_true, decide_eq_true_eq]
    intro r hr
    rw [h2 r0 (by simp), h2 r (by simp [hr])]

theorem derivative_u_ok [LinearOrder K] {t : Tensor K} {n m : Nat} (ht : Rect t n m) (hn : 0 < n) :
    partialDerivative t .U = .ok ((List.range (n - 1)).map fun i => (List.range m).map fun j =>
      (tcell t (i + 1) j).smul ((i + 1 : Nat) : K)) := by
  obtain ⟨r0, rest, rfl, h1, h2⟩ := ht.cons hn
  unfold partialDerivative
  simp only [h2, if_true]
  rw [ht.1, h1]

theorem derivative_v_ok [LinearOrder K] {t : Tensor K} {n m : Nat} (ht : Rect t n m) (hn : 0 < n) (hm : 0 < m) :
    partialDerivative t .V = .ok ((List.range n).map fun i => (List.range (m - 1)).map fun j =>
      (tcell t i (j + 1)).smul ((j + 1 : Nat) : K)) := by
  obtain ⟨r0, rest, rfl, h1, h2⟩ := ht.cons hn
  unfold partialDerivative
  simp only [h2, if_true]
  rw [if_neg (by omega), ht.1, h1]

theorem polyU_derivative (φ : Vec3 K → K) {t : Tensor K} {n m : Nat} (ht : Rect t n m) (hn : 0 < n) (u v : K) :
    (polyU φ t v).derivative.eval u =
      ∑ i ∈ range (n - 1), ∑ j ∈ range m, ((i + 1 : Nat) : K) * φ (tcell t (i + 1) j) * u ^ i * v ^ j := by
  unfold polyU
  rw [Finset.sum_congr rfl fun i hi => by rw [ht.row (by rw [← ht.1]; exact mem_range.1 hi)], ht.1]
  obtain ⟨n, rfl⟩ : ∃ k, n = k + 1 := ⟨n - 1, by omega⟩
  rw [Nat.add_sub_cancel, Finset.sum_range_succ']
  simp only [Polynomial.derivative_add, Polynomial.derivative_sum, Polynomial.derivative_C_mul, Polynomial.derivative_X_pow,
    Polynomial.eval_add, Polynomial.eval_finsetSum, Polynomial.eval_mul, Polynomial.eval_C, Polynomial.eval_pow, Polynomial.eval_X, Polynomial.eval_natCast,
    Nat.add_sub_cancel, Nat.cast_zero, mul_zero, zero_mul, Finset.sum_const_zero, add_zero]
  exact Finset.sum_congr rfl fun i _ => Finset.sum_congr rfl fun j _ => by ring

theorem polyV_derivative (φ : Vec3 K → K) {t : Tensor K} {n m : Nat} (ht : Rect t n m) (hm : 0 < m) (u v : K) :
    (polyV φ t u).derivative.eval v =
      ∑ i ∈ range n, ∑ j ∈ range (m - 1), ((j + 1 : Nat) : K) * φ (tcell t i (j + 1)) * u ^ i * v ^ j := by
  unfold polyV
  rw [Finset.sum_congr rfl fun i hi => by rw [ht.row (by rw [← ht.1]; exact mem_range.1 hi)], ht.1]
  obtain ⟨m, rfl⟩ : ∃ k, m = k + 1 := ⟨m - 1, by omega⟩
  rw [Nat.add_sub_cancel, Polynomial.derivative_sum, Polynomial.eval_finsetSum]
  refine Finset.sum_congr rfl fun i _ => ?_
  rw [Finset.sum_range_succ']
  simp only [Polynomial.derivative_add, Polynomial.derivative_sum, Polynomial.derivative_C_mul, Polynomial.derivative_X_pow,
    Polynomial.eval_add, Polynomial.eval_finsetSum, Polynomial.eval_mul, Polynomial.eval_C, Polynomial.eval_pow, Polynomial.eval_X, Polynomial.eval_natCast,
    Nat.add_sub_cancel, Nat.cast_zero, mul_zero, zero_mul, add_zero]
  exact Finset.sum_congr rfl fun j _ => by ring

/-! ### Products -/

theorem addCell_rect {t : Tensor K} {n m : Nat} (ht : Rect t n m) (i j : Nat) (p : Vec3 K) : Rect (addCell t i j p) n m := by
  refine ⟨by simp [addCell, ht.1], fun r hr => ?_⟩
  obtain ⟨k, hk, rfl⟩ := List.getElem_of_mem hr
  simp only [addCell, List.length_modify] at hk
  simp only [addCell, List.getElem_modify]
  split
  · rw [List.length_modify]; exact ht.2 _ (List.getElem_mem hk)
  · exact ht.2 _ (List.getElem_mem hk)

theorem tcell_addCell {t : Tensor K} {n m : Nat} (ht : Rect t n m) {i j a b : Nat} (p : Vec3 K) (ha : a < n) (hb : b < m) :
    tcell (addCell t i j p) a b = if a = i ∧ b = j then tcell t a b + p else tcell t a b := by
  have ha' : a < t.length := by rw [ht.1]; exact ha
  have hr : t[a].length = m := ht.2 _ (List.getElem_mem ha')
  have hb' : b < t[a].length := by omega
  unfold tcell addCell
  simp only [List.getD_eq_getElem?_getD, List.getElem?_modify, List.getElem?_eq_getElem ha', Option.map_eq_map, Option.map_some,
    Option.getD_some]
  by_cases h : i = a
  · subst h
    simp only [if_true, List.getElem?_modify, List.getElem?_eq_getElem hb', true_and, Option.map_eq_map, Option.map_some,
      Option.getD_some]
    by_cases h' : j = b
    · subst h'; simp
    · rw [if_neg h', if_neg (Ne.symm h')]
  · rw [if_neg (Ne.symm h ∘ And.left)]
    simp [h]

/-- A linear coordinate. -/
structure Linear (φ : Vec3 K → K) : Prop where
  add : ∀ a b, φ (a + b) = φ a + φ b
  zero : φ 0 = 0

theorem linear_x : Linear (Vec3.x : Vec3 K → K) := ⟨fun _ _ => rfl, rfl⟩
theorem linear_y : Linear (Vec3.y : Vec3 K → K) := ⟨fun _ _ => rfl, rfl⟩
theorem linear_z : Linear (Vec3.z : Vec3 K → K) := ⟨fun _ _ => rfl, rfl⟩

theorem monoValue_addCell {φ : Vec3 K → K} (hφ : Linear φ) {t : Tensor K} {n m : Nat} (ht : Rect t n m) {i j : Nat}
    (p : Vec3 K) (hi : i < n) (hj : j < m) (u v : K) :
    monoValue φ (addCell t i j p) u v = monoValue φ t u v + φ p * u ^ i * v ^ j := by
  rw [monoValue_rect φ (addCell_rect ht i j p), monoValue_rect φ ht]
  have e : ∀ a ∈ range n, ∀ b ∈ range m, φ (tcell (addCell t i j p) a b) * u ^ a * v ^ b =
      φ (tcell t a b) * u ^ a * v ^ b + (if a = i then (if b = j then φ p * u ^ a * v ^ b else 0) else 0) := by
    intro a ha b hb
    rw [tcell_addCell ht p (mem_range.1 ha) (mem_range.1 hb)]
    by_cases h1 : a = i <;> by_cases h2 : b = j
    · rw [if_pos ⟨h1, h2⟩, if_pos h1, if_pos h2, hφ.add]; ring
    · rw [if_neg (fun x => h2 x.2), if_pos h1, if_neg h2, add_zero]
    · rw [if_neg (fun x => h1 x.1), if_neg h1, add_zero]
    · rw [if_neg (fun x => h1 x.1), if_neg h1, add_zero]
  rw [Finset.sum_congr rfl fun a ha => Finset.sum_congr rfl fun b hb => e a ha b hb]
  simp only [Finset.sum_add_distrib]
  congr 1
  rw [Finset.sum_eq_single i]
  · rw [Finset.sum_eq_single j]
    · simp
    · intro b _ hb; simp [hb]
    · intro h; exact absurd (mem_range.2 hj) h
  · intro a _ ha; simp [ha]
  · intro h; exact absurd (mem_range.2 hi) h

theorem foldl_addCell {φ : Vec3 K → K} (hφ : Linear φ) {n m : Nat} {ι : Type} (f g : ι → Nat) (p : ι → Vec3 K) (u v : K) :
    ∀ (l : List ι) (t : Tensor K), Rect t n m → (∀ q ∈ l, f q < n ∧ g q < m) →
      Rect (l.foldl (fun t q => addCell t (f q) (g q) (p q)) t) n m ∧
      monoValue φ (l.foldl (fun t q => addCell t (f q) (g q) (p q)) t) u v =
        monoValue φ t u v + (l.map fun q => φ (p q) * u ^ f q * v ^ g q).sum := by
  intro l
  induction l with
  | nil => intro t ht _; exact ⟨ht, by simp⟩
  | cons q l ih =>
    intro t ht hl
    have h := hl q (by simp)
    obtain ⟨i1, i2⟩ := ih (addCell t (f q) (g q) (p q)) (addCell_rect ht _ _ _) (fun x hx => hl x (by simp [hx]))
    refine ⟨i1, ?_⟩
    rw [List.foldl_cons, i2, monoValue_addCell hφ ht _ h.1 h.2, List.map_cons, List.sum_cons]
    ring

theorem sum_range_list (n : Nat) (f : Nat → K) : ((List.range n).map f).sum = ∑ i ∈ range n, f i := by
  induction n with
  | zero => rfl
  | succ n ih => rw [List.range_succ, List.map_append, List.sum_append, ih, Finset.sum_range_succ]; simp

theorem sum_flatMap_range {ι : Type} (n : Nat) (l : Nat → List ι) (f : ι → K) :
    (((List.range n).flatMap l).map f).sum = ∑ i ∈ range n, ((l i).map f).sum := by
  rw [← sum_range_list]
  induction (List.range n) with
  | nil => rfl
  | cons a r ih => rw [List.flatMap_cons, List.map_append, List.sum_append, ih, List.map_cons, List.sum_cons]

theorem zero_rect (n m : Nat) : Rect (List.replicate n (List.replicate m (0 : Vec3 K))) n m := by
  refine ⟨by simp, fun r hr => ?_⟩
  rw [List.eq_of_mem_replicate hr]; simp

theorem monoValue_zero {φ : Vec3 K → K} (hφ : Linear φ) (n m : Nat) (u v : K) :
    monoValue φ (List.replicate n (List.replicate m (0 : Vec3 K))) u v = 0 := by
  rw [monoValue_rect φ (zero_rect n m)]
  refine Finset.sum_eq_zero fun i hi => Finset.sum_eq_zero fun j hj => ?_
  have : tcell (List.replicate n (List.replicate m (0 : Vec3 K))) i j = 0 := by
    simp [tcell, mem_range.1 hi, mem_range.1 hj]
  rw [this, hφ.zero]; ring

theorem cross_ok [LinearOrder K] {a b : Tensor K} {n1 m1 n2 m2 : Nat} (ha : Rect a n1 m1) (hb : Rect b n2 m2) (h1 : 0 < n1) (h2 : 0 < n2)
    (hm : 0 < m1 + m2) :
    ∃ t, crossTensor a b = .ok t ∧ Rect t (n1 + n2 - 1) (m1 + m2 - 1) ∧ ∀ φ, Linear φ → ∀ u v,
      monoValue φ t u v = ∑ i1 ∈ range n1, ∑ j1 ∈ range m1, ∑ i2 ∈ range n2, ∑ j2 ∈ range m2,
        φ ((tcell a i1 j1).cross (tcell b i2 j2)) * u ^ (i1 + i2) * v ^ (j1 + j2) := by
  obtain ⟨a0, as, rfl, e1, e2⟩ := ha.cons h1
  obtain ⟨b0, bs, rfl, f1, f2⟩ := hb.cons h2
  unfold crossTensor
  simp only [e2, f2, Bool.and_self, if_true]
  rw [if_neg (by omega)]
  have hl := ha.1
  have hl' := hb.1
  refine ⟨_, rfl, ?_, fun φ hφ u v => ?_⟩
  · rw [hl, hl', e1, f1]
    refine (foldl_addCell linear_x (u := 0) (v := 0) _ _ _ _ _ (zero_rect _ _) ?_).1
    intro q hq
    simp only [List.mem_flatMap, List.mem_map, List.mem_range] at hq
    obtain ⟨i1, k1, j1, k2, i2, k3, j2, k4, rfl⟩ := hq
    constructor <;> dsimp only <;> omega
  · rw [hl, hl', e1, f1]
    rw [(foldl_addCell hφ (n := n1 + n2 - 1) (m := m1 + m2 - 1) (fun q : Nat × Nat × Nat × Nat => q.1 + q.2.2.1)
      (fun q => q.2.1 + q.2.2.2) _ u v _ _ (zero_rect _ _) ?_).2, monoValue_zero hφ, zero_add]
    · rw [sum_flatMap_range]
      refine Finset.sum_congr rfl fun i1 _ => ?_
      rw [sum_flatMap_range]
      refine Finset.sum_congr rfl fun j1 _ => ?_
      rw [sum_flatMap_range]
      refine Finset.sum_congr rfl fun i2 _ => ?_
      rw [List.map_map, sum_range_list]
      rfl
    · intro q hq
      simp only [List.mem_flatMap, List.mem_map, List.mem_range] at hq
      obtain ⟨i1, k1, j1, k2, i2, k3, j2, k4, rfl⟩ := hq
      constructor <;> dsimp only <;> omega

/-- The product of two evaluated coordinates as a fourfold sum. -/
theorem monoValue_mul (φ ψ : Vec3 K → K) {a b : Tensor K} {n1 m1 n2 m2 : Nat} (ha : Rect a n1 m1) (hb : Rect b n2 m2) (u v : K) :
    monoValue φ a u v * monoValue ψ b u v = ∑ i1 ∈ range n1, ∑ j1 ∈ range m1, ∑ i2 ∈ range n2, ∑ j2 ∈ range m2,
      φ (tcell a i1 j1) * ψ (tcell b i2 j2) * u ^ (i1 + i2) * v ^ (j1 + j2) := by
  rw [monoValue_rect φ ha, monoValue_rect ψ hb, Finset.sum_mul]
  refine Finset.sum_congr rfl fun i1 _ => ?_
  rw [Finset.sum_mul]
  refine Finset.sum_congr rfl fun j1 _ => ?_
  rw [Finset.mul_sum]
  refine Finset.sum_congr rfl fun i2 _ => ?_
  rw [Finset.mul_sum]
  exact Finset.sum_congr rfl fun j2 _ => by rw [pow_add, pow_add]; ring

/-! ### Patches -/
variable [LinearOrder K] [IsStrictOrderedRing K]

omit [LinearOrder K] [IsStrictOrderedRing K] in
theorem bez_ix_zero {n a : Nat} (h : a < n) : ix (List.replicate n (0 : K) ++ List.replicate n 1) a = 0 := by
  rw [ix_append_left (by simpa using h), ix_replicate _ h]

omit [LinearOrder K] [IsStrictOrderedRing K] in
theorem bez_ix_one {n a : Nat} (h : n ≤ a) (h' : a < 2 * n) : ix (List.replicate n (0 : K) ++ List.replicate n 1) a = 1 := by
  rw [ix_append_right (by simpa using h), ix_replicate]
  simp; omega

theorem bez_valid {n : Nat} (h : 2 ≤ n) (h' : n ≤ 9) : ValidKnots n (n - 1) (List.replicate n (0 : K) ++ List.replicate n 1) := by
  refine ⟨by omega, by omega, by omega, by simp; omega, ?_, ?_⟩
  · have := List.pairwise_append.2 (⟨List.pairwise_replicate.2 (Or.inr le_rfl), List.pairwise_replicate.2 (Or.inr le_rfl),
      fun a ha b hb => by rw [List.eq_of_mem_replicate ha, List.eq_of_mem_replicate hb]; exact zero_le_one⟩ :
      List.Pairwise (· ≤ ·) (List.replicate n (0 : K)) ∧ List.Pairwise (· ≤ ·) (List.replicate n (1 : K)) ∧ _)
    exact this
  · rw [bez_ix_zero (by omega), bez_ix_one (le_refl _) (by omega)]; exact zero_lt_one

theorem generateKnots_bezier {n : Nat} (h : 0 < n) :
    (generateKnots n (n - 1) : Res (List K)) = .ok (List.replicate n 0 ++ List.replicate n 1) := by
  unfold generateKnots
  obtain ⟨k, rfl⟩ : ∃ k, n = k + 1 := ⟨n - 1, by omega⟩
  rw [if_neg (by omega), Nat.add_sub_cancel, show k + 1 - k = 1 by omega]
  simp only [List.range_one, List.map_cons, List.map_nil, Nat.cast_zero, zero_add, Nat.cast_one, List.append_assoc]
  rw [List.replicate_succ (n := k) (a := (1 : K))]
  rfl

theorem bezier_valid {s : Surface K} {w : K} (B : BezierPatch s w) : ValidSurface s :=
  ⟨B.rows, B.cols, by rw [B.degree.1, B.knots_u]; exact bez_valid B.size_u.1 B.size_u.2,
   by rw [B.degree.2, B.knots_v]; exact bez_valid B.size_v.1 B.size_v.2⟩

theorem bez_splineVal {n : Nat} (hn : 2 ≤ n) (h9 : n ≤ 9) (P : Nat → K) {t : K} (h0 : 0 ≤ t) (h1 : t ≤ 1) :
    splineVal (ix (List.replicate n (0 : K) ++ List.replicate n 1)) (n - 1) P
      (findSpan (n - 1) (n - 1) t (ix (List.replicate n (0 : K) ++ List.replicate n 1))) t =
      ∑ i ∈ range n, bernstein (n - 1) i t * P i := by
  obtain ⟨i, hi, a1, a2, _⟩ := (bez_valid hn h9 (K := K)).span (t := t)
    (by rw [bez_ix_zero (by omega)]; exact h0) (by rw [bez_ix_one (le_refl _) (by omega)]; exact h1)
  rw [hi, show i = n - 1 by omega,
    splineVal_bezier (fun a ha => bez_ix_zero (by omega)) (fun a ha hb => bez_ix_one (by omega) (by omega)),
    show n - 1 + 1 = n by omega]

theorem bernstein_sum (n : Nat) (t : K) : ∑ i ∈ range (n + 1), bernstein n i t = 1 := by
  have := add_pow t (1 - t) n
  rw [add_sub_cancel, one_pow] at this
  rw [this]
  exact Finset.sum_congr rfl fun i _ => by unfold bernstein; ring

theorem patch_eval {s : Surface K} {w : K} (B : BezierPatch s w) {u v : K} (hu : 0 ≤ u ∧ u ≤ 1) (hv : 0 ≤ v ∧ v ≤ 1) :
    s.evaluate u v = .ok (bezier s.su s.sv (fun i j => (cell s.cpts i j).toVec3) u v) := by
  have S := bezier_valid B
  have eU := B.knots_u
  have eV := B.knots_v
  have hd : SurfInDomain s u v := by
    unfold SurfInDomain
    rw [eU, eV, B.degree.1, B.degree.2]
    obtain ⟨⟨a1, a2⟩, b1, b2⟩ := And.intro B.size_u B.size_v
    rw [bez_ix_zero (n := s.su) (by omega), bez_ix_zero (n := s.sv) (by omega), bez_ix_one (n := s.su) (le_refl _) (by omega),
      bez_ix_one (n := s.sv) (le_refl _) (by omega)]
    exact ⟨hu, hv⟩
  have hcomp : ∀ φ : Vec4 K → K, (∀ (a b : Vec4 K) (n : K), φ (a + b.smul n) = φ a + n * φ b) → φ 0 = 0 →
      φ (surfaceSum s.du s.dv (ix s.ku) (ix s.kv) (cell s.cpts)
        (findSpan (s.su - 1) s.du u (ix s.ku)) (findSpan (s.sv - 1) s.dv v (ix s.kv)) u v) =
      ∑ i ∈ range s.su, ∑ j ∈ range s.sv, bernstein (s.su - 1) i u * bernstein (s.sv - 1) j v * φ (cell s.cpts i j) := by
    intro φ h h0
    rw [surfaceSum_comp φ h h0, spline2, B.degree.1, B.degree.2, eU, eV, bez_splineVal B.size_v.1 B.size_v.2 _ hv.1 hv.2]
    rw [Finset.sum_congr rfl fun j _ => by rw [bez_splineVal B.size_u.1 B.size_u.2 _ hu.1 hu.2, Finset.mul_sum], Finset.sum_comm]
    exact Finset.sum_congr rfl fun i _ => Finset.sum_congr rfl fun j _ => by ring
  have hw : ∀ i ∈ range s.su, ∀ j ∈ range s.sv, (cell s.cpts i j).w = w := by
    intro i hi j hj
    obtain ⟨r, hr, hm⟩ := S.cell_mem (mem_range.1 hi) (mem_range.1 hj)
    exact B.weight.2 r hr _ hm
  have hW : (surfaceSum s.du s.dv (ix s.ku) (ix s.kv) (cell s.cpts)
        (findSpan (s.su - 1) s.du u (ix s.ku)) (findSpan (s.sv - 1) s.dv v (ix s.kv)) u v).w = w := by
    rw [hcomp Vec4.w cw rfl]
    rw [Finset.sum_congr rfl fun i hi => Finset.sum_congr rfl fun j hj => by rw [hw i hi j hj]]
    simp only [← Finset.sum_mul, ← Finset.mul_sum]
    have s1 := bernstein_sum (s.su - 1) u
    have s2 := bernstein_sum (s.sv - 1) v
    rw [show s.su - 1 + 1 = s.su by have := B.size_u; omega] at s1
    rw [show s.sv - 1 + 1 = s.sv by have := B.size_v; omega] at s2
    rw [s1, s2]; ring
  rw [surf_eval S hd, dehomog, if_neg (by rw [hW]; exact B.weight.1), hW, hcomp Vec4.x cx rfl, hcomp Vec4.y cy rfl, hcomp Vec4.z cz rfl]
  have fin : ∀ φ : Vec4 K → K, (∑ i ∈ range s.su, ∑ j ∈ range s.sv,
      bernstein (s.su - 1) i u * bernstein (s.sv - 1) j v * φ (cell s.cpts i j)) / w =
      bezierValue s.su s.sv (fun i j => φ (cell s.cpts i j) / (cell s.cpts i j).w) u v := by
    intro φ
    unfold bezierValue
    rw [Finset.sum_div]
    refine Finset.sum_congr rfl fun i hi => ?_
    rw [Finset.sum_div]
    refine Finset.sum_congr rfl fun j hj => ?_
    beta_reduce
    rw [hw i hi j hj]; ring
  rw [fin Vec4.x, fin Vec4.y, fin Vec4.z]
  rfl

end Cmm.Mono
