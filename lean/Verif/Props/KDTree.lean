import Verif.Lemmas.KDTree
import Mathlib.Data.List.Sort
import Mathlib.Algebra.Order.Field.Rat
/-!
Properties C05-C07 of kdtree.h. A history is any list of `build`/`insert` calls on a fresh tree; `nth` is any
conforming `std::nth_element`.
-/
namespace Cmm.KD

variable {K : Type}

/-- Specification: the points a history leaves stored. `build` replaces everything, `insert` adds one point. -/
def stored : List (Op K) → List (Vec3 K)
  | ops => ops.foldl (fun acc op => match op with
      | .build points => points
      | .insert point => point :: acc) []

/-- Specification: the closed box. -/
def InClosedBox [LE K] (lower upper p : Vec3 K) : Prop :=
  lower.x ≤ p.x ∧ p.x ≤ upper.x ∧ lower.y ≤ p.y ∧ p.y ≤ upper.y ∧ lower.z ≤ p.z ∧ p.z ≤ upper.z

instance [LE K] [DecidableLE K] (lower upper p : Vec3 K) : Decidable (InClosedBox lower upper p) := by
  unfold InClosedBox; infer_instance

theorem step_spec [LinearOrder K] (nth : NthElement K) (t : KDTree K) (acc : List (Vec3 K)) (op : Op K)
    (h : t.root.Inv) (hp : t.root.points.Perm acc) (hs : t.size_ = acc.length) :
    (t.step nth op).root.Inv ∧
    (t.step nth op).root.points.Perm (match op with | .build points => points | .insert point => point :: acc) ∧
    (t.step nth op).size_ = (match op with | .build points => points | .insert point => point :: acc).length := by
  cases op with
  | build points =>
    simp only [KDTree.step, KDTree.build]
    exact ⟨buildRec_inv nth points 0, (buildRec_points nth points 0).1, trivial⟩
  | insert point =>
    simp only [KDTree.step, KDTree.insert]
    obtain ⟨h1, h2, h3⟩ := insertRec_spec t.root point 0 t.size_ h
    exact ⟨h1, h2.trans (hp.cons _), h3.trans (by simp [hs])⟩

theorem run_spec [LinearOrder K] (nth : NthElement K) (ops : List (Op K)) :
    (KDTree.run nth ops).root.Inv ∧ (KDTree.run nth ops).root.points.Perm (stored ops) ∧
    (KDTree.run nth ops).size_ = (stored ops).length := by
  unfold KDTree.run stored
  have : ∀ (t : KDTree K) (acc : List (Vec3 K)), t.root.Inv → t.root.points.Perm acc → t.size_ = acc.length →
      (ops.foldl (KDTree.step nth) t).root.Inv ∧
      (ops.foldl (KDTree.step nth) t).root.points.Perm (ops.foldl (fun acc op => match op with
        | .build points => points | .insert point => point :: acc) acc) ∧
      (ops.foldl (KDTree.step nth) t).size_ = (ops.foldl (fun acc op => match op with
        | .build points => points | .insert point => point :: acc) acc).length := by
    induction ops with
    | nil => intro t acc h1 h2 h3; exact ⟨h1, h2, h3⟩
    | cons op ops ih =>
      intro t acc h1 h2 h3
      obtain ⟨s1, s2, s3⟩ := step_spec nth t acc op h1 h2 h3
      simp only [List.foldl_cons]
      exact ih _ _ s1 s2 s3
  exact this _ _ (by simp [KDTree.empty0, Tree.Inv]) (by simp [KDTree.empty0, Tree.points]) (by simp [KDTree.empty0])

/-- C05. Range search returns exactly the stored points inside the closed box, with multiplicity, after any history. -/
theorem C05_rangeSearch_exact [LinearOrder K] (nth : NthElement K) (ops : List (Op K)) (lower upper : Vec3 K) :
    ((KDTree.run nth ops).rangeSearch lower upper).Perm
      ((stored ops).filter fun p => InClosedBox lower upper p) := by
  obtain ⟨h1, h2, _⟩ := run_spec nth ops
  have := rangeSearchRec_spec lower upper _ [] h1
  rw [List.nil_append] at this
  exact this.trans (h2.filter _)

/-- C05, inverted box: nothing is returned. -/
theorem C05_inverted_box_empty [LinearOrder K] (nth : NthElement K) (ops : List (Op K)) (lower upper : Vec3 K)
    (h : upper.x < lower.x ∨ upper.y < lower.y ∨ upper.z < lower.z) :
    (KDTree.run nth ops).rangeSearch lower upper = [] := by
  have h1 := C05_rangeSearch_exact nth ops lower upper
  have h2 : (stored ops).filter (fun p => InClosedBox lower upper p) = [] := by
    rw [List.filter_eq_nil_iff]
    intro p _ hp
    simp only [decide_eq_true_eq] at hp
    obtain ⟨a, b, c, d, e, f⟩ := hp
    rcases h with h | h | h
    · exact absurd (le_trans a b) (not_le.mpr h)
    · exact absurd (le_trans c d) (not_le.mpr h)
    · exact absurd (le_trans e f) (not_le.mpr h)
  rw [h2] at h1
  exact h1.eq_nil

/-- C06, with rounding. Whatever the rounding is, as long as it keeps the order: on a non-empty tree nearestNeighbor returns a stored point whose computed squared
distance is the least of all computed squared distances (each operation below rounds its result). -/
theorem C06_nearest_rounded [LinearOrder K] [Arith K] [MonoArith K] (nth : NthElement K) (ops : List (Op K)) (q : Vec3 K) (hne : stored ops ≠ []) :
    ∃ r, (KDTree.run nth ops).nearestNeighbor q = .ok r ∧ r ∈ stored ops ∧
      ∀ p ∈ stored ops,
        (q.x - r.x) * (q.x - r.x) + (q.y - r.y) * (q.y - r.y) + (q.z - r.z) * (q.z - r.z) ≤
          (q.x - p.x) * (q.x - p.x) + (q.y - p.y) * (q.y - p.y) + (q.z - p.z) * (q.z - p.z) := by
  obtain ⟨h1, h2, _⟩ := run_spec nth ops
  cases hr : (KDTree.run nth ops).root with
  | nil =>
    rw [hr] at h2
    exact absurd h2.symm.eq_nil hne
  | node p axis l r =>
    rw [hr] at h1 h2
    obtain ⟨g1, g2, g3, g4⟩ := nearestRec_spec q _ h1 (p, q.distanceSq p) rfl
    refine ⟨_, by simp only [KDTree.nearestNeighbor, hr]; rfl, ?_, ?_⟩
    · apply h2.mem_iff.mp
      rcases g4 with g4 | g4
      · rw [g4]; simp [Tree.points]
      · exact g4
    · intro p' hp'
      have := g3 p' (h2.mem_iff.mpr hp')
      rw [g1] at this
      simp only [Vec3.distanceSq, Vec3.sqLength, Vec3.sub_x, Vec3.sub_y, Vec3.sub_z] at this
      exact this

/-- C06. On a non-empty tree nearestNeighbor returns a stored point at minimal squared distance. -/
theorem C06_nearest_is_minimal [Field K] [LinearOrder K] [IsStrictOrderedRing K] (nth : NthElement K)
    (ops : List (Op K)) (q : Vec3 K) (hne : stored ops ≠ []) :
    ∃ r, (KDTree.run nth ops).nearestNeighbor q = .ok r ∧ r ∈ stored ops ∧
      ∀ p ∈ stored ops,
        (q.x - r.x) ^ 2 + (q.y - r.y) ^ 2 + (q.z - r.z) ^ 2 ≤ (q.x - p.x) ^ 2 + (q.y - p.y) ^ 2 + (q.z - p.z) ^ 2 := by
  obtain ⟨r, h1, h2, h3⟩ := C06_nearest_rounded nth ops q hne
  refine ⟨r, h1, h2, fun p hp => ?_⟩
  simp only [pow_two]
  exact h3 p hp

section error
variable [Field K] [LinearOrder K] [IsStrictOrderedRing K]

/-- The exact square of the distance of two points whose coordinates are numbers of the format. -/
def exactSq {R : Rounding K} (a b : Vec3 (Fp R)) : K := (a.x.val - b.x.val) ^ 2 + (a.y.val - b.y.val) ^ 2 + (a.z.val - b.z.val) ^ 2

theorem rel_bounds {R : Rounding K} {u : K} (hu : R.RelError u) {x : K} (hx : 0 ≤ x) : (1 - u) * x ≤ R.rnd x ∧ R.rnd x ≤ (1 + u) * x := by
  have := hu x
  rw [abs_of_nonneg hx, abs_le] at this
  constructor <;> linarith

theorem rel_square {R : Rounding K} {u : K} (hu : R.RelError u) (h0 : 0 ≤ u) (h1 : u ≤ 1) (x : K) :
    (1 - u) ^ 3 * x ^ 2 ≤ R.rnd (R.rnd x * R.rnd x) ∧ R.rnd (R.rnd x * R.rnd x) ≤ (1 + u) ^ 3 * x ^ 2 := by
  have e := hu x
  have hx := abs_nonneg x
  have b1 : |R.rnd x| ≤ (1 + u) * |x| := by
    have := abs_add_le (R.rnd x - x) x
    rw [sub_add_cancel] at this
    linarith
  have b2 : (1 - u) * |x| ≤ |R.rnd x| := by
    have := abs_sub_abs_le_abs_sub x (R.rnd x)
    rw [abs_sub_comm] at this
    linarith
  have s1 : R.rnd x * R.rnd x ≤ (1 + u) ^ 2 * x ^ 2 := by
    rw [← abs_mul_abs_self, ← sq_abs x, ← mul_pow, sq]
    exact mul_le_mul b1 b1 (abs_nonneg _) (mul_nonneg (by linarith) hx)
  have s2 : (1 - u) ^ 2 * x ^ 2 ≤ R.rnd x * R.rnd x := by
    rw [← abs_mul_abs_self (R.rnd x), ← sq_abs x, ← mul_pow, sq]
    exact mul_le_mul b2 b2 (mul_nonneg (by linarith) hx) (abs_nonneg _)
  obtain ⟨r1, r2⟩ := rel_bounds hu (mul_self_nonneg (R.rnd x))
  constructor
  · calc (1 - u) ^ 3 * x ^ 2 = (1 - u) * ((1 - u) ^ 2 * x ^ 2) := by ring
      _ ≤ (1 - u) * (R.rnd x * R.rnd x) := mul_le_mul_of_nonneg_left s2 (by linarith)
      _ ≤ _ := r1
  · calc R.rnd (R.rnd x * R.rnd x) ≤ (1 + u) * (R.rnd x * R.rnd x) := r2
      _ ≤ (1 + u) * ((1 + u) ^ 2 * x ^ 2) := mul_le_mul_of_nonneg_left s1 (by linarith)
      _ = _ := by ring

theorem distanceSq_error {R : Rounding K} {u : K} (hu : R.RelError u) (h0 : 0 ≤ u) (h1 : u ≤ 1) (a b : Vec3 (Fp R)) :
    (1 - u) ^ 5 * exactSq a b ≤ (a.distanceSq b).val ∧ (a.distanceSq b).val ≤ (1 + u) ^ 5 * exactSq a b := by
  set x := a.x.val - b.x.val with ex
  set y := a.y.val - b.y.val with ey
  set z := a.z.val - b.z.val with ez
  have e : (a.distanceSq b).val = R.rnd (R.rnd (R.rnd (R.rnd x * R.rnd x) + R.rnd (R.rnd y * R.rnd y)) + R.rnd (R.rnd z * R.rnd z)) := rfl
  have e2 : exactSq a b = x ^ 2 + y ^ 2 + z ^ 2 := rfl
  rw [e, e2]
  obtain ⟨x1, x2⟩ := rel_square hu h0 h1 x
  obtain ⟨y1, y2⟩ := rel_square hu h0 h1 y
  obtain ⟨z1, z2⟩ := rel_square hu h0 h1 z
  have p : ∀ t : K, 0 ≤ (1 - u) ^ 3 * t ^ 2 := fun t => mul_nonneg (pow_nonneg (by linarith) 3) (sq_nonneg t)
  have q : ∀ t : K, 0 ≤ (1 + u) ^ 3 * t ^ 2 := fun t => mul_nonneg (pow_nonneg (by linarith) 3) (sq_nonneg t)
  generalize R.rnd (R.rnd x * R.rnd x) = X at *
  generalize R.rnd (R.rnd y * R.rnd y) = Y at *
  generalize R.rnd (R.rnd z * R.rnd z) = Z at *
  have X0 := (p x).trans x1
  have Y0 := (p y).trans y1
  have Z0 := (p z).trans z1
  obtain ⟨s1, s2⟩ := rel_bounds hu (add_nonneg X0 Y0)
  have S0 : 0 ≤ R.rnd (X + Y) := (mul_nonneg (by linarith) (add_nonneg X0 Y0)).trans s1
  generalize R.rnd (X + Y) = S at *
  obtain ⟨t1, t2⟩ := rel_bounds hu (add_nonneg S0 Z0)
  constructor
  · refine le_trans ?_ t1
    have k1 : (1 - u) ^ 4 * (x ^ 2 + y ^ 2) ≤ S := by
      refine le_trans ?_ s1
      calc (1 - u) ^ 4 * (x ^ 2 + y ^ 2) = (1 - u) * ((1 - u) ^ 3 * x ^ 2 + (1 - u) ^ 3 * y ^ 2) := by ring
        _ ≤ _ := mul_le_mul_of_nonneg_left (add_le_add x1 y1) (by linarith)
    have k2 : (1 - u) ^ 4 * z ^ 2 ≤ Z := by
      refine le_trans ?_ z1
      calc (1 - u) ^ 4 * z ^ 2 = (1 - u) * ((1 - u) ^ 3 * z ^ 2) := by ring
        _ ≤ 1 * ((1 - u) ^ 3 * z ^ 2) := mul_le_mul_of_nonneg_right (by linarith) (p z)
        _ = _ := one_mul _
    calc (1 - u) ^ 5 * (x ^ 2 + y ^ 2 + z ^ 2) = (1 - u) * ((1 - u) ^ 4 * (x ^ 2 + y ^ 2) + (1 - u) ^ 4 * z ^ 2) := by ring
      _ ≤ _ := mul_le_mul_of_nonneg_left (add_le_add k1 k2) (by linarith)
  · refine t2.trans ?_
    have k1 : S ≤ (1 + u) ^ 4 * (x ^ 2 + y ^ 2) := by
      refine s2.trans ?_
      calc (1 + u) * (X + Y) ≤ (1 + u) * ((1 + u) ^ 3 * x ^ 2 + (1 + u) ^ 3 * y ^ 2) := mul_le_mul_of_nonneg_left (add_le_add x2 y2) (by linarith)
        _ = _ := by ring
    have k2 : Z ≤ (1 + u) ^ 4 * z ^ 2 := by
      refine z2.trans ?_
      calc (1 + u) ^ 3 * z ^ 2 = 1 * ((1 + u) ^ 3 * z ^ 2) := (one_mul _).symm
        _ ≤ (1 + u) * ((1 + u) ^ 3 * z ^ 2) := mul_le_mul_of_nonneg_right (by linarith) (q z)
        _ = _ := by ring
    calc (1 + u) * (S + Z) ≤ (1 + u) * ((1 + u) ^ 4 * (x ^ 2 + y ^ 2) + (1 + u) ^ 4 * z ^ 2) := mul_le_mul_of_nonneg_left (add_le_add k1 k2) (by linarith)
      _ = _ := by ring

/-- C06, with rounding of relative error at most `u` (`2 ^ -53` for `double`, without overflow and underflow): the point returned is nearest up to the factor
`((1 + u) / (1 - u)) ^ 5` in the exact squared distance. -/
theorem C06_nearest_error {R : Rounding K} {u : K} (hu : R.RelError u) (h0 : 0 ≤ u) (h1 : u < 1) (nth : NthElement (Fp R)) (ops : List (Op (Fp R))) (q : Vec3 (Fp R))
    (hne : stored ops ≠ []) :
    ∃ r, (KDTree.run nth ops).nearestNeighbor q = .ok r ∧ r ∈ stored ops ∧ ∀ p ∈ stored ops, exactSq q r ≤ ((1 + u) / (1 - u)) ^ 5 * exactSq q p := by
  obtain ⟨r, k1, k2, k3⟩ := C06_nearest_rounded nth ops q hne
  refine ⟨r, k1, k2, fun p hp => ?_⟩
  have h2 := (distanceSq_error hu h0 h1.le q r).1.trans ((Fp.le_iff.mp (k3 p hp)).trans (distanceSq_error hu h0 h1.le q p).2)
  have h3 : (0 : K) < (1 - u) ^ 5 := pow_pos (by linarith) 5
  rw [div_pow, div_mul_eq_mul_div, le_div_iff₀ h3, mul_comm]
  exact h2

end error

/-- C07. size() and empty() follow the history. -/
theorem C07_size_empty [LinearOrder K] (nth : NthElement K) (ops : List (Op K)) :
    (KDTree.run nth ops).size = (stored ops).length ∧
    ((KDTree.run nth ops).empty = true ↔ stored ops = []) := by
  obtain ⟨_, _, h3⟩ := run_spec nth ops
  refine ⟨h3, ?_⟩
  simp only [KDTree.empty, beq_iff_eq, h3, List.length_eq_zero_iff]

/-- C07. nearestNeighbor throws exactly when nothing is stored. -/
theorem C07_nearest_throws_iff [LinearOrder K] [Arith K] [MonoArith K] (nth : NthElement K)
    (ops : List (Op K)) (q : Vec3 K) :
    (KDTree.run nth ops).nearestNeighbor q = .throws ↔ stored ops = [] := by
  obtain ⟨_, h2, _⟩ := run_spec nth ops
  constructor
  · intro h
    by_contra hne
    obtain ⟨r, hr, _⟩ := C06_nearest_rounded nth ops q hne
    rw [hr] at h
    cases h
  · intro h
    rw [h] at h2
    cases hr : (KDTree.run nth ops).root with
    | nil => simp only [KDTree.nearestNeighbor, hr]
    | node p axis l r =>
      rw [hr] at h2
      simp [Tree.points] at h2

/-- C07. build only permutes the caller's vector, whatever the tree held before. -/
theorem C07_build_permutes [LT K] (nth : NthElement K) (t : KDTree K) (points : List (Vec3 K)) :
    (t.build nth points).2.Perm points := by
  simp only [KDTree.build]
  rw [(buildRec_points nth points 0).2]
  exact (buildRec_points nth points 0).1

/-! ### Non-vacuity: a conforming `nth_element` exists (full sort), and the hypotheses are met -/

/-- `std::nth_element` implemented by sorting on the axis. -/
def sortNth [LinearOrder K] : NthElement K where
  run axis _ l := l.mergeSort fun a b => decide (a.coord axis ≤ b.coord axis)
  perm axis _ l := List.mergeSort_perm _ _
  before axis k l hk p hp := by
    have hs : ((l.mergeSort fun a b => decide (a.coord axis ≤ b.coord axis))).Pairwise
        (fun a b => a.coord axis ≤ b.coord axis) := by
      have := List.pairwise_mergeSort (le := fun a b : Vec3 K => decide (a.coord axis ≤ b.coord axis))
        (by intro a b c h1 h2; simp at *; exact le_trans h1 h2) (by intro a b; simp; exact le_total _ _) l
      simpa using this
    rw [axisLt_iff]
    obtain ⟨i, hi, rfl⟩ := List.mem_take_iff_getElem.mp hp
    have := List.pairwise_iff_getElem.mp hs i k (by omega) hk (by omega)
    exact not_lt.mpr this
  after axis k l hk p hp := by
    have hs : ((l.mergeSort fun a b => decide (a.coord axis ≤ b.coord axis))).Pairwise
        (fun a b => a.coord axis ≤ b.coord axis) := by
      have := List.pairwise_mergeSort (le := fun a b : Vec3 K => decide (a.coord axis ≤ b.coord axis))
        (by intro a b c h1 h2; simp at *; exact le_trans h1 h2) (by intro a b; simp; exact le_total _ _) l
      simpa using this
    rw [axisLt_iff]
    obtain ⟨i, hi, rfl⟩ := List.mem_drop_iff_getElem.mp hp
    have := List.pairwise_iff_getElem.mp hs k (k + 1 + i) hk (by omega) (by omega)
    exact not_lt.mpr this

/-- A history with a tie on x, a duplicate, and an insert equal to a stored point. -/
def sampleOps : List (Op ℚ) :=
  [.insert ⟨9, 9, 9⟩, .build [⟨1, 2, 3⟩, ⟨1, 0, 0⟩, ⟨1, 2, 3⟩, ⟨0, 5, 1⟩], .insert ⟨1, 2, 3⟩]

example : stored sampleOps ≠ [] := by decide
example : (stored sampleOps).length = 5 := by decide
example : ((stored sampleOps).filter fun p => InClosedBox ⟨1, 2, 3⟩ ⟨1, 2, 3⟩ p).length = 3 := by decide +kernel
example : ((KDTree.run sortNth sampleOps).rangeSearch ⟨1, 2, 3⟩ ⟨1, 2, 3⟩).length = 3 := by
  rw [(C05_rangeSearch_exact sortNth sampleOps ⟨1, 2, 3⟩ ⟨1, 2, 3⟩).length_eq]
  decide +kernel

/-- Numbers with 53 significant binary digits, rounded to nearest, meet the hypotheses of the theorems with rounding. -/
example : MonoArith (Fp (Rounding.float (K := ℚ) 53 (by norm_num))) ∧ (Rounding.float (K := ℚ) 53 (by norm_num)).RelError (1 / 2 ^ 53) :=
  ⟨inferInstance, float_error 53 _⟩

/-- With two significant digits the numbers 5 and 6 are not the same: 5 is rounded to 6, and 4 + 1 is 6. -/
example : nearest 2 (5 : ℚ) = 6 ∧ nearest 3 (5 : ℚ) = 5 ∧ nearest 2 (-5 : ℚ) = -6 := by decide +kernel

end Cmm.KD
