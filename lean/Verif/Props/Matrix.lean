import Verif.Lemmas.Matrix
/-!
Properties of cmmcore/matrix.h: C35 (2x2 matrices and systems), C36 (dynamic matrices).
-/
namespace Cmm.Mat
open Finset
variable {K : Type} [Field K]

/-! ### C35 -/

/-- C35: `inverse` throws exactly on a zero determinant. -/
theorem C35_inverse_throws_iff [DecidableEq K] (m : M2 K) : m.inverse = .throws ↔ m.a * m.d - m.b * m.c = 0 := by
  unfold M2.inverse M2.det
  split
  · simp [*]
  · simp [*]

/-- **C35**: otherwise it is a two-sided inverse. -/
theorem C35_inverse_two_sided [DecidableEq K] (m : M2 K) (h : m.a * m.d - m.b * m.c ≠ 0) :
    ∃ n, m.inverse = .ok n ∧ m.mul n = M2.eye ∧ n.mul m = M2.eye := by
  unfold M2.inverse M2.det
  rw [if_neg h]
  refine ⟨_, rfl, ?_, ?_⟩
  all_goals
    generalize hD : m.a * m.d - m.b * m.c = D at h ⊢
    ext <;> simp only [M2.mul, M2.eye] <;> field_simp <;> first | ring1 | linear_combination hD

example : ∃ m : M2 ℚ, m.a * m.d - m.b * m.c ≠ 0 := ⟨⟨1, 2, 3, 4⟩, by decide +kernel⟩

/-- C35: `solve2x2` returns false exactly on a zero determinant. -/
theorem C35_solve_fails_iff [DecidableEq K] (A : M2 K) (b : K × K) :
    solve2x2 A b = none ↔ A.a * A.d - A.b * A.c = 0 := by
  unfold solve2x2 M2.det
  split <;> simp [*]

/-- **C35**: otherwise `x` solves `A x = b` exactly if it is the returned pair. -/
theorem C35_solve_unique [DecidableEq K] (A : M2 K) (b : K × K) (h : A.a * A.d - A.b * A.c ≠ 0) (x : K × K) :
    solve2x2 A b = some x ↔ (A.a * x.1 + A.b * x.2 = b.1 ∧ A.c * x.1 + A.d * x.2 = b.2) := by
  unfold solve2x2 M2.det
  rw [if_neg h]
  simp only [Option.some.injEq]
  constructor
  · rintro rfl
    generalize hD : A.a * A.d - A.b * A.c = D at h ⊢
    constructor <;> field_simp
    · linear_combination b.1 * hD
    · linear_combination b.2 * hD
  · rintro ⟨h1, h2⟩
    ext
    · simp only
      rw [div_eq_iff h, ← h1, ← h2]; ring
    · simp only
      rw [div_eq_iff h, ← h1, ← h2]; ring

example : solve2x2 (⟨1, 2, 3, 4⟩ : M2 ℚ) (5, 11) = some (1, 2) := by decide +kernel

/-- C35: the matrix-vector product is the one `solve2x2` inverts. -/
theorem C35_solve_mulVec [DecidableEq K] (A : M2 K) (b x : K × K) (h : A.a * A.d - A.b * A.c ≠ 0) :
    solve2x2 A b = some x ↔ A.mulVec x = b := by
  rw [C35_solve_unique A b h x, Prod.ext_iff]
  simp [M2.mulVec]

/-- C35: products associate and have `eye` as unit; transposition is an involution and reverses products; the determinant
is multiplicative, 1 on `eye` and unchanged by transposition. -/
theorem C35_algebra (l m n : M2 K) :
    (l.mul m).mul n = l.mul (m.mul n) ∧ M2.eye.mul m = m ∧ m.mul M2.eye = m ∧ m.transpose.transpose = m ∧
    (m.mul n).transpose = n.transpose.mul m.transpose ∧ (m.mul n).det = m.det * n.det ∧ (M2.eye : M2 K).det = 1 ∧
    m.transpose.det = m.det := by
  refine ⟨?_, ?_, ?_, rfl, ?_, ?_, ?_, ?_⟩
  · ext <;> simp only [M2.mul] <;> ring
  · ext <;> simp only [M2.mul, M2.eye] <;> ring
  · ext <;> simp only [M2.mul, M2.eye] <;> ring
  · ext <;> simp only [M2.mul, M2.transpose] <;> ring
  · simp only [M2.mul, M2.det]; ring
  · simp only [M2.eye, M2.det]; ring
  · simp only [M2.transpose, M2.det]; ring

/-- C35: the entries of products and images are the usual sums. -/
theorem C35_entries (m n : M2 K) (v : K × K) :
    m.mul n = ⟨m.a * n.a + m.b * n.c, m.a * n.b + m.b * n.d, m.c * n.a + m.d * n.c, m.c * n.b + m.d * n.d⟩ ∧
    m.mulVec v = (m.a * v.1 + m.b * v.2, m.c * v.1 + m.d * v.2) := by
  simp [M2.mul, M2.mulVec]

/-- C35: the constructors that do use their arguments. -/
theorem C35_constructors (a b c d : K) (v : K × K) :
    M2.ofRows (a, b) (c, d) = ⟨a, b, c, d⟩ ∧ (M2.fromDiag a d).mulVec v = (a * v.1, d * v.2) ∧
    M2.eye.mulVec v = v := by
  simp [M2.ofRows, M2.fromDiag, M2.eye, M2.mulVec]

/-- **C35, the brace constructor**: whatever it is given, the matrix is zero; its inverse throws and every system with it is
unsolvable. -/
theorem C35_brace_constructor_ignores_argument [DecidableEq K] (arr : List (List K)) (v b : K × K) :
    (M2.ofBraces arr).mulVec v = (0, 0) ∧ (M2.ofBraces arr).inverse = .throws ∧ solve2x2 (M2.ofBraces arr) b = none := by
  refine ⟨by simp [M2.ofBraces, M2.zero, M2.mulVec], ?_, ?_⟩
  · rw [C35_inverse_throws_iff]; simp [M2.ofBraces, M2.zero]
  · rw [C35_solve_fails_iff]; simp [M2.ofBraces, M2.zero]

/-! ### C36 -/

/-- `m` is an `r × c` matrix with entries `A i j`. -/
def Represents (m : MatrixD K) (r c : Nat) (A : Nat → Nat → K) : Prop :=
  m.rows = r ∧ m.cols = c ∧ m.data.length = r * c ∧ ∀ i < r, ∀ j < c, m.get i j = A i j

theorem fill_represents (r c : Nat) (f : Nat → Nat → K) : Represents (MatrixD.fill r c f) r c f :=
  ⟨rfl, rfl, fill_length r c f, fun _ hi _ hj => get_fill f hi hj⟩

theorem Represents.covered {m : MatrixD K} {r c : Nat} {A : Nat → Nat → K} (h : Represents m r c A) : m.covered := by
  unfold MatrixD.covered; rw [h.1, h.2.1, h.2.2.1]

/-- C36: the constructor with sizes gives the zero matrix. -/
theorem C36_constructor (r c : Nat) : Represents (MatrixD.zeros r c : MatrixD K) r c fun _ _ => 0 := by
  refine ⟨rfl, rfl, by simp [MatrixD.zeros], fun i _ j _ => ?_⟩
  simp only [MatrixD.get, MatrixD.zeros, List.getD_eq_getElem?_getD, List.getElem?_replicate]
  split <;> rfl

/-- C36: `operator*` throws on a dimension mismatch. -/
theorem C36_mul_throws (m n : MatrixD K) (h : m.cols ≠ n.rows) : m.mul n = .throws := by
  unfold MatrixD.mul; exact if_pos h

/-- **C36**: and otherwise is the matrix product. -/
theorem C36_mul (m n : MatrixD K) (r s c : Nat) (A B : Nat → Nat → K) (hm : Represents m r s A) (hn : Represents n s c B) :
    ∃ p, m.mul n = .ok p ∧ Represents p r c fun i j => ∑ k ∈ range s, A i k * B k j := by
  unfold MatrixD.mul
  rw [if_neg (by rw [hm.2.1, hn.1]; simp), if_neg (by simp [hm.covered, hn.covered]), hm.1, hm.2.1, hn.2.1]
  refine ⟨_, rfl, rfl, rfl, fill_length _ _ _, fun i hi j hj => ?_⟩
  rw [get_fill _ hi hj, foldl_sum]
  refine Finset.sum_congr rfl fun k hk => ?_
  rw [hm.2.2.2 i hi k (mem_range.mp hk), hn.2.2.2 k (mem_range.mp hk) j hj]

example : Represents (⟨[1, 2, 3, 4, 5, 6], 2, 3⟩ : MatrixD ℚ) 2 3 fun i j => (3 * i + j + 1 : ℕ) := by
  refine ⟨rfl, rfl, rfl, fun i hi j hj => ?_⟩
  obtain rfl | rfl : i = 0 ∨ i = 1 := by omega
  all_goals obtain rfl | rfl | rfl : j = 0 ∨ j = 1 ∨ j = 2 := by omega
  all_goals decide +kernel

/-- **C36**: `transpose` exchanges rows and columns. -/
theorem C36_transpose (m : MatrixD K) (r c : Nat) (A : Nat → Nat → K) (hm : Represents m r c A) :
    ∃ t, m.transpose = .ok t ∧ Represents t c r fun i j => A j i := by
  unfold MatrixD.transpose
  rw [if_neg (by simp [hm.covered]), hm.1, hm.2.1]
  refine ⟨_, rfl, rfl, rfl, fill_length _ _ _, fun i hi j hj => ?_⟩
  rw [get_fill _ hi hj, hm.2.2.2 j hj i hi]

theorem represents_ext {m m' : MatrixD K} {r c : Nat} {A : Nat → Nat → K} (h : Represents m r c A) (h' : Represents m' r c A) :
    m = m' := by
  obtain ⟨d, rr, cc⟩ := m
  obtain ⟨d', rr', cc'⟩ := m'
  obtain ⟨h1, h2, h3, h4⟩ := h
  obtain ⟨h1', h2', h3', h4'⟩ := h'
  simp only at h1 h2 h3 h1' h2' h3'
  subst h1 h2 h1' h2'
  simp only [MatrixD.mk.injEq, and_true]
  refine List.ext_getElem (by rw [h3, h3']) fun x hx hx' => ?_
  have hc : 0 < cc' := by
    rcases Nat.eq_zero_or_pos cc' with h | h
    · rw [h3, h, Nat.mul_zero] at hx; omega
    · exact h
  have hi : x / cc' < rr' := by rw [Nat.div_lt_iff_lt_mul hc, ← h3]; exact hx
  have hj : x % cc' < cc' := Nat.mod_lt _ hc
  have e1 := h4 _ hi _ hj
  have e2 := h4' _ hi _ hj
  simp only [MatrixD.get] at e1 e2
  rw [Nat.div_add_mod', List.getD_eq_getElem?_getD, List.getElem?_eq_getElem hx] at e1
  rw [Nat.div_add_mod', List.getD_eq_getElem?_getD, List.getElem?_eq_getElem hx'] at e2
  simp only [Option.getD_some] at e1 e2
  rw [e1, e2]

/-- **C36**: transposing twice gives back the matrix. -/
theorem C36_transpose_involution (m : MatrixD K) (r c : Nat) (A : Nat → Nat → K) (hm : Represents m r c A) :
    (m.transpose >>= MatrixD.transpose) = .ok m := by
  obtain ⟨t, h1, h2⟩ := C36_transpose m r c A hm
  obtain ⟨t', h3, h4⟩ := C36_transpose t c r _ h2
  rw [h1, Res.ok_bind, h3, represents_ext h4 hm]

variable [LinearOrder K] [IsStrictOrderedRing K]

/-- C36: `inverse` throws on a non-square matrix. -/
theorem C36_inverse_not_square (m : MatrixD K) (h : m.rows ≠ m.cols) : m.inverse = .throws := by
  unfold MatrixD.inverse; exact if_pos h

/-- **C36**: on a square matrix `inverse` either returns a two-sided inverse or throws; it never does anything else. When it
throws, row operations (`E`, with inverse `T`) turn the matrix into one that maps some vector with an entry 1 to a vector
whose entries are all smaller than 1e-10 in absolute value. -/
theorem C36_inverse (m : MatrixD K) (n : Nat) (A : Nat → Nat → K) (hm : Represents m n n A) :
    (∃ p B, m.inverse = .ok p ∧ Represents p n n B ∧
      (∀ i < n, ∀ j < n, ∑ k ∈ range n, A i k * B k j = if i = j then 1 else 0) ∧
      (∀ i < n, ∀ j < n, ∑ k ∈ range n, B i k * A k j = if i = j then 1 else 0)) ∨
    (m.inverse = .throws ∧ ∃ (E T : Nat → Nat → K) (x : Nat → K),
      (∀ i < n, ∀ j < n, ∑ k ∈ range n, T i k * E k j = if i = j then 1 else 0) ∧ (∃ i < n, x i = 1) ∧
      ∀ r < n, |∑ c ∈ range n, (∑ k ∈ range n, E r k * A k c) * x c| < 1 / 10 ^ 10) := by
  have hsq : m.rows = m.cols := hm.1.trans hm.2.1.symm
  have hI := augment_inv m hsq
  rw [hm.1] at hI
  have hloop := invLoop_spec n 0 (augment m) (by omega) hI
  unfold MatrixD.inverse
  rw [if_neg (by simp [hsq]), if_neg (by simp [hm.covered]), hm.2.1, hm.1]
  rw [List.range_eq_range']
  have hprod : ∀ {i : Nat} {t : List (List K)}, InvInv n m.get i t → ∀ r < n, ∀ c < n,
      tget t r c = ∑ k ∈ range n, tget t r (n + k) * A k c := by
    intro i t h r hr c hc
    rw [h.prod r hr c hc]
    exact Finset.sum_congr rfl fun k hk => by rw [hm.2.2.2 k (mem_range.mp hk) c hc]
  rcases hloop with ⟨t, h1, h2⟩ | ⟨h1, j, t, hj, h2, h3⟩
  · left
    rw [h1, Res.ok_bind]
    have hl : ∀ i < n, ∀ j < n, ∑ k ∈ range n, tget t i (k + n) * A k j = if i = j then 1 else 0 := by
      intro i hi j hj
      rw [← h2.unit j hj i hi, hprod h2 i hi j hj]
      exact Finset.sum_congr rfl fun k _ => by rw [Nat.add_comm]
    exact ⟨_, fun i j => tget t i (j + n), rfl, fill_represents n n _, left_inv_right hl, hl⟩
  · right
    rw [h1]
    obtain ⟨T, hT⟩ := h2.back
    refine ⟨rfl, fun r k => tget t r (n + k), T, fun c => if c = j then 1 else if c < j then - tget t c j else 0, hT,
      ⟨j, hj, by simp⟩, fun r hr => ?_⟩
    have hsum : ∑ c ∈ range n, (∑ k ∈ range n, tget t r (n + k) * A k c) *
        (if c = j then 1 else if c < j then - tget t c j else 0) = if r < j then 0 else tget t r j := by
      rw [Finset.sum_congr rfl fun c hc => by rw [← hprod h2 r hr c (mem_range.mp hc)]]
      rw [← Finset.add_sum_erase _ _ (mem_range.mpr hj), if_pos rfl, mul_one]
      have hrest : ∀ c ∈ (range n).erase j, tget t r c * (if c = j then 1 else if c < j then - tget t c j else 0) =
          if c = r ∧ r < j then - tget t r j else 0 := by
        intro c hc
        have hc' := Finset.mem_erase.mp hc
        rw [if_neg hc'.1]
        by_cases h : c < j
        · rw [if_pos h, h2.unit c h r hr]
          by_cases hcr : r = c
          · rw [if_pos hcr, if_pos ⟨hcr.symm, by omega⟩, one_mul, hcr]
          · rw [if_neg hcr, if_neg (fun h => hcr h.1.symm), zero_mul]
        · rw [if_neg h, mul_zero, if_neg (by omega)]
      rw [Finset.sum_congr rfl hrest]
      by_cases hrj : r < j
      · rw [if_pos hrj, Finset.sum_eq_single r]
        · rw [if_pos ⟨rfl, hrj⟩]; ring
        · intro b _ hb; rw [if_neg (fun h => hb h.1)]
        · intro h; exact absurd (Finset.mem_erase.mpr ⟨by omega, mem_range.mpr hr⟩) h
      · rw [if_neg hrj, Finset.sum_eq_zero, add_zero]
        intro b _; rw [if_neg (fun h => hrj h.2)]
    simp only [hsum]
    split
    · rw [abs_zero]; positivity
    · exact h3 r (by omega) hr

example : (⟨[0, 2, 1, 3], 2, 2⟩ : MatrixD ℚ).inverse = .ok ⟨[-3 / 2, 1, 1 / 2, 0], 2, 2⟩ := by decide +kernel

/-- C36: a singular matrix is always rejected. -/
theorem C36_singular_throws (m : MatrixD K) (n : Nat) (A : Nat → Nat → K) (hm : Represents m n n A) (x : Nat → K)
    (hx : ∃ i < n, x i ≠ 0) (hA : ∀ i < n, ∑ k ∈ range n, A i k * x k = 0) : m.inverse = .throws := by
  rcases C36_inverse m n A hm with ⟨p, B, _, _, _, hB⟩ | ⟨h, _⟩
  · exfalso
    obtain ⟨i, hi, hxi⟩ := hx
    apply hxi
    have h1 : ∑ j ∈ range n, (∑ k ∈ range n, B i k * A k j) * x j = x i := by
      rw [Finset.sum_congr rfl fun j hj => by rw [hB i hi j (mem_range.mp hj)], Finset.sum_eq_single i]
      · simp
      · intro b _ hb; rw [if_neg (fun h => hb h.symm), zero_mul]
      · intro h; exact absurd (mem_range.mpr hi) h
    rw [← h1]
    have h2 : ∑ j ∈ range n, (∑ k ∈ range n, B i k * A k j) * x j = ∑ k ∈ range n, B i k * ∑ j ∈ range n, A k j * x j := by
      simp only [Finset.sum_mul, Finset.mul_sum]
      rw [Finset.sum_comm]
      exact Finset.sum_congr rfl fun k _ => Finset.sum_congr rfl fun j _ => by ring
    rw [h2]
    exact Finset.sum_eq_zero fun k hk => by rw [hA k (mem_range.mp hk), mul_zero]
  · exact h

example : (⟨[1, 2, 2, 4], 2, 2⟩ : MatrixD ℚ).inverse = .throws := by decide +kernel

/-- C36: the converse fails. Some invertible matrices are rejected too, because the pivot is compared with 1e-10. -/
theorem C36_invertible_but_throws : ∃ m : MatrixD ℚ, ∃ b : ℚ, Represents m 1 1 (fun _ _ => 1 / 10 ^ 11) ∧
    1 / 10 ^ 11 * b = 1 ∧ m.inverse = .throws := by
  refine ⟨⟨[1 / 10 ^ 11], 1, 1⟩, 10 ^ 11, ⟨rfl, rfl, rfl, fun i hi j hj => ?_⟩, by decide +kernel, by decide +kernel⟩
  obtain rfl : i = 0 := by omega
  obtain rfl : j = 0 := by omega
  decide +kernel

end Cmm.Mat
