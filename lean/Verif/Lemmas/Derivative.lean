import Verif.Lemmas.CurveEval
import Verif.Lemmas.CurveOps
import Verif.Model.Derivative
import Mathlib.Algebra.Polynomial.Derivative
import Mathlib.Algebra.Polynomial.Roots
import Mathlib.Algebra.CharZero.Infinite
/-! Derivatives of spline pieces, by polar forms. -/
namespace Cmm.Nurbs
open Polynomial
variable {K : Type} [Field K]

/-- The difference of a polar form in its first argument. -/
def polarDiff (f : List K → K) : List K → K := fun us => f (1 :: us) - f (0 :: us)

theorem IsBlossom.fix {p : Nat} {f : List K → K} (hf : IsBlossom (p + 1) f) (a : K) : IsBlossom p (fun us => f (a :: us)) where
  perm l₁ l₂ h hl := hf.perm _ _ (h.cons a) (by simp [hl])
  affine x y c us hl := by
    have e : ∀ z : K, f (a :: z :: us) = f (z :: a :: us) := fun z => hf.perm _ _ (List.Perm.swap _ _ _) (by simp; omega)
    simp only [e]
    exact hf.affine x y c (a :: us) (by simp; omega)

theorem IsBlossom.diff {p : Nat} {f : List K → K} (hf : IsBlossom (p + 1) f) : IsBlossom p (polarDiff f) where
  perm l₁ l₂ h hl := by
    unfold polarDiff
    rw [(hf.fix 1).perm l₁ l₂ h hl, (hf.fix 0).perm l₁ l₂ h hl]
  affine x y c us hl := by
    unfold polarDiff
    rw [(hf.fix 1).affine x y c us hl, (hf.fix 0).affine x y c us hl]
    ring

theorem IsBlossom.head {p : Nat} {f : List K → K} (hf : IsBlossom (p + 1) f) (t : K) (us : List K) (hl : us.length = p) :
    f (t :: us) = f (0 :: us) + t * polarDiff f us := by
  have h := hf.affine 0 1 t us (by omega)
  rw [show (1 - t) * 0 + t * 1 = t by ring] at h
  rw [h, polarDiff]; ring

theorem IsBlossom.head_sub {p : Nat} {f : List K → K} (hf : IsBlossom (p + 1) f) (a b : K) (us : List K) (hl : us.length = p) :
    f (b :: us) - f (a :: us) = (b - a) * polarDiff f us := by
  rw [hf.head b us hl, hf.head a us hl]; ring

/-- The diagonal of a polar form is a polynomial and its derivative is the diagonal of the difference, times the degree. -/
theorem IsBlossom.poly (p : Nat) : ∀ {f : List K → K}, IsBlossom p f →
    ∃ F : K[X], F.natDegree ≤ p ∧ (∀ t, F.eval t = f (List.replicate p t)) ∧
      ∀ t, F.derivative.eval t = (p : K) * polarDiff f (List.replicate (p - 1) t) := by
  induction p with
  | zero => intro f _; exact ⟨C (f []), by simp, fun t => by simp, fun t => by simp⟩
  | succ p ih =>
    intro f hf
    obtain ⟨F0, n0, h0, d0⟩ := ih (hf.fix 0)
    obtain ⟨F1, n1, h1, d1⟩ := ih (hf.fix 1)
    refine ⟨F0 + X * (F1 - F0), ?_, fun t => ?_, fun t => ?_⟩
    · refine (natDegree_add_le _ _).trans (max_le (by omega) (natDegree_mul_le.trans ?_))
      have := (natDegree_sub_le F1 F0).trans (max_le n1 n0)
      rw [natDegree_X]
      omega
    · rw [List.replicate_succ, hf.head t _ (by simp), polarDiff]
      simp [h0, h1]
    · simp only [derivative_add, derivative_mul, derivative_X, derivative_sub, eval_add, eval_mul, eval_sub, eval_X, eval_one,
        h0, h1, d0, d1]
      rw [Nat.add_sub_cancel]
      cases p with
      | zero => simp [polarDiff]
      | succ p =>
        rw [Nat.add_sub_cancel]
        have hD := hf.diff
        have hs : ∀ a b : K, f (a :: b :: List.replicate p t) = f (b :: a :: List.replicate p t) :=
          fun a b => hf.perm _ _ (List.Perm.swap _ _ _) (by simp)
        have e := hD.head t (List.replicate p t) (by simp)
        rw [List.replicate_succ]
        simp only [polarDiff] at e ⊢
        rw [hs 0 1] at *
        push_cast
        have e2 : f (1 :: t :: List.replicate p t) - f (0 :: t :: List.replicate p t) =
          f (1 :: 0 :: List.replicate p t) - f (0 :: 0 :: List.replicate p t) +
          t * (f (1 :: 1 :: List.replicate p t) - f (1 :: 0 :: List.replicate p t) -
            (f (1 :: 0 :: List.replicate p t) - f (0 :: 0 :: List.replicate p t))) := by
          rw [e]
        rw [e2]
        ring

/-- Control points of the derivative, on the same knots. -/
def hodo (U : Nat → K) (p : Nat) (P : Nat → K) : Nat → K := fun m => (p : K) * (P m - P (m - 1)) / (U (m + p) - U m)

variable [LinearOrder K] [IsStrictOrderedRing K]

theorem splineVal_poly {U : Nat → K} {p i : Nat} (hpi : p + 1 ≤ i) (hU : GoodSpan U (p + 1) i) (P : Nat → K) :
    ∃ F : K[X], (∀ t, F.eval t = splineVal U (p + 1) P i t) ∧
      ∀ t, F.derivative.eval t = splineVal U p (hodo U (p + 1) P) i t := by
  have hf := bl_isBlossom hpi hU P
  obtain ⟨F, _, h, d⟩ := IsBlossom.poly (p + 1) hf
  refine ⟨F, fun t => by rw [h, splineVal_eq_bl hpi hU], fun t => ?_⟩
  rw [d, Nat.add_sub_cancel]
  have hD : IsBlossom p (fun us => ((p + 1 : Nat) : K) * polarDiff (fun l => bl U (p + 1) P l i) us) := by
    have h1 := hf.diff
    exact ⟨fun l₁ l₂ a b => by rw [h1.perm l₁ l₂ a b], fun a b c us hl => by rw [h1.affine a b c us hl]; ring⟩
  symm
  apply splineVal_eq_blossom (by omega) (hU.mono (by omega)) hD
  intro m hm him
  have h1 := bl_dual hpi hU P m hm (by omega)
  have h2 := bl_dual hpi hU P (m - 1) (by omega) (by omega)
  have e1 : m - 1 + 1 = m := by omega
  rw [e1, seg_succ] at h2
  have hp : bl U (p + 1) P (seg U (m + 1) (p + 1)) i = bl U (p + 1) P (U (m + (p + 1)) :: seg U (m + 1) p) i := by
    apply hf.perm _ _ _ (by simp)
    rw [seg_succ_last]
    have : m + 1 + p = m + (p + 1) := by omega
    rw [this]
    exact (List.perm_append_singleton _ _)
  rw [hp] at h1
  have h3 := hf.head_sub (U m) (U (m + (p + 1))) (seg U (m + 1) p) (by simp)
  simp only [h1, h2] at h3
  have hne : U (m + (p + 1)) - U m ≠ 0 := ne_of_gt (sub_pos.mpr (hU _ _ (by omega) hm (by omega) (by omega)))
  simp only [hodo]
  rw [h3]
  field_simp

theorem splineVal_natDegree {U : Nat → K} {p i : Nat} (hpi : p ≤ i) (hU : GoodSpan U p i) (P : Nat → K) :
    ∃ F : K[X], (∀ t, F.eval t = splineVal U p P i t) ∧ F.natDegree ≤ p := by
  obtain ⟨F, n, h, _⟩ := IsBlossom.poly p (bl_isBlossom hpi hU P)
  exact ⟨F, fun t => by rw [h, splineVal_eq_bl hpi hU], n⟩

/-- The same with the polynomial given by its values. -/
theorem splineVal_derivative {U : Nat → K} {p i : Nat} (hpi : p + 1 ≤ i) (hU : GoodSpan U (p + 1) i) (P : Nat → K) {F : K[X]}
    (hF : ∀ t, F.eval t = splineVal U (p + 1) P i t) (t : K) :
    F.derivative.eval t = splineVal U p (hodo U (p + 1) P) i t := by
  obtain ⟨G, hG, hd⟩ := splineVal_poly hpi hU P
  have : F = G := Polynomial.funext fun t => by rw [hF, hG]
  rw [this, hd]

/-- Control points of the `k`-th derivative. -/
def hodoIter (U : Nat → K) (p : Nat) (P : Nat → K) : Nat → Nat → K
  | 0 => P
  | k + 1 => hodo U (p - k) (hodoIter U p P k)

theorem splineVal_iterate {U : Nat → K} {p i : Nat} (hpi : p ≤ i) (hU : GoodSpan U p i) (P : Nat → K) {F : K[X]}
    (hF : ∀ t, F.eval t = splineVal U p P i t) (k : Nat) (hk : k ≤ p) :
    ∀ t, (derivative^[k] F).eval t = splineVal U (p - k) (hodoIter U p P k) i t := by
  induction k with
  | zero => exact hF
  | succ k ih =>
    intro t
    rw [Function.iterate_succ_apply']
    have e : p - k = p - (k + 1) + 1 := by omega
    have ih' := ih (by omega)
    rw [e] at ih'
    rw [splineVal_derivative (by omega) (hU.mono (by omega)) _ ih']
    show _ = splineVal U _ (hodo U (p - k) (hodoIter U p P k)) i t
    rw [e]

end Cmm.Nurbs
