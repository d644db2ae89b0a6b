import Verif.Lemmas.Smooth
import Verif.Lemmas.CurvePoly
import Verif.Lemmas.CurveSplit
/-! Splines on uniform knots whose coefficients repeat. -/
namespace Cmm.Nurbs
variable {K : Type} [Field K] [LinearOrder K] [IsStrictOrderedRing K]

/-- The knots of `generate_knots_periodic`, continued without end. -/
def uni (p : Nat) (i : Nat) : K := (i : K) - p

theorem splineVal_wrap {n p q : Nat} (hn : p < n) (h1 : 1 ≤ q) (hq : q ≤ p) (Q : Nat → K) (hQ : ∀ x, p ≤ x + q → x < p → Q (x + (n - p)) = Q x) :
    splineVal (uni p) q Q (n - 1) ((n : K) - p) = splineVal (uni p) q Q p 0 := by
  let Q' : Nat → K := fun x => if x = n then Q p else Q x
  have e1 : splineVal (uni p) q Q (n - 1) ((n : K) - p) = splineVal (uni p) q Q' (n - 1) ((n : K) - p) :=
    splineVal_congr _ (by omega) fun x hx _ => by simp only [Q']; rw [if_neg (by omega)]
  have hm : n - 1 + 1 = n := by omega
  have e2 : splineVal (uni p) q Q' (n - 1) ((n : K) - p) = splineVal (uni p) q Q' (n - 1 + 1) ((n : K) - p) := by
    refine splineVal_join (m := 1) (fun a h h' => ?_) ?_ ?_ h1 (by omega) Q'
    · rw [show a = n by omega, uni]
    · have : ((n - 1 : Nat) : K) + 1 = n := by exact_mod_cast hm
      simp only [uni]
      intro h
      linarith
    · have : ((n - 1 + 1 + 1 : Nat) : K) = n + 1 := by rw [hm]; push_cast; ring
      simp only [uni]
      intro h
      linarith
  rw [e1, e2, hm]
  have hd : ((n - p : Nat) : K) = (n : K) - p := by rw [Nat.cast_sub (by omega)]
  have e3 : splineVal (uni p) q Q' n ((n : K) - p) = splineVal (fun x => (uni p x - ((n : K) - p)) * 1) q Q' n 0 := by
    have h := basisFuns_affine (U := uni p) (U' := fun x => (uni p x - ((n : K) - p)) * 1) (i := n) (u := (n : K) - p) (a := (n : K) - p) (d := 1)
      one_ne_zero q (by omega) (fun x _ => rfl)
    rw [sub_self, zero_mul] at h
    rw [splineVal, splineVal, h]
  rw [e3]
  have e4 := splineVal_shift (U₁ := uni p) (U₂ := fun x => (uni p x - ((n : K) - p)) * 1) (P₁ := Q) (P₂ := Q') (i := p) (d := n - p) (p := q) (0 : K) hq
    (fun x _ _ => by simp only [uni]; push_cast [hd]; ring) (fun x h h' => ?_)
  · rw [e4, show p + (n - p) = n by omega]
  · simp only [Q']
    by_cases hx : x = p
    · rw [if_pos (by omega), hx]
    · rw [if_neg (by omega), hQ x h' (by omega)]

theorem hodoIter_wrap {n p : Nat} (P : Nat → K) (hP : ∀ x < p, P (x + (n - p)) = P x) (k : Nat) :
    ∀ x, k ≤ x → x < p → hodoIter (uni p) p P k (x + (n - p)) = hodoIter (uni p) p P k x := by
  induction k with
  | zero => intro x _ h; exact hP x h
  | succ k ih =>
    intro x hx hxp
    rw [hodoIter, hodo, hodo, ih x (by omega) hxp, show x + (n - p) - 1 = x - 1 + (n - p) by omega, ih (x - 1) (by omega) (by omega)]
    simp only [uni]
    push_cast
    ring_nf

theorem hodoIter_congr {U₁ U₂ : Nat → K} {p N : Nat} (h : ∀ x ≤ N + p, U₁ x = U₂ x) (P : Nat → K) (k : Nat) :
    ∀ m ≤ N, hodoIter U₁ p P k m = hodoIter U₂ p P k m := by
  induction k with
  | zero => intro m _; rfl
  | succ k ih =>
    intro m hm
    rw [hodoIter, hodoIter, hodo, hodo, ih m hm, ih (m - 1) (by omega), h _ (by omega), h _ (by omega)]

end Cmm.Nurbs
