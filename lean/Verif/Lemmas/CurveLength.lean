import Verif.Lemmas.CurvePoly
import Verif.Lemmas.Integrate
import Verif.Model.CurveLength
import Verif.Spec.Newton
/-! Lemmas for the arc length of curves. -/
namespace Cmm.Num
variable {K : Type} [Field K] [LinearOrder K] [IsStrictOrderedRing K]

theorem adaptive_congr {f g : K → K} (D : Nat) : ∀ (n depth : Nat) (a b fa fb fm S tol : K) (acc : Quad K), depth + n = D →
    (∀ x, min a b ≤ x → x ≤ max a b → f x = g x) →
    adaptiveSimpson f a b fa fb fm S tol acc depth D = adaptiveSimpson g a b fa fb fm S tol acc depth D := by
  intro n
  induction n with
  | zero =>
    intro depth a b fa fb fm S tol acc hd h
    conv_lhs => rw [adaptiveSimpson_eq]
    conv_rhs => rw [adaptiveSimpson_eq]
    have h1 : f (1 / 2 * (a + 1 / 2 * (a + b))) = g (1 / 2 * (a + 1 / 2 * (a + b))) := by
      rcases le_total a b with hab | hab
      · exact h _ (by rw [min_eq_left hab]; linarith) (by rw [max_eq_right hab]; linarith)
      · exact h _ (by rw [min_eq_right hab]; linarith) (by rw [max_eq_left hab]; linarith)
    have h2 : f (1 / 2 * (1 / 2 * (a + b) + b)) = g (1 / 2 * (1 / 2 * (a + b) + b)) := by
      rcases le_total a b with hab | hab
      · exact h _ (by rw [min_eq_left hab]; linarith) (by rw [max_eq_right hab]; linarith)
      · exact h _ (by rw [min_eq_right hab]; linarith) (by rw [max_eq_left hab]; linarith)
    simp only [h1, h2]
    rw [dif_pos (.inl (by omega)), dif_pos (.inl (by omega))]
  | succ n ih =>
    intro depth a b fa fb fm S tol acc hd h
    conv_lhs => rw [adaptiveSimpson_eq]
    conv_rhs => rw [adaptiveSimpson_eq]
    have h1 : f (1 / 2 * (a + 1 / 2 * (a + b))) = g (1 / 2 * (a + 1 / 2 * (a + b))) := by
      rcases le_total a b with hab | hab
      · exact h _ (by rw [min_eq_left hab]; linarith) (by rw [max_eq_right hab]; linarith)
      · exact h _ (by rw [min_eq_right hab]; linarith) (by rw [max_eq_left hab]; linarith)
    have h2 : f (1 / 2 * (1 / 2 * (a + b) + b)) = g (1 / 2 * (1 / 2 * (a + b) + b)) := by
      rcases le_total a b with hab | hab
      · exact h _ (by rw [min_eq_left hab]; linarith) (by rw [max_eq_right hab]; linarith)
      · exact h _ (by rw [min_eq_right hab]; linarith) (by rw [max_eq_left hab]; linarith)
    simp only [h1, h2]
    split
    · rfl
    · have hl : ∀ x, min a (1 / 2 * (a + b)) ≤ x → x ≤ max a (1 / 2 * (a + b)) → f x = g x := by
        intro x hx hx'
        rcases le_total a b with hab | hab
        · rw [min_eq_left (by linarith)] at hx
          rw [max_eq_right (by linarith)] at hx'
          exact h _ (by rw [min_eq_left hab]; linarith) (by rw [max_eq_right hab]; linarith)
        · rw [min_eq_right (by linarith)] at hx
          rw [max_eq_left (by linarith)] at hx'
          exact h _ (by rw [min_eq_right hab]; linarith) (by rw [max_eq_left hab]; linarith)
      have hr : ∀ x, min (1 / 2 * (a + b)) b ≤ x → x ≤ max (1 / 2 * (a + b)) b → f x = g x := by
        intro x hx hx'
        rcases le_total a b with hab | hab
        · rw [min_eq_left (by linarith)] at hx
          rw [max_eq_right (by linarith)] at hx'
          exact h _ (by rw [min_eq_left hab]; linarith) (by rw [max_eq_right hab]; linarith)
        · rw [min_eq_right (by linarith)] at hx
          rw [max_eq_left (by linarith)] at hx'
          exact h _ (by rw [min_eq_right hab]; linarith) (by rw [max_eq_left hab]; linarith)
      rw [ih (depth + 1) a _ _ _ _ _ _ _ (by omega) hl, ih (depth + 1) _ b _ _ _ _ _ _ (by omega) hr]

/-- The integral only looks at the interval. -/
theorem integrate_congr {f g : K → K} {t0 t1 : K} (tol : K) (d : Nat)
    (h : ∀ x, min t0 t1 ≤ x → x ≤ max t0 t1 → f x = g x) : integrate f t0 t1 tol d = integrate g t0 t1 tol d := by
  unfold integrate
  have h0 := h t0 (min_le_left _ _) (le_max_left _ _)
  have h1 := h t1 (min_le_right _ _) (le_max_right _ _)
  have hm : f (1 / 2 * (t0 + t1)) = g (1 / 2 * (t0 + t1)) := by
    rcases le_total t0 t1 with hab | hab
    · exact h _ (by rw [min_eq_left hab]; linarith) (by rw [max_eq_right hab]; linarith)
    · exact h _ (by rw [min_eq_right hab]; linarith) (by rw [max_eq_left hab]; linarith)
  simp only [h0, h1, hm]
  exact adaptive_congr d d 0 _ _ _ _ _ _ _ _ (by omega) h

theorem integrate_calls_mem (f : K → K) (t0 t1 tol : K) (d : Nat) :
    ∀ x ∈ (integrate f t0 t1 tol d).calls, min t0 t1 ≤ x ∧ x ≤ max t0 t1 := by
  obtain ⟨l, c, h, _, h2, h3, h4, _⟩ := integrate_spec f t0 t1 tol d
  rw [h]
  intro x hx
  rw [List.mem_append] at hx
  rcases hx with hx | hx
  · simp only [List.mem_cons, List.not_mem_nil, or_false] at hx
    rcases le_total t0 t1 with h | h
    · rw [min_eq_left h, max_eq_right h]; rcases hx with rfl | rfl | rfl <;> constructor <;> linarith
    · rw [min_eq_right h, max_eq_left h]; rcases hx with rfl | rfl | rfl <;> constructor <;> linarith
  · exact h4 x hx

theorem integrate_calls_head (f : K → K) (t0 t1 tol : K) (d : Nat) : ∃ c, (integrate f t0 t1 tol d).calls = t0 :: c := by
  obtain ⟨l, c, h, _⟩ := integrate_spec f t0 t1 tol d
  rw [h]
  exact ⟨_, rfl⟩

/-- A non-negative integrand has a non-negative integral when the bounds are in order. -/
theorem integrate_nonneg {f : K → K} {t0 t1 : K} (tol : K) (d : Nat) (h01 : t0 ≤ t1) (hf : ∀ x, 0 ≤ f x) :
    0 ≤ (integrate f t0 t1 tol d).result := by
  obtain ⟨l, c, h, _, _, _, _, h5⟩ := integrate_spec f t0 t1 tol d
  rw [h]
  unfold composite
  refine List.sum_nonneg fun x hx => ?_
  obtain ⟨p, hp, rfl⟩ := List.mem_map.mp hx
  obtain ⟨k, _, e, _⟩ := h5 p hp
  have : 0 ≤ p.2 - p.1 := by rw [e]; exact div_nonneg (by linarith) (by positivity)
  unfold twoPanel
  have h1 := hf p.1
  have h2 := hf ((3 * p.1 + p.2) / 4)
  have h3 := hf ((p.1 + p.2) / 2)
  have h4 := hf ((p.1 + 3 * p.2) / 4)
  have h5 := hf p.2
  apply mul_nonneg (by linarith)
  linarith

end Cmm.Num

namespace Cmm.Nurbs
open Polynomial
variable {K : Type} [Field K] [LinearOrder K] [IsStrictOrderedRing K]

theorem callAll_ok {sqrt : K → K} {c : Curve K} : ∀ {l : List K}, (∀ t ∈ l, ∃ x, c.speed sqrt t = .ok x) →
    c.callAll sqrt l = .ok () := by
  intro l
  induction l with
  | nil => intro _; rfl
  | cons t l ih =>
    intro h
    obtain ⟨x, hx⟩ := h t (by simp)
    rw [Curve.callAll, hx, Res.ok_bind]
    exact ih fun s hs => h s (by simp [hs])

theorem length_ok {sqrt : K → K} {c : Curve K} {t0 t1 tol : K} {S : K → K}
    (h : ∀ t, min t0 t1 ≤ t → t ≤ max t0 t1 → c.speed sqrt t = .ok (S t)) :
    c.length sqrt t0 t1 tol = .ok (Num.integrate S t0 t1 tol 20).result := by
  have hD : ∀ t, min t0 t1 ≤ t → t ≤ max t0 t1 → c.speedD sqrt t = S t := fun t a b => by
    unfold Curve.speedD; rw [h t a b]
  unfold Curve.length
  simp only
  rw [callAll_ok fun t ht => ?_, Res.ok_bind, Num.integrate_congr tol 20 hD]
  obtain ⟨a, b⟩ := Num.integrate_calls_mem _ _ _ _ _ t ht
  exact ⟨_, h t a b⟩

theorem sqrt_unique {sqrt : K → K} (hs : Newton.IsSqrt sqrt) (h0 : sqrt 0 = 0) {x s : K} (hx : 0 ≤ x) (hs0 : 0 ≤ s)
    (e : s * s = x) : sqrt x = s := by
  rcases hx.lt_or_eq with hx | hx
  · obtain ⟨a, b⟩ := hs x hx
    nlinarith
  · have : s = 0 := mul_self_eq_zero.mp (e.trans hx.symm)
    rw [← hx, h0, this]

theorem sqLength_nonneg' (v : Vec3 K) : 0 ≤ v.sqLength := by
  unfold Vec3.sqLength
  nlinarith [mul_self_nonneg v.x, mul_self_nonneg v.y, mul_self_nonneg v.z]

theorem minmax_domain {c : Curve K} {t0 t1 t : K} (h0 : InDomain c t0) (h1 : InDomain c t1) (a : min t0 t1 ≤ t)
    (b : t ≤ max t0 t1) : InDomain c t :=
  ⟨le_trans (le_min h0.1 h1.1) a, le_trans b (max_le h0.2 h1.2)⟩

end Cmm.Nurbs
