import Verif.Spec.Integrate
import Verif.Lemmas.Knots
import Mathlib.Algebra.Polynomial.Eval.Degree
import Mathlib.Tactic.Ring
import Mathlib.Tactic.Linarith
import Mathlib.Tactic.FieldSimp
/-! Lemmas about adaptive integration. -/
namespace Cmm.Num
variable {K : Type} [Field K] [LinearOrder K] [IsStrictOrderedRing K]

omit [IsStrictOrderedRing K] in
/-- One call, in exact arithmetic. -/
theorem adaptiveSimpson_eq (f : K → K) (a b fa fb fm S tol : K) (acc : Quad K) (depth maxDepth : Nat) :
    adaptiveSimpson f a b fa fb fm S tol acc depth maxDepth =
      let m := 1 / 2 * (a + b)
      let h := b - a
      let m1 := 1 / 2 * (a + m)
      let m2 := 1 / 2 * (m + b)
      let f1 := f m1
      let f2 := f m2
      let sLeft := (h / 12) * (fa + 4 * f1 + fm)
      let sRight := (h / 12) * (fm + 4 * f2 + fb)
      let total := sLeft + sRight
      let estimate := (total - S) / 15
      let acc1 : Quad K := { acc with calls := acc.calls ++ [m1, m2] }
      if _h : maxDepth ≤ depth ∨ |estimate| < tol then
        { acc1 with result := acc1.result + total, error := acc1.error + |estimate|, leaves := acc1.leaves ++ [(a, b)] }
      else
        adaptiveSimpson f m b fm fb f2 sRight (tol / 2)
          (adaptiveSimpson f a m fa fm f1 sLeft (tol / 2) acc1 (depth + 1) maxDepth) (depth + 1) maxDepth := by
  rw [adaptiveSimpson]
  simp only [Nurbs.absA_eq]

theorem newton_eps : (1 / ((10 ^ 10 : Nat) : K) : K) = 1 / 10 ^ 10 := by norm_num

omit [Field K] [LinearOrder K] [IsStrictOrderedRing K] in
theorem Tiles.append : ∀ {l l' : List (K × K)} {a b c : K}, Tiles a b l → Tiles b c l' → Tiles a c (l ++ l')
  | [], _, _, _, _, h, h' => by cases h; exact h'
  | _ :: _, _, _, _, _, h, h' => ⟨h.1, h.2.append h'⟩

theorem composite_append (f : K → K) (l l' : List (K × K)) : composite f (l ++ l') = composite f l + composite f l' := by
  simp [composite]

/-- The estimated error of a list of intervals. -/
def estimateSum (f : K → K) (l : List (K × K)) : K := (l.map fun p => |twoPanel f p.1 p.2 - onePanel f p.1 p.2| / 15).sum

theorem estimateSum_append (f : K → K) (l l' : List (K × K)) :
    estimateSum f (l ++ l') = estimateSum f l + estimateSum f l' := by
  simp [estimateSum]

theorem abs_div15 (x : K) : |x / 15| = |x| / 15 := by
  rw [abs_div, abs_of_pos (by norm_num : (0 : K) < 15)]

/-- Everything a call adds to the accumulator. -/
theorem adaptive_spec (f : K → K) (maxDepth : Nat) : ∀ r depth a b tol acc, maxDepth - depth = r →
    ∃ l c, adaptiveSimpson f a b (f a) (f b) (f (1 / 2 * (a + b))) (onePanel f a b) tol acc depth maxDepth =
        ⟨acc.result + composite f l, acc.error + estimateSum f l, acc.calls ++ c, acc.leaves ++ l⟩ ∧
      Tiles a b l ∧ c.length + 2 ≤ 2 ^ (r + 2) ∧ 2 ≤ c.length ∧ (∀ x ∈ c, min a b ≤ x ∧ x ≤ max a b) ∧
      ∀ p ∈ l, ∃ k, k ≤ r ∧ p.2 - p.1 = (b - a) / 2 ^ k ∧
        (k = r ∨ |twoPanel f p.1 p.2 - onePanel f p.1 p.2| / 15 < tol / 2 ^ k) := by
  intro r
  induction r with
  | zero =>
    intro depth a b tol acc hr
    rw [adaptiveSimpson_eq]
    simp only
    rw [dif_pos (Or.inl (by omega))]
    refine ⟨[(a, b)], [1 / 2 * (a + 1 / 2 * (a + b)), 1 / 2 * (1 / 2 * (a + b) + b)], ?_, ⟨rfl, rfl⟩, by simp, by simp, ?_, ?_⟩
    · have e : twoPanel f a b = (b - a) / 12 * (f a + 4 * f (1 / 2 * (a + 1 / 2 * (a + b))) + f (1 / 2 * (a + b))) +
          (b - a) / 12 * (f (1 / 2 * (a + b)) + 4 * f (1 / 2 * (1 / 2 * (a + b) + b)) + f b) := by
        unfold twoPanel
        rw [show 1 / 2 * (a + 1 / 2 * (a + b)) = (3 * a + b) / 4 by ring, show 1 / 2 * (1 / 2 * (a + b) + b) = (a + 3 * b) / 4 by ring,
          show 1 / 2 * (a + b) = (a + b) / 2 by ring]
        ring
      simp only [composite, estimateSum, List.map_cons, List.map_nil, List.sum_cons, List.sum_nil, add_zero, ← e, abs_div15]
    · intro x hx
      simp only [List.mem_cons, List.not_mem_nil, or_false] at hx
      rcases le_total a b with h | h
      · rw [min_eq_left h, max_eq_right h]; rcases hx with rfl | rfl <;> constructor <;> linarith
      · rw [min_eq_right h, max_eq_left h]; rcases hx with rfl | rfl <;> constructor <;> linarith
    · intro p hp
      simp only [List.mem_cons, List.not_mem_nil, or_false] at hp
      subst hp
      exact ⟨0, le_refl _, by simp, Or.inl rfl⟩
  | succ r ih =>
    intro depth a b tol acc hr
    have e : twoPanel f a b = (b - a) / 12 * (f a + 4 * f (1 / 2 * (a + 1 / 2 * (a + b))) + f (1 / 2 * (a + b))) +
        (b - a) / 12 * (f (1 / 2 * (a + b)) + 4 * f (1 / 2 * (1 / 2 * (a + b) + b)) + f b) := by
      unfold twoPanel
      rw [show 1 / 2 * (a + 1 / 2 * (a + b)) = (3 * a + b) / 4 by ring, show 1 / 2 * (1 / 2 * (a + b) + b) = (a + 3 * b) / 4 by ring,
        show 1 / 2 * (a + b) = (a + b) / 2 by ring]
      ring
    have hnodes : ∀ x ∈ [1 / 2 * (a + 1 / 2 * (a + b)), 1 / 2 * (1 / 2 * (a + b) + b)], min a b ≤ x ∧ x ≤ max a b := by
      intro x hx
      simp only [List.mem_cons, List.not_mem_nil, or_false] at hx
      rcases le_total a b with h | h
      · rw [min_eq_left h, max_eq_right h]; rcases hx with rfl | rfl <;> constructor <;> linarith
      · rw [min_eq_right h, max_eq_left h]; rcases hx with rfl | rfl <;> constructor <;> linarith
    rw [adaptiveSimpson_eq]
    simp only
    rw [← e, abs_div15]
    by_cases hc : maxDepth ≤ depth ∨ |twoPanel f a b - onePanel f a b| / 15 < tol
    · rw [dif_pos hc]
      refine ⟨[(a, b)], [1 / 2 * (a + 1 / 2 * (a + b)), 1 / 2 * (1 / 2 * (a + b) + b)], ?_, ⟨rfl, rfl⟩, ?_, by simp, hnodes, ?_⟩
      · simp only [composite, estimateSum, List.map_cons, List.map_nil, List.sum_cons, List.sum_nil, add_zero]
      · have := Nat.one_le_two_pow (n := r + 1)
        simp only [List.length_cons, List.length_nil, show r + 1 + 2 = (r + 1) + 1 + 1 by rfl, pow_succ 2 (r + 1 + 1), pow_succ 2 (r + 1)]
        omega
      · intro p hp
        simp only [List.mem_cons, List.not_mem_nil, or_false] at hp
        subst hp
        exact ⟨0, by omega, by simp, Or.inr (by rcases hc with h | h; · omega
                                                · simpa using h)⟩
    · rw [dif_neg hc]
      have hL : (b - a) / 12 * (f a + 4 * f (1 / 2 * (a + 1 / 2 * (a + b))) + f (1 / 2 * (a + b))) =
          onePanel f a (1 / 2 * (a + b)) := by
        unfold onePanel
        rw [show (a + 1 / 2 * (a + b)) / 2 = 1 / 2 * (a + 1 / 2 * (a + b)) by ring]; ring
      have hR : (b - a) / 12 * (f (1 / 2 * (a + b)) + 4 * f (1 / 2 * (1 / 2 * (a + b) + b)) + f b) =
          onePanel f (1 / 2 * (a + b)) b := by
        unfold onePanel
        rw [show (1 / 2 * (a + b) + b) / 2 = 1 / 2 * (1 / 2 * (a + b) + b) by ring]; ring
      rw [hL, hR]
      obtain ⟨l1, c1, h1, t1, n1, k1, i1, p1⟩ := ih (depth + 1) a (1 / 2 * (a + b)) (tol / 2)
        { acc with calls := acc.calls ++ [1 / 2 * (a + 1 / 2 * (a + b)), 1 / 2 * (1 / 2 * (a + b) + b)] } (by omega)
      rw [h1]
      obtain ⟨l2, c2, h2, t2, n2, k2, i2, p2⟩ := ih (depth + 1) (1 / 2 * (a + b)) b (tol / 2) _ (by omega)
      rw [h2]
      refine ⟨l1 ++ l2, [1 / 2 * (a + 1 / 2 * (a + b)), 1 / 2 * (1 / 2 * (a + b) + b)] ++ (c1 ++ c2), ?_, t1.append t2, ?_, by simp, ?_, ?_⟩
      · simp only [composite_append, estimateSum_append, List.append_assoc, add_assoc]
      · simp only [List.length_append, List.length_cons, List.length_nil, show r + 1 + 2 = (r + 2) + 1 by rfl, pow_succ 2 (r + 2)]
        omega
      · intro x hx
        rw [List.mem_append, List.mem_append] at hx
        rcases hx with hx | hx | hx
        · exact hnodes x hx
        · have := i1 x hx
          rcases le_total a b with h | h
          · rw [min_eq_left h, max_eq_right h]
            rw [min_eq_left (by linarith), max_eq_right (by linarith)] at this
            constructor <;> linarith
          · rw [min_eq_right h, max_eq_left h]
            rw [min_eq_right (by linarith), max_eq_left (by linarith)] at this
            constructor <;> linarith
        · have := i2 x hx
          rcases le_total a b with h | h
          · rw [min_eq_left h, max_eq_right h]
            rw [min_eq_left (by linarith), max_eq_right (by linarith)] at this
            constructor <;> linarith
          · rw [min_eq_right h, max_eq_left h]
            rw [min_eq_right (by linarith), max_eq_left (by linarith)] at this
            constructor <;> linarith
      · intro p hp
        have two (k : Nat) : ((2 : K)) ^ (k + 1) = 2 * 2 ^ k := by rw [pow_succ]; ring
        rw [List.mem_append] at hp
        rcases hp with hp | hp
        · obtain ⟨k, hk, q1, q2⟩ := p1 p hp
          refine ⟨k + 1, by omega, ?_, ?_⟩
          · rw [q1, two]; field_simp; ring
          · rcases q2 with q2 | q2
            · exact Or.inl (by omega)
            · right; rw [two]; rwa [div_div] at q2
        · obtain ⟨k, hk, q1, q2⟩ := p2 p hp
          refine ⟨k + 1, by omega, ?_, ?_⟩
          · rw [q1, two]; field_simp; ring
          · rcases q2 with q2 | q2
            · exact Or.inl (by omega)
            · right; rw [two]; rwa [div_div] at q2

theorem integrate_spec (f : K → K) (t0 t1 tol : K) (d : Nat) :
    ∃ l c, integrate f t0 t1 tol d = ⟨composite f l, estimateSum f l, [t0, t1, 1 / 2 * (t0 + t1)] ++ c, l⟩ ∧
      Tiles t0 t1 l ∧ c.length + 2 ≤ 2 ^ (d + 2) ∧ 2 ≤ c.length ∧ (∀ x ∈ c, min t0 t1 ≤ x ∧ x ≤ max t0 t1) ∧
      ∀ p ∈ l, ∃ k, k ≤ d ∧ p.2 - p.1 = (t1 - t0) / 2 ^ k ∧
        (k = d ∨ |twoPanel f p.1 p.2 - onePanel f p.1 p.2| / 15 < tol / 2 ^ k) := by
  obtain ⟨l, c, h, rest⟩ := adaptive_spec f d d 0 t0 t1 tol ⟨0, 0, [t0, t1, 1 / 2 * (t0 + t1)], []⟩ (by omega)
  refine ⟨l, c, ?_, rest⟩
  have e : onePanel f t0 t1 = (t1 - t0) / 6 * (f t0 + 4 * f (1 / 2 * (t0 + t1)) + f t1) := by
    unfold onePanel; rw [show 1 / 2 * (t0 + t1) = (t0 + t1) / 2 by ring]
  unfold integrate
  simp only [← e, h]
  simp

theorem composite_telescope {f F : K → K} (h : ∀ a b, twoPanel f a b = F b - F a) :
    ∀ {l : List (K × K)} {a b : K}, Tiles a b l → composite f l = F b - F a
  | [], a, b, ht => by cases ht; simp [composite]
  | p :: l, a, b, ht => by
    have := composite_telescope h ht.2
    unfold composite at this ⊢
    rw [List.map_cons, List.sum_cons, this, h, ht.1]; ring

omit [LinearOrder K] [IsStrictOrderedRing K] in
theorem poly_eval4 (F : Polynomial K) (hF : F.natDegree ≤ 4) (x : K) :
    F.eval x = F.coeff 0 + F.coeff 1 * x + F.coeff 2 * x ^ 2 + F.coeff 3 * x ^ 3 + F.coeff 4 * x ^ 4 := by
  rw [Polynomial.eval_eq_sum_range' (n := 5) (by omega)]
  simp [Finset.sum_range_succ]

omit [LinearOrder K] [IsStrictOrderedRing K] in
theorem poly_eval3 (F : Polynomial K) (hF : F.natDegree ≤ 4) (x : K) :
    F.derivative.eval x = F.coeff 1 + 2 * F.coeff 2 * x + 3 * F.coeff 3 * x ^ 2 + 4 * F.coeff 4 * x ^ 3 := by
  have : F.derivative.natDegree ≤ 3 := le_trans (Polynomial.natDegree_derivative_le F) (by omega)
  rw [Polynomial.eval_eq_sum_range' (n := 4) (by omega)]
  simp [Finset.sum_range_succ, Polynomial.coeff_derivative]
  ring

theorem twoPanel_cubic (F : Polynomial K) (hF : F.natDegree ≤ 4) (a b : K) :
    twoPanel (fun t => F.derivative.eval t) a b = F.eval b - F.eval a := by
  unfold twoPanel
  simp only [poly_eval4 F hF, poly_eval3 F hF]
  ring

theorem onePanel_cubic (F : Polynomial K) (hF : F.natDegree ≤ 4) (a b : K) :
    onePanel (fun t => F.derivative.eval t) a b = F.eval b - F.eval a := by
  unfold onePanel
  simp only [poly_eval4 F hF, poly_eval3 F hF]
  ring

omit [LinearOrder K] [IsStrictOrderedRing K] in
theorem composite_linear (f g : K → K) (α β : K) (l : List (K × K)) :
    composite (fun t => α * f t + β * g t) l = α * composite f l + β * composite g l := by
  unfold composite
  induction l with
  | nil => simp
  | cons p l ih =>
    rw [List.map_cons, List.sum_cons, ih, List.map_cons, List.map_cons, List.sum_cons, List.sum_cons]
    unfold twoPanel
    ring

end Cmm.Num
