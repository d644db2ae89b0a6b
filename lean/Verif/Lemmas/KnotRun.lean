import Verif.Lemmas.CurveSplit
import Verif.Spec.Decompose
/-!
Knot vectors described by their distinct values, and what splitting at an inner value does to them.
-/
namespace Cmm.Nurbs
variable {K : Type} [Field K] [LinearOrder K]

omit [Field K] in
/-- A sorted list around a value. -/
theorem sorted_parts (x : K) : ∀ {U : List K}, SortedKnots U →
    U = U.filter (fun y => decide (y < x)) ++ (List.replicate (U.count x) x ++ U.filter (fun y => decide (x < y)))
  | [], _ => by simp
  | y :: l, h => by
    have h1 := List.pairwise_cons.1 h
    have ih := sorted_parts x h1.2
    rcases lt_trichotomy y x with hy | hy | hy
    · rw [List.filter_cons_of_pos (by simpa using hy), List.filter_cons_of_neg (by simpa using hy.le), List.count_cons_of_ne hy.ne]
      rw [List.cons_append, ← ih]
    · subst hy
      have hf : l.filter (fun z => decide (z < y)) = [] := by
        rw [List.filter_eq_nil_iff]; intro z hz; simpa using h1.1 z hz
      rw [hf, List.nil_append] at ih
      rw [List.filter_cons_of_neg (by simp), List.filter_cons_of_neg (by simp), List.count_cons_self, hf, List.replicate_succ]
      simp only [List.nil_append, List.cons_append]
      rw [← ih]
    · have hf : l.filter (fun z => decide (z < x)) = [] := by
        rw [List.filter_eq_nil_iff]; intro z hz; simpa using hy.le.trans (h1.1 z hz)
      have hc : l.count x = 0 := by
        rw [List.count_eq_zero]; intro hx; exact absurd (h1.1 x hx) (not_le.2 hy)
      rw [hf, hc] at ih
      rw [List.filter_cons_of_neg (by simpa using hy.le), List.filter_cons_of_pos (by simpa using hy), List.count_cons_of_ne hy.ne', hf, hc]
      simp only [List.nil_append, List.replicate_zero] at ih ⊢
      rw [← ih]

variable [IsStrictOrderedRing K]

theorem KnotRun.lt {tol : K} {p : Nat} {U : List K} {a b : K} {ks : List K} (h : KnotRun tol p U a ks b) (ht : 0 ≤ tol) :
    (∀ k ∈ ks, a < k ∧ k < b) ∧ a < b := by
  have h1 := List.pairwise_cons.1 h.inc
  have h2 := (List.pairwise_append.1 h1.2).2.2
  constructor
  · intro k hk
    constructor
    · have := h1.1 k (by simp [hk]); linarith
    · have := h2 k hk b (by simp); linarith
  · have := h1.1 b (by simp); linarith

/-- The part below the first value is empty, the part above the last one as well. -/
theorem KnotRun.ends {tol : K} {p : Nat} {U : List K} {a b : K} {ks : List K} (h : KnotRun tol p U a ks b) (ht : 0 ≤ tol) :
    (∃ l, U = List.replicate (p + 1) a ++ l) ∧ (∃ l, U = l ++ List.replicate (p + 1) b) := by
  obtain ⟨h1, h2⟩ := h.lt ht
  have ha : U.filter (fun y => decide (y < a)) = [] := by
    rw [List.filter_eq_nil_iff]
    intro y hy
    simp only [decide_eq_true_eq, not_lt]
    rcases List.mem_cons.1 ((h.mem y).1 hy) with rfl | hm
    · exact le_rfl
    · rcases List.mem_append.1 hm with hm | hm
      · exact (h1 y hm).1.le
      · rw [List.mem_singleton.1 hm]; exact h2.le
  have hb : U.filter (fun y => decide (b < y)) = [] := by
    rw [List.filter_eq_nil_iff]
    intro y hy
    simp only [decide_eq_true_eq, not_lt]
    rcases List.mem_cons.1 ((h.mem y).1 hy) with rfl | hm
    · exact h2.le
    · rcases List.mem_append.1 hm with hm | hm
      · exact (h1 y hm).2.le
      · rw [List.mem_singleton.1 hm]
  constructor
  · have := sorted_parts a h.sorted
    rw [ha, h.first, List.nil_append] at this
    exact ⟨_, this⟩
  · have := sorted_parts b h.sorted
    rw [hb, h.last, List.append_nil] at this
    exact ⟨_, this⟩

/-- Without inner values there are just the two ends. -/
theorem KnotRun.bezier {tol : K} {p : Nat} {U : List K} {a b : K} (h : KnotRun tol p U a [] b) (ht : 0 ≤ tol) :
    U = List.replicate (p + 1) a ++ List.replicate (p + 1) b := by
  have h2 := (h.lt ht).2
  have ha : U.filter (fun y => decide (y < b)) = List.replicate (p + 1) a := by
    rw [List.eq_replicate_iff]
    have hm : ∀ y ∈ U, y = a ∨ y = b := fun y hy => by simpa using (h.mem y).1 hy
    constructor
    · rw [← h.first, List.count_eq_length_filter]
      congr 1
      apply List.filter_congr
      intro y hy
      rcases hm y hy with rfl | rfl
      · simpa using h2
      · simpa using h2.ne'
    · intro y hy
      obtain ⟨hy, hlt⟩ := List.mem_filter.1 hy
      rcases hm y hy with rfl | rfl
      · rfl
      · simp at hlt
  have hb : U.filter (fun y => decide (b < y)) = [] := by
    rw [List.filter_eq_nil_iff]
    intro y hy
    rcases List.mem_cons.1 ((h.mem y).1 hy) with rfl | hm
    · simpa using h2.le
    · simp at hm; rw [hm]; simp
  have := sorted_parts b h.sorted
  rw [ha, hb, h.last, List.append_nil] at this
  exact this

/-- The lower half of the knots at the first inner value. -/
theorem KnotRun.left {tol : K} {p : Nat} {U : List K} {a b k : K} {ks : List K} (h : KnotRun tol p U a (k :: ks) b) (ht : 0 ≤ tol) :
    U.filter (fun x => decide (x < k)) = List.replicate (p + 1) a := by
  have h1 := (h.lt ht).1
  have hk := h1 k (by simp)
  have hinc := List.pairwise_cons.1 (List.pairwise_cons.1 h.inc).2
  have key : ∀ y ∈ U, y = a ∨ k ≤ y := by
    intro y hy
    rcases List.mem_cons.1 ((h.mem y).1 hy) with rfl | hm
    · exact .inl rfl
    · right
      rcases List.mem_cons.1 hm with rfl | hm
      · exact le_rfl
      · have := hinc.1 y hm; linarith
  rw [List.eq_replicate_iff]
  constructor
  · rw [← h.first, List.count_eq_length_filter]
    congr 1
    apply List.filter_congr
    intro y hy
    rcases key y hy with rfl | hy
    · simpa using hk.1
    · have : y ≠ a := (lt_of_lt_of_le hk.1 hy).ne'
      show decide (y < k) = (y == a)
      rw [decide_eq_false (not_lt.2 hy), beq_false_of_ne this]
  · intro y hy
    obtain ⟨hy, hlt⟩ := List.mem_filter.1 hy
    rcases key y hy with rfl | hy
    · rfl
    · exact absurd (of_decide_eq_true hlt) (not_lt.2 hy)

/-- The upper half of the knots at the first inner value is a run again. -/
theorem KnotRun.right {tol : K} {p : Nat} {U : List K} {a b k : K} {ks : List K} (h : KnotRun tol p U a (k :: ks) b) (ht : 0 ≤ tol) :
    KnotRun tol p (List.replicate (p + 1) k ++ U.filter (fun x => decide (k < x))) k ks b := by
  have h1 := (h.lt ht).1
  have hk := h1 k (by simp)
  have hinc := (List.pairwise_cons.1 h.inc).2
  have hinc' := List.pairwise_cons.1 hinc
  have key : ∀ y ∈ U, k < y ↔ y ∈ ks ++ [b] := by
    intro y hy
    constructor
    · intro hlt
      rcases List.mem_cons.1 ((h.mem y).1 hy) with rfl | hm
      · exact absurd hlt (not_lt.2 hk.1.le)
      · rcases List.mem_cons.1 hm with rfl | hm
        · exact absurd hlt (lt_irrefl _)
        · exact hm
    · intro hm; have := hinc'.1 y hm; linarith
  have hU : ∀ y ∈ ks ++ [b], y ∈ U ∧ k < y := by
    intro y hy
    have : y ∈ U := (h.mem y).2 (by simp only [List.cons_append, List.mem_cons]; exact .inr (.inr hy))
    exact ⟨this, (key y this).2 hy⟩
  have cnt : ∀ y, k < y → (List.replicate (p + 1) k ++ U.filter (fun x => decide (k < x))).count y = U.count y := by
    intro y hy
    rw [List.count_append, List.count_replicate, if_neg (by simpa using hy.ne), Nat.zero_add, List.count_filter (by simpa using hy)]
  refine ⟨?_, ?_, hinc, ?_, ?_, ?_⟩
  · unfold SortedKnots
    rw [List.pairwise_append]
    refine ⟨List.pairwise_replicate.2 (.inr le_rfl), h.sorted.filter _, ?_⟩
    intro x hx y hy
    rw [List.eq_of_mem_replicate hx]
    exact (of_decide_eq_true (List.mem_filter.1 hy).2).le
  · intro x
    rw [List.mem_append, List.mem_cons, List.mem_filter]
    constructor
    · rintro (hx | ⟨hx, hlt⟩)
      · exact .inl (List.eq_of_mem_replicate hx)
      · exact .inr ((key x hx).1 (of_decide_eq_true hlt))
    · rintro (rfl | hx)
      · left; simp
      · right; exact ⟨(hU x hx).1, decide_eq_true (hU x hx).2⟩
  · rw [List.count_append, List.count_replicate_self, List.count_eq_zero.2]
    intro hx
    exact lt_irrefl _ (of_decide_eq_true (List.mem_filter.1 hx).2)
  · rw [cnt b hk.2, h.last]
  · intro x hx
    rw [cnt x (hU x (by simp [hx])).2]
    exact h.inner x (by simp [hx])

/-- What the split needs to know about the first inner value. -/
theorem KnotRun.clear {tol : K} {p : Nat} {U : List K} {a b k : K} {ks : List K} (h : KnotRun tol p U a (k :: ks) b) (ht : 0 ≤ tol) :
    ClearOf tol U k ∧ U.count k ≤ p ∧ a + tol < k ∧ k + tol < b := by
  have h1 := List.pairwise_cons.1 h.inc
  have h2 := List.pairwise_cons.1 h1.2
  refine ⟨?_, h.inner k (by simp), h1.1 k (by simp), h2.1 b (by simp)⟩
  intro y hy hne
  rcases List.mem_cons.1 ((h.mem y).1 hy) with rfl | hm
  · have := h1.1 k (by simp)
    rw [abs_of_pos (by linarith)]; linarith
  · rcases List.mem_cons.1 hm with rfl | hm
    · exact absurd rfl hne
    · have := h2.1 y hm
      rw [abs_of_neg (by linarith)]; linarith

/-- The domain of a valid knot vector that is a run. -/
theorem KnotRun.domain {tol : K} {n p : Nat} {U : List K} {a b : K} {ks : List K} (h : KnotRun tol p U a ks b) (ht : 0 ≤ tol)
    (hl : U.length = n + p + 1) : ix U p = a ∧ ix U n = b ∧ ix U 0 = a ∧ ix U (U.length - 1) = b := by
  obtain ⟨⟨l, hl1⟩, ⟨m, hm⟩⟩ := h.ends ht
  have e1 : ∀ i, i < p + 1 → ix U i = a := by
    intro i hi
    rw [hl1]; unfold ix
    rw [List.getD_eq_getElem?_getD, List.getElem?_append_left (by simpa using hi), List.getElem?_replicate, if_pos hi]
    rfl
  have hml : m.length = n := by
    have := congrArg List.length hm
    rw [List.length_append, List.length_replicate, hl] at this; omega
  have e2 : ∀ i, i < p + 1 → ix U (n + i) = b := by
    intro i hi
    rw [hm]; unfold ix
    rw [List.getD_eq_getElem?_getD, List.getElem?_append_right (by omega), List.getElem?_replicate, if_pos (by omega)]
    rfl
  refine ⟨e1 p (by omega), e2 0 (by omega), e1 0 (by omega), ?_⟩
  rw [hl, show n + p + 1 - 1 = n + p by omega]
  exact e2 p (by omega)

end Cmm.Nurbs
