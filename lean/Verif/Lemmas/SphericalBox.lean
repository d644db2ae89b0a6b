import Verif.Model.SphericalBox
import Verif.Spec.SphericalBox
import Mathlib.Tactic.Linarith
/-! Lemmas about the smallest wedge of a list of angles. -/
namespace Cmm.SBox
variable {K : Type} [Field K] [LinearOrder K] [IsStrictOrderedRing K]

omit [IsStrictOrderedRing K] [Field K] in
theorem ascInsert_perm (x : K) (l : List K) : (ascInsert x l).Perm (x :: l) := by
  induction l with
  | nil => exact List.Perm.refl _
  | cons y l ih =>
    rw [ascInsert]
    split
    · exact List.Perm.refl _
    · exact (ih.cons y).trans (List.Perm.swap x y l)

omit [IsStrictOrderedRing K] [Field K] in
theorem ascInsert_sorted (x : K) (l : List K) (h : l.Pairwise (· ≤ ·)) : (ascInsert x l).Pairwise (· ≤ ·) := by
  induction l with
  | nil => simp [ascInsert]
  | cons y l ih =>
    rw [ascInsert]
    split
    · rename_i hc
      refine List.pairwise_cons.mpr ⟨fun z hz => ?_, h⟩
      rcases List.mem_cons.mp hz with rfl | hz
      · exact hc
      · exact hc.trans (List.rel_of_pairwise_cons h hz)
    · rename_i hc
      refine List.pairwise_cons.mpr ⟨fun z hz => ?_, ih (List.Pairwise.of_cons h)⟩
      rcases List.mem_cons.mp ((ascInsert_perm x l).mem_iff.mp hz) with rfl | hz
      · exact le_of_lt (not_le.mp hc)
      · exact List.rel_of_pairwise_cons h hz

omit [IsStrictOrderedRing K] [Field K] in
theorem ascSort_perm (l : List K) : (ascSort l).Perm l := by
  induction l with
  | nil => exact List.Perm.refl _
  | cons x l ih => exact (ascInsert_perm x _).trans (ih.cons x)

omit [IsStrictOrderedRing K] [Field K] in
theorem ascSort_sorted (l : List K) : (ascSort l).Pairwise (· ≤ ·) := by
  induction l with
  | nil => exact List.Pairwise.nil
  | cons x l ih => exact ascInsert_sorted x _ ih

omit [LinearOrder K] [IsStrictOrderedRing K] in
theorem adjacentDiffs_length (a : K) (l : List K) : (adjacentDiffs (a :: l)).length = l.length := by
  induction l generalizing a with
  | nil => rfl
  | cons b l ih => rw [adjacentDiffs, List.length_cons, ih, List.length_cons]

omit [LinearOrder K] [IsStrictOrderedRing K] in
theorem adjacentDiffs_getD (a : K) (l : List K) (i : Nat) (h : i < l.length) :
    (adjacentDiffs (a :: l)).getD i 0 = (a :: l).getD (i + 1) 0 - (a :: l).getD i 0 := by
  induction l generalizing a i with
  | nil => simp at h
  | cons b l ih =>
    rw [adjacentDiffs]
    cases i with
    | zero => simp
    | succ i =>
      have := ih b i (by simpa using h)
      simpa using this

omit [IsStrictOrderedRing K] in
/-- The position found is that of a largest element, and it is in range. -/
theorem maxIdx_spec (D : List K) : ∀ (l : List K) (m : K) (pos i : Nat), pos < i → D.drop i = l → D.getD pos 0 = m → (∀ j < i, D.getD j 0 ≤ m) →
    (maxIdx m pos i l < D.length ∨ i + l.length ≠ D.length) ∧ (i + l.length = D.length → ∀ j < D.length, D.getD j 0 ≤ D.getD (maxIdx m pos i l) 0) := by
  intro l
  induction l with
  | nil =>
    intro m pos i hp hd hm hj
    refine ⟨?_, fun he j h => ?_⟩
    · by_cases h : i = D.length
      · left; rw [maxIdx]; omega
      · right; simpa using h
    · rw [maxIdx, hm]
      exact hj j (by simp at he; omega)
  | cons x l ih =>
    intro m pos i hp hd hm hj
    have hi : i < D.length := by
      by_contra hc
      rw [List.drop_eq_nil_of_le (by omega)] at hd
      simp at hd
    have hx : D.getD i 0 = x := by
      have := congrArg (fun l => l.getD 0 0) hd
      simpa [List.getD_eq_getElem?_getD] using this
    have hd' : D.drop (i + 1) = l := by
      have := congrArg List.tail hd
      simpa using this
    have hl : i + (x :: l).length = i + 1 + l.length := by simp; omega
    rw [maxIdx, hl]
    split
    · rename_i hlt
      exact ih x i (i + 1) (by omega) hd' hx (fun j h => by
        rcases Nat.lt_succ_iff_lt_or_eq.mp h with h | rfl
        · exact (hj j h).trans (le_of_lt hlt)
        · exact le_of_eq hx)
    · rename_i hlt
      exact ih m pos (i + 1) (by omega) hd' hm (fun j h => by
        rcases Nat.lt_succ_iff_lt_or_eq.mp h with h | rfl
        · exact hj j h
        · rw [hx]; exact not_lt.mp hlt)

omit [IsStrictOrderedRing K] in
theorem angleDiffs_length (t a : K) (l : List K) : (angleDiffs t a l).length = (a :: l).length := by
  rw [angleDiffs, List.length_cons, adjacentDiffs_length, List.length_cons]

omit [IsStrictOrderedRing K] in
theorem angleDiffs_zero (t a : K) (l : List K) : (angleDiffs t a l).getD 0 0 = a + t - (a :: l).getD ((a :: l).length - 1) 0 := by
  rw [angleDiffs, List.getD_cons_zero]
  congr 1
  rw [List.getLastD_cons, List.getD_eq_getElem?_getD, ← List.getLast?_eq_getElem?, List.getLast?_cons, Option.getD_some, List.getLastD_eq_getLast?]

omit [IsStrictOrderedRing K] in
theorem angleDiffs_succ (t a : K) (l : List K) (i : Nat) (h : i < l.length) :
    (angleDiffs t a l).getD (i + 1) 0 = (a :: l).getD (i + 1) 0 - (a :: l).getD i 0 := by
  rw [angleDiffs, List.getD_cons_succ, adjacentDiffs_getD a l i h]

/-- The wedge of a list of angles: `idx` is the place of the largest gap in the sorted list `L`. -/
theorem smallestWedge_spec {t : K} {angles : List K} (h : angles ≠ []) :
    ∃ a l idx, ascSort angles = a :: l ∧ idx < (a :: l).length ∧ (∀ j < (a :: l).length, (angleDiffs t a l).getD j 0 ≤ (angleDiffs t a l).getD idx 0) ∧
      smallestWedge t angles = .ok ((a :: l).getD idx 0, (a :: l).getD ((idx + 1) % (a :: l).length) 0) := by
  cases hs : ascSort angles with
  | nil =>
    have := (ascSort_perm angles).length_eq
    rw [hs] at this
    exact absurd (List.length_eq_zero_iff.mp this.symm) h
  | cons a l =>
    have hm := maxIdx_spec (angleDiffs t a l) (angleDiffs t a l).tail ((angleDiffs t a l).headD 0) 0 1 (by omega) (by simp) (by
      rw [angleDiffs]; rfl) (fun j hj => by
      obtain rfl : j = 0 := by omega
      rw [angleDiffs]; exact le_rfl)
    have hl : 1 + (angleDiffs t a l).tail.length = (angleDiffs t a l).length := by rw [angleDiffs]; simp; omega
    refine ⟨a, l, _, rfl, ?_, ?_, by rw [smallestWedge, hs]⟩
    · rw [← angleDiffs_length t a l]
      exact hm.1.resolve_right (fun h => h hl)
    · rw [← angleDiffs_length t a l]
      exact hm.2 hl

end Cmm.SBox
