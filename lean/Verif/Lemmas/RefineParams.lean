import Verif.Model.Refine
import Verif.Spec.Refine
import Verif.Lemmas.CurveOps
import Mathlib.Tactic.Ring
import Mathlib.Tactic.FieldSimp
import Mathlib.Tactic.Linarith
/-! The parameters of a knot refinement and the knots it inserts. -/
namespace Cmm.Nurbs
variable {K : Type} [Field K] [LinearOrder K] [IsStrictOrderedRing K]

omit [IsStrictOrderedRing K] in
theorem mem_setInsert (x : K) (l : List K) (y : K) : y ∈ setInsert x l ↔ y = x ∨ y ∈ l := by
  induction l with
  | nil => simp [setInsert]
  | cons z l ih =>
    rw [setInsert]
    split
    · simp
    · split
      · rw [List.mem_cons, ih, List.mem_cons]; tauto
      · rename_i h1 h2
        have : z = x := le_antisymm (not_lt.mp h1) (not_lt.mp h2)
        subst this
        simp

omit [IsStrictOrderedRing K] in
theorem setInsert_sorted (x : K) (l : List K) (h : l.Pairwise (· < ·)) : (setInsert x l).Pairwise (· < ·) := by
  induction l with
  | nil => simp [setInsert]
  | cons z l ih =>
    rw [setInsert]
    split
    · rename_i h1
      refine List.pairwise_cons.mpr ⟨fun y hy => ?_, h⟩
      rcases List.mem_cons.mp hy with rfl | hy
      · exact h1
      · exact h1.trans (List.rel_of_pairwise_cons h hy)
    · split
      · rename_i h1 h2
        refine List.pairwise_cons.mpr ⟨fun y hy => ?_, ih (List.Pairwise.of_cons h)⟩
        rcases (mem_setInsert x l y).mp hy with rfl | hy
        · exact h2
        · exact List.rel_of_pairwise_cons h hy
      · exact h

omit [IsStrictOrderedRing K] in
theorem mem_sortedSet (l : List K) (y : K) : y ∈ sortedSet l ↔ y ∈ l := by
  have : ∀ (l s : List K), y ∈ l.foldl (fun s x => setInsert x s) s ↔ y ∈ s ∨ y ∈ l := by
    intro l
    induction l with
    | nil => intro s; simp
    | cons x l ih =>
      intro s
      rw [List.foldl_cons, ih, mem_setInsert, List.mem_cons]
      tauto
  rw [sortedSet, this]
  simp

omit [IsStrictOrderedRing K] in
theorem sortedSet_sorted (l : List K) : (sortedSet l).Pairwise (· < ·) := by
  have : ∀ (l s : List K), s.Pairwise (· < ·) → (l.foldl (fun s x => setInsert x s) s).Pairwise (· < ·) := by
    intro l
    induction l with
    | nil => intro s h; exact h
    | cons x l ih => intro s h; exact ih _ (setInsert_sorted x s h)
  exact this l [] List.Pairwise.nil

/-- Neighbours in a list. -/
def Consec : List K → K → K → Prop
  | x :: y :: l, a, b => (a = x ∧ b = y) ∨ Consec (y :: l) a b
  | _, _, _ => False

omit [Field K] [IsStrictOrderedRing K] in
theorem consec_iff (l : List K) (h : l.Pairwise (· < ·)) (a b : K) :
    Consec l a b ↔ a ∈ l ∧ b ∈ l ∧ a < b ∧ ∀ w ∈ l, w ≤ a ∨ b ≤ w := by
  induction l with
  | nil => simp [Consec]
  | cons x l ih =>
    cases l with
    | nil =>
      simp only [Consec, List.mem_singleton, false_iff]
      rintro ⟨rfl, rfl, h, -⟩
      exact lt_irrefl _ h
    | cons y l =>
      have h' := List.Pairwise.of_cons h
      have hx : ∀ w ∈ y :: l, x < w := fun w hw => List.rel_of_pairwise_cons h hw
      have hy : ∀ w ∈ l, y < w := fun w hw => List.rel_of_pairwise_cons h' hw
      rw [Consec, ih h']
      constructor
      · rintro (⟨rfl, rfl⟩ | ⟨ha, hb, hab, hw⟩)
        · refine ⟨by simp, by simp, hx _ (by simp), fun w hw => ?_⟩
          rcases List.mem_cons.mp hw with rfl | hw
          · exact Or.inl le_rfl
          · rcases List.mem_cons.mp hw with rfl | hw
            · exact Or.inr le_rfl
            · exact Or.inr (le_of_lt (hy w hw))
        · refine ⟨List.mem_cons_of_mem _ ha, List.mem_cons_of_mem _ hb, hab, fun w hw' => ?_⟩
          rcases List.mem_cons.mp hw' with rfl | hw'
          · exact Or.inl (le_of_lt (hx a ha))
          · exact hw w hw'
      · rintro ⟨ha, hb, hab, hw⟩
        have hb' : b ∈ y :: l := by
          rcases List.mem_cons.mp hb with rfl | hb
          · rcases List.mem_cons.mp ha with rfl | ha
            · exact absurd hab (lt_irrefl _)
            · exact absurd (hab.trans (hx a ha)) (lt_irrefl _)
          · exact hb
        rcases List.mem_cons.mp ha with rfl | ha
        · left
          refine ⟨rfl, ?_⟩
          rcases hw y (by simp) with h1 | h1
          · exact absurd (hx y (by simp)) (not_lt.mpr h1)
          · rcases List.mem_cons.mp hb' with h2 | h2
            · exact h2
            · exact absurd (hy b h2) (not_lt.mpr h1)
        · exact Or.inr ⟨ha, hb', hab, fun w hw' => hw w (List.mem_cons_of_mem _ hw')⟩

omit [IsStrictOrderedRing K] in
theorem halveOnce_cons (x : K) (l : List K) : ∃ l', halveOnce (x :: l) = x :: l' := by
  cases l with
  | nil => exact ⟨_, rfl⟩
  | cons y l => exact ⟨_, rfl⟩

omit [IsStrictOrderedRing K] in
theorem mem_halveOnce (l : List K) (x : K) : x ∈ halveOnce l ↔ x ∈ l ∨ ∃ y z, Consec l y z ∧ x = y + (z - y) / 2 := by
  induction l with
  | nil => simp [halveOnce, Consec]
  | cons a l ih =>
    cases l with
    | nil => simp [halveOnce, Consec]
    | cons b l =>
      rw [halveOnce, List.mem_cons, List.mem_cons, ih, List.mem_cons (a := x) (b := a)]
      constructor
      · rintro (h | h | h | ⟨y, z, h, h'⟩)
        · exact Or.inl (Or.inl h)
        · exact Or.inr ⟨a, b, Or.inl ⟨rfl, rfl⟩, h⟩
        · exact Or.inl (Or.inr h)
        · exact Or.inr ⟨y, z, Or.inr h, h'⟩
      · rintro ((h | h) | ⟨y, z, ⟨rfl, rfl⟩ | h, h'⟩)
        · exact Or.inl h
        · exact Or.inr (Or.inr (Or.inl h))
        · exact Or.inr (Or.inl h')
        · exact Or.inr (Or.inr (Or.inr ⟨y, z, h, h'⟩))

omit [IsStrictOrderedRing K] in
theorem consec_halveOnce (l : List K) (a b : K) : Consec (halveOnce l) a b ↔
    ∃ y z, Consec l y z ∧ ((a = y ∧ b = y + (z - y) / 2) ∨ (a = y + (z - y) / 2 ∧ b = z)) := by
  induction l with
  | nil => simp [halveOnce, Consec]
  | cons x l ih =>
    cases l with
    | nil => simp [halveOnce, Consec]
    | cons y l =>
      obtain ⟨l', hl'⟩ := halveOnce_cons y l
      rw [halveOnce, Consec, hl', Consec, ← hl', ih]
      constructor
      · rintro (h | h | ⟨u, v, h, h'⟩)
        · exact ⟨x, y, Or.inl ⟨rfl, rfl⟩, Or.inl h⟩
        · exact ⟨x, y, Or.inl ⟨rfl, rfl⟩, Or.inr h⟩
        · exact ⟨u, v, Or.inr h, h'⟩
      · rintro ⟨u, v, ⟨rfl, rfl⟩ | h, h'⟩
        · rcases h' with h' | h'
          · exact Or.inl h'
          · exact Or.inr (Or.inl h')
        · exact Or.inr (Or.inr ⟨u, v, h, h'⟩)

theorem halveOnce_sorted (l : List K) (h : l.Pairwise (· < ·)) : (halveOnce l).Pairwise (· < ·) := by
  induction l with
  | nil => simp [halveOnce]
  | cons x l ih =>
    cases l with
    | nil => simp [halveOnce]
    | cons y l =>
      have h' := List.Pairwise.of_cons h
      have hxy : x < y := List.rel_of_pairwise_cons h (by simp)
      have hge : ∀ w ∈ halveOnce (y :: l), y ≤ w := by
        have hs := ih h'
        obtain ⟨l', hl'⟩ := halveOnce_cons y l
        intro w hw
        rw [hl'] at hw hs
        rcases List.mem_cons.mp hw with rfl | hw
        · exact le_rfl
        · exact le_of_lt (List.rel_of_pairwise_cons hs hw)
      rw [halveOnce]
      refine List.pairwise_cons.mpr ⟨fun w hw => ?_, List.pairwise_cons.mpr ⟨fun w hw => ?_, ih h'⟩⟩
      · rcases List.mem_cons.mp hw with rfl | hw
        · linarith
        · exact lt_of_lt_of_le hxy (hge w hw)
      · have := hge w hw
        linarith

omit [IsStrictOrderedRing K] in
theorem halveTimes_ok (d : Nat) (l : List K) (h : l ≠ []) : ∃ l', halveTimes d l = .ok l' := by
  induction d generalizing l with
  | zero => exact ⟨l, rfl⟩
  | succ d ih =>
    rw [halveTimes, if_neg (by simpa using h)]
    apply ih
    cases l with
    | nil => exact absurd rfl h
    | cons x l =>
      obtain ⟨l', hl'⟩ := halveOnce_cons x l
      rw [hl']; simp

theorem halveTimes_sorted (d : Nat) (l l' : List K) (h : l.Pairwise (· < ·)) (e : halveTimes d l = .ok l') : l'.Pairwise (· < ·) := by
  induction d generalizing l with
  | zero => simp only [halveTimes, Res.ok.injEq] at e; rw [← e]; exact h
  | succ d ih =>
    rw [halveTimes] at e
    split at e
    · simp at e
    · exact ih _ (halveOnce_sorted l h) e

theorem mem_halveTimes (d : Nat) (l l' : List K) (e : halveTimes d l = .ok l') (x : K) :
    x ∈ l' ↔ x ∈ l ∨ ∃ y z, Consec l y z ∧ ∃ j : Nat, j ≤ 2 ^ d ∧ x = y + (z - y) * j / 2 ^ d := by
  induction d generalizing l with
  | zero =>
    simp only [halveTimes, Res.ok.injEq] at e
    subst e
    refine ⟨Or.inl, ?_⟩
    rintro (h | ⟨y, z, hc, j, hj, hx⟩)
    · exact h
    · have hm : ∀ (l : List K) (y z : K), Consec l y z → y ∈ l ∧ z ∈ l := by
        intro l
        induction l with
        | nil => intro y z h; exact absurd h (by simp [Consec])
        | cons u l ih =>
          intro y z h
          cases l with
          | nil => exact absurd h (by simp [Consec])
          | cons v l =>
            rcases h with ⟨rfl, rfl⟩ | h
            · simp
            · obtain ⟨h1, h2⟩ := ih y z h
              exact ⟨List.mem_cons_of_mem _ h1, List.mem_cons_of_mem _ h2⟩
      obtain ⟨h1, h2⟩ := hm l y z hc
      have : j = 0 ∨ j = 1 := by simp at hj; omega
      rcases this with rfl | rfl
      · rw [hx]; simpa using h1
      · rw [hx]; simpa using h2
  | succ d ih =>
    rw [halveTimes] at e
    split at e
    · simp at e
    · rw [ih _ e, mem_halveOnce]
      have h2 : (2 : K) ^ d ≠ 0 := pow_ne_zero _ two_ne_zero
      constructor
      · rintro ((h | ⟨y, z, hc, hx⟩) | ⟨a, b, hab, j, hj, hx⟩)
        · exact Or.inl h
        · refine Or.inr ⟨y, z, hc, 2 ^ d, by rw [pow_succ]; omega, ?_⟩
          rw [hx]; push_cast; field_simp; ring
        · obtain ⟨y, z, hc, ⟨rfl, rfl⟩ | ⟨rfl, rfl⟩⟩ := (consec_halveOnce l a b).mp hab
          · refine Or.inr ⟨a, z, hc, j, by rw [pow_succ]; omega, ?_⟩
            rw [hx]; field_simp; ring
          · refine Or.inr ⟨y, b, hc, 2 ^ d + j, by rw [pow_succ]; omega, ?_⟩
            rw [hx]; push_cast; field_simp; ring
      · rintro (h | ⟨y, z, hc, j, hj, hx⟩)
        · exact Or.inl (Or.inl h)
        · rcases Nat.le_total j (2 ^ d) with h | h
          · refine Or.inr ⟨y, y + (z - y) / 2, (consec_halveOnce l _ _).mpr ⟨y, z, hc, Or.inl ⟨rfl, rfl⟩⟩, j, h, ?_⟩
            rw [hx]; field_simp; ring
          · refine Or.inr ⟨y + (z - y) / 2, z, (consec_halveOnce l _ _).mpr ⟨y, z, hc, Or.inr ⟨rfl, rfl⟩⟩, j - 2 ^ d, by rw [pow_succ] at hj; omega, ?_⟩
            rw [hx, Nat.cast_sub h]; push_cast; field_simp; ring

omit [LinearOrder K] [IsStrictOrderedRing K] [Field K] in
theorem mem_interior (p : Nat) (U : List K) (x : K) :
    x ∈ (U.take (U.length - p)).drop p ↔ ∃ i, p ≤ i ∧ i + p < U.length ∧ U[i]? = some x := by
  rw [List.mem_iff_getElem?]
  constructor
  · rintro ⟨i, hi⟩
    rw [List.getElem?_drop, List.getElem?_take] at hi
    split at hi
    · exact ⟨p + i, by omega, by omega, hi⟩
    · simp at hi
  · rintro ⟨i, h1, h2, h3⟩
    refine ⟨i - p, ?_⟩
    rw [List.getElem?_drop, List.getElem?_take, if_pos (by omega), Nat.add_sub_cancel' h1, h3]

/-- The parameters of the model are those of the specification, in increasing order. -/
theorem refineParams_spec {p : Nat} {U knotList addList params : List K} {density : Nat} (e : refineParams p U knotList addList density = .ok params) :
    params.Pairwise (· < ·) ∧ ∀ x, x ∈ params ↔ RefineAt p U knotList addList density x := by
  rw [refineParams] at e
  split at e
  · simp at e
  · dsimp only at e
    set B := (if knotList.isEmpty = true then (U.take (U.length - p)).drop p else knotList) ++ addList with hB
    have hm : ∀ x, x ∈ sortedSet B ↔ NamedAt p U knotList addList x := by
      intro x
      rw [mem_sortedSet, hB, List.mem_append, NamedAt]
      cases knotList with
      | nil => simp [mem_interior]
      | cons y l => simp
    have hs := sortedSet_sorted B
    refine ⟨halveTimes_sorted _ _ _ hs e, fun x => ?_⟩
    rw [mem_halveTimes _ _ _ e, RefineAt, hm]
    refine or_congr Iff.rfl ?_
    refine exists_congr fun y => exists_congr fun z => ?_
    rw [consec_iff _ hs, hm, hm]
    simp only [hm]
    tauto

omit [IsStrictOrderedRing K] in
theorem refineParams_ok {p : Nat} {U knotList addList : List K} {density : Nat} (h : knotList = [] → 2 * p < U.length) :
    ∃ params, refineParams p U knotList addList density = .ok params := by
  rw [refineParams, if_neg (by
    rintro ⟨h1, h2⟩
    have := h (by simpa using h1)
    omega)]
  apply halveTimes_ok
  intro hc
  have : ∃ x, x ∈ sortedSet ((if knotList.isEmpty = true then (U.take (U.length - p)).drop p else knotList) ++ addList) := by
    cases knotList with
    | nil =>
      have := h rfl
      refine ⟨U[p]'(by omega), (mem_sortedSet _ _).mpr (List.mem_append_left _ ?_)⟩
      simp only [List.isEmpty_nil, if_true]
      exact (mem_interior p U _).mpr ⟨p, le_rfl, by omega, by rw [List.getElem?_eq_getElem (by omega)]⟩
    | cons y l => exact ⟨y, (mem_sortedSet _ _).mpr (by simp)⟩
  obtain ⟨x, hx⟩ := this
  rw [hc] at hx
  simp at hx

omit [IsStrictOrderedRing K] in
theorem mem_knotsToInsert (p : Nat) (U params : List K) (x : K) : x ∈ knotsToInsert p U params ↔ x ∈ params ∧ findMultiplicity x U < p := by
  rw [knotsToInsert, List.mem_flatMap]
  constructor
  · rintro ⟨y, hy, hx⟩
    obtain ⟨h1, rfl⟩ := List.mem_replicate.mp hx
    exact ⟨hy, by omega⟩
  · rintro ⟨h1, h2⟩
    exact ⟨x, h1, List.mem_replicate.mpr ⟨by omega, rfl⟩⟩

omit [IsStrictOrderedRing K] in
theorem knotsToInsert_sorted (p : Nat) (U params : List K) (h : params.Pairwise (· < ·)) : SortedKnots (knotsToInsert p U params) := by
  induction params with
  | nil => simp [knotsToInsert, SortedKnots]
  | cons x l ih =>
    have h' := List.Pairwise.of_cons h
    rw [knotsToInsert, List.flatMap_cons]
    refine List.pairwise_append.mpr ⟨List.pairwise_replicate.mpr (Or.inr le_rfl), ih h', fun a ha b hb => ?_⟩
    obtain ⟨-, rfl⟩ := List.mem_replicate.mp ha
    exact le_of_lt (List.rel_of_pairwise_cons h ((mem_knotsToInsert p U l b).mp hb).1)

omit [IsStrictOrderedRing K] in
theorem count_knotsToInsert (p : Nat) (U params : List K) (h : params.Pairwise (· < ·)) (x : K) :
    (knotsToInsert p U params).count x = if x ∈ params then p - findMultiplicity x U else 0 := by
  induction params with
  | nil => simp [knotsToInsert]
  | cons y l ih =>
    have h' := List.Pairwise.of_cons h
    have e : knotsToInsert p U (y :: l) = List.replicate (p - findMultiplicity y U) y ++ knotsToInsert p U l := rfl
    rw [e, List.count_append, ih h', List.count_replicate]
    by_cases hxy : y = x
    · subst hxy
      have : y ∉ l := fun hm => lt_irrefl _ (List.rel_of_pairwise_cons h hm)
      simp [this]
    · have : x ≠ y := fun e => hxy e.symm
      simp [hxy, this]

end Cmm.Nurbs
