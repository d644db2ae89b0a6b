import Verif.Model.SurfaceCross
/-! Loop lemmas for the surface cross product. -/
namespace Cmm.Nurbs
variable {K : Type} [Field K] [LinearOrder K]

theorem crossCell_ok {a b rows : List (List (Vec4 K))} {k j : Nat} {p q : Vec4 K} {row : List (Vec4 K)} (ha : cell? a k j = some p) (hb : cell? b j k = some q)
    (hr : rows[k]? = some row) (hj : j < row.length) : crossCell a b rows k j = .ok (rows.set k (row.set j (VecOps.cross4out p q))) := by
  rw [crossCell, ha, hb, hr]
  exact if_pos hj

theorem crossRow_ok {a b : List (List (Vec4 K))} {k : Nat} (P Q : Nat → Vec4 K) : ∀ (c j : Nat) (rows : List (List (Vec4 K))) (row : List (Vec4 K)),
    rows[k]? = some row → j + c ≤ row.length → (∀ i, j ≤ i → i < j + c → cell? a k i = some (P i)) → (∀ i, j ≤ i → i < j + c → cell? b i k = some (Q i)) →
    ∃ row', crossRow a b k c j rows = .ok (rows.set k row') ∧ row'.length = row.length ∧
      ∀ i, row'[i]? = if j ≤ i ∧ i < j + c then some (VecOps.cross4out (P i) (Q i)) else row[i]? := by
  intro c
  induction c with
  | zero =>
    intro j rows row hr _ _ _
    refine ⟨row, ?_, rfl, fun i => ?_⟩
    · obtain ⟨hk, he⟩ := List.getElem?_eq_some_iff.mp hr
      rw [crossRow, ← he, List.set_getElem_self]
    · rw [if_neg (by omega)]
  | succ c ih =>
    intro j rows row hr hl hP hQ
    have hk : k < rows.length := (List.getElem?_eq_some_iff.mp hr).1
    have h1 := crossCell_ok (hP j (le_refl j) (by omega)) (hQ j (le_refl j) (by omega)) hr (show j < row.length by omega)
    obtain ⟨row', h2, h3, h4⟩ := ih (j + 1) (rows.set k (row.set j (VecOps.cross4out (P j) (Q j)))) (row.set j (VecOps.cross4out (P j) (Q j)))
      (by rw [List.getElem?_set_self hk]) (by rw [List.length_set]; omega) (fun i h h' => hP i (by omega) (by omega)) (fun i h h' => hQ i (by omega) (by omega))
    refine ⟨row', ?_, ?_, fun i => ?_⟩
    · rw [crossRow, h1, Res.ok_bind, h2, List.set_set]
    · rw [h3, List.length_set]
    · rw [h4 i]
      by_cases hi : i = j
      · subst hi
        rw [if_neg (by omega), if_pos (by omega), List.getElem?_set_self (by omega)]
      · rw [List.getElem?_set_ne (by omega)]
        by_cases hc : j + 1 ≤ i ∧ i < j + 1 + c
        · rw [if_pos hc, if_pos (by omega)]
        · rw [if_neg hc, if_neg (by omega)]

theorem crossRows_ok {a b : List (List (Vec4 K))} {m : Nat} (P Q : Nat → Nat → Vec4 K) : ∀ (c k : Nat) (rows : List (List (Vec4 K))),
    k + c ≤ rows.length → (∀ i, k ≤ i → i < k + c → ∃ row, rows[i]? = some row ∧ m ≤ row.length) →
    (∀ i j, k ≤ i → i < k + c → j < m → cell? a i j = some (P i j)) → (∀ i j, k ≤ i → i < k + c → j < m → cell? b j i = some (Q i j)) →
    ∃ rows', crossRows a b m c k rows = .ok rows' ∧ rows'.length = rows.length ∧
      (∀ i, ¬ (k ≤ i ∧ i < k + c) → rows'[i]? = rows[i]?) ∧
      ∀ i, k ≤ i → i < k + c → ∀ row, rows[i]? = some row → ∃ row', rows'[i]? = some row' ∧ row'.length = row.length ∧
        ∀ j, row'[j]? = if j < m then some (VecOps.cross4out (P i j) (Q i j)) else row[j]? := by
  intro c
  induction c with
  | zero =>
    intro k rows _ _ _ _
    exact ⟨rows, rfl, rfl, fun _ _ => rfl, fun i h h' => by omega⟩
  | succ c ih =>
    intro k rows hl hrow hP hQ
    obtain ⟨row, hr, hm⟩ := hrow k (le_refl k) (by omega)
    obtain ⟨row', h1, h2, h3⟩ := crossRow_ok (P k) (Q k) m 0 rows row hr (by omega) (fun i _ h => hP k i (le_refl k) (by omega) (by omega))
      (fun i _ h => hQ k i (le_refl k) (by omega) (by omega))
    obtain ⟨rows', h4, h5, h6, h7⟩ := ih (k + 1) (rows.set k row') (by rw [List.length_set]; omega)
      (fun i h h' => by rw [List.getElem?_set_ne (by omega)]; exact hrow i (by omega) (by omega)) (fun i j h h' => hP i j (by omega) (by omega))
      (fun i j h h' => hQ i j (by omega) (by omega))
    refine ⟨rows', by rw [crossRows, h1, Res.ok_bind, h4], by rw [h5, List.length_set], fun i hi => ?_, fun i hi hi' row0 hrow0 => ?_⟩
    · rw [h6 i (by omega), List.getElem?_set_ne (by omega)]
    · by_cases hik : i = k
      · subst hik
        refine ⟨row', ?_, ?_, fun j => ?_⟩
        · rw [h6 i (by omega), List.getElem?_set_self (by omega)]
        · rw [h2, Option.some.inj (hr.symm.trans hrow0)]
        · rw [h3 j, Option.some.inj (hr.symm.trans hrow0)]
          by_cases hj : j < m
          · rw [if_pos (by omega), if_pos hj]
          · rw [if_neg (by omega), if_neg hj]
      · exact h7 i (by omega) (by omega) row0 (by rw [List.getElem?_set_ne (by omega)]; exact hrow0)

theorem crossRow_rows_length {a b : List (List (Vec4 K))} {k : Nat} : ∀ (c j : Nat) (rows rows' : List (List (Vec4 K))), crossRow a b k c j rows = .ok rows' →
    ∀ i, i < j + c → j ≤ i → (cell? a k i).isSome ∧ (cell? b i k).isSome := by
  intro c
  induction c with
  | zero => intro j rows rows' _ i h h'; omega
  | succ c ih =>
    intro j rows rows' h i h1 h2
    rw [crossRow] at h
    rcases hc : crossCell a b rows k j with x | _ | _
    · rw [hc, Res.ok_bind] at h
      by_cases hi : i = j
      · subst hi
        rw [crossCell] at hc
        split at hc
        · rename_i p q row e1 e2 e3
          rw [e1, e2]; exact ⟨rfl, rfl⟩
        · simp at hc
      · exact ih (j + 1) x rows' h i (by omega) (by omega)
    · rw [hc] at h; simp at h
    · rw [hc] at h; simp at h

theorem crossRows_reads {a b : List (List (Vec4 K))} {m : Nat} : ∀ (c k : Nat) (rows rows' : List (List (Vec4 K))), crossRows a b m c k rows = .ok rows' →
    ∀ i, i < k + c → k ≤ i → ∀ j, j < m → (cell? a i j).isSome ∧ (cell? b j i).isSome := by
  intro c
  induction c with
  | zero => intro k rows rows' _ i h h'; omega
  | succ c ih =>
    intro k rows rows' h i h1 h2 j hj
    rw [crossRows] at h
    rcases hc : crossRow a b k m 0 rows with x | _ | _
    · rw [hc, Res.ok_bind] at h
      by_cases hi : i = k
      · subst hi
        exact crossRow_rows_length m 0 rows x hc j (by omega) (by omega)
      · exact ih (k + 1) x rows' h i (by omega) (by omega) j hj
    · rw [hc] at h; simp at h
    · rw [hc] at h; simp at h

theorem crossRow_ne_throws {a b : List (List (Vec4 K))} {k : Nat} : ∀ (c j : Nat) (rows : List (List (Vec4 K))), crossRow a b k c j rows ≠ .throws := by
  intro c
  induction c with
  | zero => intro j rows h; simp [crossRow] at h
  | succ c ih =>
    intro j rows h
    rw [crossRow] at h
    rcases hc : crossCell a b rows k j with x | _ | _
    · rw [hc] at h; exact ih _ _ h
    · rw [crossCell] at hc
      split at hc
      · split at hc <;> simp at hc
      · simp at hc
    · rw [hc] at h; simp at h

theorem crossRows_ne_throws {a b : List (List (Vec4 K))} {m : Nat} : ∀ (c k : Nat) (rows : List (List (Vec4 K))), crossRows a b m c k rows ≠ .throws := by
  intro c
  induction c with
  | zero => intro k rows h; simp [crossRows] at h
  | succ c ih =>
    intro k rows h
    rw [crossRows] at h
    rcases hc : crossRow a b k m 0 rows with x | _ | _
    · rw [hc] at h; exact ih _ _ h
    · exact crossRow_ne_throws _ _ _ hc
    · rw [hc] at h; simp at h

omit [Field K] in
theorem cell?_isSome {c : List (List (Vec4 K))} {i j : Nat} : (cell? c i j).isSome ↔ i < c.length ∧ j < (c.getD i []).length := by
  rw [cell?, List.getD_eq_getElem?_getD]
  rcases Nat.lt_or_ge i c.length with h | h
  · simp [List.getElem?_eq_getElem h, h]
  · simp [List.getElem?_eq_none h, Nat.not_lt.mpr h]

end Cmm.Nurbs
