import Verif.Lemmas.Derivative
/-! The rows computed by `ders_basis_funs`, degree by degree (the code stops at degree 3). -/
namespace Cmm.Nurbs
variable {K : Type} [Field K]

theorem ders_row_110 (U P : Nat → K) (q : Nat) (t : K) :
    dotL (((dersBasisFuns (q + 1) t 1 1 U)[1]?).getD []) P q =
      splineVal U 0 (hodoIter U 1 P 1) (q + 1) t := by
  simp [dersBasisFuns, dersFuncs, dersOrders, dersStep, dersInner, nduAt, basisFuns, basisInner, dotL, upd, dersFactor,
    splineVal, hodoIter, hodo, List.range_succ]
  ring

theorem ders_row_210 (U P : Nat → K) (q : Nat) (t : K) :
    dotL (((dersBasisFuns (q + 2) t 2 1 U)[1]?).getD []) P q =
      splineVal U 1 (hodoIter U 2 P 1) (q + 2) t := by
  simp [dersBasisFuns, dersFuncs, dersOrders, dersStep, dersInner, nduAt, basisFuns, basisInner, dotL, upd, dersFactor,
    splineVal, hodoIter, hodo, List.range_succ]
  ring

theorem ders_row_220 (U P : Nat → K) (q : Nat) (t : K) :
    dotL (((dersBasisFuns (q + 2) t 2 2 U)[1]?).getD []) P q =
      splineVal U 1 (hodoIter U 2 P 1) (q + 2) t := by
  simp [dersBasisFuns, dersFuncs, dersOrders, dersStep, dersInner, nduAt, basisFuns, basisInner, dotL, upd, dersFactor,
    splineVal, hodoIter, hodo, List.range_succ]
  ring

theorem ders_row_221 (U P : Nat → K) (q : Nat) (t : K) :
    dotL (((dersBasisFuns (q + 2) t 2 2 U)[2]?).getD []) P q =
      splineVal U 0 (hodoIter U 2 P 2) (q + 2) t := by
  simp [dersBasisFuns, dersFuncs, dersOrders, dersStep, dersInner, nduAt, basisFuns, basisInner, dotL, upd, dersFactor,
    splineVal, hodoIter, hodo, List.range_succ]
  ring

theorem ders_row_310 (U P : Nat → K) (q : Nat) (t : K) :
    dotL (((dersBasisFuns (q + 3) t 3 1 U)[1]?).getD []) P q =
      splineVal U 2 (hodoIter U 3 P 1) (q + 3) t := by
  simp [dersBasisFuns, dersFuncs, dersOrders, dersStep, dersInner, nduAt, basisFuns, basisInner, dotL, upd, dersFactor,
    splineVal, hodoIter, hodo, List.range_succ]
  ring

theorem ders_row_320 (U P : Nat → K) (q : Nat) (t : K) :
    dotL (((dersBasisFuns (q + 3) t 3 2 U)[1]?).getD []) P q =
      splineVal U 2 (hodoIter U 3 P 1) (q + 3) t := by
  simp [dersBasisFuns, dersFuncs, dersOrders, dersStep, dersInner, nduAt, basisFuns, basisInner, dotL, upd, dersFactor,
    splineVal, hodoIter, hodo, List.range_succ]
  ring

theorem ders_row_321 (U P : Nat → K) (q : Nat) (t : K) :
    dotL (((dersBasisFuns (q + 3) t 3 2 U)[2]?).getD []) P q =
      splineVal U 1 (hodoIter U 3 P 2) (q + 3) t := by
  simp [dersBasisFuns, dersFuncs, dersOrders, dersStep, dersInner, nduAt, basisFuns, basisInner, dotL, upd, dersFactor,
    splineVal, hodoIter, hodo, List.range_succ]
  ring

theorem ders_row_330 (U P : Nat → K) (q : Nat) (t : K) :
    dotL (((dersBasisFuns (q + 3) t 3 3 U)[1]?).getD []) P q =
      splineVal U 2 (hodoIter U 3 P 1) (q + 3) t := by
  simp [dersBasisFuns, dersFuncs, dersOrders, dersStep, dersInner, nduAt, basisFuns, basisInner, dotL, upd, dersFactor,
    splineVal, hodoIter, hodo, List.range_succ]
  ring

theorem ders_row_331 (U P : Nat → K) (q : Nat) (t : K) :
    dotL (((dersBasisFuns (q + 3) t 3 3 U)[2]?).getD []) P q =
      splineVal U 1 (hodoIter U 3 P 2) (q + 3) t := by
  simp [dersBasisFuns, dersFuncs, dersOrders, dersStep, dersInner, nduAt, basisFuns, basisInner, dotL, upd, dersFactor,
    splineVal, hodoIter, hodo, List.range_succ]
  ring

theorem ders_row_332 (U P : Nat → K) (q : Nat) (t : K) :
    dotL (((dersBasisFuns (q + 3) t 3 3 U)[3]?).getD []) P q =
      splineVal U 0 (hodoIter U 3 P 3) (q + 3) t := by
  simp [dersBasisFuns, dersFuncs, dersOrders, dersStep, dersInner, nduAt, basisFuns, basisInner, dotL, upd, dersFactor,
    splineVal, hodoIter, hodo, List.range_succ]
  ring

theorem ders_rows (U P : Nat → K) (i : Nat) (t : K) (p n k : Nat) (hp : p ≤ 3) (hn : n ≤ p) (hk : k ≤ n) (hpi : p ≤ i) :
    dotL (((dersBasisFuns i t p n U)[k]?).getD []) P (i - p) = splineVal U (p - k) (hodoIter U p P k) i t := by
  obtain ⟨q, rfl⟩ : ∃ q, i = q + p := ⟨i - p, by omega⟩
  rw [Nat.add_sub_cancel]
  cases k with
  | zero => simp [dersBasisFuns, splineVal, hodoIter]
  | succ k =>
    have hp' : p = 1 ∨ p = 2 ∨ p = 3 := by omega
    have hn' : n = 1 ∨ n = 2 ∨ n = 3 := by omega
    have hk' : k = 0 ∨ k = 1 ∨ k = 2 := by omega
    rcases hp' with rfl | rfl | rfl <;> rcases hn' with rfl | rfl | rfl <;> rcases hk' with rfl | rfl | rfl <;> try omega
    · exact ders_row_110 U P q t
    · exact ders_row_210 U P q t
    · exact ders_row_220 U P q t
    · exact ders_row_221 U P q t
    · exact ders_row_310 U P q t
    · exact ders_row_320 U P q t
    · exact ders_row_321 U P q t
    · exact ders_row_330 U P q t
    · exact ders_row_331 U P q t
    · exact ders_row_332 U P q t

theorem dersFuncs_length (ndu : Nat → Nat → K) (p n : Nat) : ∀ count r A0 A1, (dersFuncs ndu p n count r A0 A1).length = count := by
  intro count
  induction count with
  | zero => intros; rfl
  | succ count ih =>
    intro r A0 A1
    rw [dersFuncs]
    simp only [List.length_cons]
    split <;> rw [ih]

theorem dersBasisFuns_length (i : Nat) (u : K) (p n : Nat) (U : Nat → K) : (dersBasisFuns i u p n U).length = n + 1 := by
  simp [dersBasisFuns]

theorem derivAcc_eq (P : Nat → Vec4 K) (ns : List K) : ∀ k (res : Vec4 K), derivAcc P ns k res =
    ⟨res.x + dotL ns (fun r => (P r).x) k, res.y + dotL ns (fun r => (P r).y) k, res.z + dotL ns (fun r => (P r).z) k,
     res.w + dotL ns (fun r => (P r).w) k⟩ := by
  induction ns with
  | nil => intro k res; simp [derivAcc, dotL]
  | cons n ns ih =>
    intro k res
    rw [derivAcc, ih]
    simp only [dotL, Vec4.mk.injEq]
    refine ⟨?_, ?_, ?_, ?_⟩ <;> ring

end Cmm.Nurbs
