import Verif.Lemmas.SurfaceCross
import Verif.Lemmas.Surface
import Mathlib.Tactic.Linarith
import Mathlib.Algebra.Order.Ring.Rat
import Mathlib.Data.Rat.Floor
/-! C99: the cross product of two surfaces. -/
namespace Cmm.Nurbs
variable {K : Type} [Field K] [LinearOrder K] [IsStrictOrderedRing K]

/-- C99, the exact result when `result` is a fresh object: the knots and degrees of `a` in u and of `b` in v, and in every cell the code's product of the point of `a`
with the point of `b` of the transposed cell. The size of the result stays 0 × 0. -/
theorem C99_result_partial {a b : Surface K} {P Q : Nat → Nat → Vec4 K} (ha : ∀ i < a.su, ∀ j < a.sv, cell? a.cpts i j = some (P i j))
    (hb : ∀ i < a.su, ∀ j < a.sv, cell? b.cpts j i = some (Q j i)) (hu : a.ku ≠ []) (hv : b.kv ≠ []) :
    ∃ r, surfaceCrossNew a b = .ok r ∧ r.ku = a.ku ∧ r.kv = b.kv ∧ r.du = a.du ∧ r.dv = b.dv ∧ r.u0 = ix a.ku 0 ∧ r.u1 = ix a.ku (a.ku.length - 1) ∧
      r.v0 = ix b.kv 0 ∧ r.v1 = ix b.kv (b.kv.length - 1) ∧ r.su = 0 ∧ r.sv = 0 ∧ r.cpts.length = a.su ∧ (∀ row ∈ r.cpts, row.length = a.sv) ∧
      ∀ i < a.su, ∀ j < a.sv, cell? r.cpts i j = some (VecOps.cross4out (P i j) (Q j i)) := by
  have hrs : ∀ i, i < a.su → (resizeRows (Surface.blank (K := K)).cpts a.su a.sv)[i]? = some (List.replicate a.sv ⟨0, 0, 0, 1⟩) := by
    intro i hi
    simp [resizeRows, Surface.blank, hi]
  obtain ⟨rows, h1, h2, h3, h4⟩ := crossRows_ok (a := a.cpts) (b := b.cpts) (m := a.sv) P (fun i j => Q j i) a.su 0
    (resizeRows (Surface.blank (K := K)).cpts a.su a.sv) (by simp [resizeRows, Surface.blank]) (fun i _ hi => ⟨_, hrs i (by omega), by simp⟩)
    (fun i j _ hi hj => ha i (by omega) j hj) (fun i j _ hi hj => hb i (by omega) j hj)
  have hlen : rows.length = a.su := by rw [h2]; simp [resizeRows, Surface.blank]
  refine ⟨⟨rows, a.du, b.dv, 0, 0, a.ku, b.kv, ix a.ku 0, ix a.ku (a.ku.length - 1), ix b.kv 0, ix b.kv (b.kv.length - 1)⟩, ?_, rfl, rfl, rfl, rfl, rfl, rfl, rfl, rfl, rfl, rfl, hlen, ?_, ?_⟩
  · rw [surfaceCrossNew, surfaceCross, h1, Res.ok_bind, Surface.updateInterval, frontBack_ok hu, Res.ok_bind, frontBack_ok hv, Res.ok_bind]
    rfl
  · intro row hrow
    obtain ⟨i, hi, rfl⟩ := List.mem_iff_getElem.mp (show row ∈ rows from hrow)
    obtain ⟨row', e1, e2, -⟩ := h4 i (by omega) (by omega) _ (hrs i (by omega))
    rw [List.getElem?_eq_getElem hi] at e1
    rw [Option.some.inj e1, e2, List.length_replicate]
  · intro i hi j hj
    obtain ⟨row', e1, e2, e3⟩ := h4 i (by omega) (by omega) _ (hrs i hi)
    show (rows[i]?).bind _ = _
    rw [e1, Option.bind_some, e3 j, if_pos hj]

/-- C99: the call returns exactly if `a` has the points its size promises, `b` has the points of the transposed grid, and the knot vectors are not empty. It never
throws; otherwise it reads outside a vector. -/
theorem C99_defined_iff (a b : Surface K) : surfaceCrossNew a b ≠ .throws ∧
    ((∃ r, surfaceCrossNew a b = .ok r) ↔ (∀ i < a.su, ∀ j < a.sv, (i < a.cpts.length ∧ j < (a.cpts.getD i []).length) ∧
      (j < b.cpts.length ∧ i < (b.cpts.getD j []).length)) ∧ a.ku ≠ [] ∧ b.kv ≠ []) := by
  have hf : ∀ l : List K, frontBack l ≠ .throws := by
    intro l; cases l <;> simp [frontBack]
  have hf' : ∀ (l : List K) (p : K × K), frontBack l = .ok p → l ≠ [] := by
    rintro l p h rfl
    simp [frontBack] at h
  refine ⟨fun h => ?_, fun ⟨r, h⟩ => ?_, fun ⟨h, hu, hv⟩ => ?_⟩
  · rw [surfaceCrossNew, surfaceCross] at h
    rcases hc : crossRows a.cpts b.cpts a.sv a.su 0 (resizeRows (Surface.blank (K := K)).cpts a.su a.sv) with x | _ | _
    · rw [hc, Res.ok_bind, Surface.updateInterval] at h
      rcases h1 : frontBack a.ku with y | _ | _
      · rw [h1, Res.ok_bind] at h
        rcases h2 : frontBack b.kv with z | _ | _
        · rw [h2] at h; simp at h
        · exact hf _ h2
        · rw [h2] at h; simp at h
      · exact hf _ h1
      · rw [h1] at h; simp at h
    · exact crossRows_ne_throws _ _ _ hc
    · rw [hc] at h; simp at h
  · rw [surfaceCrossNew, surfaceCross] at h
    rcases hc : crossRows a.cpts b.cpts a.sv a.su 0 (resizeRows (Surface.blank (K := K)).cpts a.su a.sv) with x | _ | _
    · rw [hc, Res.ok_bind, Surface.updateInterval] at h
      refine ⟨fun i hi j hj => ?_, ?_⟩
      · have := crossRows_reads _ _ _ _ hc i (by omega) (by omega) j hj
        exact ⟨cell?_isSome.mp this.1, cell?_isSome.mp this.2⟩
      · rcases h1 : frontBack a.ku with y | _ | _
        · rw [h1, Res.ok_bind] at h
          rcases h2 : frontBack b.kv with z | _ | _
          · exact ⟨hf' _ _ h1, hf' _ _ h2⟩
          · rw [h2] at h; simp at h
          · rw [h2] at h; simp at h
        · rw [h1] at h; simp at h
        · rw [h1] at h; simp at h
    · rw [hc] at h; simp at h
    · rw [hc] at h; simp at h
  · obtain ⟨r, hr, -⟩ := C99_result_partial (a := a) (b := b) (P := fun i j => (cell? a.cpts i j).getD ⟨0, 0, 0, 0⟩) (Q := fun i j => (cell? b.cpts i j).getD ⟨0, 0, 0, 0⟩)
      (fun i hi j hj => by
        obtain ⟨p, hp⟩ := Option.isSome_iff_exists.mp (cell?_isSome.mpr (h i hi j hj).1)
        rw [hp]; rfl)
      (fun i hi j hj => by
        obtain ⟨p, hp⟩ := Option.isSome_iff_exists.mp (cell?_isSome.mpr (h i hi j hj).2)
        rw [hp]; rfl) hu hv
    exact ⟨r, hr⟩

omit [IsStrictOrderedRing K] [LinearOrder K] in
/-- C99: whatever object the result is written to, its size is not changed. -/
theorem C99_size_kept {a b result r : Surface K} (h : surfaceCross a b result = .ok r) : r.su = result.su ∧ r.sv = result.sv ∧ r.ku = a.ku ∧ r.kv = b.kv ∧
    r.du = a.du ∧ r.dv = b.dv := by
  rw [surfaceCross] at h
  rcases hc : crossRows a.cpts b.cpts a.sv a.su 0 (resizeRows result.cpts a.su a.sv) with x | _ | _
  · rw [hc, Res.ok_bind, Surface.updateInterval] at h
    rcases h1 : frontBack a.ku with y | _ | _
    · rw [h1, Res.ok_bind] at h
      rcases h2 : frontBack b.kv with z | _ | _
      · rw [h2, Res.ok_bind, Res.ok.injEq] at h
        subst h
        exact ⟨rfl, rfl, rfl, rfl, rfl, rfl⟩
      · rw [h2] at h; simp at h
      · rw [h2] at h; simp at h
    · rw [h1] at h; simp at h
    · rw [h1] at h; simp at h
  · rw [hc] at h; simp at h
  · rw [hc] at h; simp at h

omit [IsStrictOrderedRing K] [LinearOrder K] in
/-- C99: in particular the surface that `cross(a, b)` returns says that it has no rows and no columns of control points, whatever it has. -/
theorem C99_new_size {a b r : Surface K} (h : surfaceCrossNew a b = .ok r) : r.su = 0 ∧ r.sv = 0 :=
  ⟨(C99_size_kept h).1, (C99_size_kept h).2.1⟩

omit [LinearOrder K] [IsStrictOrderedRing K] in
/-- C99: when the code's product of two control points is the cross product of the two points. -/
theorem C99_point_iff (p q : Vec4 K) : (VecOps.cross4out p q).toVec3 = p.toVec3.cross q.toVec3 ↔
    (p.toVec3.z = q.toVec3.z ∨ q.toVec3.y = 0) ∧ (p.toVec3.x = q.toVec3.x ∨ q.toVec3.z = 0) ∧ (p.toVec3.y = q.toVec3.y ∨ q.toVec3.x = 0) := by
  have key : ∀ A B C D : K, A - B * D = A - C * D ↔ C = B ∨ D = 0 := by
    intro A B C D
    constructor
    · intro h
      have h1 : (C - B) * D = 0 := by linear_combination h
      rcases mul_eq_zero.mp h1 with h2 | h2
      · exact Or.inl (sub_eq_zero.mp h2)
      · exact Or.inr h2
    · rintro (h | h) <;> simp [h]
  have e : ∀ x y z : K, (⟨x, y, z, 1⟩ : Vec4 K).toVec3 = ⟨x, y, z⟩ := by
    intro x y z; simp [Vec4.toVec3]
  rw [VecOps.cross4out, e, Vec3.cross, Vec3.mk.injEq]
  exact and_congr (key _ _ _ _) (and_congr (key _ _ _ _) (key _ _ _ _))

/-- A 2 × 2 surface. -/
def crossDemoA : Surface ℚ := ⟨[[⟨1, 0, 0, 1⟩, ⟨1, 0, 0, 1⟩], [⟨1, 0, 0, 1⟩, ⟨1, 0, 0, 1⟩]], 1, 1, 2, 2, [0, 0, 1, 1], [0, 0, 1, 1], 0, 1, 0, 1⟩

/-- Like `crossDemoA`, with four different points. -/
def crossDemoB : Surface ℚ := ⟨[[⟨0, 1, 0, 1⟩, ⟨0, 0, 1, 1⟩], [⟨0, 2, 0, 1⟩, ⟨0, 0, 3, 1⟩]], 1, 1, 2, 2, [0, 0, 1, 1], [0, 0, 1, 1], 0, 1, 0, 1⟩

/-- A surface with a grid of 2 × 3 points. -/
def crossDemoC : Surface ℚ :=
  ⟨[[⟨1, 0, 0, 1⟩, ⟨1, 0, 0, 1⟩, ⟨1, 0, 0, 1⟩], [⟨1, 0, 0, 1⟩, ⟨1, 0, 0, 1⟩, ⟨1, 0, 0, 1⟩]], 1, 2, 2, 3, [0, 0, 1, 1], [0, 0, 0, 1, 1, 1], 0, 1, 0, 1⟩

/-- C99 fails: two surfaces of the same size 2 × 3 have no product, the call reads outside the vector. -/
theorem C99_nonsquare_counterexample : surfaceCrossNew crossDemoC crossDemoC = .ub := by decide +kernel

/-- C99 fails: the point in the cell (0, 1) is not the cross product of the points of the two cells (0, 1), which is (0, -1, 0). -/
theorem C99_cells_counterexample : ∃ r, surfaceCrossNew crossDemoA crossDemoB = .ok r ∧ cell? r.cpts 0 1 = some ⟨0, 0, 2, 1⟩ ∧
    (⟨1, 0, 0⟩ : Vec3 ℚ).cross ⟨0, 0, 1⟩ = ⟨0, -1, 0⟩ := by
  refine ⟨⟨[[⟨0, 0, 1, 1⟩, ⟨0, 0, 2, 1⟩], [⟨0, 0, 0, 1⟩, ⟨0, 0, 0, 1⟩]], 1, 1, 0, 0, [0, 0, 1, 1], [0, 0, 1, 1], 0, 1, 0, 1⟩, ?_⟩
  decide +kernel

/-- C99 fails: the code's product of the points (1, 0, 0) and (0, 1, 1) is not their cross product (0, -1, 1). -/
theorem C99_point_counterexample : VecOps.cross4out (⟨1, 0, 0, 1⟩ : Vec4 ℚ) ⟨0, 1, 1, 1⟩ = ⟨-1, 0, 1, 1⟩ ∧ (⟨1, 0, 0⟩ : Vec3 ℚ).cross ⟨0, 1, 1⟩ = ⟨0, -1, 1⟩ := by
  decide +kernel

/-- C99 fails for an object that is used again: the rows it has keep their length, so a result with shorter rows is written outside. -/
theorem C99_reused_counterexample : surfaceCross crossDemoA crossDemoB ⟨[[⟨0, 0, 0, 1⟩]], 0, 0, 1, 1, [0, 1], [0, 1], 0, 1, 0, 1⟩ = .ub := by decide +kernel

/-- C99: an object that is used again keeps its old size, and rows that are longer keep their last points. -/
example : surfaceCross crossDemoA crossDemoB ⟨[[⟨5, 5, 5, 1⟩, ⟨6, 6, 6, 1⟩, ⟨7, 7, 7, 1⟩], [⟨8, 8, 8, 1⟩, ⟨9, 9, 9, 1⟩], []], 0, 0, 3, 3, [0, 1], [0, 1], 0, 1, 0, 1⟩ =
    .ok ⟨[[⟨0, 0, 1, 1⟩, ⟨0, 0, 2, 1⟩, ⟨7, 7, 7, 1⟩], [⟨0, 0, 0, 1⟩, ⟨0, 0, 0, 1⟩]], 1, 1, 3, 3, [0, 0, 1, 1], [0, 0, 1, 1], 0, 1, 0, 1⟩ := by decide +kernel

end Cmm.Nurbs
