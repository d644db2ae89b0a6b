import Verif.Lemmas.Reuse
/-! C129: output objects that already hold data. -/
namespace Cmm.Reuse
open Cmm.Mat Cmm.Mono Cmm.Nurbs Cmm.Gauss
variable {K : Type} [Field K] [LinearOrder K]

/-- The number of columns of a partial derivative. -/
def derivCols (c : Tensor K) : Param → Nat
  | .U => (c.headD []).length
  | .V => (c.headD []).length - 1

/-- C129 (part): if the rows of the output have the length of the result (or it has no rows), the old content does not matter. -/
theorem C129_partial_derivative_partial (c : Tensor K) (v : Param) (out : Tensor K) (h : ∀ r ∈ out, r.length = derivCols c v) :
    partialDerivativeInto c v out = partialDerivative c v := by
  unfold partialDerivativeInto partialDerivative
  rcases c with _ | ⟨r0, rest⟩
  · rfl
  cases v with
  | U =>
    simp only
    split
    · exact writeRows_same _ (resizeTensor_length _ _ _) (resizeTensor_rows _ _ _ h)
    · rfl
  | V =>
    simp only
    split
    · rfl
    split
    · exact writeRows_same _ (resizeTensor_length _ _ _) (resizeTensor_rows _ _ _ h)
    · rfl

/-- C129 fails for every output whose first row has another length: shorter, the write is undefined; longer, the result keeps the old tail of the row. -/
theorem C129_partial_derivative_counterexample (c : Tensor K) (n m : Nat) (hc : Rect c n m) (hn : 2 ≤ n) (hm : 0 < m) (v : Param) (r : List (Vec3 K)) (out : Tensor K)
    (h : r.length ≠ derivCols c v) :
    (r.length < derivCols c v → partialDerivativeInto c v (r :: out) = .ub) ∧ partialDerivativeInto c v (r :: out) ≠ partialDerivative c v ∧
    ∀ t, partialDerivativeInto c v (r :: out) = .ok t → (t.headD []).drop (derivCols c v) = r.drop (derivCols c v) := by
  obtain ⟨r0, rest, rfl, e1, e2⟩ := hc.cons (by omega)
  have hl : (r0 :: rest).length = n := hc.1
  have hz : ∀ N M, 0 < N → resizeTensor (r :: out) N M = r :: (resizeTensor out (N - 1) M) := by
    intro N M hN
    obtain ⟨N, rfl⟩ : ∃ N', N = N' + 1 := ⟨N - 1, by omega⟩
    simp [resizeTensor]
  have key : ∀ (f : Nat → Nat → Vec3 K) (N M : Nat), 0 < N → r.length ≠ M → (r.length < M → writeRows f M (resizeTensor (r :: out) N M) = .ub) ∧
      ((writeRows f M (resizeTensor (r :: out) N M)) ≠ .ok ((List.range N).map fun i => (List.range M).map (f i))) ∧
      ∀ t, writeRows f M (resizeTensor (r :: out) N M) = .ok t → (t.headD []).drop M = r.drop M := by
    intro f N M hN hr
    rw [hz N M hN]
    unfold writeRows
    have hlt : r.length < M → ¬ ((r :: resizeTensor out (N - 1) M).all fun r => decide (M ≤ r.length)) = true := by
      intro h1 h2
      rw [List.all_eq_true] at h2
      have := h2 r List.mem_cons_self
      simp at this
      omega
    refine ⟨fun h1 => if_neg (hlt h1), fun h1 => ?_, fun t h1 => ?_⟩
    · split at h1
      · rename_i h2
        have h3 : ¬ r.length < M := fun h3 => hlt h3 h2
        obtain ⟨N, rfl⟩ : ∃ N', N = N' + 1 := ⟨N - 1, by omega⟩
        rw [List.mapIdx_cons, List.range_succ_eq_map, List.map_cons] at h1
        injection h1 with h1
        injection h1 with h1 _
        have := congrArg List.length h1
        simp at this
        omega
      · cases h1
    · split at h1
      · injection h1 with h1
        rw [← h1]
        simp
      · cases h1
  cases v with
  | U =>
    obtain ⟨k1, k2, k3⟩ := key (fun i j => (tcell (r0 :: rest) (i + 1) j).smul ((i + 1 : Nat) : K)) ((r0 :: rest).length - 1) r0.length (by omega) h
    unfold partialDerivativeInto partialDerivative
    simp only [e2, if_true]
    exact ⟨k1, k2, k3⟩
  | V =>
    have h0 : r0.length ≠ 0 := by omega
    obtain ⟨k1, k2, k3⟩ := key (fun i j => (tcell (r0 :: rest) i (j + 1)).smul ((j + 1 : Nat) : K)) (r0 :: rest).length (r0.length - 1) (by simp) h
    unfold partialDerivativeInto partialDerivative
    simp only [e2, if_true, if_neg h0]
    exact ⟨k1, k2, k3⟩

/-- C129 (part): the cross product of two tensors written into an empty one is the product. -/
theorem C129_cross_partial (a b : Tensor K) (n1 m1 n2 m2 : Nat) (ha : Rect a n1 m1) (hb : Rect b n2 m2) (h1 : 0 < n1) (h2 : 0 < n2)
    (hm : 0 < m1 + m2) : crossInto a b [] = crossTensor a b := by
  obtain ⟨a0, as, rfl, e1, e2⟩ := ha.cons h1
  obtain ⟨b0, bs, rfl, f1, f2⟩ := hb.cons h2
  unfold crossTensor crossInto
  simp only [e2, f2, Bool.and_self, if_true]
  rw [if_neg (by omega), if_neg (by omega), resizeTensor_nil]
  refine foldlM_addCell _ _ _ (n := (a0 :: as).length + (b0 :: bs).length - 1) (m := a0.length + b0.length - 1) _ _ (zero_rect _ _) ?_
  intro q hq
  simp only [List.mem_flatMap, List.mem_map, List.mem_range] at hq
  obtain ⟨i1, k1, j1, k2, i2, k3, j2, k4, rfl⟩ := hq
  constructor <;> dsimp only <;> omega

/-- C129: the cross product of two tensors without columns throws, whatever `result` holds: one less than no columns is a size that no vector has. -/
theorem C129_no_columns (a b out : Tensor K) (n1 n2 : Nat) (ha : Rect a n1 0) (hb : Rect b n2 0) (h1 : 0 < n1) (h2 : 0 < n2) :
    crossInto a b out = .throws := by
  obtain ⟨a0, as, rfl, e1, e2⟩ := ha.cons h1
  obtain ⟨b0, bs, rfl, f1, f2⟩ := hb.cons h2
  unfold crossInto
  simp only [e2, f2, Bool.and_self, if_true]
  rw [if_pos (by omega)]

/-- Two tensors without columns. -/
example : Rect ([[], []] : Tensor ℚ) 2 0 ∧ Rect ([[]] : Tensor ℚ) 1 0 := by constructor <;> (constructor <;> simp)

/-- C129: the cross product reads behind a row that is shorter than the first row, and before the first row of a tensor without rows: undefined, whatever `result` holds. -/
theorem C129_ragged (a b out : Tensor K) :
    (a = [] ∨ b = [] → crossInto a b out = .ub) ∧
    (∀ a0 as, a = a0 :: as → (∃ r ∈ as, r.length < a0.length) → crossInto a b out = .ub) ∧
    (∀ b0 bs, b = b0 :: bs → (∃ r ∈ bs, r.length < b0.length) → crossInto a b out = .ub) := by
  refine ⟨fun h => ?_, fun a0 as h ⟨r, hr, hl⟩ => ?_, fun b0 bs h ⟨r, hr, hl⟩ => ?_⟩
  · rcases h with rfl | rfl
    · rfl
    · cases a <;> rfl
  · subst h
    cases b with
    | nil => rfl
    | cons b0 bs =>
      unfold crossInto
      have : as.all (fun r => decide (a0.length ≤ r.length)) = false := by
        rw [List.all_eq_false]
        exact ⟨r, hr, by simpa using hl⟩
      simp only [this, Bool.false_and, Bool.false_eq_true, if_false]
  · subst h
    cases a with
    | nil => rfl
    | cons a0 as =>
      unfold crossInto
      have : bs.all (fun r => decide (b0.length ≤ r.length)) = false := by
        rw [List.all_eq_false]
        exact ⟨r, hr, by simpa using hl⟩
      simp only [this, Bool.and_false, Bool.false_eq_true, if_false]

/-- Such a tensor. -/
example : ∃ r ∈ ([[0]] : Tensor ℚ), r.length < ([0, 0] : List (Vec3 ℚ)).length := by simp

/-- C129 fails for `cross(a, b, result)`: the product is added to what `result` holds. So the result is the product exactly if `result` was zero. -/
theorem C129_cross_counterexample (a b out : Tensor K) (n1 m1 n2 m2 : Nat) (ha : Rect a n1 m1) (hb : Rect b n2 m2) (h1 : 0 < n1) (h2 : 0 < n2)
    (hm : 0 < m1 + m2) (ho : Rect out (n1 + n2 - 1) (m1 + m2 - 1)) :
    ∃ p t, crossTensor a b = .ok p ∧ crossInto a b out = .ok t ∧ Rect t (n1 + n2 - 1) (m1 + m2 - 1) ∧
      (∀ i < n1 + n2 - 1, ∀ j < m1 + m2 - 1, tcell t i j = tcell out i j + tcell p i j) ∧
      (crossInto a b out = crossTensor a b ↔ ∀ r ∈ out, ∀ q ∈ r, q = 0) := by
  obtain ⟨p, hp, hr, -⟩ := cross_ok ha hb h1 h2 hm
  have main : ∃ t, crossInto a b out = .ok t ∧ Rect t (n1 + n2 - 1) (m1 + m2 - 1) ∧
      (∀ i < n1 + n2 - 1, ∀ j < m1 + m2 - 1, tcell t i j = tcell out i j + tcell p i j) := by
    obtain ⟨a0, as, rfl, e1, e2⟩ := ha.cons h1
    obtain ⟨b0, bs, rfl, f1, f2⟩ := hb.cons h2
    have hl := ha.1
    have hl' := hb.1
    unfold crossTensor at hp
    unfold crossInto
    simp only [e2, f2, Bool.and_self, if_true] at hp ⊢
    rw [if_neg (by omega)] at hp ⊢
    rw [hl, hl', e1, f1] at hp ⊢
    rw [resizeTensor_rect ho]
    have hq : ∀ q ∈ (List.range n1).flatMap fun i1 => (List.range m1).flatMap fun j1 =>
        (List.range n2).flatMap fun i2 => (List.range m2).map fun j2 => (i1, j1, i2, j2),
        q.1 + q.2.2.1 < n1 + n2 - 1 ∧ q.2.1 + q.2.2.2 < m1 + m2 - 1 := by
      intro q hq
      simp only [List.mem_flatMap, List.mem_map, List.mem_range] at hq
      obtain ⟨i1, k1, j1, k2, i2, k3, j2, k4, rfl⟩ := hq
      constructor <;> dsimp only <;> omega
    refine ⟨_, foldlM_addCell (fun q : Nat × Nat × Nat × Nat => q.1 + q.2.2.1) (fun q => q.2.1 + q.2.2.2) _ _ _ ho hq, ?_⟩
    injection hp with hp
    rw [← hp]
    refine foldl_addCell_add (fun q : Nat × Nat × Nat × Nat => q.1 + q.2.2.1) (fun q => q.2.1 + q.2.2.2) _ _ _ _ out ho (zero_rect _ _) ?_
    intro i hi j hj
    have : tcell (List.replicate (n1 + n2 - 1) (List.replicate (m1 + m2 - 1) (0 : Vec3 K))) i j = 0 := by
      simp [tcell, hi, hj]
    rw [this]
    show _ = Vec3.mk _ _ _
    simp only [Vec3.zero_x, Vec3.zero_y, Vec3.zero_z, add_zero]
  obtain ⟨t, ht, hrt, hc⟩ := main
  refine ⟨p, t, hp, ht, hrt, hc, ?_⟩
  rw [hp, ht]
  have hcell : ∀ i (hi : i < out.length) j (hj : j < out[i].length), tcell out i j = out[i][j] := by
    intro i hi j hj
    simp [tcell, hi, hj]
  constructor
  · intro e r hr' q hq
    injection e with e
    subst e
    obtain ⟨i, hi, rfl⟩ := List.getElem_of_mem hr'
    obtain ⟨j, hj, rfl⟩ := List.getElem_of_mem hq
    have := hc i (by rw [← ho.1]; exact hi) j (by rw [← ho.2 _ hr']; exact hj)
    rw [← hcell i hi j hj]
    generalize tcell out i j = u at this
    generalize tcell t i j = w at this
    obtain ⟨u1, u2, u3⟩ := u
    obtain ⟨w1, w2, w3⟩ := w
    have e1 : w1 = u1 + w1 := congrArg Vec3.x this
    have e2 : w2 = u2 + w2 := congrArg Vec3.y this
    have e3 : w3 = u3 + w3 := congrArg Vec3.z this
    show Vec3.mk _ _ _ = Vec3.mk _ _ _
    congr 1
    · exact left_eq_add.mp (by rw [add_comm] at e1; exact e1)
    · exact left_eq_add.mp (by rw [add_comm] at e2; exact e2)
    · exact left_eq_add.mp (by rw [add_comm] at e3; exact e3)
  · intro h0
    congr 1
    apply List.ext_getElem (by rw [hrt.1, hr.1])
    intro i hi hi'
    apply List.ext_getElem (by rw [hrt.2 _ (List.getElem_mem hi), hr.2 _ (List.getElem_mem hi')])
    intro j hj hj'
    have hin : i < n1 + n2 - 1 := by rw [← hrt.1]; exact hi
    have hjm : j < m1 + m2 - 1 := by rw [← hrt.2 _ (List.getElem_mem hi)]; exact hj
    have := hc i hin j hjm
    have ho' : i < out.length := by rw [ho.1]; exact hin
    have hoj : j < out[i].length := by rw [ho.2 _ (List.getElem_mem ho')]; exact hjm
    rw [hcell i ho' j hoj, h0 _ (List.getElem_mem ho') _ (List.getElem_mem hoj)] at this
    have h4 : tcell t i j = t[i][j] := by simp [tcell, hi, hj]
    have h5 : tcell p i j = p[i][j] := by simp [tcell, hi', hj']
    rw [← h4, ← h5, this]
    show Vec3.mk _ _ _ = _
    simp only [Vec3.zero_x, Vec3.zero_y, Vec3.zero_z, zero_add]

/-- The tensors of the examples: 1 + u v in the first coordinate and v in the second. -/
def tensor1 : Tensor ℚ := [[⟨1, 0, 0⟩, ⟨0, 1, 0⟩], [⟨0, 0, 0⟩, ⟨1, 0, 0⟩]]

/-- The cases of C129 for tensors. -/
example : Rect tensor1 2 2 ∧ derivCols tensor1 .U = 2 ∧ derivCols tensor1 .V = 1 ∧
    partialDerivativeInto tensor1 .U [[⟨7, 7, 7⟩, ⟨8, 8, 8⟩], [⟨9, 9, 9⟩, ⟨9, 9, 9⟩]] = .ok [[⟨0, 0, 0⟩, ⟨1, 0, 0⟩]] ∧
    partialDerivativeInto tensor1 .V [[⟨7, 7, 7⟩, ⟨8, 8, 8⟩]] = .ok [[⟨0, 1, 0⟩, ⟨8, 8, 8⟩], [⟨1, 0, 0⟩]] ∧
    partialDerivativeInto tensor1 .U [[⟨7, 7, 7⟩]] = .ub ∧
    crossInto [[⟨1, 0, 0⟩]] [[⟨0, 1, 0⟩]] [] = .ok [[(⟨0, 0, 1⟩ : Vec3 ℚ)]] ∧
    crossInto [[⟨1, 0, 0⟩]] [[⟨0, 1, 0⟩]] [[⟨0, 0, 1⟩]] = .ok [[(⟨0, 0, 2⟩ : Vec3 ℚ)]] := by
  refine ⟨⟨rfl, by decide +kernel⟩, ?_⟩
  decide +kernel

section surfaces
variable [IsStrictOrderedRing K]

theorem resizeRows_get {rows : List (List (Vec4 K))} {n m k : Nat} (hk : k < n) :
    (resizeRows rows n m)[k]? = if k < rows.length then rows[k]? else some (List.replicate m ⟨0, 0, 0, 1⟩) := by
  unfold resizeRows
  split
  · rename_i h
    rw [List.getElem?_append_left (by simp; omega), List.getElem?_take_of_lt hk]
  · rename_i h
    rw [List.getElem?_append_right (by simp; omega), List.getElem?_replicate, if_pos (by simp; omega)]

omit [IsStrictOrderedRing K] in
theorem resizeRows_length (rows : List (List (Vec4 K))) (n m : Nat) : (resizeRows rows n m).length = n := by
  simp [resizeRows]; omega

/-- C129 (part): `to_bezier(surf)` into a surface whose rows have the length of the result: the coordinates are those of a new surface, but the control points that
existed keep their weights. If these are one (or there are no rows) the result is that of a new surface. -/
theorem C129_to_bezier_partial (c : Tensor K) (n m : Nat) (hc : Rect c n m) (hn : 0 < n ∧ n ≤ 31) (hm : 0 < m ∧ m ≤ 31) (surf : Surface K)
    (hs : ∀ r ∈ surf.cpts, r.length = m) :
    ∃ q g h, Monomial.ofCoeffs c = .ok q ∧ q.toBezier = .ok g ∧ toBezierInto q surf = .ok h ∧ h = { g with cpts := h.cpts } ∧ h.cpts.length = n ∧
      (∀ r ∈ h.cpts, r.length = m) ∧
      (∀ i < n, ∀ j < m, cell h.cpts i j = { cell g.cpts i j with w := if i < surf.cpts.length then (cell surf.cpts i j).w else 1 }) ∧
      (SurfUnit surf → h = g) := by
  obtain ⟨q, a1, rfl, rfl, rfl, a5⟩ := ofCoeffs_ok c n m hc hn hm
  obtain ⟨g, x, y, z, b1, hx, hy, hz, -, -, b4, b5⟩ := toBezierInto_eq q hn.1 hm.1 a5 hc
  have hrow : ∀ k r, (resizeRows surf.cpts q.n q.m)[k]? = some r → k < q.n ∧ r.length = q.m := by
    intro k r hk
    have h1 : k < q.n := by
      have := (List.getElem?_eq_some_iff.mp hk).1
      rwa [resizeRows_length] at this
    refine ⟨h1, ?_⟩
    rw [resizeRows_get h1] at hk
    split at hk
    · exact hs r (List.mem_of_getElem? hk)
    · injection hk with hk
      rw [← hk, List.length_replicate]
  have hok := setRows_ok hx hy hz (resizeRows surf.cpts q.n q.m) 0 (by
    intro k r hk
    obtain ⟨h1, h2⟩ := hrow k r hk
    refine Or.inr ?_
    rw [h2, zero_add]
    calc k * q.m + q.m = (k + 1) * q.m := by ring
      _ ≤ q.n * q.m := Nat.mul_le_mul_right _ h1)
  simp only [zero_add] at hok
  have b6 := b5 surf
  rw [hok, Res.ok_bind] at b6
  have hlen : ∀ k (hk : k < (resizeRows surf.cpts q.n q.m).length), (resizeRows surf.cpts q.n q.m)[k].length = q.m := fun k hk =>
    (hrow k _ (List.getElem?_eq_getElem hk)).2
  have hcell : ∀ i (hi : i < q.n), ∀ j (hj : j < q.m), ((resizeRows surf.cpts q.n q.m)[i]'(by rw [resizeRows_length]; exact hi))[j]'(by rw [hlen]; exact hj) =
      if i < surf.cpts.length then cell surf.cpts i j else ⟨0, 0, 0, 1⟩ := by
    intro i hi j hj
    have h1 := resizeRows_get (rows := surf.cpts) (m := q.m) hi
    rw [List.getElem?_eq_getElem (by rw [resizeRows_length]; exact hi)] at h1
    split at h1
    · rename_i h2
      rw [List.getElem?_eq_getElem h2] at h1
      injection h1 with h1
      rw [if_pos h2, cell_eq h2, ix_eq_getElem (by rw [hs _ (List.getElem_mem h2)]; exact hj)]
      simp only [h1]
    · rename_i h2
      injection h1 with h1
      rw [if_neg h2]
      simp only [h1, List.getElem_replicate]
  refine ⟨q, g, _, a1, b1, b6, rfl, ?_, ?_, ?_, ?_⟩
  · simp [resizeRows_length]
  · intro r hr
    obtain ⟨i, hi, rfl⟩ := List.getElem_of_mem hr
    simp only [List.getElem_mapIdx, List.length_mapIdx]
    exact hlen _ _
  · intro i hi j hj
    have hi' : i < (resizeRows surf.cpts q.n q.m).length := by rw [resizeRows_length]; exact hi
    rw [cell_eq (by simpa using hi'), ix_eq_getElem (by simp [hlen, hj])]
    simp only [List.getElem_mapIdx]
    rw [hcell i hi j hj]
    have hg : cell g.cpts i j = ⟨x.get i j, y.get i j, z.get i j, 1⟩ := by
      rw [b4]
      simp [cell, ix, hi, hj]
    rw [hg]
    split <;> rfl
  · intro hu
    have : (resizeRows surf.cpts q.n q.m).mapIdx (fun k r => r.mapIdx fun j p => (⟨x.get k j, y.get k j, z.get k j, p.w⟩ : Vec4 K)) = g.cpts := by
      rw [b4]
      apply List.ext_getElem (by simp [resizeRows_length])
      intro i h1 h2
      simp only [List.length_map, List.length_range] at h2
      apply List.ext_getElem (by simp [hlen])
      intro j h3 h4
      simp only [List.getElem_map, List.length_map, List.length_range] at h4
      simp only [List.getElem_mapIdx, List.getElem_map, List.getElem_range]
      rw [hcell i h2 j h4]
      split
      · rename_i h5
        rw [cell_eq h5, ix_eq_getElem (by rw [hs _ (List.getElem_mem h5)]; exact h4), hu _ (List.getElem_mem h5) _ (List.getElem_mem _)]
      · rfl
    rw [this]

/-- C129 fails for `to_bezier(surf)` if the rows of `surf` have another length `L` than those of the result. Shorter: the rows stay short, and
`control_points_flat` of the result is undefined. Longer: the conversion is undefined if the last of the rows that stay reaches behind the matrix, in particular if
`surf` has as many rows as the result; otherwise the result differs from that of a new surface only by cells that `control_points_flat` does not read. -/
theorem C129_to_bezier_counterexample (c : Tensor K) (n m : Nat) (hc : Rect c n m) (hn : 0 < n ∧ n ≤ 31) (hm : 0 < m ∧ m ≤ 31) (surf : Surface K) (L : Nat)
    (hs : ∀ r ∈ surf.cpts, r.length = L) (h0 : surf.cpts ≠ []) :
    ∃ q g, Monomial.ofCoeffs c = .ok q ∧ q.toBezier = .ok g ∧
      (L < m → ∃ h, toBezierInto q surf = .ok h ∧ h.flat = .ub) ∧
      (m < L → n * m < (min surf.cpts.length n - 1) * m + L → toBezierInto q surf = .ub) ∧
      (m < L → n ≤ surf.cpts.length → toBezierInto q surf = .ub) ∧
      (m < L → ¬ n * m < (min surf.cpts.length n - 1) * m + L → SurfUnit surf → ∃ h, toBezierInto q surf = .ok h ∧ h ≠ g ∧ h.flat = g.flat) := by
  obtain ⟨q, a1, rfl, rfl, rfl, a5⟩ := ofCoeffs_ok c n m hc hn hm
  obtain ⟨g, x, y, z, b1, hx, hy, hz, su, sv, b4, b5⟩ := toBezierInto_eq q hn.1 hm.1 a5 hc
  have hR : 0 < surf.cpts.length := List.length_pos_of_ne_nil h0
  have hrow : ∀ k r, (resizeRows surf.cpts q.n q.m)[k]? = some r → k < q.n ∧ r.length = if k < surf.cpts.length then L else q.m := by
    intro k r hk
    have h1 : k < q.n := by
      have := (List.getElem?_eq_some_iff.mp hk).1
      rwa [resizeRows_length] at this
    refine ⟨h1, ?_⟩
    rw [resizeRows_get h1] at hk
    split at hk
    · rename_i h2
      rw [if_pos h2]
      exact hs r (List.mem_of_getElem? hk)
    · rename_i h2
      injection hk with hk
      rw [if_neg h2, ← hk, List.length_replicate]
  have hlen : ∀ k (hk : k < (resizeRows surf.cpts q.n q.m).length), (resizeRows surf.cpts q.n q.m)[k].length = if k < surf.cpts.length then L else q.m :=
    fun k hk => (hrow k _ (List.getElem?_eq_getElem hk)).2
  have hsmall : ∀ k < q.n, k * q.m + q.m ≤ q.n * q.m := by
    intro k hk
    calc k * q.m + q.m = (k + 1) * q.m := by ring
      _ ≤ q.n * q.m := Nat.mul_le_mul_right _ hk
  have hub : q.m < L → q.n * q.m < (min surf.cpts.length q.n - 1) * q.m + L → toBezierInto q surf = .ub := by
    intro h1 h2
    have hk : min surf.cpts.length q.n - 1 < q.n := by omega
    have hk' : min surf.cpts.length q.n - 1 < surf.cpts.length := by omega
    rw [b5, setRows_ub hx hy hz _ 0]
    · rfl
    · refine ⟨min surf.cpts.length q.n - 1, surf.cpts[min surf.cpts.length q.n - 1], ?_, ?_⟩
      · rw [resizeRows_get hk, if_pos hk', List.getElem?_eq_getElem hk']
      · unfold Reads
        rw [hs _ (List.getElem_mem hk'), zero_add]
        omega
  have hok : (∀ k < q.n, k < surf.cpts.length → k * q.m + L ≤ q.n * q.m) → toBezierInto q surf =
      .ok { g with cpts := (resizeRows surf.cpts q.n q.m).mapIdx fun k r => r.mapIdx fun j p => ⟨x.get k j, y.get k j, z.get k j, p.w⟩ } := by
    intro h1
    have := setRows_ok hx hy hz (resizeRows surf.cpts q.n q.m) 0 (by
      intro k r hk
      obtain ⟨h2, h3⟩ := hrow k r hk
      refine Or.inr ?_
      rw [h3, zero_add]
      split
      · rename_i h4
        exact h1 k h2 h4
      · exact hsmall k h2)
    simp only [zero_add] at this
    rw [b5, this, Res.ok_bind]
  refine ⟨q, g, a1, b1, ?_, hub, ?_, ?_⟩
  · intro hL
    refine ⟨_, hok fun k hk _ => ?_, ?_⟩
    · have := hsmall k hk
      omega
    · rw [Surface.flat, if_pos]
      rw [Surface.covered, Bool.and_eq_false_iff]
      refine Or.inr ?_
      rw [List.all_eq_false]
      have h3 : 0 < (resizeRows surf.cpts q.n q.m).length := by rw [resizeRows_length]; exact hn.1
      refine ⟨((resizeRows surf.cpts q.n q.m)[0]).mapIdx fun j p => ⟨x.get 0 j, y.get 0 j, z.get 0 j, p.w⟩, ?_, ?_⟩
      · rw [List.mem_take_iff_getElem]
        refine ⟨0, ?_, ?_⟩
        · simp only [List.length_mapIdx, su]
          omega
        · simp
      · simp only [List.length_mapIdx, hlen, if_pos hR, decide_eq_true_eq, sv]
        omega
  · intro hL hRn
    refine hub hL ?_
    rw [min_eq_right hRn]
    have e : (q.n - 1) * q.m + q.m = q.n * q.m := by
      calc (q.n - 1) * q.m + q.m = (q.n - 1 + 1) * q.m := by ring
        _ = q.n * q.m := by rw [Nat.sub_add_cancel hn.1]
    omega
  · intro hL hle hu
    have h1 : ∀ k < q.n, k < surf.cpts.length → k * q.m + L ≤ q.n * q.m := by
      intro k hk hk'
      have : k * q.m ≤ (min surf.cpts.length q.n - 1) * q.m := Nat.mul_le_mul_right _ (by omega)
      omega
    refine ⟨_, hok h1, ?_, ?_⟩
    · intro e
      have h2 := congrArg (fun s : Surface K => (s.cpts.headD []).length) e
      have h3 : 0 < (resizeRows surf.cpts q.n q.m).length := by rw [resizeRows_length]; exact hn.1
      rw [b4] at h2
      obtain ⟨r, rs, e1⟩ := List.exists_cons_of_length_pos h3
      have e2 := hlen 0 h3
      simp only [e1, List.getElem_cons_zero, if_pos hR] at e2
      obtain ⟨n', hn'⟩ : ∃ n', q.n = n' + 1 := ⟨q.n - 1, by omega⟩
      rw [e1, hn'] at h2
      simp [List.mapIdx_cons, List.range_succ_eq_map] at h2
      omega
    · have hcov : ∀ rows : List (List (Vec4 K)), rows.length = q.n → (∀ r ∈ rows, q.m ≤ r.length) → ({ g with cpts := rows } : Surface K).covered = true := by
        intro rows e1 e2
        rw [Surface.covered, Bool.and_eq_true]
        refine ⟨by simp [su, e1], ?_⟩
        rw [List.all_eq_true]
        intro r hr
        simp only [sv, decide_eq_true_eq]
        exact e2 r (List.mem_of_mem_take hr)
      have c1 := hcov ((resizeRows surf.cpts q.n q.m).mapIdx fun k r => r.mapIdx fun j p => ⟨x.get k j, y.get k j, z.get k j, p.w⟩)
        (by simp [resizeRows_length]) (by
          intro r hr
          obtain ⟨i, hi, rfl⟩ := List.getElem_of_mem hr
          simp only [List.getElem_mapIdx, List.length_mapIdx]
          rw [hlen]
          split <;> omega)
      have c2 := hcov g.cpts (by rw [b4]; simp) (by
        intro r hr
        rw [b4, List.mem_map] at hr
        obtain ⟨i, -, rfl⟩ := hr
        simp)
      rw [Surface.flat, Surface.flat, if_neg (by rw [c1]; simp), if_neg (by rw [show g.covered = true from c2]; simp)]
      congr 1
      rw [su, sv]
      refine List.flatMap_congr fun i hi => List.map_congr_left fun j hj => ?_
      rw [List.mem_range] at hi hj
      have hi' : i < (resizeRows surf.cpts q.n q.m).length := by rw [resizeRows_length]; exact hi
      have hl := hlen i hi'
      have hj' : j < (resizeRows surf.cpts q.n q.m)[i].length := by
        rw [hl]
        split <;> omega
      have hw : ((resizeRows surf.cpts q.n q.m)[i][j]).w = 1 := by
        have h2 := resizeRows_get (rows := surf.cpts) (m := q.m) hi
        rw [List.getElem?_eq_getElem hi'] at h2
        split at h2
        · rename_i h3
          rw [List.getElem?_eq_getElem h3] at h2
          injection h2 with h2
          exact hu _ (h2 ▸ List.getElem_mem h3) _ (List.getElem_mem _)
        · injection h2 with h2
          simp only [h2, List.getElem_replicate]
      rw [cell_eq (by simpa using hi'), ix_eq_getElem (by simpa using hj')]
      simp only [List.getElem_mapIdx, hw]
      rw [b4]
      simp [cell, ix, hi, hj]

omit [IsStrictOrderedRing K] in
/-- C129: an empty polynomial is never converted, whatever the surface holds. -/
theorem C129_empty (q : Monomial K) (surf : Surface K) (h : q.n = 0 ∨ q.m = 0) : ∀ r, toBezierInto q surf ≠ .ok r := by
  intro r e
  unfold toBezierInto at e
  obtain ⟨T, -, e⟩ := Csx.ok_of_bind e
  obtain ⟨x, -, e⟩ := Csx.ok_of_bind e
  obtain ⟨rows, -, e⟩ := Csx.ok_of_bind e
  rw [if_pos h] at e
  cases e

omit [IsStrictOrderedRing K] in
/-- C129: converting a polynomial object that was never given coefficients is undefined behaviour, whatever the surface holds. -/
theorem C129_default (surf : Surface K) : toBezierInto (Monomial.empty : Monomial K) surf = .ub := by
  rfl

/-- Also for coefficients of one empty row the conversion is undefined. -/
example : (Monomial.ofCoeffs ([[]] : Tensor ℚ) >>= fun q => toBezierInto q ⟨[], 0, 0, 0, 0, [], [], 0, 0, 0, 0⟩) = .ub ∧
    (match Monomial.ofCoeffs ([[]] : Tensor ℚ) with | .ok q => (q.n, q.m) | _ => (0, 1)) = (1, 0) := by
  constructor <;> decide +kernel

/-- A control net from which the Gauss map can be computed. -/
structure Mappable (s : Surface K) : Prop where
  size_u : 2 ≤ s.su ∧ s.su ≤ 16
  size_v : 2 ≤ s.sv ∧ s.sv ≤ 16
  rows : s.cpts.length = s.su
  cols : ∀ r ∈ s.cpts, r.length = s.sv
  weights : ∀ r ∈ s.cpts, ∀ p ∈ r, p.w ≠ 0

theorem build_shape {s : Surface K} (S : Mappable s) {old : Map K} (h : Map.build s = .ok old) : old.surf.cpts.length = 2 * s.su - 2 ∧
    (∀ r ∈ old.surf.cpts, r.length = 2 * s.sv - 2) ∧ SurfUnit old.surf := by
  obtain ⟨g, h1, ⟨h2, h3⟩, -, h4, h5, -, -, -, h6⟩ := gaussMap_shape s S.size_u S.size_v S.rows S.cols S.weights
  obtain ⟨e, -⟩ := C89_class s old h
  rw [h1] at e
  injection e with e
  subst e
  exact ⟨by rw [h4, h2], fun r hr => by rw [h5 r hr, h3], h6⟩

theorem build_coeffs {s : Surface K} (S : Mappable s) : ∃ c, Rect c (2 * s.su - 2) (2 * s.sv - 2) ∧
    (∀ q g, Monomial.ofCoeffs c = .ok q → q.toBezier = .ok g → gaussMap s = .ok g) ∧
    ∀ q, Monomial.ofCoeffs c = .ok q → ∀ old : Map K, buildInto old s = toBezierInto q old.surf >>= fun surf => Csx.surfacePoints surf >>= fun pts =>
      .ok ⟨pts, inverted pts, surf⟩ := by
  obtain ⟨q, q1, q2, -⟩ := C41_control_net s ⟨by have := S.size_u; omega, by have := S.size_u; omega⟩ ⟨by have := S.size_v; omega, by have := S.size_v; omega⟩
    S.rows S.cols S.weights
  obtain ⟨t, t1, t2, -⟩ := normal_coeffs q s.su s.sv q2 S.size_u.1 S.size_v.1
  refine ⟨t, t2, fun q' g h1 h2 => ?_, fun q' h1 old => ?_⟩
  · rw [gaussMap, q1, Res.ok_bind, t1, h1, Res.ok_bind, h2]
  · rw [buildInto, q1, Res.ok_bind, t1, h1, Res.ok_bind]

/-- C129 (part): building a Gauss map again with a surface that has as many columns as the one before (and any number of rows) gives the map of a new object. -/
theorem C129_rebuild_partial (s0 s : Surface K) (S0 : Mappable s0) (S : Mappable s) (old : Map K) (h : Map.build s0 = .ok old) (hv : s.sv = s0.sv) :
    buildInto old s = Map.build s := by
  obtain ⟨h1, h2, h3⟩ := build_shape S0 h
  obtain ⟨c, c1, c2, c3⟩ := build_coeffs S
  have su := S.size_u
  have sv := S.size_v
  obtain ⟨q, g, b, a1, a2, a3, -, -, -, -, a4⟩ := C129_to_bezier_partial c _ _ c1 ⟨by omega, by omega⟩ ⟨by omega, by omega⟩ old.surf (by rw [hv]; exact h2)
  rw [c3 q a1, a3, Res.ok_bind, a4 h3, Map.build, c2 q g a1 a2, Res.ok_bind]

/-- C129 fails for `GaussMap::build` on an object that was built before: undefined with more columns than before, and with fewer columns unless the new surface has so
many more rows that the old rows do not reach the end (then the points are those of a new object). In particular it is undefined for all surfaces with fewer columns and
not more rows. -/
theorem C129_rebuild_counterexample (s0 s : Surface K) (S0 : Mappable s0) (S : Mappable s) (old : Map K) (h : Map.build s0 = .ok old) :
    (∃ new, Map.build s = .ok new) ∧ (s0.sv < s.sv → buildInto old s = .ub) ∧ (s.sv < s0.sv → s.su ≤ s0.su → buildInto old s = .ub) ∧
    (s.sv < s0.sv → s0.su < s.su → (2 * s.su - 2) * (2 * s.sv - 2) < (2 * s0.su - 3) * (2 * s.sv - 2) + (2 * s0.sv - 2) → buildInto old s = .ub) ∧
    (s.sv < s0.sv → s0.su < s.su → (2 * s0.su - 3) * (2 * s.sv - 2) + (2 * s0.sv - 2) ≤ (2 * s.su - 2) * (2 * s.sv - 2) →
      ∃ new r, Map.build s = .ok new ∧ buildInto old s = .ok r ∧ r.pts = new.pts ∧ r.ptsInv = new.ptsInv ∧ r.surf ≠ new.surf) := by
  obtain ⟨h1, h2, h3⟩ := build_shape S0 h
  obtain ⟨c, c1, c2, c3⟩ := build_coeffs S
  have su := S.size_u
  have sv := S.size_v
  have su0 := S0.size_u
  have sv0 := S0.size_v
  have hne : old.surf.cpts ≠ [] := by
    intro e
    rw [e] at h1
    simp at h1
    omega
  obtain ⟨q, g, a1, a2, a3, a4, a5, a6⟩ := C129_to_bezier_counterexample c _ _ c1 ⟨by omega, by omega⟩ ⟨by omega, by omega⟩ old.surf _ h2 hne
  have hg := c2 q g a1 a2
  have hpts : ∃ pts, Csx.surfacePoints g = .ok pts ∧ Map.build s = .ok ⟨pts, inverted pts, g⟩ := by
    obtain ⟨g', e1, -, -, e2, e3, -⟩ := gaussMap_shape s S.size_u S.size_v S.rows S.cols S.weights
    rw [hg] at e1
    injection e1 with e1
    subst e1
    have hcov : g.covered = true := by
      rw [Surface.covered, Bool.and_eq_true]
      refine ⟨by simp [e2], ?_⟩
      rw [List.all_eq_true]
      intro r hr
      simp [e3 r (List.mem_of_mem_take hr)]
    have : ∃ pts, Csx.surfacePoints g = .ok pts := by
      unfold Csx.surfacePoints Surface.flat
      rw [if_neg (by rw [hcov]; simp), Res.ok_bind]
      exact ⟨_, rfl⟩
    obtain ⟨pts, hp⟩ := this
    exact ⟨pts, hp, by rw [Map.build, hg, Res.ok_bind, hp, Res.ok_bind]⟩
  obtain ⟨pts, hp, hb⟩ := hpts
  rw [h1] at a4 a5 a6
  refine ⟨⟨_, hb⟩, fun hv => ?_, fun hv hu => ?_, fun hv hu hlt => ?_, fun hv hu hle => ?_⟩
  · obtain ⟨b, b1, b2⟩ := a3 (by omega)
    rw [c3 q a1, b1, Res.ok_bind, Csx.surfacePoints, b2]
    rfl
  · rw [c3 q a1, a5 (by omega) (by omega)]
    rfl
  · rw [c3 q a1, a4 (by omega) (by rw [min_eq_left (by omega), show 2 * s0.su - 2 - 1 = 2 * s0.su - 3 by omega]; exact hlt)]
    rfl
  · obtain ⟨b, b1, b2, b3⟩ := a6 (by omega) (by rw [min_eq_left (by omega), show 2 * s0.su - 2 - 1 = 2 * s0.su - 3 by omega]; exact not_lt.mpr hle) h3
    have hp' : Csx.surfacePoints b = .ok pts := by
      rw [← hp, Csx.surfacePoints, Csx.surfacePoints, b3]
    exact ⟨_, ⟨pts, inverted pts, b⟩, hb, by rw [c3 q a1, b1, Res.ok_bind, hp', Res.ok_bind], rfl, rfl, b2⟩

omit [IsStrictOrderedRing K] in
/-- C129: the derivative net written into a surface is that of a new object, except that the surface keeps its sizes and its domain. -/
theorem C129_derivative_net_partial (s out : Surface K) (d : Int) : (derivativeNetInto s d out = .throws ↔ s.derivativeNet d = .throws) ∧
    (derivativeNetInto s d out = .ub ↔ s.derivativeNet d = .ub) ∧
    ∀ r, derivativeNetInto s d out = .ok r ↔ ∃ r', s.derivativeNet d = .ok r' ∧ r = ⟨r'.cpts, r'.du, r'.dv, out.su, out.sv, r'.ku, r'.kv, out.u0, out.u1, out.v0, out.v1⟩ := by
  unfold derivativeNetInto
  rcases h : s.derivativeNet d with r' | _ | _
  · refine ⟨by simp [bind, Res.bind], by simp [bind, Res.bind], fun r => ?_⟩
    simp only [Res.ok_bind, Res.ok.injEq, exists_eq_left']
    exact eq_comm
  · exact ⟨by simp [bind, Res.bind], by simp [bind, Res.bind], fun r => by simp [bind, Res.bind]⟩
  · exact ⟨by simp [bind, Res.bind], by simp [bind, Res.bind], fun r => by simp [bind, Res.bind]⟩

omit [IsStrictOrderedRing K] in
/-- C129 fails for the derivative of a surface into itself (or into any other surface with at least its sizes): the net has one row or column less than the kept size,
and `control_points_flat` of the result is undefined. -/
theorem C129_derivative_net_counterexample (s out r : Surface K) (d : Int) (hs : s.su ≤ out.su ∧ s.sv ≤ out.sv) (h : derivativeNetInto s d out = .ok r) :
    r.flat = .ub := by
  obtain ⟨r', h1, rfl⟩ := ((C129_derivative_net_partial s out d).2.2 r).mp h
  rw [Surface.flat, if_pos]
  unfold Surface.derivativeNet at h1
  split at h1
  · cases h1
  split at h1
  · cases h1
  rename_i _ hpos
  push Not at hpos
  obtain ⟨-, hu, hv⟩ := hpos
  rw [Surface.covered, Bool.and_eq_false_iff]
  split at h1
  · split at h1
    · cases h1
    · injection h1 with h1
      subst h1
      left
      simp
      omega
  · split at h1
    · cases h1
    · injection h1 with h1
      subst h1
      right
      rw [List.all_eq_false]
      refine ⟨(List.range (s.sv - 1)).map fun j => (cell s.cpts 0 (j + 1) - cell s.cpts 0 j).smul ((s.dv : K) / (ix s.kv (j + s.dv + 1) - ix s.kv (j + 1))), ?_, ?_⟩
      · rw [List.mem_take_iff_getElem]
        refine ⟨0, by simp; omega, by simp⟩
      · simp
        omega

/-- A bilinear patch, a patch with three columns and one with three rows. -/
def patch22 : Surface ℚ := ⟨[[⟨0, 0, 0, 1⟩, ⟨0, 1, 0, 1⟩], [⟨1, 0, 0, 1⟩, ⟨1, 1, 1, 1⟩]], 1, 1, 2, 2, [0, 0, 1, 1], [0, 0, 1, 1], 0, 1, 0, 1⟩
def patch23 : Surface ℚ :=
  ⟨[[⟨0, 0, 0, 1⟩, ⟨0, 1, 0, 1⟩, ⟨0, 2, 1, 1⟩], [⟨1, 0, 0, 1⟩, ⟨1, 1, 1, 1⟩, ⟨1, 2, 0, 1⟩]], 1, 2, 2, 3, [0, 0, 1, 1], [0, 0, 0, 1, 1, 1], 0, 1, 0, 1⟩
def patch42 : Surface ℚ :=
  ⟨[[⟨0, 0, 0, 1⟩, ⟨0, 1, 0, 1⟩], [⟨1, 0, 0, 1⟩, ⟨1, 1, 1, 1⟩], [⟨2, 0, 0, 1⟩, ⟨2, 1, 1, 1⟩], [⟨3, 0, 0, 1⟩, ⟨3, 1, 4, 1⟩]], 3, 1, 4, 2,
    [0, 0, 0, 0, 1, 1, 1, 1], [0, 0, 1, 1], 0, 1, 0, 1⟩

theorem patches_mappable : Mappable patch22 ∧ Mappable patch23 ∧ Mappable patch42 := by
  refine ⟨⟨?_, ?_, ?_, ?_, ?_⟩, ⟨?_, ?_, ?_, ?_, ?_⟩, ⟨?_, ?_, ?_, ?_, ?_⟩⟩ <;> decide +kernel

/-- The cases of C129 for the Gauss map: more columns, fewer columns, as many columns, and fewer columns with many more rows. -/
example (old : Map ℚ) (h : Map.build patch22 = .ok old) : buildInto old patch23 = .ub ∧ buildInto old patch42 = Map.build patch42 :=
  ⟨(C129_rebuild_counterexample patch22 patch23 patches_mappable.1 patches_mappable.2.1 old h).2.1 (by decide),
    C129_rebuild_partial patch22 patch42 patches_mappable.1 patches_mappable.2.2 old h rfl⟩

example (old : Map ℚ) (h : Map.build patch23 = .ok old) : buildInto old patch22 = .ub ∧ ∃ new r, Map.build patch42 = .ok new ∧ buildInto old patch42 = .ok r ∧
    r.pts = new.pts ∧ r.ptsInv = new.ptsInv ∧ r.surf ≠ new.surf :=
  ⟨(C129_rebuild_counterexample patch23 patch22 patches_mappable.2.1 patches_mappable.1 old h).2.2.1 (by decide) (by decide),
    (C129_rebuild_counterexample patch23 patch42 patches_mappable.2.1 patches_mappable.2.2 old h).2.2.2.2 (by decide) (by decide) (by decide)⟩

/-- The derivative of the bilinear patch, into itself. -/
example : derivativeNetInto patch22 0 patch22 = .ok ⟨[[⟨1, 0, 0, 0⟩, ⟨1, 0, 1, 0⟩]], 0, 1, 2, 2, [0, 1], [0, 0, 1, 1], 0, 1, 0, 1⟩ := by
  decide +kernel

end surfaces

end Cmm.Reuse
