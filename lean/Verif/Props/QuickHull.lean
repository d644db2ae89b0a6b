import Verif.Lemmas.QuickPoints
import Verif.Props.Hull3d
/-!
Quickhull (quickhull.hpp): the affine basis, the facets, and the convex hull of points of which no four are in a plane.
-/
namespace Cmm.Quick
open Cmm.Geom Cmm.Newton Cmm.Hull3d
variable {K : Type} [Field K] [LinearOrder K] [IsStrictOrderedRing K]

/-- Points on a twisted cubic: a concrete case for the theorems. -/
def cubic (n : Nat) : List (Vec3 K) := (List.range n).map fun t : Nat => ⟨(t : K), (t : K) ^ 2, (t : K) ^ 3⟩

omit [LinearOrder K] [IsStrictOrderedRing K] in
theorem cubic_some {n i : Nat} {p : Vec3 K} (h : (cubic n)[i]? = some p) : p = ⟨(i : K), (i : K) ^ 2, (i : K) ^ 3⟩ := by
  rw [cubic, List.getElem?_map, Option.map_eq_some_iff] at h
  obtain ⟨a, h1, h2⟩ := h
  rw [List.getElem?_range (List.getElem?_eq_some_iff.mp h1 |>.1 |> fun h => by simpa using h)] at h1
  cases h1
  exact h2.symm

theorem cubic_general (n : Nat) : NoFourCoplanar (cubic n : List (Vec3 K)) := by
  intro i j k l a b c p ha hb hc hp h1 h2 h3
  rw [cubic_some ha, cubic_some hb, cubic_some hc, cubic_some hp]
  have e : orient (⟨(i : K), (i : K) ^ 2, (i : K) ^ 3⟩ : Vec3 K) ⟨(j : K), (j : K) ^ 2, (j : K) ^ 3⟩ ⟨(k : K), (k : K) ^ 2, (k : K) ^ 3⟩ ⟨(l : K), (l : K) ^ 2, (l : K) ^ 3⟩ =
      ((j : K) - i) * (k - i) * (l - i) * (k - j) * (l - j) * (l - k) := by
    simp only [orient]; ring
  rw [e]
  have q : ∀ {x y : Nat}, x < y → ((y : K) - x) ≠ 0 := fun h => (sub_pos.mpr (Nat.cast_lt.mpr h)).ne'
  exact mul_ne_zero (mul_ne_zero (mul_ne_zero (mul_ne_zero (mul_ne_zero (q h1) (q (h1.trans h2))) (q (h1.trans (h2.trans h3)))) (q h2)) (q (h2.trans h3))) (q h3)

theorem cubic_integer : IntegerPoints 10000000 (cubic 200 : List (Vec3 K)) := by
  intro p hp
  rw [cubic, List.mem_map] at hp
  obtain ⟨t, ht, rfl⟩ := hp
  have ht : t < 200 := List.mem_range.mp ht
  refine ⟨t, t ^ 2, t ^ 3, by push_cast; rfl, ?_, ?_, ?_⟩
  · rw [abs_of_nonneg (by positivity)]; exact_mod_cast by omega
  · rw [abs_of_nonneg (by positivity)]
    have : t ^ 2 ≤ 200 ^ 2 := Nat.pow_le_pow_left ht.le 2
    exact_mod_cast this.trans (by norm_num)
  · rw [abs_of_nonneg (by positivity)]
    have : t ^ 3 ≤ 200 ^ 3 := Nat.pow_le_pow_left ht.le 3
    exact_mod_cast this.trans (by norm_num)

/-! ### The affine basis -/

/-- **C112**: the basis is a list of distinct places of points, the first one first, and it has one element more than the dimension of the points: none for no points,
one for equal points, two for points of a line, three for points of a plane, and four for all others. -/
theorem C112_dimension {sqrt : K → K} (hsq : IsSqrt sqrt) (flag : Bool) (pts : List (Vec3 K)) (hi : IntegerPoints 10000000 pts) :
    ((quickHull sqrt flag).basis pts).Nodup ∧ (∀ i ∈ (quickHull sqrt flag).basis pts, i < pts.length) ∧
    (pts ≠ [] → ((quickHull sqrt flag).basis pts).head? = some 0) ∧
    ((quickHull sqrt flag).basis pts).length ≤ 4 ∧
    (((quickHull sqrt flag).basis pts).length = 0 ↔ pts = []) ∧
    (((quickHull sqrt flag).basis pts).length ≤ 1 ↔ ∀ p ∈ pts, ∀ q ∈ pts, p = q) ∧
    (((quickHull sqrt flag).basis pts).length ≤ 2 ↔ OnOneLine pts) ∧
    (((quickHull sqrt flag).basis pts).length ≤ 3 ↔ InOnePlane pts) := by
  obtain ⟨h1, h2, h3⟩ := basis_spec hsq hi
  change List.Perm ((quickHull sqrt flag).basis pts ++ _) _ at h1
  change ((quickHull sqrt flag).basis pts).head? = _ at h2
  change Chosen _ _ ((quickHull sqrt flag).basis pts) at h3
  have hnd := h1.nodup_iff.mpr List.nodup_range
  have hlt : ∀ i ∈ (quickHull sqrt flag).basis pts, i < pts.length := fun i hi' =>
    List.mem_range.mp (h1.mem_iff.mp (List.mem_append_left _ hi'))
  refine ⟨(List.nodup_append.mp hnd).1, hlt, fun hp => ?_, ?_⟩
  · rw [h2]
    cases hl : pts.length with
    | zero => exact absurd (List.length_eq_zero_iff.mp hl) hp
    | succ m => rw [List.range_succ_eq_map]; rfl
  -- equal points are on a line, and points of a line are in a plane
  have c1 : (∀ p ∈ pts, ∀ q ∈ pts, p = q) → OnOneLine pts := by
    intro h
    cases hp : pts with
    | nil => exact ⟨⟨0, 0, 0⟩, ⟨0, 0, 0⟩, by simp⟩
    | cons a l =>
      refine ⟨a, ⟨0, 0, 0⟩, fun p hp' => ⟨0, ?_⟩⟩
      rw [h p (by rw [hp]; exact hp') a (by rw [hp]; exact List.mem_cons_self)]
      ext <;> simp [Vec3.smul]
  have c2 : OnOneLine pts → InOnePlane pts := by
    rintro ⟨a, d, h⟩
    obtain ⟨m, hm, hd⟩ : ∃ m : Vec3 K, (m.x ≠ 0 ∨ m.y ≠ 0 ∨ m.z ≠ 0) ∧ m.dot d = 0 := by
      by_cases hx : d.x = 0
      · exact ⟨⟨1, 0, 0⟩, .inl one_ne_zero, by simp [Vec3.dot, hx]⟩
      · exact ⟨⟨-d.y, d.x, 0⟩, .inr (.inl hx), by simp only [Vec3.dot]; ring⟩
    refine ⟨m, m.dot a, hm, fun p hp => ?_⟩
    obtain ⟨t, rfl⟩ := h p hp
    simp only [Vec3.dot, Vec3.smul, Vec3.add_x, Vec3.add_y, Vec3.add_z] at hd ⊢
    linear_combination t * hd
  have zero : ∀ x : Vec3 K, x.sqLength ≤ 0 → x = ⟨0, 0, 0⟩ := by
    intro x hx
    simp only [Vec3.sqLength] at hx
    ext <;> nlinarith [mul_self_nonneg x.x, mul_self_nonneg x.y, mul_self_nonneg x.z]
  have tor : ∀ p ∈ pts, ∃ i ∈ List.range pts.length, at' pts i = p := fun p hp => by
    obtain ⟨i, hi', e⟩ := mem_at hp
    exact ⟨i, List.mem_range.mpr hi', e⟩
  have n3 : ∀ a b c, a < pts.length → b < pts.length → c < pts.length → 0 < (normal (at' pts a) (at' pts b) (at' pts c)).sqLength → ¬ OnOneLine pts := by
    rintro a b c ha hb hc hp ⟨o, d, h⟩
    obtain ⟨t, ht⟩ := h _ (at_mem ha)
    obtain ⟨u, hu⟩ := h _ (at_mem hb)
    obtain ⟨v, hv⟩ := h _ (at_mem hc)
    rw [ht, hu, hv] at hp
    refine hp.ne' ?_
    simp only [normal, Vec3.cross, Vec3.sqLength, Vec3.smul, Vec3.sub_x, Vec3.sub_y, Vec3.sub_z, Vec3.add_x, Vec3.add_y, Vec3.add_z]
    ring
  generalize (quickHull sqrt flag).basis pts = basis at *
  cases h3 with
  | none h =>
    have hp : pts = [] := by simpa using h
    subst hp
    have E : ∀ p ∈ ([] : List (Vec3 K)), ∀ q ∈ ([] : List (Vec3 K)), p = q := by simp
    simpa using ⟨c1 E, c2 (c1 E)⟩
  | one a h =>
    have hp : pts ≠ [] := fun e => by have := hlt a (by simp); rw [e] at this; simp at this
    have E : ∀ p ∈ pts, ∀ q ∈ pts, p = q := by
      have : ∀ p ∈ pts, p = at' pts a := fun p hp => by
        obtain ⟨i, hi', rfl⟩ := tor p hp
        have e := zero _ (h i hi')
        have hx := congrArg Vec3.x e
        have hy := congrArg Vec3.y e
        have hz := congrArg Vec3.z e
        simp only [Vec3.sub_x, Vec3.sub_y, Vec3.sub_z] at hx hy hz
        ext
        · linarith
        · linarith
        · linarith
      intro p hp q hq
      rw [this p hp, this q hq]
    simp only [List.length_singleton]
    exact ⟨by omega, by simp [hp], by simp only [le_refl, true_iff]; exact E, by simp only [Nat.one_le_ofNat, true_iff]; exact c1 E,
      by simp only [Nat.one_le_ofNat, true_iff]; exact c2 (c1 E)⟩
  | two a b hpos hf h =>
    have ha := hlt a (by simp)
    have hb := hlt b (by simp)
    have hp : pts ≠ [] := fun e => by rw [e] at ha; simp at ha
    have E : ¬ ∀ p ∈ pts, ∀ q ∈ pts, p = q := fun h => by
      have e := h _ (at_mem ha) _ (at_mem hb)
      rw [e] at hpos
      simp [Vec3.sqLength] at hpos
    have L : OnOneLine pts := by
      refine ⟨at' pts a, at' pts b - at' pts a, fun p hp => ?_⟩
      obtain ⟨i, hi', rfl⟩ := tor p hp
      have e := zero _ (h i hi')
      rw [normal] at e
      have := par_of_cross hpos e
      refine ⟨(at' pts b - at' pts a).dot (at' pts i - at' pts a) / (at' pts b - at' pts a).sqLength, ?_⟩
      rw [← this]
      ext <;> simp
    simp only [List.length_cons, List.length_nil]
    exact ⟨by omega, by simp [hp], by simp only [Nat.reduceAdd, Nat.not_ofNat_le_one, false_iff]; exact E, by simp only [Nat.reduceAdd, le_refl, true_iff]; exact L,
      by simp only [Nat.reduceAdd, Nat.reduceLeDiff, true_iff]; exact c2 L⟩
  | three a b c hpos hf hf2 h =>
    have ha := hlt a (by simp)
    have hb := hlt b (by simp)
    have hc := hlt c (by simp)
    have hp : pts ≠ [] := fun e => by rw [e] at ha; simp at ha
    have L := n3 a b c ha hb hc hpos
    have Q : InOnePlane pts := by
      refine ⟨normal (at' pts a) (at' pts b) (at' pts c), (normal (at' pts a) (at' pts b) (at' pts c)).dot (at' pts a), ?_, fun p hp => ?_⟩
      · by_contra hn
        push Not at hn
        obtain ⟨n1, n2, n3⟩ := hn
        rw [Vec3.sqLength, n1, n2, n3] at hpos
        simp at hpos
      · obtain ⟨i, hi', rfl⟩ := tor p hp
        have e := pow_eq_zero_iff (two_ne_zero) |>.mp (le_antisymm (h i hi') (sq_nonneg _))
        rw [orient_normal] at e
        simp only [Vec3.dot, Vec3.sub_x, Vec3.sub_y, Vec3.sub_z] at e ⊢
        linear_combination e
    simp only [List.length_cons, List.length_nil]
    exact ⟨by omega, by simp [hp], by simp only [Nat.reduceAdd, Nat.not_ofNat_le_one, false_iff]; exact fun h => L (c1 h),
      by simp only [Nat.reduceAdd, Nat.reduceLeDiff, false_iff]; exact L, by simp only [Nat.reduceAdd, le_refl, true_iff]; exact Q⟩
  | four a b c d hpos hf hf2 h =>
    have ha := hlt a (by simp)
    have hb := hlt b (by simp)
    have hc := hlt c (by simp)
    have hd := hlt d (by simp)
    have hp : pts ≠ [] := fun e => by rw [e] at ha; simp at ha
    have Q : ¬ InOnePlane pts := by
      rintro ⟨m, k, hm, h⟩
      have e1 := h _ (at_mem ha)
      have e2 := h _ (at_mem hb)
      have e3 := h _ (at_mem hc)
      have e4 := h _ (at_mem hd)
      have ho : orient (at' pts a) (at' pts b) (at' pts c) (at' pts d) ≠ 0 := fun e => by rw [e] at hpos; simp at hpos
      simp only [Vec3.dot] at e1 e2 e3 e4
      generalize at' pts a = A at *
      generalize at' pts b = B at *
      generalize at' pts c = C at *
      generalize at' pts d = D at *
      have f1 : m.x * (B.x - A.x) + m.y * (B.y - A.y) + m.z * (B.z - A.z) = 0 := by linear_combination e2 - e1
      have f2 : m.x * (C.x - A.x) + m.y * (C.y - A.y) + m.z * (C.z - A.z) = 0 := by linear_combination e3 - e1
      have f3 : m.x * (D.x - A.x) + m.y * (D.y - A.y) + m.z * (D.z - A.z) = 0 := by linear_combination e4 - e1
      unfold orient at ho
      generalize B.x - A.x = q1 at *
      generalize B.y - A.y = q2 at *
      generalize B.z - A.z = q3 at *
      generalize C.x - A.x = s1 at *
      generalize C.y - A.y = s2 at *
      generalize C.z - A.z = s3 at *
      generalize D.x - A.x = v1 at *
      generalize D.y - A.y = v2 at *
      generalize D.z - A.z = v3 at *
      have d1 : m.x * (q1 * (s2 * v3 - s3 * v2) + q2 * (s3 * v1 - s1 * v3) + q3 * (s1 * v2 - s2 * v1)) = 0 := by
        linear_combination (s2 * v3 - s3 * v2) * f1 - (q2 * v3 - q3 * v2) * f2 + (q2 * s3 - q3 * s2) * f3
      have d2 : m.y * (q1 * (s2 * v3 - s3 * v2) + q2 * (s3 * v1 - s1 * v3) + q3 * (s1 * v2 - s2 * v1)) = 0 := by
        linear_combination (s3 * v1 - s1 * v3) * f1 - (q3 * v1 - q1 * v3) * f2 + (q3 * s1 - q1 * s3) * f3
      have d3 : m.z * (q1 * (s2 * v3 - s3 * v2) + q2 * (s3 * v1 - s1 * v3) + q3 * (s1 * v2 - s2 * v1)) = 0 := by
        linear_combination (s1 * v2 - s2 * v1) * f1 - (q1 * v2 - q2 * v1) * f2 + (q1 * s2 - q2 * s1) * f3
      rcases hm with hm | hm | hm
      · exact ho ((mul_eq_zero.mp d1).resolve_left hm)
      · exact ho ((mul_eq_zero.mp d2).resolve_left hm)
      · exact ho ((mul_eq_zero.mp d3).resolve_left hm)
    simp only [List.length_cons, List.length_nil]
    exact ⟨by omega, by simp [hp], by simp only [Nat.reduceAdd, Nat.not_ofNat_le_one, false_iff]; exact fun h => Q (c2 (c1 h)),
      by simp only [Nat.reduceAdd, Nat.reduceLeDiff, false_iff]; exact fun h => Q (c2 h), by simp only [Nat.reduceAdd, Nat.reduceLeDiff, false_iff]; exact Q⟩

/-- **C112**: each point of the basis is furthest from the ones before it: from the first point, from the line through the first two, and from the plane through the
first three. -/
theorem C112_furthest {sqrt : K → K} (hsq : IsSqrt sqrt) (flag : Bool) (pts : List (Vec3 K)) (hi : IntegerPoints 10000000 pts) (a b c d : Vec3 K) (rest : List (Vec3 K)) :
    (((quickHull sqrt flag).basis pts).map (fun i => pts.getD i ⟨0, 0, 0⟩) = a :: b :: rest → ∀ p ∈ pts, (p - a).sqLength ≤ (b - a).sqLength) ∧
    (((quickHull sqrt flag).basis pts).map (fun i => pts.getD i ⟨0, 0, 0⟩) = a :: b :: c :: rest →
      ∀ p ∈ pts, ((b - a).cross (p - a)).sqLength ≤ ((b - a).cross (c - a)).sqLength) ∧
    (((quickHull sqrt flag).basis pts).map (fun i => pts.getD i ⟨0, 0, 0⟩) = a :: b :: c :: d :: rest → ∀ p ∈ pts, |orient a b c p| ≤ |orient a b c d|) := by
  obtain ⟨-, -, h3⟩ := basis_spec hsq hi
  change Chosen _ _ ((quickHull sqrt flag).basis pts) at h3
  have tor : ∀ p ∈ pts, ∃ i ∈ List.range pts.length, at' pts i = p := fun p hp => by
    obtain ⟨i, hi', e⟩ := mem_at hp
    exact ⟨i, List.mem_range.mpr hi', e⟩
  have hat : (fun i => pts.getD i (⟨0, 0, 0⟩ : Vec3 K)) = at' pts := rfl
  rw [hat]
  generalize (quickHull sqrt flag).basis pts = basis at *
  cases h3 with
  | none h => simp
  | one a h => simp
  | two a b hpos hf h =>
    simp only [List.map_cons, List.map_nil, List.cons.injEq]
    refine ⟨?_, by simp, by simp⟩
    rintro ⟨rfl, rfl, -⟩ p hp
    obtain ⟨i, hi', rfl⟩ := tor p hp
    exact hf i hi'
  | three a b c hpos hf hf2 h =>
    simp only [List.map_cons, List.map_nil, List.cons.injEq]
    refine ⟨?_, ?_, by simp⟩
    · rintro ⟨rfl, rfl, -⟩ p hp
      obtain ⟨i, hi', rfl⟩ := tor p hp
      exact hf i hi'
    · rintro ⟨rfl, rfl, rfl, -⟩ p hp
      obtain ⟨i, hi', rfl⟩ := tor p hp
      exact hf2 i hi'
  | four a b c d hpos hf hf2 h =>
    simp only [List.map_cons, List.map_nil, List.cons.injEq]
    refine ⟨?_, ?_, ?_⟩
    · rintro ⟨rfl, rfl, -⟩ p hp
      obtain ⟨i, hi', rfl⟩ := tor p hp
      exact hf i hi'
    · rintro ⟨rfl, rfl, rfl, -⟩ p hp
      obtain ⟨i, hi', rfl⟩ := tor p hp
      exact hf2 i hi'
    · rintro ⟨rfl, rfl, rfl, rfl, -⟩ p hp
      obtain ⟨i, hi', rfl⟩ := tor p hp
      exact sq_le_sq.mp (h i hi')

/-! ### The check of the simplex -/

theorem mem3 (k : Fin 3) : k ∈ ([0, 1, 2] : List (Fin 3)) := by revert k; decide

omit [IsStrictOrderedRing K] in
/-- **C113**: the test of local convexity accepts a facet exactly if no neighbour in another plane has its opposite vertex more than `eps` above the facet. -/
theorem C113_local_convexity (eps : K) (P : Nat → Vec3 K) (plane : (Fin 3 → Nat) → Vec3 K × K) (s : State K) (f : Nat)
    (hu : ∀ k v w, (s.facets ((s.facets f).neighbours k)).neighbours v = f → (s.facets ((s.facets f).neighbours k)).neighbours w = f → v = w) :
    localConvex eps P plane s f = true ↔ ∀ k v, (s.facets ((s.facets f).neighbours k)).neighbours v = f →
      (plane (s.facets f).vertices).1.dot (plane (s.facets ((s.facets f).neighbours k)).vertices).1 < 1 →
      (plane (s.facets f).vertices).2 + (plane (s.facets f).vertices).1.dot (P ((s.facets ((s.facets f).neighbours k)).vertices v)) ≤ eps := by
  unfold localConvex
  rw [List.all_eq_true]
  constructor
  · intro h k v hv hd
    have hk := h k (mem3 k)
    dsimp only at hk
    rw [if_pos hd] at hk
    split at hk
    · rename_i e
      exfalso
      have := List.find?_eq_none.mp e v (by fin_cases v <;> simp)
      simp [hv] at this
    · rename_i w e
      have hw := List.find?_some e
      simp only [decide_eq_true_eq] at hw
      rw [hu k v w hv hw]
      simpa using hk
  · intro h k _
    dsimp only
    split
    · rename_i hd
      split
      · rfl
      · rename_i w e
        have hw := List.find?_some e
        simp only [decide_eq_true_eq] at hw
        simpa using h k w hw hd
    · rfl

omit [IsStrictOrderedRing K] in
/-- **C113**: the check succeeds exactly if every facet is locally convex and has the inner point strictly behind it, and the ray through the centre of the first
facet leaves through the first facet only. -/
theorem C113_check (eps : K) (P : Nat → Vec3 K) (plane : (Fin 3 → Nat) → Vec3 K × K) (inner : Vec3 K) (s : State K) (hs : 0 < s.size) :
    check eps P plane inner s = some true ↔ (∀ f < s.size, localConvex eps P plane s f = true) ∧
      (∀ f < s.size, (plane (s.facets f).vertices).2 + (plane (s.facets f).vertices).1.dot inner < 0) ∧
      ∀ f < s.size, 0 < ((P ((s.facets 0).vertices 0) + P ((s.facets 0).vertices 1) + P ((s.facets 0).vertices 2)).sdiv 3 - inner).dot (plane (s.facets f).vertices).1 ↔ f = 0 := by
  have fold : ∀ (l : List Nat) (dist : Nat → Prop) [DecidablePred dist] (out : Nat → Prop) [DecidablePred out],
      l.foldr (fun f rest => if ¬ dist f then some false else if out f then none else rest) (some true) = some true ↔ ∀ f ∈ l, dist f ∧ ¬ out f := by
    intro l dist _ out _
    induction l with
    | nil => simp
    | cons a l ih =>
      rw [List.foldr_cons, List.forall_mem_cons, ← ih]
      by_cases h1 : dist a <;> by_cases h2 : out a <;> simp [h1, h2]
  unfold check
  dsimp only
  by_cases h1 : (List.range s.size).all (localConvex eps P plane s) = true
  · rw [if_neg (by simp [h1])]
    rw [List.all_eq_true] at h1
    by_cases h2 : (plane (s.facets 0).vertices).2 + (plane (s.facets 0).vertices).1.dot inner < 0
    · rw [if_neg (by simp [h2])]
      by_cases h3 : 0 < ((P ((s.facets 0).vertices 0) + P ((s.facets 0).vertices 1) + P ((s.facets 0).vertices 2)).sdiv 3 - inner).dot (plane (s.facets 0).vertices).1
      · rw [if_neg (by simp [h3]), fold _ (fun f => (plane (s.facets f).vertices).2 + (plane (s.facets f).vertices).1.dot inner < 0)
          (fun f => 0 < ((P ((s.facets 0).vertices 0) + P ((s.facets 0).vertices 1) + P ((s.facets 0).vertices 2)).sdiv 3 - inner).dot (plane (s.facets f).vertices).1)]
        constructor
        · intro h
          refine ⟨fun f hf => h1 f (List.mem_range.mpr hf), fun f hf => ?_, fun f hf => ⟨fun hr => ?_, ?_⟩⟩
          · rcases Nat.eq_zero_or_pos f with rfl | hp
            · exact h2
            · exact (h f (by rw [List.mem_range'_1]; omega)).1
          · by_contra h0
            exact (h f (by rw [List.mem_range'_1]; omega)).2 hr
          · rintro rfl; exact h3
        · rintro ⟨-, k2, k3⟩ f hf
          rw [List.mem_range'_1] at hf
          exact ⟨k2 f (by omega), fun hr => by have := (k3 f (by omega)).mp hr; omega⟩
      · rw [if_pos h3]
        simp only [Option.some.injEq, Bool.false_eq_true, false_iff, not_and]
        exact fun _ _ h => h3 ((h 0 hs).mpr rfl)
    · rw [if_pos h2]
      simp only [Option.some.injEq, Bool.false_eq_true, false_iff, not_and]
      exact fun _ h => absurd (h 0 hs) h2
  · rw [if_pos h1]
    simp only [Option.some.injEq, Bool.false_eq_true, false_iff, not_and]
    intro h
    exact absurd (List.all_eq_true.mpr fun f hf => h f (List.mem_range.mp hf)) h1

/-- Four facets of a simplex, each the neighbour of the others. -/
example : ∃ s : State ℚ, 0 < s.size ∧ ∀ f k v w, (s.facets ((s.facets f).neighbours k)).neighbours v = f →
    (s.facets ((s.facets f).neighbours k)).neighbours w = f → v = w := by
  refine ⟨⟨fun f => ⟨![0, 1, 2], if f = 0 then ![1, 2, 3] else if f = 1 then ![0, 2, 3] else if f = 2 then ![0, 1, 3] else ![0, 1, 2], []⟩, 4, [], [], [], [], [], [], []⟩, by decide, ?_⟩
  intro f k v w
  by_cases h0 : f = 0
  · subst h0; revert k v w; decide
  by_cases h1 : f = 1
  · subst h1; revert k v w; decide
  by_cases h2 : f = 2
  · subst h2; revert k v w; decide
  by_cases h3 : f = 3
  · subst h3; revert k v w; decide
  simp only [h0, h1, h2, if_false]
  intro hv
  exfalso
  revert hv
  fin_cases k <;> fin_cases v <;> simp <;> omega

/-! ### The facets -/

/-- **C113**: for at least four points of which no four are in a plane no assertion fails, and the facets are exactly the triangles that have all other points
strictly behind them, each once and running counterclockwise seen from outside. -/
theorem C113_facets_partial {sqrt : K → K} (hsq : IsSqrt sqrt) (pts : List (Vec3 K)) (hn : 4 ≤ pts.length) (hi : IntegerPoints 10000000 pts) (hc : NoFourCoplanar pts) :
    (∃ b0 b1 b2 b3 outside, affineBasis sqrt (1 / 2 ^ 52) (fun i => pts.getD i ⟨0, 0, 0⟩) (List.range pts.length) = ([b0, b1, b2, b3], outside) ∧
      facetsOf sqrt (1 / 2 ^ 52) (fun i => pts.getD i ⟨0, 0, 0⟩) false b0 b1 b2 b3 outside = some ((quickHull sqrt false).facets pts)) ∧
    (∀ f ∈ (quickHull sqrt false).facets pts, f.length = 3) ∧
    (∀ i j k, HullFace pts i j k ↔
      [i, j, k] ∈ (quickHull sqrt false).facets pts ∨ [j, k, i] ∈ (quickHull sqrt false).facets pts ∨ [k, i, j] ∈ (quickHull sqrt false).facets pts) ∧
    ((quickHull sqrt false).facets pts).Nodup ∧
    ∀ i j k, [i, j, k] ∈ (quickHull sqrt false).facets pts → [j, k, i] ∉ (quickHull sqrt false).facets pts := by
  obtain ⟨t, g, m, b0, b1, b2, b3, outside, e1, e2, hI, hB, g1, g2, g3⟩ := facets_spec hsq hn hi hc
  have e3 : (quickHull sqrt false).facets pts = (List.range m).map fun f => [(t.facets (g f)).vertices 0, (t.facets (g f)).vertices 1, (t.facets (g f)).vertices 2] := by
    show (match affineBasis sqrt (1 / 2 ^ 52) (at' pts) (List.range pts.length) with
      | ([b0, b1, b2, b3], outside) => (facetsOf sqrt (1 / 2 ^ 52) (at' pts) false b0 b1 b2 b3 outside).getD []
      | _ => []) = _
    rw [e1]; dsimp only; rw [e2]; rfl
  have hmem : ∀ i j k, [i, j, k] ∈ (quickHull sqrt false).facets pts ↔ ∃ f ∈ t.live, (t.facets f).vertices 0 = i ∧ (t.facets f).vertices 1 = j ∧ (t.facets f).vertices 2 = k := by
    intro i j k
    rw [e3, List.mem_map]
    constructor
    · rintro ⟨f, hf, he⟩
      simp only [List.cons.injEq, and_true] at he
      exact ⟨g f, g1 f (List.mem_range.mp hf), he⟩
    · rintro ⟨f, hf, h0, h1, h2⟩
      obtain ⟨e, he, rfl⟩ := g3 f hf
      exact ⟨e, List.mem_range.mpr he, by rw [h0, h1, h2]⟩
  have huniq : ∀ f ∈ t.live, ∀ f' ∈ t.live, ∀ k j : Fin 3, (t.facets f).vertices (k + 1) = (t.facets f').vertices (j + 1) →
      (t.facets f).vertices (k + 2) = (t.facets f').vertices (j + 2) → f = f' := hI.C.uniq
  -- a live triangle is a face
  have face : ∀ f ∈ t.live, ∀ k : Fin 3, HullFace pts ((t.facets f).vertices k) ((t.facets f).vertices (k + 1)) ((t.facets f).vertices (k + 2)) := by
    intro f hf k
    have inj := hI.C.inj f hf
    have lt := hI.C.lt f hf
    refine ⟨fun e => fin3_ne1 k (inj e).symm, fun e => fin3_ne12 k (inj e), fun e => fin3_ne2 k (inj e).symm, _, _, _, at_lt (lt _), at_lt (lt _), at_lt (lt _),
      fun l p hl h0 h1 h2 => ?_⟩
    obtain ⟨rfl, hln⟩ := at_some hl
    rw [← ov_rot]
    rcases hB l hln f hf with ⟨j, hj⟩ | h
    · rcases fin3_cases j k with rfl | rfl | rfl
      · exact absurd hj h0
      · exact absurd hj h1
      · exact absurd hj h2
    · exact h
  refine ⟨⟨b0, b1, b2, b3, outside, e1, ?_⟩, ?_, ?_, ?_, ?_⟩
  · rw [e3]; exact e2
  · intro f hf
    rw [e3, List.mem_map] at hf
    obtain ⟨x, -, rfl⟩ := hf
    rfl
  · intro i j k
    rw [hmem, hmem, hmem]
    constructor
    · rintro ⟨n1, n2, n3, a, b, c, ha, hb, hc', hall⟩
      obtain ⟨rfl, li⟩ := at_some ha
      obtain ⟨rfl, lj⟩ := at_some hb
      obtain ⟨rfl, lk⟩ := at_some hc'
      have v0 : (![i, j, k] : Fin 3 → Nat) 0 = i := rfl
      have v1 : (![i, j, k] : Fin 3 → Nat) 1 = j := rfl
      have v2 : (![i, j, k] : Fin 3 → Nat) 2 = k := rfl
      have hv : Function.Injective (![i, j, k] : Fin 3 → Nat) := by
        intro x y e
        rcases fin3_cases x 0 with rfl | rfl | rfl <;> rcases fin3_cases y 0 with rfl | rfl | rfl <;>
          simp only [zero_add, v0, v1, v2] at e ⊢ <;> first | rfl | (exfalso; omega)
      have hl : ∀ x, (![i, j, k] : Fin 3 → Nat) x < pts.length := by
        intro x
        rcases fin3_cases x 0 with rfl | rfl | rfl
        · exact li
        · exact lj
        · exact lk
      obtain ⟨f, hf, r, hr⟩ := supporting hI.C hI.ne (gen_of hc) hn hB hv hl (fun p hp => by
        by_cases q : p = i ∨ p = j ∨ p = k
        · rcases q with rfl | rfl | rfl
          · exact .inl ⟨0, rfl⟩
          · exact .inl ⟨1, rfl⟩
          · exact .inl ⟨2, rfl⟩
        · push Not at q
          exact .inr (hall p _ (at_lt hp) q.1 q.2.1 q.2.2))
      have h0 := hr 0
      have h1 := hr 1
      have h2 := hr 2
      rw [v0] at h0
      rw [v1] at h1
      rw [v2] at h2
      rcases fin3_cases r 0 with rfl | rfl | rfl
      · exact .inl ⟨f, hf, h0.symm, h1.symm, h2.symm⟩
      · exact .inr (.inr ⟨f, hf, h2.symm, h0.symm, h1.symm⟩)
      · exact .inr (.inl ⟨f, hf, h1.symm, h2.symm, h0.symm⟩)
    · rintro (⟨f, hf, rfl, rfl, rfl⟩ | ⟨f, hf, rfl, rfl, rfl⟩ | ⟨f, hf, rfl, rfl, rfl⟩)
      · exact face f hf 0
      · exact face f hf 2
      · exact face f hf 1
  · rw [e3]
    refine List.Nodup.map_on (fun x hx y hy e => ?_) List.nodup_range
    simp only [List.cons.injEq, and_true] at e
    rw [List.mem_range] at hx hy
    exact g2 x hx y hy (huniq _ (g1 x hx) _ (g1 y hy) 0 0 e.2.1 e.2.2)
  · intro i j k h1 h2
    obtain ⟨f, hf, a0, a1, a2⟩ := (hmem _ _ _).mp h1
    obtain ⟨f', hf', c0, c1, c2⟩ := (hmem _ _ _).mp h2
    have e : f = f' := huniq f hf f' hf' 0 2 (by show (t.facets f).vertices 1 = (t.facets f').vertices 0; rw [a1, c0])
      (by show (t.facets f).vertices 2 = (t.facets f').vertices 1; rw [a2, c1])
    subst e
    have := hI.C.inj f hf (show (t.facets f).vertices 0 = (t.facets f).vertices 2 by rw [a0, c2])
    exact absurd this (by decide)

/-! ### The convex hull -/

theorem at_inj {pts : List (Vec3 K)} (hn : 4 ≤ pts.length) (hc : NoFourCoplanar pts) {i j : Nat} (hi : i < pts.length) (hj : j < pts.length)
    (e : at' pts i = at' pts j) : i = j := by
  by_contra hne
  obtain ⟨k, hk, hk'⟩ := exists_fourth hn ![i, j, j]
  have k0 : k ≠ i := hk' 0
  have k1 : k ≠ j := hk' 1
  obtain ⟨l, hl, hl'⟩ := exists_fourth hn ![i, j, k]
  have v0 : (![i, j, k] : Fin 3 → Nat) 0 = i := rfl
  have v1 : (![i, j, k] : Fin 3 → Nat) 1 = j := rfl
  have v2 : (![i, j, k] : Fin 3 → Nat) 2 = k := rfl
  refine gen_of hc ![i, j, k] ?_ ?_ l hl hl' ?_
  · intro x y e
    rcases fin3_cases x 0 with rfl | rfl | rfl <;> rcases fin3_cases y 0 with rfl | rfl | rfl <;>
      simp only [zero_add, v0, v1, v2] at e ⊢ <;> first | rfl | (exfalso; omega)
  · intro x
    rcases fin3_cases x 0 with rfl | rfl | rfl
    · exact hi
    · exact hj
    · exact hk
  · show orient (at' pts i) (at' pts j) (at' pts k) (at' pts l) = 0
    rw [e]; unfold orient; ring

/-- **C111** (partial): with more than four points of which no four are in a plane, `convex_hull3d` adds to the vector distinct points of the input, their convex hull
contains every input point, and they are exactly the extreme points: those that are in the convex hull of no list of other input points. -/
theorem C111_hull_partial {sqrt : K → K} (hsq : IsSqrt sqrt) (pts out : List (Vec3 K)) (hn : 5 ≤ pts.length) (hi : IntegerPoints 10000000 pts) (hc : NoFourCoplanar pts) :
    ∃ hull, convexHull3d (quickHull sqrt false) pts out = out ++ hull ∧ hull.Nodup ∧ (∀ p ∈ hull, p ∈ pts) ∧ (∀ p ∈ pts, InHull hull p) ∧
      ∀ p ∈ pts, p ∈ hull ↔ ∀ l, (∀ v ∈ l, v ∈ pts ∧ v ≠ p) → ¬ InHull l p := by
  have h4 : 4 ≤ pts.length := by omega
  obtain ⟨t, g, m, b0, b1, b2, b3, outside, e1, e2, hI, hB, g1, g2, g3⟩ := facets_spec hsq h4 hi hc
  have e3 : (quickHull sqrt false).facets pts = (List.range m).map fun f => [(t.facets (g f)).vertices 0, (t.facets (g f)).vertices 1, (t.facets (g f)).vertices 2] := by
    show (match affineBasis sqrt (1 / 2 ^ 52) (at' pts) (List.range pts.length) with
      | ([b0, b1, b2, b3], outside) => (facetsOf sqrt (1 / 2 ^ 52) (at' pts) false b0 b1 b2 b3 outside).getD []
      | _ => []) = _
    rw [e1]; dsimp only; rw [e2]; rfl
  have eb : (quickHull sqrt false).basis pts = [b0, b1, b2, b3] := congrArg Prod.fst e1
  -- the corners
  have hmem : ∀ i, i ∈ firstSeen ((quickHull sqrt false).facets pts).flatten [] ↔ ∃ f ∈ t.live, ∃ k, (t.facets f).vertices k = i := by
    intro i
    rw [firstSeen_mem, e3, List.mem_flatten]
    simp only [List.not_mem_nil, not_false_eq_true, and_true]
    constructor
    · rintro ⟨l, hl, hil⟩
      obtain ⟨f, hf, rfl⟩ := List.mem_map.mp hl
      refine ⟨g f, g1 f (List.mem_range.mp hf), ?_⟩
      simp only [List.mem_cons, List.not_mem_nil, or_false] at hil
      rcases hil with rfl | rfl | rfl
      · exact ⟨0, rfl⟩
      · exact ⟨1, rfl⟩
      · exact ⟨2, rfl⟩
    · rintro ⟨f, hf, k, rfl⟩
      obtain ⟨e, he, rfl⟩ := g3 f hf
      refine ⟨_, List.mem_map.mpr ⟨e, List.mem_range.mpr he, rfl⟩, ?_⟩
      rcases fin3_cases k 0 with rfl | rfl | rfl <;> simp
  have hlt : ∀ f ∈ t.live, ∀ k, (t.facets f).vertices k < pts.length := hI.C.lt
  have hin : ∀ f ∈ t.live, ∀ k, at' pts ((t.facets f).vertices k) ∈ (firstSeen ((quickHull sqrt false).facets pts).flatten []).map fun i => pts.getD i ⟨0, 0, 0⟩ :=
    fun f hf k => List.mem_map.mpr ⟨_, (hmem _).mpr ⟨f, hf, k, rfl⟩, rfl⟩
  have hall : ∀ p ∈ pts, InHull ((firstSeen ((quickHull sqrt false).facets pts).flatten []).map fun i => pts.getD i ⟨0, 0, 0⟩) p := by
    intro p hp
    obtain ⟨q, hq, rfl⟩ := mem_at hp
    by_cases hcor : ∃ f ∈ t.live, ∃ k, q = (t.facets f).vertices k
    · obtain ⟨f, hf, k, rfl⟩ := hcor
      exact Geom.hull_mem (hin f hf k)
    · obtain ⟨f0, hf0⟩ := hI.ne
      obtain ⟨f, hf, hh⟩ := hI.C.inside hf0 (x := at' pts q) fun f hf => by
        rcases hB q hq f hf with ⟨k, hk⟩ | h
        · exact absurd ⟨f, hf, k, hk⟩ hcor
        · exact h
      refine hull_mono (fun v hv => ?_) hh
      simp only [List.mem_cons, List.not_mem_nil, or_false] at hv
      rcases hv with rfl | rfl | rfl | rfl
      · exact Geom.hull_mem (hin f0 hf0 0)
      · exact Geom.hull_mem (hin f hf 0)
      · exact Geom.hull_mem (hin f hf 1)
      · exact Geom.hull_mem (hin f hf 2)
  have hsub : ∀ p ∈ (firstSeen ((quickHull sqrt false).facets pts).flatten []).map fun i => pts.getD i ⟨0, 0, 0⟩, p ∈ pts := by
    intro p hp
    obtain ⟨i, hi', rfl⟩ := List.mem_map.mp hp
    obtain ⟨f, hf, k, rfl⟩ := (hmem i).mp hi'
    exact at_mem (hlt f hf k)
  refine ⟨_, ?_, ?_, hsub, hall, fun p hp => ⟨fun h l hl => ?_, fun h => ?_⟩⟩
  · rw [convexHull3d, if_neg (by cases pts with | nil => simp at hn | cons a l => simp), if_neg (by omega), if_neg (by rw [eb]; simp)]
  · refine List.Nodup.map_on (fun x hx y hy e => ?_) (firstSeen_nodup _ _)
    obtain ⟨f, hf, k, rfl⟩ := (hmem x).mp hx
    obtain ⟨f', hf', k', rfl⟩ := (hmem y).mp hy
    exact at_inj h4 hc (hlt f hf k) (hlt f' hf' k') e
  · obtain ⟨i, hi', rfl⟩ := List.mem_map.mp h
    obtain ⟨f, hf, k, rfl⟩ := (hmem i).mp hi'
    refine corner_extreme (gen_of hc) (hI.C.inj f hf) (hlt f hf) h4 k fun v hv => ?_
    obtain ⟨hv1, hv2⟩ := hl v hv
    obtain ⟨q, hq, rfl⟩ := mem_at hv1
    exact ⟨q, hq, fun e => hv2 (by rw [e]; rfl), hB q hq f hf, rfl⟩
  · by_contra hn'
    exact h _ (fun v hv => ⟨hsub v hv, fun e => hn' (e ▸ hv)⟩) (hall p hp)

/-- **C111** (partial): so Quickhull meets the contract under which C107 holds. -/
theorem C111_contract_partial {sqrt : K → K} (hsq : IsSqrt sqrt) (pts : List (Vec3 K)) (hn : 5 ≤ pts.length) (hi : IntegerPoints 10000000 pts) (hc : NoFourCoplanar pts) :
    (quickHull sqrt false).Sound pts := by
  obtain ⟨-, hlt, -⟩ := C112_dimension hsq false pts hi
  obtain ⟨-, hlen, hface, -⟩ := C113_facets_partial hsq pts (by omega) hi hc
  obtain ⟨hull, h1, h2, h3, h4, -⟩ := C111_hull_partial hsq pts [] hn hi hc
  refine ⟨hlt, fun f hf i hif => ?_, fun hb p hp l hl => ?_⟩
  · have h3' := hlen f hf
    match f, h3', hf, hif with
    | [a, b, c], _, hf, hif =>
      obtain ⟨-, -, -, x, y, z, hx, hy, hz, -⟩ := (hface a b c).mpr (.inl hf)
      simp only [List.mem_cons, List.not_mem_nil, or_false] at hif
      rcases hif with rfl | rfl | rfl
      · exact (at_some hx).2
      · exact (at_some hy).2
      · exact (at_some hz).2
  · refine hull_mono (fun v hv => ?_) (h4 p hp)
    rw [convexHull3d, if_neg (by cases pts with | nil => simp at hn | cons a l => simp), if_neg (by omega), if_neg (by omega), List.nil_append, List.nil_append] at h1
    rw [← h1] at hv
    obtain ⟨i, hi', rfl⟩ := List.mem_map.mp hv
    obtain ⟨h, -⟩ := (firstSeen_mem _ _ _).mp hi'
    obtain ⟨f, hf, hif⟩ := List.mem_flatten.mp h
    exact Geom.hull_mem (hl f hf i hif)

/-- C111, with up to four points: the vector becomes a copy of the points, or stays as it was without points. -/
theorem C111_few (qh : QuickHull K) (pts out : List (Vec3 K)) (hn : pts.length < 5) : convexHull3d qh pts out = if pts = [] then out else pts := by
  cases pts with
  | nil => rfl
  | cons a l => rw [convexHull3d, if_neg (by simp), if_pos hn, if_neg (by simp)]

theorem cubic_extreme {n i : Nat} (hi : i < n) {l : List (Vec3 K)} (hl : ∀ v ∈ l, v ∈ (cubic n : List (Vec3 K)) ∧ v ≠ at' (cubic n) i) :
    ¬ InHull l (at' (cubic n : List (Vec3 K)) i) := by
  have hlen : (cubic n : List (Vec3 K)).length = n := by simp [cubic]
  have hv : ∀ j < n, at' (cubic n : List (Vec3 K)) j = ⟨(j : K), (j : K) ^ 2, (j : K) ^ 3⟩ := fun j hj => cubic_some (at_lt (by rw [hlen]; exact hj))
  intro h
  have := hull_le (d := ⟨2 * (i : K), -1, 0⟩) (c := (i : K) ^ 2 - 1) h fun v hv' => by
    obtain ⟨h1, h2⟩ := hl v hv'
    obtain ⟨j, hj, rfl⟩ := mem_at h1
    rw [hlen] at hj
    have hij : i ≠ j := fun e => h2 (by rw [e])
    rw [hv j hj]
    simp only [Vec3.dot]
    have : (1 : K) ≤ ((i : K) - j) ^ 2 := by
      rcases Nat.lt_or_gt_of_ne hij with h | h
      · have : (i : K) + 1 ≤ j := by exact_mod_cast h
        nlinarith
      · have : (j : K) + 1 ≤ i := by exact_mod_cast h
        nlinarith
    linarith
  rw [hv i hi] at this
  simp only [Vec3.dot] at this
  linarith

/-- C111 fails if the member `lower_dimensional_hull_`, which nothing sets, happens to be `true`: only the first four points found are returned, and with
five points on a twisted cubic, all of them extreme, one is left out. -/
theorem C111_flag_counterexample {sqrt : K → K} (hsq : IsSqrt sqrt) :
    (∀ pts out : List (Vec3 K), 5 ≤ pts.length → IntegerPoints 10000000 pts → NoFourCoplanar pts → ∃ a b c d hull, convexHull3d (quickHull sqrt true) pts out = out ++ hull ∧
      ∀ p ∈ hull, p ∈ [a, b, c, d]) ∧
    ∃ p ∈ (cubic 5 : List (Vec3 K)), ¬ InHull (convexHull3d (quickHull sqrt true) (cubic 5) []) p := by
  have main : ∀ pts out : List (Vec3 K), 5 ≤ pts.length → IntegerPoints 10000000 pts → NoFourCoplanar pts → ∃ b0 b1 b2 b3 hull,
      convexHull3d (quickHull sqrt true) pts out = out ++ hull ∧ (∀ p ∈ hull, p ∈ [at' pts b0, at' pts b1, at' pts b2, at' pts b3]) ∧
      b0 < pts.length ∧ b1 < pts.length ∧ b2 < pts.length ∧ b3 < pts.length := by
    intro pts out hn hi hc
    have h4 : 4 ≤ pts.length := by omega
    obtain ⟨b0, b1, b2, b3, outside, h1, h2⟩ := basis_four hsq h4 hi hc
    obtain ⟨s, -, -, hsz, hv, hfa⟩ := facetsOf_core (good_of h4 hi hc) hsq true h2
    have e3 : (quickHull sqrt true).facets pts = (List.range 4).map fun f => [(s.facets f).vertices 0, (s.facets f).vertices 1, (s.facets f).vertices 2] := by
      show (match affineBasis sqrt (1 / 2 ^ 52) (at' pts) (List.range pts.length) with
        | ([b0, b1, b2, b3], outside) => (facetsOf sqrt (1 / 2 ^ 52) (at' pts) true b0 b1 b2 b3 outside).getD []
        | _ => []) = _
      rw [h1]; dsimp only; rw [hfa, if_pos rfl, hsz]; rfl
    have eb : (quickHull sqrt true).basis pts = [b0, b1, b2, b3] := congrArg Prod.fst h1
    have hlt : ∀ i ∈ [b0, b1, b2, b3], i < pts.length := fun i hi' => List.mem_range.mp (h2.mem_iff.mp (List.mem_append_left _ hi'))
    refine ⟨b0, b1, b2, b3, _, by
      rw [convexHull3d, if_neg (by cases pts with | nil => simp at hn | cons a l => simp), if_neg (by omega), if_neg (by rw [eb]; simp)], fun p hp => ?_,
      hlt _ (by simp), hlt _ (by simp), hlt _ (by simp), hlt _ (by simp)⟩
    obtain ⟨i, hi', rfl⟩ := List.mem_map.mp hp
    obtain ⟨h, -⟩ := (firstSeen_mem _ _ _).mp hi'
    obtain ⟨f, hf, hif⟩ := List.mem_flatten.mp h
    rw [e3] at hf
    obtain ⟨x, hx, rfl⟩ := List.mem_map.mp hf
    have hib : i ∈ [b0, b1, b2, b3] := by
      have w := fun k => hv ⟨x, List.mem_range.mp hx⟩ k
      simp only [List.mem_cons, List.not_mem_nil, or_false] at hif
      rcases hif with rfl | rfl | rfl
      · exact w 0
      · exact w 1
      · exact w 2
    exact List.mem_map_of_mem (f := at' pts) hib
  refine ⟨fun pts out hn hi hc => ?_, ?_⟩
  · obtain ⟨b0, b1, b2, b3, hull, h1, h2, -⟩ := main pts out hn hi hc
    exact ⟨_, _, _, _, hull, h1, h2⟩
  · have hlen : (cubic 5 : List (Vec3 K)).length = 5 := by simp [cubic]
    obtain ⟨b0, b1, b2, b3, hull, h1, h2, l0, l1, l2, l3⟩ := main (cubic 5) [] (by rw [hlen]) (fun p hp => cubic_integer p (by
      rw [cubic, List.mem_map] at hp ⊢
      obtain ⟨t, ht, e⟩ := hp
      exact ⟨t, List.mem_range.mpr (by have := List.mem_range.mp ht; omega), e⟩)) (cubic_general 5)
    obtain ⟨i, hi, hib⟩ : ∃ i < 5, i ∉ [b0, b1, b2, b3] := by
      by_contra hcon
      push Not at hcon
      have := List.Subperm.length_le (List.nodup_range (n := 5) |>.subperm fun i hi => hcon i (List.mem_range.mp hi))
      simp at this
    refine ⟨at' (cubic 5) i, at_mem (by rw [hlen]; exact hi), ?_⟩
    rw [h1, List.nil_append]
    rw [hlen] at l0 l1 l2 l3
    refine cubic_extreme hi fun v hv => ?_
    have key : ∀ b < 5, b ≠ i → at' (cubic 5 : List (Vec3 K)) b ∈ (cubic 5 : List (Vec3 K)) ∧ at' (cubic 5 : List (Vec3 K)) b ≠ at' (cubic 5) i := fun b hb hne =>
      ⟨at_mem (by rw [hlen]; exact hb), fun e => hne (at_inj (by rw [hlen]; omega) (cubic_general 5) (by rw [hlen]; exact hb) (by rw [hlen]; exact hi) e)⟩
    simp only [List.mem_cons, List.not_mem_nil, or_false, not_or] at hib
    have := h2 v hv
    simp only [List.mem_cons, List.not_mem_nil, or_false] at this
    rcases this with rfl | rfl | rfl | rfl
    · exact key b0 l0 fun e => hib.1 e.symm
    · exact key b1 l1 fun e => hib.2.1 e.symm
    · exact key b2 l2 fun e => hib.2.2.1 e.symm
    · exact key b3 l3 fun e => hib.2.2.2 e.symm

/-- The corners of a square and its centre. -/
def square : List (Vec3 K) := [⟨0, 0, 0⟩, ⟨2, 0, 0⟩, ⟨0, 2, 0⟩, ⟨2, 2, 0⟩, ⟨1, 1, 0⟩]

/-- C111 fails for points of a plane: the vector is replaced by the three points of the affine basis, so a corner of a square is left out. -/
theorem C111_plane_counterexample {sqrt : K → K} (hsq : IsSqrt sqrt) (flag : Bool) (out : List (Vec3 K)) :
    (convexHull3d (quickHull sqrt flag) square out).length ≤ 3 ∧ ∃ p ∈ (square : List (Vec3 K)), ¬ InHull (convexHull3d (quickHull sqrt flag) square out) p := by
  have hi : IntegerPoints 10000000 (square : List (Vec3 K)) := by
    intro p hp
    simp only [square, List.mem_cons, List.not_mem_nil, or_false] at hp
    rcases hp with rfl | rfl | rfl | rfl | rfl
    · exact ⟨0, 0, 0, by simp, by norm_num, by norm_num, by norm_num⟩
    · exact ⟨2, 0, 0, by simp, by norm_num, by norm_num, by norm_num⟩
    · exact ⟨0, 2, 0, by simp, by norm_num, by norm_num, by norm_num⟩
    · exact ⟨2, 2, 0, by simp, by norm_num, by norm_num, by norm_num⟩
    · exact ⟨1, 1, 0, by simp, by norm_num, by norm_num, by norm_num⟩
  obtain ⟨hnd, hlt, -, -, -, -, -, h3⟩ := C112_dimension hsq flag (square : List (Vec3 K)) hi
  have hb : ((quickHull sqrt flag).basis (square : List (Vec3 K))).length ≤ 3 := h3.mpr ⟨⟨0, 0, 1⟩, 0, .inr (.inr one_ne_zero), by
    intro p hp
    simp only [square, List.mem_cons, List.not_mem_nil, or_false] at hp
    rcases hp with rfl | rfl | rfl | rfl | rfl <;> simp [Vec3.dot]⟩
  have e : convexHull3d (quickHull sqrt flag) square out = ((quickHull sqrt flag).basis (square : List (Vec3 K))).map fun i => square.getD i ⟨0, 0, 0⟩ := by
    rw [convexHull3d, if_neg (by simp [square]), if_neg (by simp [square]), if_pos (by omega)]
  rw [e]
  refine ⟨by rw [List.length_map]; exact hb, ?_⟩
  obtain ⟨i, hi4, hib⟩ : ∃ i < 4, i ∉ (quickHull sqrt flag).basis (square : List (Vec3 K)) := by
    by_contra hcon
    push Not at hcon
    have := List.Subperm.length_le (List.nodup_range (n := 4) |>.subperm fun i hi => hcon i (List.mem_range.mp hi))
    simp at this
    omega
  -- a corner is no mean of the other points
  have key : ∀ d : Vec3 K, ∀ c : K, (∀ j < 5, j ≠ i → (at' square j).dot d ≤ c) → c < (at' square i).dot d → ∃ p ∈ (square : List (Vec3 K)),
      ¬ InHull (((quickHull sqrt flag).basis (square : List (Vec3 K))).map fun i => square.getD i ⟨0, 0, 0⟩) p := by
    intro d c h1 h2
    refine ⟨at' square i, at_mem (by simp [square]; omega), fun h => ?_⟩
    have := hull_le (d := d) (c := c) h fun v hv => by
      obtain ⟨j, hj, rfl⟩ := List.mem_map.mp hv
      exact h1 j (hlt j hj) fun e => hib (e ▸ hj)
    linarith
  have t0 : at' (square : List (Vec3 K)) 0 = ⟨0, 0, 0⟩ := rfl
  have t1 : at' (square : List (Vec3 K)) 1 = ⟨2, 0, 0⟩ := rfl
  have t2 : at' (square : List (Vec3 K)) 2 = ⟨0, 2, 0⟩ := rfl
  have t3 : at' (square : List (Vec3 K)) 3 = ⟨2, 2, 0⟩ := rfl
  have t4 : at' (square : List (Vec3 K)) 4 = ⟨1, 1, 0⟩ := rfl
  match i, hi4 with
  | 0, _ => exact key ⟨-1, -1, 0⟩ (-2) (fun j hj hne => by match j, hj, hne with | 1, _, _ | 2, _, _ | 3, _, _ | 4, _, _ => norm_num [t1, t2, t3, t4, Vec3.dot]) (by norm_num [t0, Vec3.dot])
  | 1, _ => exact key ⟨1, -1, 0⟩ 0 (fun j hj hne => by match j, hj, hne with | 0, _, _ | 2, _, _ | 3, _, _ | 4, _, _ => norm_num [t0, t2, t3, t4, Vec3.dot]) (by norm_num [t1, Vec3.dot])
  | 2, _ => exact key ⟨-1, 1, 0⟩ 0 (fun j hj hne => by match j, hj, hne with | 0, _, _ | 1, _, _ | 3, _, _ | 4, _, _ => norm_num [t0, t1, t3, t4, Vec3.dot]) (by norm_num [t2, Vec3.dot])
  | 3, _ => exact key ⟨1, 1, 0⟩ 2 (fun j hj hne => by match j, hj, hne with | 0, _, _ | 1, _, _ | 2, _, _ | 4, _, _ => norm_num [t0, t1, t2, t4, Vec3.dot]) (by norm_num [t3, Vec3.dot])

/-- The corners of a small tetrahedron and a point in it. -/
def tiny : List (Vec3 K) := [⟨0, 0, 0⟩, ⟨4 / 2 ^ 20, 0, 0⟩, ⟨0, 3 / 2 ^ 20, 0⟩, ⟨0, 0, 2 / 2 ^ 20⟩, ⟨1 / 2 ^ 21, 1 / 2 ^ 21, 1 / 2 ^ 21⟩]

theorem tiny_basis {sqrt : K → K} (hsq : IsSqrt sqrt) : affineBasis sqrt (1 / 2 ^ 52) (at' tiny) (List.range 5) = ([0, 1, 2, 3], [(4 : Nat)]) := by
  have h0 : (0 : K) ≤ 1 / 2 ^ 52 := by positivity
  have t0 : at' (tiny : List (Vec3 K)) 0 = ⟨0, 0, 0⟩ := rfl
  have t1 : at' (tiny : List (Vec3 K)) 1 = ⟨4 / 2 ^ 20, 0, 0⟩ := rfl
  have t2 : at' (tiny : List (Vec3 K)) 2 = ⟨0, 3 / 2 ^ 20, 0⟩ := rfl
  have t3 : at' (tiny : List (Vec3 K)) 3 = ⟨0, 0, 2 / 2 ^ 20⟩ := rfl
  have t4 : at' (tiny : List (Vec3 K)) 4 = ⟨1 / 2 ^ 21, 1 / 2 ^ 21, 1 / 2 ^ 21⟩ := rfl
  have s1 : stealBest sqrt (1 / 2 ^ 52) (at' tiny) [0] [1, 2, 3, 4] = some ([0, 1], [2, 3, 4]) := by
    rcases steal_one (sqrt := sqrt) (eps := 1 / 2 ^ 52) (P := at' (tiny : List (Vec3 K))) (outside := [1, 2, 3, 4]) 0 with ⟨-, h⟩ | ⟨i, hi, h, -, hm⟩
    · have := h 1 (by simp)
      norm_num [t0, t1, Vec3.sqLength] at this
    · have := hm 1 (by simp)
      simp only [List.mem_cons, List.not_mem_nil, or_false] at hi
      rcases hi with rfl | rfl | rfl | rfl
      · exact h
      · norm_num [t0, t1, t2, Vec3.sqLength] at this
      · norm_num [t0, t1, t3, Vec3.sqLength] at this
      · norm_num [t0, t1, t4, Vec3.sqLength] at this
  have s2 : stealBest sqrt (1 / 2 ^ 52) (at' tiny) [0, 1] [2, 3, 4] = some ([0, 1, 2], [3, 4]) := by
    rcases steal_two (P := at' (tiny : List (Vec3 K))) (outside := [2, 3, 4]) (a := 0) (b := 1) hsq h0 (by norm_num [t0, t1, Vec3.sqLength])
      (by norm_num [t0, t1, Vec3.sqLength]) with ⟨-, h⟩ | ⟨i, hi, h, -, hm⟩
    · have := h 2 (by simp)
      norm_num [t0, t1, t2, normal, Vec3.cross, Vec3.sqLength] at this
    · have := hm 2 (by simp)
      simp only [List.mem_cons, List.not_mem_nil, or_false] at hi
      rcases hi with rfl | rfl | rfl
      · exact h
      · norm_num [t0, t1, t2, t3, normal, Vec3.cross, Vec3.sqLength] at this
      · norm_num [t0, t1, t2, t4, normal, Vec3.cross, Vec3.sqLength] at this
  have s3 : stealBest sqrt (1 / 2 ^ 52) (at' tiny) [0, 1, 2] [3, 4] = some ([0, 1, 2, 3], [4]) := by
    rcases steal_three (P := at' (tiny : List (Vec3 K))) (outside := [3, 4]) (a := 0) (b := 1) (c := 2) hsq h0 (by norm_num [t0, t2, Vec3.sqLength])
      (by norm_num [t0, t2, Vec3.sqLength]) (by norm_num [t0, t1, t2, normal, Vec3.cross, Vec3.sqLength])
      (by norm_num [t0, t1, t2, normal, Vec3.cross, Vec3.sqLength]) with ⟨-, h⟩ | ⟨i, hi, h, -, hm⟩
    · have := h 3 (by simp)
      norm_num [t0, t1, t2, t3, orient] at this
    · have := hm 3 (by simp)
      simp only [List.mem_cons, List.not_mem_nil, or_false] at hi
      rcases hi with rfl | rfl
      · exact h
      · norm_num [t0, t1, t2, t3, t4, orient] at this
  show growBasis sqrt (1 / 2 ^ 52) (at' tiny) 3 [0] [1, 2, 3, 4] = _
  rw [growBasis, s1]; dsimp only
  rw [growBasis, s2]; dsimp only
  rw [growBasis, s3]; dsimp only
  rw [growBasis]

/-- C111 fails for small sets: the volume of the four points found is compared with the machine epsilon, so a tetrahedron of size one millionth counts as flat, there are no facets
and nothing is added to the vector, although its corners are not in a plane. -/
theorem C111_small_counterexample {sqrt : K → K} (hsq : IsSqrt sqrt) (flag : Bool) (out : List (Vec3 K)) :
    convexHull3d (quickHull sqrt flag) tiny out = out ∧ ¬ InOnePlane (tiny : List (Vec3 K)) := by
  have hb := tiny_basis hsq
  have hvol : |hypervolume (1 / 2 ^ 52 : K) (at' tiny 0) (at' tiny 1) (at' tiny 2) (at' tiny 3)| < 1 / 2 ^ 52 := by
    have t0 : at' (tiny : List (Vec3 K)) 0 = ⟨0, 0, 0⟩ := rfl
    have t1 : at' (tiny : List (Vec3 K)) 1 = ⟨4 / 2 ^ 20, 0, 0⟩ := rfl
    have t2 : at' (tiny : List (Vec3 K)) 2 = ⟨0, 3 / 2 ^ 20, 0⟩ := rfl
    have t3 : at' (tiny : List (Vec3 K)) 3 = ⟨0, 0, 2 / 2 ^ 20⟩ := rfl
    rw [t0, t1, t2, t3]
    norm_num [hypervolume, det3, det2, abs_of_pos]
  have hf : facetsOf sqrt (1 / 2 ^ 52) (at' tiny) flag 0 1 2 3 [4] = some [] := by
    rw [facetsOf]; dsimp only; rw [if_pos hvol]
  have e1 : (quickHull sqrt flag).basis tiny = [0, 1, 2, 3] := congrArg Prod.fst hb
  have e2 : (quickHull sqrt flag).facets tiny = [] := by
    show (match affineBasis sqrt (1 / 2 ^ 52) (at' tiny) (List.range 5) with
      | ([b0, b1, b2, b3], outside) => (facetsOf sqrt (1 / 2 ^ 52) (at' tiny) flag b0 b1 b2 b3 outside).getD []
      | _ => []) = _
    rw [hb]; dsimp only; rw [hf]; rfl
  constructor
  · rw [convexHull3d, if_neg (by simp [tiny]), if_neg (by simp [tiny]), e1, if_neg (by simp), e2]
    simp [firstSeen]
  · rintro ⟨m, c, hm, h⟩
    have a0 := h ⟨0, 0, 0⟩ (by simp [tiny])
    have a1 := h ⟨4 / 2 ^ 20, 0, 0⟩ (by simp [tiny])
    have a2 := h ⟨0, 3 / 2 ^ 20, 0⟩ (by simp [tiny])
    have a3 := h ⟨0, 0, 2 / 2 ^ 20⟩ (by simp [tiny])
    simp only [Vec3.dot, mul_zero, add_zero, zero_add] at a0 a1 a2 a3
    rw [← a0] at a1 a2 a3
    rcases hm with hm | hm | hm
    · exact hm ((mul_eq_zero.mp a1).resolve_right (by positivity))
    · exact hm ((mul_eq_zero.mp a2).resolve_right (by positivity))
    · exact hm ((mul_eq_zero.mp a3).resolve_right (by positivity))

/-! ### Planes and volumes -/

/-- **C114**: for points with integer coordinates up to ten million the elimination with its tolerance loses nothing: the volume of `hypervolume` is the signed volume of the
parallelepiped, and for three points that are not on a line `set_hyperplane_equation` gives the unit normal on the side from which they run counterclockwise and a constant for
which the value at a point is its signed distance: the signed volume divided by the area of the base. -/
theorem C114_plane {sqrt : K → K} (hsq : IsSqrt sqrt) (a b c d p : Vec3 K) (hi : IntegerPoints 10000000 [a, b, c, d]) :
    hypervolume (1 / 2 ^ 52) a b c d = (a - d).dot ((b - d).cross (c - d)) ∧
    (((b - a).cross (c - a)).sqLength ≠ 0 →
      (hyperplane sqrt (1 / 2 ^ 52) a b c).1.sqLength = 1 ∧ (∃ t > 0, (b - a).cross (c - a) = (hyperplane sqrt (1 / 2 ^ 52) a b c).1.smul t) ∧
      ∃ s > 0, s * s = ((b - a).cross (c - a)).sqLength ∧ planeDistance sqrt (1 / 2 ^ 52) a b c p = orient a b c p / s) := by
  have g : ∀ x ∈ [a, b, c, d], Grid (10000000 : K) x := fun x hx => by
    obtain ⟨i, hi', rfl⟩ := mem_at hx
    have := grid_of hi hi'; simpa using this
  have ga := g a (by simp)
  have gb := g b (by simp)
  have gc := g c (by simp)
  have gd := g d (by simp)
  refine ⟨det3_eq (B := 2 * 10000000) (by positivity) (by norm_num) (by norm_num) (diff_grid ga gd) (diff_grid gb gd) (diff_grid gc gd), fun hne => ?_⟩
  have hpos : 0 < (normal a b c).sqLength := lt_of_le_of_ne (sqLength_nonneg _) (Ne.symm hne)
  obtain ⟨s1, s2⟩ := hsq _ hpos
  have h0 : (0 : K) ≤ 1 / 2 ^ 52 := by positivity
  rw [planeDistance_eq sqrt h0 (B := 10000000) (by norm_num) (by norm_num) ga gb gc, hyperplane_eq sqrt h0 (B := 10000000) (by norm_num) (by norm_num) ga gb gc]
  refine ⟨?_, ⟨sqrt (normal a b c).sqLength, s1, ?_⟩, sqrt (normal a b c).sqLength, s1, s2, rfl⟩
  · have : ((normal a b c).sdiv (sqrt (normal a b c).sqLength)).sqLength = (normal a b c).sqLength / (sqrt (normal a b c).sqLength * sqrt (normal a b c).sqLength) := by
      simp only [Vec3.sqLength, Vec3.sdiv]
      field_simp
    dsimp only
    rw [this, s2, div_self hpos.ne']
  · show normal a b c = _
    ext <;> simp only [Vec3.sdiv, Vec3.smul] <;> rw [div_mul_cancel₀ _ s1.ne']

/-- The hypotheses are met by two hundred points on a twisted cubic, all of them extreme. -/
example : IsSqrt Real.sqrt ∧ 5 ≤ (cubic 200 : List (Vec3 ℝ)).length ∧ IntegerPoints 10000000 (cubic 200 : List (Vec3 ℝ)) ∧ NoFourCoplanar (cubic 200 : List (Vec3 ℝ)) ∧
    ∃ hull, convexHull3d (quickHull Real.sqrt false) (cubic 200 : List (Vec3 ℝ)) [] = hull ∧ ∀ p ∈ (cubic 200 : List (Vec3 ℝ)), p ∈ hull := by
  have hl : (cubic 200 : List (Vec3 ℝ)).length = 200 := by simp [cubic]
  refine ⟨real_isSqrt, by rw [hl]; norm_num, cubic_integer, cubic_general 200, _, rfl, fun p hp => ?_⟩
  obtain ⟨hull, h1, -, -, -, h5⟩ := C111_hull_partial real_isSqrt (cubic 200) [] (by rw [hl]; norm_num) cubic_integer (cubic_general 200)
  rw [h1, List.nil_append]
  refine (h5 p hp).mpr fun l hlv => ?_
  obtain ⟨i, hi, rfl⟩ := mem_at hp
  exact cubic_extreme (by rw [hl] at hi; exact hi) hlv

/-- Triangles of the surface of a tetrahedron are found, with the right sense. -/
example : HullFace [(⟨0, 0, 0⟩ : Vec3 ℚ), ⟨1, 0, 0⟩, ⟨0, 1, 0⟩, ⟨0, 0, 1⟩] 1 2 3 ∧ ¬ HullFace [(⟨0, 0, 0⟩ : Vec3 ℚ), ⟨1, 0, 0⟩, ⟨0, 1, 0⟩, ⟨0, 0, 1⟩] 2 1 3 := by
  constructor
  · refine ⟨by decide, by decide, by decide, _, _, _, rfl, rfl, rfl, fun l p hl h1 h2 h3 => ?_⟩
    match l, h1, h2, h3, hl with
    | 0, _, _, _, hl => cases hl; decide +kernel
    | l + 4, _, _, _, hl => simp at hl
  · rintro ⟨-, -, -, a, b, c, ha, hb, hc, h⟩
    cases ha; cases hb; cases hc
    exact absurd (h 0 _ rfl (by decide) (by decide) (by decide)) (by decide +kernel)

end Cmm.Quick
