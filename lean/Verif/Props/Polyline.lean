import Verif.Lemmas.Polyline
/-!
C52: polyline assembly.
-/
namespace Cmm.Poly
open Cmm.Hash (PointKey pointKey)
variable {K : Type} [Field K] [LinearOrder K] [IsStrictOrderedRing K]

/-- C52 for any key function that is defined at the ends of the segments and puts points that pass the proximity test in the same or neighbouring
cells: the assembly ends; there are paths whose edges are the segments, every segment exactly once; the polylines are these paths, a closed path
without its last point; and no segment used in a later polyline could have been attached to an end of an earlier one. Polylines already in the result are
kept. -/
theorem C52_assemble_of_keys (key tkey : Vec3 K → Res PointKey) (length : Vec3 K → K) (hl : LengthOk length) (segs : List (Segment K))
    (hk : KeysOk key tkey length segs) (branches : List (List (Vec3 K))) :
    ∃ paths : List (List (Vec3 K) × List Nat),
      assembleWith key tkey length segs branches = .ok (some (branches ++ paths.map fun p => close length p.1)) ∧
      (paths.flatMap fun p => p.2).Perm (List.range segs.length) ∧
      (∀ p ∈ paths, Traces segs p.1 p.2) ∧
      paths.Pairwise fun p q => Exhausted length segs p.1 q.2 := by
  obtain ⟨index, e, hm⟩ := buildIndex_spec (key := key) (endpoints segs) (fun _ => []) fun e he => by
    obtain ⟨k, h, -⟩ := hk.keyOk e he
    exact ⟨k, h⟩
  obtain ⟨paths, h1, h2, h3, h4⟩ := mainLoop_spec hl hk (endpoints segs) index [] branches (fun _ h => h)
    ⟨fun k f hf => by rcases (hm k f).1 hf with h | h; exacts [absurd h (by simp), h.1],
     fun f hf _ => by
      obtain ⟨k, h, -⟩ := hk.keyOk f hf
      exact ⟨k, h, (hm k f).2 (Or.inr ⟨hf, h⟩)⟩⟩
    List.nodup_nil (by simp) fun i hi _ => ⟨⟨segs[i], i, true⟩, mem_endpoints.2 (by simp [hi]), rfl⟩
  refine ⟨paths, ?_, by simpa using h2, h3, h4⟩
  unfold assembleWith
  rw [e, Res.ok_bind, h1]

omit [IsStrictOrderedRing K] in
/-- C52: closing a path drops its last point exactly if the first and the last point pass the proximity test, so that the edge from the last to the
first of the remaining points stands for the last segment. -/
theorem C52_close (length : Vec3 K → K) (path : List (Vec3 K)) (f b : Vec3 K) (hf : path.head? = some f) (hb : path.getLast? = some b) :
    (length (f - b) < 1 / 2 ^ 52 → path = close length path ++ [b]) ∧ (¬ length (f - b) < 1 / 2 ^ 52 → close length path = path) := by
  unfold close near eps
  rw [hf, hb]
  dsimp only
  constructor
  · intro h
    rw [if_pos (by simpa using h)]
    have hne : path ≠ [] := by rintro rfl; cases hf
    rw [List.getLast?_eq_getLast_of_ne_nil hne] at hb
    rw [← Option.some.inj hb]
    exact (List.dropLast_append_getLast hne).symm
  · intro h
    rw [if_neg (by simpa using h)]

variable [FloorRing K]

/-- All coordinates of the segment are within the range in which keys are defined. -/
def Small (s : Segment K) : Prop := ∀ p, (p = s.p1 ∨ p = s.p2) → ∀ c, (c = p.x ∨ c = p.y ∨ c = p.z) → |c| ≤ 2147483646 / 2 ^ 52

theorem key_small {c : K} (h : |c| ≤ 2147483646 / 2 ^ 52) :
    ∃ r, Hash.toInt ((⌊c / Hash.keyEps + 1 / 2⌋ : Int) : K) = .ok r ∧ -2147483647 ≤ r ∧ r ≤ 2147483646 := by
  rw [abs_le] at h
  have p := Hash.keyEps_pos (K := K)
  rcases Hash.key_cases c with hu | ⟨r, hr⟩
  · exfalso
    have : pointKey (⟨c, 0, 0⟩ : Vec3 K) = .ub := by unfold pointKey; simp only [hu, Res.ub_bind]
    obtain ⟨d, hd, hr⟩ := (Hash.C71_point_key_range _).1 this
    dsimp only at hd
    have hd : d = c ∨ d = 0 := by rcases hd with h | h | h; exacts [Or.inl h, Or.inr h, Or.inr h]
    have a : (2147483646 : K) / 2 ^ 52 < (2147483648 - 1 / 2) / 2 ^ 52 := by
      rw [div_lt_div_iff_of_pos_right (by positivity)]; norm_num
    have b : (-2147483648 - 1 / 2 : K) / 2 ^ 52 < -(2147483646 / 2 ^ 52) := by
      rw [← neg_div, div_lt_div_iff_of_pos_right (by positivity)]; norm_num
    have z : (0 : K) < 2147483646 / 2 ^ 52 := by positivity
    rcases hd with rfl | rfl
    · rcases hr with hr | hr <;> linarith
    · rcases hr with hr | hr <;> linarith
  · refine ⟨r, hr, ?_, ?_⟩
    · obtain ⟨h1, h2⟩ := Hash.key_coord hr
      by_contra hn
      have hn : r ≤ -2147483648 := by omega
      have hn : (r : K) ≤ -2147483648 := by exact_mod_cast hn
      have e : (2147483646 : K) / 2 ^ 52 = 2147483646 * Hash.keyEps := by unfold Hash.keyEps; rw [mul_one_div]
      rw [e] at h
      nlinarith [h.1]
    · obtain ⟨h1, h2⟩ := Hash.key_coord hr
      by_contra hn
      have hn : 2147483647 ≤ r := by omega
      have hn : (2147483647 : K) ≤ r := by exact_mod_cast hn
      have e : (2147483646 : K) / 2 ^ 52 = 2147483646 * Hash.keyEps := by unfold Hash.keyEps; rw [mul_one_div]
      rw [e] at h
      nlinarith [h.2]

theorem trunc_small {c : K} (h : |c| ≤ 2147483646 / 2 ^ 52) : ∃ r, Hash.toInt c = .ok r := by
  cases hc : Hash.toInt c with
  | ok r => exact ⟨r, rfl⟩
  | throws => unfold Hash.toInt at hc; dsimp only at hc; split_ifs at hc
  | ub =>
    exfalso
    rw [abs_le] at h
    have : (2147483646 : K) / 2 ^ 52 < 1 := by rw [div_lt_one (by positivity)]; norm_num
    rcases Hash.toInt_ub.1 hc with h' | h' <;> linarith

/-- The keys of the code meet the requirements if the coordinates are small. -/
theorem keysOk {length : Vec3 K → K} (hl : LengthOk length) {segs : List (Segment K)} (hs : ∀ s ∈ segs, Small s) :
    KeysOk pointKey truncKey length segs := by
  have sm : ∀ e ∈ endpoints segs, ∀ c, (c = e.point.x ∨ c = e.point.y ∨ c = e.point.z) → |c| ≤ 2147483646 / 2 ^ 52 := by
    intro e he c hc
    refine hs e.segment (List.mem_of_getElem? (mem_endpoints.1 he)) e.point ?_ c hc
    unfold Endpoint.point
    split
    · exact Or.inl rfl
    · exact Or.inr rfl
  refine ⟨fun e he => ?_, fun e he => ?_, fun e he f hf k l hk hl' hn => ?_⟩
  · obtain ⟨x, e1, r1⟩ := key_small (sm e he _ (Or.inl rfl))
    obtain ⟨y, e2, r2⟩ := key_small (sm e he _ (Or.inr (Or.inl rfl)))
    obtain ⟨z, e3, r3⟩ := key_small (sm e he _ (Or.inr (Or.inr rfl)))
    exact ⟨⟨x, y, z⟩, by unfold pointKey; rw [e1, e2, e3]; rfl, r1, r2, r3⟩
  · obtain ⟨x, e1⟩ := trunc_small (sm e he _ (Or.inl rfl))
    obtain ⟨y, e2⟩ := trunc_small (sm e he _ (Or.inr (Or.inl rfl)))
    obtain ⟨z, e3⟩ := trunc_small (sm e he _ (Or.inr (Or.inr rfl)))
    exact ⟨⟨x, y, z⟩, by unfold truncKey; rw [e1, e2, e3]; rfl⟩
  · have hnear := near_of hl hn
    unfold Near at hnear
    have c : ∀ t : K, t * t < (1 / 2 ^ 52) ^ 2 → |t| ≤ 1 / 2 ^ 52 := fun t ht => by
      have := abs_lt_of_sq_lt_sq (a := t) (b := 1 / 2 ^ 52) (by rw [sq t]; exact ht) (by positivity)
      exact this.le
    simp only [Vec3.dot, Vec3.sub_x, Vec3.sub_y, Vec3.sub_z] at hnear
    refine (Hash.C71_point_key e.point f.point k l hk hl').2 ?_ ?_ ?_
    · rw [abs_sub_comm]; refine c _ ?_
      nlinarith [mul_self_nonneg (f.point.y - e.point.y), mul_self_nonneg (f.point.z - e.point.z)]
    · rw [abs_sub_comm]; refine c _ ?_
      nlinarith [mul_self_nonneg (f.point.x - e.point.x), mul_self_nonneg (f.point.z - e.point.z)]
    · rw [abs_sub_comm]; refine c _ ?_
      nlinarith [mul_self_nonneg (f.point.x - e.point.x), mul_self_nonneg (f.point.y - e.point.y)]

/-- **C52** for segments with small coordinates (at most about 4.7e-7): `assemble_polylines` ends; there are paths whose edges are the segments up to the
tolerance, every segment exactly once; the new polylines are these paths, a closed path without its last point; no unused segment could have been
attached. Larger coordinates are undefined behaviour (`C52_range_counterexample`). -/
theorem C52_assemble_partial (length : Vec3 K → K) (hl : LengthOk length) (segs : List (Segment K)) (hs : ∀ s ∈ segs, Small s)
    (branches : List (List (Vec3 K))) :
    ∃ paths : List (List (Vec3 K) × List Nat),
      assemble length segs branches = .ok (some (branches ++ paths.map fun p => close length p.1)) ∧
      (paths.flatMap fun p => p.2).Perm (List.range segs.length) ∧
      (∀ p ∈ paths, Traces segs p.1 p.2) ∧
      paths.Pairwise fun p q => Exhausted length segs p.1 q.2 :=
  C52_assemble_of_keys pointKey truncKey length hl segs (keysOk hl hs) branches

/-- C52: a coordinate above about 4.8e-7 makes the assembly undefined: the conversion of the key to `int` overflows. -/
theorem C52_range_counterexample (length : Vec3 K → K) (segs : List (Segment K)) (branches : List (List (Vec3 K))) (s : Segment K) (hs : s ∈ segs)
    (h : (2147483648 - 1 / 2) / 2 ^ 52 ≤ s.p1.x) : assemble length segs branches = .ub := by
  have key : ∀ (es : List (Endpoint K)) (index : Index K), (∃ e ∈ es, pointKey e.point = .ub) → buildIndex pointKey es index = .ub := by
    intro es
    induction es with
    | nil => rintro _ ⟨e, he, -⟩; cases he
    | cons f es ih =>
      rintro index ⟨e, he, hu⟩
      unfold buildIndex addToIndex
      cases hf : pointKey f.point with
      | ub => rfl
      | throws =>
        exfalso
        unfold pointKey at hf
        rcases Hash.key_cases f.point.x with h1 | ⟨r1, h1⟩ <;> rcases Hash.key_cases f.point.y with h2 | ⟨r2, h2⟩ <;>
          rcases Hash.key_cases f.point.z with h3 | ⟨r3, h3⟩ <;> simp only [h1, h2, h3, Res.ok_bind, Res.ub_bind, Res.pure_eq, reduceCtorEq] at hf
      | ok k =>
        simp only [Res.ok_bind, Res.pure_eq]
        refine ih _ ?_
        rcases List.mem_cons.1 he with rfl | he
        · rw [hf] at hu; cases hu
        · exact ⟨e, he, hu⟩
  obtain ⟨i, hi⟩ := List.mem_iff_getElem?.1 hs
  unfold assemble assembleWith
  rw [key (endpoints segs) _ ⟨⟨s, i, true⟩, mem_endpoints.2 hi, (Hash.C71_point_key_range _).2 ⟨s.p1.x, Or.inl rfl, Or.inr h⟩⟩]
  rfl

omit [IsStrictOrderedRing K] in
theorem pointKey_ne_throws (p : Vec3 K) : pointKey p ≠ .throws := by
  intro hf
  unfold pointKey at hf
  rcases Hash.key_cases p.x with h1 | ⟨r1, h1⟩ <;> rcases Hash.key_cases p.y with h2 | ⟨r2, h2⟩ <;>
    rcases Hash.key_cases p.z with h3 | ⟨r3, h3⟩ <;> simp only [h1, h2, h3, Res.ok_bind, Res.ub_bind, Res.pure_eq, reduceCtorEq] at hf

omit [IsStrictOrderedRing K] in
theorem truncKey_ne_throws (p : Vec3 K) : truncKey p ≠ .throws := by
  have c : ∀ x : K, Hash.toInt x = .ub ∨ ∃ r, Hash.toInt x = .ok r := by intro x; unfold Hash.toInt; dsimp only; split_ifs <;> simp
  intro hf
  unfold truncKey at hf
  rcases c p.x with h1 | ⟨r1, h1⟩ <;> rcases c p.y with h2 | ⟨r2, h2⟩ <;>
    rcases c p.z with h3 | ⟨r3, h3⟩ <;> simp only [h1, h2, h3, Res.ok_bind, Res.ub_bind, Res.pure_eq, reduceCtorEq] at hf

omit [IsStrictOrderedRing K] in
theorem buildIndex_ne_throws : ∀ (es : List (Endpoint K)) (index : Index K), buildIndex pointKey es index ≠ .throws
  | [], _ => by unfold buildIndex; exact nofun
  | e :: es, index => by
    unfold buildIndex addToIndex
    cases h : pointKey e.point with
    | ub => exact nofun
    | throws => exact absurd h (pointKey_ne_throws _)
    | ok k => exact buildIndex_ne_throws es _

omit [IsStrictOrderedRing K] in
theorem removeFromIndex_ne_throws (index : Index K) (e : Endpoint K) : removeFromIndex truncKey index e ≠ .throws := by
  unfold removeFromIndex
  cases h : truncKey e.point with
  | ub => exact nofun
  | throws => exact absurd h (truncKey_ne_throws _)
  | ok k => exact nofun

omit [IsStrictOrderedRing K] in
theorem removeBoth_ne_throws (eps : List (Endpoint K)) (index : Index K) (e : Endpoint K) : removeBoth truncKey eps index e ≠ .throws := by
  unfold removeBoth
  cases h : removeFromIndex truncKey index e with
  | ub => exact nofun
  | throws => exact absurd h (removeFromIndex_ne_throws _ _)
  | ok i =>
    rw [Res.ok_bind]
    split
    · exact nofun
    · exact removeFromIndex_ne_throws _ _

omit [IsStrictOrderedRing K] [FloorRing K] [Field K] [LinearOrder K] in
/-- The neighbours of an outermost cell: the sum of the key and the offset overflows. -/
theorem collect_outermost (index : Index K) (k : PointKey)
    (h : ∃ c, (c = k.x ∨ c = k.y ∨ c = k.z) ∧ (c = -2147483648 ∨ c = 2147483647)) :
    ∀ ds : List (Int × Int × Int), (-1, -1, -1) ∈ ds ∧ (1, 1, 1) ∈ ds → collect index k ds = .ub := by
  have a : ∀ x y : Int, addInt x y = .ub ∨ addInt x y = .ok (x + y) := by
    intro x y; unfold addInt; split <;> simp
  have one : ∀ d ds, ((∃ c, (c = k.x + d.1 ∨ c = k.y + d.2.1 ∨ c = k.z + d.2.2) ∧ (c < -2147483648 ∨ 2147483647 < c)) ∨ collect index k ds = .ub) →
      collect index k (d :: ds) = .ub := by
    intro d ds hd
    unfold collect
    have bad : ∀ x y : Int, x + y < -2147483648 ∨ 2147483647 < x + y → addInt x y = .ub := fun x y h => by
      unfold addInt; rw [if_neg (by omega)]
    rcases hd with ⟨c, hc, hb⟩ | hd
    · rcases hc with rfl | rfl | rfl
      · rw [bad _ _ hb]; rfl
      · rcases a k.x d.1 with h1 | h1 <;> rw [h1] <;> first | rfl | rw [Res.ok_bind, bad _ _ hb]; rfl
      · rcases a k.x d.1 with h1 | h1 <;> rw [h1] <;> first | rfl | rw [Res.ok_bind]
        rcases a k.y d.2.1 with h1 | h1 <;> rw [h1] <;> first | rfl | rw [Res.ok_bind, bad _ _ hb]; rfl
    · rcases a k.x d.1 with h1 | h1 <;> rw [h1] <;> first | rfl | rw [Res.ok_bind]
      rcases a k.y d.2.1 with h1 | h1 <;> rw [h1] <;> first | rfl | rw [Res.ok_bind]
      rcases a k.z d.2.2 with h1 | h1 <;> rw [h1] <;> first | rfl | rw [Res.ok_bind, hd]; rfl
  obtain ⟨c, hc, hb⟩ := h
  have mem : ∀ (d : Int × Int × Int) (ds : List (Int × Int × Int)), d ∈ ds →
      (∃ c, (c = k.x + d.1 ∨ c = k.y + d.2.1 ∨ c = k.z + d.2.2) ∧ (c < -2147483648 ∨ 2147483647 < c)) → collect index k ds = .ub := by
    intro d ds hd hx
    induction ds with
    | nil => cases hd
    | cons f ds ih =>
      rcases List.mem_cons.1 hd with rfl | hd
      · exact one _ _ (Or.inl hx)
      · exact one _ _ (Or.inr (ih hd))
  rintro ds ⟨m1, m2⟩
  rcases hb with rfl | rfl
  · exact mem _ ds m1 ⟨-2147483648 - 1, by rcases hc with h | h | h <;> [left; (right; left); (right; right)] <;> dsimp only <;> omega, by omega⟩
  · exact mem _ ds m2 ⟨2147483647 + 1, by rcases hc with h | h | h <;> [left; (right; left); (right; right)] <;> dsimp only <;> omega, by omega⟩

omit [IsStrictOrderedRing K] in
/-- C52: the assembly is undefined also where the key itself fits: if the first point lies in an outermost cell, the key of the next cell overflows. -/
theorem C52_outermost_cell_counterexample (length : Vec3 K → K) (s : Segment K) (segs : List (Segment K)) (branches : List (List (Vec3 K))) (k : PointKey)
    (hk : pointKey s.p1 = .ok k) (h : ∃ c, (c = k.x ∨ c = k.y ∨ c = k.z) ∧ (c = -2147483648 ∨ c = 2147483647)) :
    assemble length (s :: segs) branches = .ub := by
  unfold assemble assembleWith
  cases hi : buildIndex pointKey (endpoints (s :: segs)) (fun _ => []) with
  | ub => rfl
  | throws => exact absurd hi (buildIndex_ne_throws _ _)
  | ok index =>
    rw [Res.ok_bind]
    obtain ⟨rest, hr⟩ : ∃ rest, endpoints (s :: segs) = ⟨s, 0, true⟩ :: rest := ⟨_, rfl⟩
    rw [hr]
    unfold mainLoop
    simp only [List.contains_nil, Bool.false_eq_true, if_false]
    cases hb : removeBoth truncKey (⟨s, 0, true⟩ :: rest) index ⟨s, 0, true⟩ with
    | ub => rfl
    | throws => exact absurd hb (removeBoth_ne_throws _ _ _)
    | ok index' =>
      rw [Res.ok_bind]
      have : findNearby pointKey index' s.p1 = .ub := by
        unfold findNearby
        rw [hk, Res.ok_bind]
        exact collect_outermost index' k h offsets ⟨by decide, by decide⟩
      have e1 : extendFront pointKey truncKey length (⟨s, 0, true⟩ :: rest) ⟨index', [0], [s.p1, s.p2]⟩ = .ub := by
        unfold extendFront findNext
        simp only [this]; rfl
      have e2 : extend pointKey truncKey length (⟨s, 0, true⟩ :: rest) ((s :: segs).length + 1) ⟨index', [0], [s.p1, s.p2]⟩ = .ub := by
        unfold extend; rw [e1]; rfl
      simp only [Endpoint.point, Endpoint.far, if_true, e2]; rfl

/-- The hypotheses can be met. -/
example : pointKey (⟨2147483647 / 2 ^ 52, 0, 0⟩ : Vec3 ℚ) = .ok ⟨2147483647, 0, 0⟩ := by decide +kernel

/-- A length that meets `LengthOk`, and the grid of step `2^-30` used in the examples. -/
def testLength (v : Vec3 ℚ) : ℚ := if v.dot v < (1 / 2 ^ 52) ^ 2 then 0 else 1

example : LengthOk testLength := by
  intro v h
  unfold testLength at h
  split at h
  · assumption
  · norm_num at h

def pt (i j : ℚ) : Vec3 ℚ := ⟨i / 2 ^ 30, j / 2 ^ 30, 0⟩

/-- A closed square given in scrambled order, and two segments that form an open polyline. -/
example : assemble testLength [⟨pt 0 0, pt 1 0⟩, ⟨pt 1 1, pt 0 1⟩, ⟨pt 5 0, pt 6 0⟩, ⟨pt 1 1, pt 1 0⟩, ⟨pt 0 1, pt 0 0⟩, ⟨pt 7 0, pt 6 0⟩] [] =
    .ok (some [[pt 1 1, pt 0 1, pt 0 0, pt 1 0], [pt 5 0, pt 6 0, pt 7 0]]) := by decide +kernel

example : ∀ s ∈ ([⟨pt 0 0, pt 1 0⟩, ⟨pt 7 0, pt 6 0⟩] : List (Segment ℚ)), Small s := by
  intro s hs p hp c hc
  simp only [List.mem_cons, List.not_mem_nil, or_false] at hs
  rcases hs with rfl | rfl <;> rcases hp with rfl | rfl <;> rcases hc with rfl | rfl | rfl <;> (unfold pt; norm_num)

end Cmm.Poly
