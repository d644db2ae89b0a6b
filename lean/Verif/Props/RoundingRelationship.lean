import Verif.Lemmas.RoundingHull2d
import Verif.Props.Separability
/-!
`polygonRelationship2D` in `double`: edge normals and projections are rounded.
-/
namespace Cmm.Sep
open Cmm.Geom Cmm.Num
variable {K : Type} [Field K] [LinearOrder K] [IsStrictOrderedRing K]

section
variable {R : Rounding K} {u : K}

/-- The rounded position. -/
private theorem dot_near (F : FormatOk R u) (hu : u ≤ 1 / 2 ^ 53) {p q v : Vec2 (Fp R)} (hp : |p.x.val| ≤ 100 ∧ |p.y.val| ≤ 100) (hq : |q.x.val| ≤ 100 ∧ |q.y.val| ≤ 100)
    (hv : |v.x.val| ≤ 100 ∧ |v.y.val| ≤ 100) : |(v.dot ⟨-(q.y - p.y), q.x - p.x⟩).val - along p q v| ≤ 14 / 10 ^ 12 := by
  have h0 := F.nonneg
  have d : ∀ x y : K, |x| ≤ 100 → |y| ≤ 100 → |x - y| ≤ 200 := fun x y hx hy => (abs_sub _ _).trans (by linarith)
  have a1 : Num.Near u 1 (q.y - p.y).val (q.y.val - p.y.val) 200 := (Num.Near.refl (d _ _ hq.2 hp.2)).rnd F.err h0
  have a2 : Num.Near u 1 (q.x - p.x).val (q.x.val - p.x.val) 200 := (Num.Near.refl (d _ _ hq.1 hp.1)).rnd F.err h0
  have a3 : Num.Near u 1 (-(q.y - p.y) : Fp R).val (-(q.y.val - p.y.val)) 200 := by
    have : (-(q.y - p.y) : Fp R).val = -(q.y - p.y).val := F.neg _ (q.y - p.y).2
    rw [this]
    exact Hull2d.near_neg a1
  have m1 := ((Num.Near.refl (u := u) hv.1).mul a3).rnd F.err h0
  have m2 := ((Num.Near.refl (u := u) hv.2).mul a2).rnd F.err h0
  have m := ((m1.add m2).rnd F.err h0).2
  refine le_trans m ?_
  have : (1 + u) ^ (0 + 1 + 1 + 1) ≤ (1 + 1 / 2 ^ 53) ^ (0 + 1 + 1 + 1) := pow_le_pow_left₀ (by linarith) (by linarith) _
  calc ((1 + u) ^ (0 + 1 + 1 + 1) - 1) * (100 * 200 + 100 * 200) ≤ ((1 + 1 / 2 ^ 53) ^ (0 + 1 + 1 + 1) - 1) * (100 * 200 + 100 * 200) :=
        mul_le_mul_of_nonneg_right (by linarith) (by norm_num)
    _ ≤ 14 / 10 ^ 12 := by norm_num

omit [IsStrictOrderedRing K] in
private theorem edge_mem {a : List (Vec2 (Fp R))} {p q : Vec2 (Fp R)} (h : IsEdge a p q) : p ∈ a ∧ q ∈ a := by
  obtain ⟨i, _, h1, h2⟩ := h
  exact ⟨List.mem_of_getElem? h1, List.mem_of_getElem? h2⟩

omit [IsStrictOrderedRing K] in
private theorem distance_iff (big : Fp R) (a b : List (Vec2 (Fp R))) : polygonRelationship big a b = .distance ↔
    ∃ p q, (IsEdge a p q ∨ IsEdge b p q) ∧ checkOverlap (projectPolygon big a ⟨-(q.y - p.y), q.x - p.x⟩) (projectPolygon big b ⟨-(q.y - p.y), q.x - p.x⟩) = false := by
  have h0 : polygonRelationship big a b = .distance ↔ axisLoop big a b (axes a ++ axes b) false = none := by
    unfold polygonRelationship
    cases hx : axisLoop big a b (axes a ++ axes b) false with
    | none => simp
    | some t =>
      dsimp only
      constructor
      · intro h
        split at h
        · cases h
        · split at h <;> cases h
      · intro h; cases h
  rw [h0, (axisLoop_spec (big := big) (a := a) (b := b) (axes a ++ axes b) false).1]
  constructor
  · rintro ⟨n, hn, h⟩
    rw [List.mem_append, axes_iff, axes_iff] at hn
    rcases hn with ⟨p, q, e, rfl⟩ | ⟨p, q, e, rfl⟩
    · exact ⟨p, q, Or.inl e, h⟩
    · exact ⟨p, q, Or.inr e, h⟩
  · rintro ⟨p, q, e, h⟩
    refine ⟨_, ?_, h⟩
    rw [List.mem_append, axes_iff, axes_iff]
    rcases e with e | e
    · exact Or.inl ⟨p, q, e, rfl⟩
    · exact Or.inr ⟨p, q, e, rfl⟩

private theorem c150_distance (F : FormatOk R u) (hu : u ≤ 1 / 2 ^ 53) (big : Fp R) (a b : List (Vec2 (Fp R))) (hb : ∀ p, p ∈ a ∨ p ∈ b → |p.x.val| ≤ 100 ∧ |p.y.val| ≤ 100)
    (h : polygonRelationship big a b = .distance) :
    ∃ p q, (IsEdge a p q ∨ IsEdge b p q) ∧
      ((∀ v ∈ a, ∀ w ∈ b, along p q v < along p q w + 3 / 10 ^ 11) ∨ ∀ v ∈ a, ∀ w ∈ b, along p q w < along p q v + 3 / 10 ^ 11) := by
  obtain ⟨p, q, e, h⟩ := (distance_iff big a b).1 h
  have hpq : (|p.x.val| ≤ 100 ∧ |p.y.val| ≤ 100) ∧ |q.x.val| ≤ 100 ∧ |q.y.val| ≤ 100 := by
    rcases e with e | e
    · exact ⟨hb _ (Or.inl (edge_mem e).1), hb _ (Or.inl (edge_mem e).2)⟩
    · exact ⟨hb _ (Or.inr (edge_mem e).1), hb _ (Or.inr (edge_mem e).2)⟩
  refine ⟨p, q, e, ?_⟩
  have near := fun v hv => abs_le.1 (dot_near F hu hpq.1 hpq.2 (hb v hv))
  obtain ⟨h1, h2, -, -, -, -⟩ := fold_minmax (fun v : Vec2 (Fp R) => v.dot ⟨-(q.y - p.y), q.x - p.x⟩) a (big, -big)
  obtain ⟨g1, g2, -, -, -, -⟩ := fold_minmax (fun v : Vec2 (Fp R) => v.dot ⟨-(q.y - p.y), q.x - p.x⟩) b (big, -big)
  unfold checkOverlap projectPolygon at h
  rw [Bool.and_eq_false_iff, decide_eq_false_iff_not, decide_eq_false_iff_not, not_le, not_le] at h
  rcases h with h | h
  · right
    intro v hv w hw
    have := Hull2d.lt_val.1 (lt_of_le_of_lt (g2 w hw) (lt_of_lt_of_le h (h1 v hv)))
    have n1 := near v (Or.inl hv)
    have n2 := near w (Or.inr hw)
    norm_num at n1 n2 ⊢
    linarith [n1.1, n1.2, n2.1, n2.2]
  · left
    intro v hv w hw
    have := Hull2d.lt_val.1 (lt_of_le_of_lt (h2 v hv) (lt_of_lt_of_le h (g1 w hw)))
    have n1 := near v (Or.inl hv)
    have n2 := near w (Or.inr hw)
    norm_num at n1 n2 ⊢
    linarith [n1.1, n1.2, n2.1, n2.2]

private theorem c150_overlap (F : FormatOk R u) (hu : u ≤ 1 / 2 ^ 53) (big : Fp R) (a b : List (Vec2 (Fp R))) (hb : ∀ p, p ∈ a ∨ p ∈ b → |p.x.val| ≤ 100 ∧ |p.y.val| ≤ 100)
    (h : ∀ p q, (IsEdge a p q ∨ IsEdge b p q) →
      (∃ v ∈ a, ∃ w ∈ b, along p q w + 3 / 10 ^ 11 ≤ along p q v) ∧ ∃ v ∈ a, ∃ w ∈ b, along p q v + 3 / 10 ^ 11 ≤ along p q w) :
    polygonRelationship big a b = .intersect := by
  have nd : polygonRelationship big a b ≠ .distance := fun hd => by
    obtain ⟨p, q, e, k⟩ := c150_distance F hu big a b hb hd
    rcases k with k | k
    · obtain ⟨v, hv, w, hw, l⟩ := (h p q e).1
      exact absurd (k v hv w hw) (not_lt.2 l)
    · obtain ⟨v, hv, w, hw, l⟩ := (h p q e).2
      exact absurd (k v hv w hw) (not_lt.2 l)
  unfold polygonRelationship at nd ⊢
  cases hx : axisLoop big a b (axes a ++ axes b) false with
  | none => rw [hx] at nd; exact absurd rfl nd
  | some t =>
    dsimp only
    split
    · rfl
    · split
      · rename_i ht
        exfalso
        rcases ((axisLoop_spec (big := big) (a := a) (b := b) (axes a ++ axes b) false).2 t hx).1 ht with k | ⟨n, hn, k⟩
        · cases k
        · rw [List.mem_append, axes_iff, axes_iff] at hn
          obtain ⟨p, q, e, rfl⟩ : ∃ p q, (IsEdge a p q ∨ IsEdge b p q) ∧ n = ⟨-(q.y - p.y), q.x - p.x⟩ := by
            rcases hn with ⟨p, q, e, rfl⟩ | ⟨p, q, e, rfl⟩
            · exact ⟨p, q, Or.inl e, rfl⟩
            · exact ⟨p, q, Or.inr e, rfl⟩
          have hpq : (|p.x.val| ≤ 100 ∧ |p.y.val| ≤ 100) ∧ |q.x.val| ≤ 100 ∧ |q.y.val| ≤ 100 := by
            rcases e with e | e
            · exact ⟨hb _ (Or.inl (edge_mem e).1), hb _ (Or.inl (edge_mem e).2)⟩
            · exact ⟨hb _ (Or.inr (edge_mem e).1), hb _ (Or.inr (edge_mem e).2)⟩
          have near := fun v hv => abs_le.1 (dot_near F hu hpq.1 hpq.2 (hb v hv))
          obtain ⟨h1, h2, -, -, -, -⟩ := fold_minmax (fun v : Vec2 (Fp R) => v.dot ⟨-(q.y - p.y), q.x - p.x⟩) a (big, -big)
          obtain ⟨g1, g2, -, -, -, -⟩ := fold_minmax (fun v : Vec2 (Fp R) => v.dot ⟨-(q.y - p.y), q.x - p.x⟩) b (big, -big)
          unfold projectPolygon at k
          rcases k with k | k
          · obtain ⟨v, hv, w, hw, l⟩ := (h p q e).2
            have : (w.dot ⟨-(q.y - p.y), q.x - p.x⟩).val ≤ (v.dot ⟨-(q.y - p.y), q.x - p.x⟩).val := (g2 w hw).trans (k.symm.le.trans (h1 v hv))
            have n1 := near v (Or.inl hv)
            have n2 := near w (Or.inr hw)
            norm_num at n1 n2 l
            linarith [n1.1, n1.2, n2.1, n2.2]
          · obtain ⟨v, hv, w, hw, l⟩ := (h p q e).1
            have : (v.dot ⟨-(q.y - p.y), q.x - p.x⟩).val ≤ (w.dot ⟨-(q.y - p.y), q.x - p.x⟩).val := (h2 v hv).trans (k.le.trans (g1 w hw))
            have n1 := near v (Or.inl hv)
            have n2 := near w (Or.inr hw)
            norm_num at n1 n2 l
            linarith [n1.1, n1.2, n2.1, n2.2]
      · rfl

private theorem exists_top {V T : Type} [LinearOrder T] (f : V → T) : ∀ l : List V, l ≠ [] → ∃ p ∈ l, ∀ q ∈ l, f q ≤ f p
  | [], h => absurd rfl h
  | [v], _ => ⟨v, by simp, by simp⟩
  | v :: w :: l, _ => by
    obtain ⟨p, hp, h⟩ := exists_top f (w :: l) (by simp)
    rcases le_total (f v) (f p) with k | k
    · exact ⟨p, List.mem_cons_of_mem _ hp, fun q hq => by
        rcases List.mem_cons.1 hq with rfl | hq
        · exact k
        · exact h q hq⟩
    · exact ⟨v, by simp, fun q hq => by
        rcases List.mem_cons.1 hq with rfl | hq
        · exact le_rfl
        · exact (h q hq).trans k⟩

omit [IsStrictOrderedRing K] in
/-- The end of a polygon in a direction is attained, if it is in range. -/
theorem max_attained {l : List (Vec2 (Fp R))} (hl : l ≠ []) (f : Vec2 (Fp R) → Fp R) (m : Fp R × Fp R) (h : ∀ p ∈ l, m.2 ≤ f p ∧ f p ≤ m.1) :
    (∃ p ∈ l, (l.foldl (fun m p => (min m.1 (f p), max m.2 (f p))) m).1 = f p) ∧ ∃ p ∈ l, (l.foldl (fun m p => (min m.1 (f p), max m.2 (f p))) m).2 = f p := by
  obtain ⟨h1, h2, -, -, h5, h6⟩ := fold_minmax f l m
  obtain ⟨i, hi, mi⟩ := exists_top (T := (Fp R)ᵒᵈ) (fun p => OrderDual.toDual (f p)) l hl
  obtain ⟨j, hj, mj⟩ := exists_top f l hl
  exact ⟨⟨i, hi, le_antisymm (h1 i hi) (h5 _ (h i hi).2 mi)⟩, ⟨j, hj, le_antisymm (h6 _ (h j hj).1 mj) (h2 j hj)⟩⟩

private theorem c150_gap (F : FormatOk R u) (hu : u ≤ 1 / 2 ^ 53) (big : Fp R) (hbig : 10 ^ 6 ≤ big.val) (a b : List (Vec2 (Fp R))) (ha : a ≠ []) (hb0 : b ≠ [])
    (hb : ∀ p, p ∈ a ∨ p ∈ b → |p.x.val| ≤ 100 ∧ |p.y.val| ≤ 100) (p q : Vec2 (Fp R)) (e : IsEdge a p q ∨ IsEdge b p q)
    (h : (∀ v ∈ a, ∀ w ∈ b, along p q v + 3 / 10 ^ 11 ≤ along p q w) ∨ ∀ v ∈ a, ∀ w ∈ b, along p q w + 3 / 10 ^ 11 ≤ along p q v) :
    polygonRelationship big a b = .distance := by
  have hpq : (|p.x.val| ≤ 100 ∧ |p.y.val| ≤ 100) ∧ |q.x.val| ≤ 100 ∧ |q.y.val| ≤ 100 := by
    rcases e with e | e
    · exact ⟨hb _ (Or.inl (edge_mem e).1), hb _ (Or.inl (edge_mem e).2)⟩
    · exact ⟨hb _ (Or.inr (edge_mem e).1), hb _ (Or.inr (edge_mem e).2)⟩
  have near := fun v hv => abs_le.1 (dot_near F hu hpq.1 hpq.2 (hb v hv))
  rw [distance_iff]
  refine ⟨p, q, e, ?_⟩
  have range : ∀ v, v ∈ a ∨ v ∈ b → -big ≤ v.dot ⟨-(q.y - p.y), q.x - p.x⟩ ∧ v.dot ⟨-(q.y - p.y), q.x - p.x⟩ ≤ big := fun v hv => by
    have n := near v hv
    have d : ∀ x y : K, |x| ≤ 100 → |y| ≤ 100 → |x - y| ≤ 200 := fun x y hx hy => (abs_sub _ _).trans (by linarith)
    have m1 : |v.x.val * -(q.y.val - p.y.val)| ≤ 100 * 200 := by
      rw [abs_mul, abs_neg]; exact mul_le_mul (hb v hv).1 (d _ _ hpq.2.2 hpq.1.2) (abs_nonneg _) (by norm_num)
    have m2 : |v.y.val * (q.x.val - p.x.val)| ≤ 100 * 200 := by
      rw [abs_mul]; exact mul_le_mul (hb v hv).2 (d _ _ hpq.2.1 hpq.1.1) (abs_nonneg _) (by norm_num)
    have r1 := abs_le.1 m1
    have r2 := abs_le.1 m2
    have ng : (-big : Fp R).val = -big.val := F.neg _ big.2
    unfold along at n
    norm_num at n r1 r2 hbig
    constructor
    · show (-big : Fp R).val ≤ (v.dot ⟨-(q.y - p.y), q.x - p.x⟩).val
      rw [ng]
      linarith [n.1, n.2, r1.1, r2.1]
    · show (v.dot ⟨-(q.y - p.y), q.x - p.x⟩).val ≤ big.val
      linarith [n.1, n.2, r1.2, r2.2]
  obtain ⟨⟨p1, m1, e1⟩, ⟨p2, m2, e2⟩⟩ := max_attained ha (fun v : Vec2 (Fp R) => v.dot ⟨-(q.y - p.y), q.x - p.x⟩) (big, -big) (fun v hv => range v (Or.inl hv))
  obtain ⟨⟨q1, k1, f1⟩, ⟨q2, k2, f2⟩⟩ := max_attained hb0 (fun v : Vec2 (Fp R) => v.dot ⟨-(q.y - p.y), q.x - p.x⟩) (big, -big) (fun v hv => range v (Or.inr hv))
  unfold checkOverlap projectPolygon
  rw [e1, e2, f1, f2, Bool.and_eq_false_iff, decide_eq_false_iff_not, decide_eq_false_iff_not, not_le, not_le]
  rcases h with h | h
  · right
    rw [Hull2d.lt_val]
    have := h p2 m2 q1 k1
    have n1 := near p2 (Or.inl m2)
    have n2 := near q1 (Or.inr k1)
    norm_num at n1 n2 this ⊢
    linarith [n1.1, n1.2, n2.1, n2.2]
  · left
    rw [Hull2d.lt_val]
    have := h p1 m1 q2 k2
    have n1 := near p1 (Or.inl m1)
    have n2 := near q2 (Or.inr k2)
    norm_num at n1 n2 this ⊢
    linarith [n1.1, n1.2, n2.1, n2.2]

omit [IsStrictOrderedRing K] in
/-- **C150**: polygons with a common corner are never at a distance, whatever the rounding. -/
theorem C150_common_corner (big : Fp R) (a b : List (Vec2 (Fp R))) (v : Vec2 (Fp R)) (ha : v ∈ a) (hb : v ∈ b) : polygonRelationship big a b ≠ .distance := by
  intro h
  obtain ⟨p, q, -, h⟩ := (distance_iff big a b).1 h
  obtain ⟨h1, h2, -, -, -, -⟩ := fold_minmax (fun v : Vec2 (Fp R) => v.dot ⟨-(q.y - p.y), q.x - p.x⟩) a (big, -big)
  obtain ⟨g1, g2, -, -, -, -⟩ := fold_minmax (fun v : Vec2 (Fp R) => v.dot ⟨-(q.y - p.y), q.x - p.x⟩) b (big, -big)
  unfold checkOverlap projectPolygon at h
  rw [Bool.and_eq_false_iff, decide_eq_false_iff_not, decide_eq_false_iff_not] at h
  rcases h with h | h
  · exact h ((h1 v ha).trans (g2 v hb))
  · exact h ((g1 v hb).trans (h2 v ha))

end

variable [FloorRing K]

/-- **C150**: in `double`, with coordinates up to 100, DISTANCE is returned only if in the direction normal to some edge the polygons overlap by less than `3e-11`
divided by the length of the edge. -/
theorem C150_distance_double (big : Fp (Rounding.float (K := K) 53 Nat.one_le_ofNat)) (a b : List (Vec2 (Fp (Rounding.float (K := K) 53 Nat.one_le_ofNat))))
    (hb : ∀ p, p ∈ a ∨ p ∈ b → |p.x.val| ≤ 100 ∧ |p.y.val| ≤ 100) (h : polygonRelationship big a b = .distance) :
    ∃ p q, (IsEdge a p q ∨ IsEdge b p q) ∧
      ((∀ v ∈ a, ∀ w ∈ b, along p q v < along p q w + 3 / 10 ^ 11) ∨ ∀ v ∈ a, ∀ w ∈ b, along p q w < along p q v + 3 / 10 ^ 11) :=
  c150_distance (formatOk_float 53 (by norm_num)) le_rfl big a b hb h

/-- **C150**: in `double`, with coordinates up to 100, DISTANCE is returned if in the direction normal to some edge there is a gap of at least `3e-11` divided by the length of the
edge. -/
theorem C150_gap_double (big : Fp (Rounding.float (K := K) 53 Nat.one_le_ofNat)) (hbig : 10 ^ 6 ≤ big.val)
    (a b : List (Vec2 (Fp (Rounding.float (K := K) 53 Nat.one_le_ofNat)))) (ha : a ≠ []) (hb0 : b ≠ [])
    (hb : ∀ p, p ∈ a ∨ p ∈ b → |p.x.val| ≤ 100 ∧ |p.y.val| ≤ 100)
    (h : ∃ p q, (IsEdge a p q ∨ IsEdge b p q) ∧
      ((∀ v ∈ a, ∀ w ∈ b, along p q v + 3 / 10 ^ 11 ≤ along p q w) ∨ ∀ v ∈ a, ∀ w ∈ b, along p q w + 3 / 10 ^ 11 ≤ along p q v)) :
    polygonRelationship big a b = .distance := by
  obtain ⟨p, q, e, h⟩ := h
  exact c150_gap (formatOk_float 53 (by norm_num)) le_rfl big hbig a b ha hb0 hb p q e h

/-- **C150**: in `double`, with coordinates up to 100, INTERSECT is returned if in the direction normal to every edge the polygons overlap by at least `3e-11` divided by the length of
the edge. -/
theorem C150_overlap_double (big : Fp (Rounding.float (K := K) 53 Nat.one_le_ofNat)) (a b : List (Vec2 (Fp (Rounding.float (K := K) 53 Nat.one_le_ofNat))))
    (hb : ∀ p, p ∈ a ∨ p ∈ b → |p.x.val| ≤ 100 ∧ |p.y.val| ≤ 100)
    (h : ∀ p q, (IsEdge a p q ∨ IsEdge b p q) →
      (∃ v ∈ a, ∃ w ∈ b, along p q w + 3 / 10 ^ 11 ≤ along p q v) ∧ ∃ v ∈ a, ∃ w ∈ b, along p q v + 3 / 10 ^ 11 ≤ along p q w) :
    polygonRelationship big a b = .intersect :=
  c150_overlap (formatOk_float 53 (by norm_num)) le_rfl big a b hb h

/-- A point with the given coordinates, rounded to `double`. -/
private def dp (x y : ℚ) : Vec2 (Fp (Rounding.float (K := ℚ) 53 Nat.one_le_ofNat)) := ⟨Fp.round _ x, Fp.round _ y⟩

/-- The largest `double`. -/
private def bigD : Fp (Rounding.float (K := ℚ) 53 Nat.one_le_ofNat) := Fp.round _ (2 ^ 1024 - 2 ^ 971)

-- Two triangles that are apart.
example : polygonRelationship bigD [dp 0 0, dp (1 / 10) 0, dp 0 (1 / 10)] [dp 1 1, dp (12 / 10) 1, dp 1 (12 / 10)] = .distance := by decide +kernel

-- The gap is along the edge between the second and the third point of the first one.
example : ∀ v ∈ [dp 0 0, dp (1 / 10) 0, dp 0 (1 / 10)], ∀ w ∈ [dp 1 1, dp (12 / 10) 1, dp 1 (12 / 10)],
    along (dp (1 / 10) 0) (dp 0 (1 / 10)) w + 3 / 10 ^ 11 ≤ along (dp (1 / 10) 0) (dp 0 (1 / 10)) v := by decide +kernel

-- Two triangles that overlap in the direction normal to every edge.
example : ∀ p q, (IsEdge [dp 0 0, dp (9 / 10) 0, dp 0 (9 / 10)] p q ∨ IsEdge [dp (2 / 10) (1 / 10), dp 1 0, dp 1 (12 / 10)] p q) →
    (∃ v ∈ [dp 0 0, dp (9 / 10) 0, dp 0 (9 / 10)], ∃ w ∈ [dp (2 / 10) (1 / 10), dp 1 0, dp 1 (12 / 10)], along p q w + 3 / 10 ^ 11 ≤ along p q v) ∧
    ∃ v ∈ [dp 0 0, dp (9 / 10) 0, dp 0 (9 / 10)], ∃ w ∈ [dp (2 / 10) (1 / 10), dp 1 0, dp 1 (12 / 10)], along p q v + 3 / 10 ^ 11 ≤ along p q w := by
  intro p q e
  have key : ∀ e ∈ edges [dp 0 0, dp (9 / 10) 0, dp 0 (9 / 10)] ++ edges [dp (2 / 10) (1 / 10), dp 1 0, dp 1 (12 / 10)],
      (∃ v ∈ [dp 0 0, dp (9 / 10) 0, dp 0 (9 / 10)], ∃ w ∈ [dp (2 / 10) (1 / 10), dp 1 0, dp 1 (12 / 10)], along e.1 e.2 w + 3 / 10 ^ 11 ≤ along e.1 e.2 v) ∧
      ∃ v ∈ [dp 0 0, dp (9 / 10) 0, dp 0 (9 / 10)], ∃ w ∈ [dp (2 / 10) (1 / 10), dp 1 0, dp 1 (12 / 10)], along e.1 e.2 v + 3 / 10 ^ 11 ≤ along e.1 e.2 w := by
    decide +kernel
  refine key (p, q) (List.mem_append.2 ?_)
  rcases e with e | e
  · exact Or.inl (edges_iff.2 e)
  · exact Or.inr (edges_iff.2 e)

/-- **C150**: the slack is needed. The middle of the first edge of the first triangle is a corner of the second triangle, so that they meet; in `double` the answer is DISTANCE. -/
theorem C150_meet_counterexample :
    ∃ a b : List (Vec2 (Fp (Rounding.float (K := ℚ) 53 Nat.one_le_ofNat))), (∀ p, p ∈ a ∨ p ∈ b → |p.x.val| ≤ 100 ∧ |p.y.val| ≤ 100) ∧
      (∃ p, InHull2 (a.map Hull2d.value) p ∧ InHull2 (b.map Hull2d.value) p) ∧ polygonRelationship bigD a b = .distance := by
  refine ⟨[dp (17334773350 / 2 ^ 32) (18387350950 / 2 ^ 32), dp (9077679622 / 2 ^ 32) (288245974 / 2 ^ 32), dp 0 6],
    [dp (13206226486 / 2 ^ 32) (9337798462 / 2 ^ 32), dp 8 2, dp 6 (-2)], ?_, ?_, by decide +kernel⟩
  · have : ∀ p ∈ [dp (17334773350 / 2 ^ 32) (18387350950 / 2 ^ 32), dp (9077679622 / 2 ^ 32) (288245974 / 2 ^ 32), dp 0 6] ++
      [dp (13206226486 / 2 ^ 32) (9337798462 / 2 ^ 32), dp 8 2, dp 6 (-2)], |p.x.val| ≤ 100 ∧ |p.y.val| ≤ 100 := by decide +kernel
    exact fun p hp => this p (List.mem_append.2 hp)
  · refine ⟨⟨13206226486 / 2 ^ 32, 9337798462 / 2 ^ 32⟩, ⟨[1 / 2, 1 / 2, 0], rfl, by decide +kernel, by decide +kernel, by decide +kernel, by decide +kernel⟩,
      ⟨[1, 0, 0], rfl, by decide +kernel, by decide +kernel, by decide +kernel, by decide +kernel⟩⟩

end Cmm.Sep
