import Verif.Props.RoundingRelationship
import Verif.Props.ConvexPolygon
/-!
`pointInPolygon2D` in `double`: the abscissa at which an edge crosses the height of the point is rounded five times.
-/
namespace Cmm.Sep
open Cmm.Geom Cmm.Num
variable {K : Type} [Field K] [LinearOrder K] [IsStrictOrderedRing K]

private theorem insideLoop_map {A B : Type} [Arith A] [LinearOrder A] [Arith B] [LinearOrder B] (f : Vec2 A → Vec2 B) (p : Vec2 A) : ∀ (l : List (Vec2 A)) (j : Vec2 A) (b : Bool),
    (∀ e ∈ (j :: l).zip l, crossesRight (f p) (f e.2) (f e.1) = crossesRight p e.2 e.1) → insideLoop (f p) (f j) (l.map f) b = insideLoop p j l b
  | [], _, _, _ => rfl
  | i :: l, j, b, h => by
    rw [List.map_cons]
    unfold insideLoop
    rw [h (j, i) (by simp)]
    exact insideLoop_map f p l i _ (fun e he => h e (by simp [he]))

private theorem inside_map {A B : Type} [Arith A] [LinearOrder A] [Arith B] [LinearOrder B] (f : Vec2 A → Vec2 B) (p : Vec2 A) (l : List (Vec2 A))
    (h : ∀ a b, IsEdge l a b → crossesRight (f p) (f b) (f a) = crossesRight p b a) : pointInPolygon (l.map f) (f p) = pointInPolygon l p := by
  unfold pointInPolygon
  rw [List.getLast?_map]
  cases hz : l.getLast? with
  | none => rfl
  | some z =>
    refine insideLoop_map f p l z false (fun e he => h e.1 e.2 (loopEdges_edge.1 ?_))
    unfold loopEdges
    rw [hz]
    exact he

private theorem isEdge_map {A B : Type} (f : Vec2 A → Vec2 B) {l : List (Vec2 A)} {a b : Vec2 A} (h : IsEdge l a b) : IsEdge (l.map f) (f a) (f b) := by
  obtain ⟨i, hi, h1, h2⟩ := h
  exact ⟨i, by simpa using hi, by rw [List.getElem?_map, h1]; rfl, by rw [List.length_map, List.getElem?_map, h2]; rfl⟩

private theorem div_near {A B a b : K} (hB : B ≠ 0) (ha : |a - A| ≤ 7 / 10 ^ 16 * |A|) (hb : |b - B| ≤ 2 / 10 ^ 16 * |B|) :
    |a / b - A / B| ≤ 1 / 10 ^ 15 * |A / B| := by
  have hB0 : 0 < |B| := abs_pos.2 hB
  have lb : (1 - 2 / 10 ^ 16) * |B| ≤ |b| := by
    have := abs_sub_abs_le_abs_sub B b
    rw [abs_sub_comm B b] at this
    linarith
  have hb0 : 0 < |b| := lt_of_lt_of_le (mul_pos (by norm_num) hB0) lb
  have e : a / b - A / B = (a * B - A * b) / (b * B) := by
    have : b ≠ 0 := abs_pos.1 hb0
    field_simp
  rw [e, abs_div, abs_div, abs_mul, div_le_iff₀ (mul_pos hb0 hB0), show 1 / 10 ^ 15 * (|A| / |B|) * (|b| * |B|) = 1 / 10 ^ 15 * (|A| * |b|) by field_simp]
  have t : |a * B - A * b| ≤ 9 / 10 ^ 16 * (|A| * |B|) := by
    rw [show a * B - A * b = (a - A) * B - A * (b - B) by ring]
    refine (abs_sub _ _).trans ?_
    rw [abs_mul, abs_mul]
    have h1 := mul_le_mul_of_nonneg_right ha (abs_nonneg B)
    have h2 := mul_le_mul_of_nonneg_left hb (abs_nonneg A)
    linarith
  have k := mul_le_mul_of_nonneg_left lb (abs_nonneg A)
  have z : 0 ≤ |A| * |B| := mul_nonneg (abs_nonneg _) (abs_nonneg _)
  have k2 : 9 / 10 ^ 16 * (|A| * |B|) ≤ 1 / 10 ^ 15 * ((1 - 2 / 10 ^ 16) * (|A| * |B|)) := by
    rw [show 1 / 10 ^ 15 * ((1 - 2 / 10 ^ 16) * (|A| * |B|)) = (1 / 10 ^ 15 * (1 - 2 / 10 ^ 16)) * (|A| * |B|) from (mul_assoc _ _ _).symm]
    exact mul_le_mul_of_nonneg_right (by norm_num) z
  have k3 : 1 / 10 ^ 15 * ((1 - 2 / 10 ^ 16) * (|A| * |B|)) ≤ 1 / 10 ^ 15 * (|A| * |b|) := mul_le_mul_of_nonneg_left (by linarith) (by norm_num)
  exact t.trans (k2.trans k3)

section
variable {R : Rounding K} {u : K}

private theorem cross_near (F : FormatOk R u) (hu : u ≤ 2 / 10 ^ 16) {p i j : Vec2 (Fp R)} (hi : |i.x.val| ≤ 100) (hj : |j.x.val| ≤ 100)
    (hy : (i.y.val ≤ p.y.val ∧ p.y.val < j.y.val) ∨ (j.y.val ≤ p.y.val ∧ p.y.val < i.y.val)) :
    |((j.x - i.x) * (p.y - i.y) / (j.y - i.y) + i.x : Fp R).val - (i.x.val + (j.x.val - i.x.val) * (p.y.val - i.y.val) / (j.y.val - i.y.val))| < 4 / 10 ^ 13 := by
  have h0 := F.nonneg
  have hB : j.y.val - i.y.val ≠ 0 := by
    rcases hy with h | h
    · exact (sub_pos.2 (lt_of_le_of_lt h.1 h.2)).ne'
    · exact (sub_neg.2 (lt_of_le_of_lt h.1 h.2)).ne
  have n := (((Hull2d.near_sub F j.x i.x).mul (Hull2d.near_sub F p.y i.y)).rnd F.err h0).2
  rw [← abs_mul] at n
  have c3 : (1 + u) ^ (1 + 1 + 1) - 1 ≤ 7 / 10 ^ 16 := by
    have : (1 + u) ^ (1 + 1 + 1) ≤ (1 + 2 / 10 ^ 16) ^ (1 + 1 + 1) := pow_le_pow_left₀ (by linarith) (by linarith) _
    have : ((1 + 2 / 10 ^ 16) ^ (1 + 1 + 1) : K) ≤ 1 + 7 / 10 ^ 16 := by norm_num
    linarith
  have n' := n.trans (mul_le_mul_of_nonneg_right c3 (abs_nonneg _))
  have d' : |(j.y - i.y : Fp R).val - (j.y.val - i.y.val)| ≤ 2 / 10 ^ 16 * |j.y.val - i.y.val| :=
    (F.err _).trans (mul_le_mul_of_nonneg_right hu (abs_nonneg _))
  have q := div_near hB n' d'
  have hQ : |(j.x.val - i.x.val) * (p.y.val - i.y.val) / (j.y.val - i.y.val)| ≤ 200 := by
    rw [mul_div_assoc, abs_mul, abs_div]
    have h1 : |p.y.val - i.y.val| / |j.y.val - i.y.val| ≤ 1 := by
      rw [div_le_one (abs_pos.2 hB)]
      rcases hy with h | h
      · rw [abs_of_nonneg (by linarith), abs_of_nonneg (by linarith)]; linarith
      · rw [abs_of_nonpos (by linarith), abs_of_nonpos (by linarith)]; linarith
    have h2 : |j.x.val - i.x.val| ≤ 200 := (abs_sub _ _).trans (by linarith)
    have := mul_le_mul h2 h1 (div_nonneg (abs_nonneg _) (abs_nonneg _)) (by norm_num)
    linarith
  have v : ((j.x - i.x) * (p.y - i.y) / (j.y - i.y) + i.x : Fp R).val =
      R.rnd (R.rnd (R.rnd ((j.x - i.x).val * (p.y - i.y).val) / (j.y - i.y).val) + i.x.val) := rfl
  rw [v]
  generalize R.rnd ((j.x - i.x).val * (p.y - i.y).val) / (j.y - i.y).val = a at q
  generalize (j.x.val - i.x.val) * (p.y.val - i.y.val) / (j.y.val - i.y.val) = Q at q hQ
  have e1 : |a - Q| ≤ 2 / 10 ^ 13 := by
    have := mul_le_mul_of_nonneg_left hQ (by norm_num : (0 : K) ≤ 1 / 10 ^ 15)
    refine q.trans (this.trans (by norm_num))
  have la : |a| ≤ 201 := by
    have := abs_add_le (a - Q) Q
    rw [sub_add_cancel] at this
    norm_num at e1 this ⊢
    linarith
  have e2 : |R.rnd a - a| ≤ 2 / 10 ^ 16 * 201 := (F.err a).trans (mul_le_mul hu la (abs_nonneg _) (by norm_num))
  have lb : |R.rnd a + i.x.val| ≤ 302 := by
    have h1 := abs_add_le (R.rnd a) i.x.val
    have h2 := abs_add_le (R.rnd a - a) a
    rw [sub_add_cancel] at h2
    norm_num at e2
    linarith
  have e3 : |R.rnd (R.rnd a + i.x.val) - (R.rnd a + i.x.val)| ≤ 2 / 10 ^ 16 * 302 := (F.err _).trans (mul_le_mul hu lb (abs_nonneg _) (by norm_num))
  rw [show R.rnd (R.rnd a + i.x.val) - (i.x.val + Q) = (R.rnd (R.rnd a + i.x.val) - (R.rnd a + i.x.val)) + ((R.rnd a - a) + (a - Q)) by ring]
  have t1 := abs_add_le (R.rnd (R.rnd a + i.x.val) - (R.rnd a + i.x.val)) ((R.rnd a - a) + (a - Q))
  have t2 := abs_add_le (R.rnd a - a) (a - Q)
  have num : (2 / 10 ^ 13 + 2 / 10 ^ 16 * 201 + 2 / 10 ^ 16 * 302 : K) < 4 / 10 ^ 13 := by norm_num
  linarith

private theorem crosses_fp (F : FormatOk R u) (hu : u ≤ 2 / 10 ^ 16) {p i j : Vec2 (Fp R)} (hi : |i.x.val| ≤ 100) (hj : |j.x.val| ≤ 100)
    (hc : ((j.y.val ≤ p.y.val ∧ p.y.val < i.y.val) ∨ (i.y.val ≤ p.y.val ∧ p.y.val < j.y.val)) →
      4 / 10 ^ 13 ≤ |p.x.val - (i.x.val + (j.x.val - i.x.val) * (p.y.val - i.y.val) / (j.y.val - i.y.val))|) :
    crossesRight (Hull2d.value p) (Hull2d.value i) (Hull2d.value j) = crossesRight p i j := by
  rw [Bool.eq_iff_iff]
  unfold crossesRight
  simp only [Bool.and_eq_true, Bool.or_eq_true, decide_eq_true_eq]
  show ((i.y.val ≤ p.y.val ∧ p.y.val < j.y.val) ∨ (j.y.val ≤ p.y.val ∧ p.y.val < i.y.val)) ∧
      p.x.val < (j.x.val - i.x.val) * (p.y.val - i.y.val) / (j.y.val - i.y.val) + i.x.val ↔
    ((i.y.val ≤ p.y.val ∧ p.y.val < j.y.val) ∨ (j.y.val ≤ p.y.val ∧ p.y.val < i.y.val)) ∧
      p.x.val < ((j.x - i.x) * (p.y - i.y) / (j.y - i.y) + i.x : Fp R).val
  refine and_congr_right (fun hy => ?_)
  have n := abs_lt.1 (cross_near F hu hi hj hy)
  have c := hc hy.symm
  rw [add_comm _ i.x.val]
  generalize i.x.val + (j.x.val - i.x.val) * (p.y.val - i.y.val) / (j.y.val - i.y.val) = X at n c
  rcases le_total 0 (p.x.val - X) with h | h
  · rw [abs_of_nonneg h] at c
    constructor <;> intro k <;> linarith [n.1, n.2]
  · rw [abs_of_nonpos h] at c
    constructor <;> intro k
    · linarith [n.1, n.2]
    · have : (0 : K) < 4 / 10 ^ 13 := by norm_num
      linarith [n.1, n.2]

private theorem c151_inside (F : FormatOk R u) (hu : u ≤ 2 / 10 ^ 16) (poly : List (Vec2 (Fp R))) (p : Vec2 (Fp R)) (hb : ∀ v ∈ poly, |v.x.val| ≤ 100)
    (hc : Clear (4 / 10 ^ 13) (poly.map Hull2d.value) (Hull2d.value p)) :
    pointInPolygon poly p = pointInPolygon (poly.map Hull2d.value) (Hull2d.value p) := by
  refine (inside_map Hull2d.value p poly (fun a b he => ?_)).symm
  obtain ⟨i, _, h1, h2⟩ := id he
  exact crosses_fp F hu (hb b (List.mem_of_getElem? h2)) (hb a (List.mem_of_getElem? h1)) (hc _ _ (isEdge_map Hull2d.value he))

end

variable [FloorRing K]

/-- **C151**: in `double`, for polygons with abscissas up to 100, `pointInPolygon2D` gives the answer of exact arithmetic for every point from which the edges are at least `4e-13` away,
measured horizontally. -/
theorem C151_exact_double (poly : List (Vec2 (Fp (Rounding.float (K := K) 53 Nat.one_le_ofNat)))) (p : Vec2 (Fp (Rounding.float (K := K) 53 Nat.one_le_ofNat)))
    (hb : ∀ v ∈ poly, |v.x.val| ≤ 100) (hc : Clear (4 / 10 ^ 13) (poly.map Hull2d.value) (Hull2d.value p)) :
    pointInPolygon poly p = pointInPolygon (poly.map Hull2d.value) (Hull2d.value p) :=
  c151_inside (formatOk_float 53 (by norm_num)) (by norm_num) poly p hb hc

/-- **C151**: for such points the answer true means that the point is in the convex hull of the polygon; for a strictly convex polygon of either orientation the answer is true for
every inner point and false for every point outside. -/
theorem C151_inside_double (poly : List (Vec2 (Fp (Rounding.float (K := K) 53 Nat.one_le_ofNat)))) (p : Vec2 (Fp (Rounding.float (K := K) 53 Nat.one_le_ofNat)))
    (hb : ∀ v ∈ poly, |v.x.val| ≤ 100) (hc : Clear (4 / 10 ^ 13) (poly.map Hull2d.value) (Hull2d.value p)) :
    (pointInPolygon poly p = true → InHull2 (poly.map Hull2d.value) (Hull2d.value p)) ∧
      (ConvexPolygon (poly.map Hull2d.value) → (Interior2 (poly.map Hull2d.value) (Hull2d.value p) → pointInPolygon poly p = true) ∧
        (¬ InHull2 (poly.map Hull2d.value) (Hull2d.value p) → pointInPolygon poly p = false)) := by
  rw [C151_exact_double poly p hb hc]
  exact ⟨C51_point_in_hull _ _, fun h => C108_point_in_polygon _ h _⟩

/-- A point with the given coordinates, rounded to `double`. -/
private def dp (x y : ℚ) : Vec2 (Fp (Rounding.float (K := ℚ) 53 Nat.one_le_ofNat)) := ⟨Fp.round _ x, Fp.round _ y⟩

private theorem three {a b c : Vec2 ℚ} (h : 0 < turn a b c) : ConvexCCW [a, b, c] := by
  intro x y z hs
  have := hs.eq_of_length rfl
  simp only [List.cons.injEq, and_true] at this
  obtain ⟨rfl, rfl, rfl⟩ := this
  exact h

/-- **C151**: the distance to the edges is needed. There is a triangle and a point outside it that `pointInPolygon2D` says is inside in `double`. -/
theorem C151_outside_counterexample : ∃ (poly : List (Vec2 (Fp (Rounding.float (K := ℚ) 53 Nat.one_le_ofNat)))) (p : Vec2 (Fp (Rounding.float (K := ℚ) 53 Nat.one_le_ofNat))),
    ConvexPolygon (poly.map Hull2d.value) ∧ (∀ v ∈ poly, |v.x.val| ≤ 1 ∧ |v.y.val| ≤ 1) ∧ ¬ InHull2 (poly.map Hull2d.value) (Hull2d.value p) ∧ pointInPolygon poly p = true := by
  refine ⟨[dp (7 / 10) (3 / 10), dp (4 / 10) 0, dp (9 / 10) (3 / 10)], dp (5 / 10) (1 / 10),
    ⟨by decide, Or.inl (three (by unfold turn; decide +kernel))⟩, by decide +kernel, fun h => ?_, by decide +kernel⟩
  have l := left_of_hull (u := Hull2d.value (dp (7 / 10) (3 / 10))) (v := Hull2d.value (dp (4 / 10) 0)) (by unfold turn; decide +kernel) h
  exact absurd l (by unfold turn; decide +kernel)

/-- **C151**: there is a triangle and a point in its interior that `pointInPolygon2D` says is not inside in `double`. -/
theorem C151_interior_counterexample : ∃ (poly : List (Vec2 (Fp (Rounding.float (K := ℚ) 53 Nat.one_le_ofNat)))) (p : Vec2 (Fp (Rounding.float (K := ℚ) 53 Nat.one_le_ofNat))),
    ConvexPolygon (poly.map Hull2d.value) ∧ (∀ v ∈ poly, |v.x.val| ≤ 1 ∧ |v.y.val| ≤ 1) ∧ Interior2 (poly.map Hull2d.value) (Hull2d.value p) ∧ pointInPolygon poly p = false := by
  have c : ConvexCCW ([dp (1 / 10) 0, dp (9 / 10) (1 / 10), dp 0 (4 / 10)].map Hull2d.value) := three (by unfold turn; decide +kernel)
  refine ⟨[dp (1 / 10) 0, dp (9 / 10) (1 / 10), dp 0 (4 / 10)], dp (6 / 10) (2 / 10), ⟨by decide, Or.inl c⟩, by decide +kernel, interior_of_left c (by decide) ?_, by decide +kernel⟩
  intro a b he
  have key : ∀ e ∈ edges ([dp (1 / 10) 0, dp (9 / 10) (1 / 10), dp 0 (4 / 10)].map Hull2d.value), 0 < turn e.1 e.2 (Hull2d.value (dp (6 / 10) (2 / 10))) := by
    unfold turn
    decide +kernel
  exact key (a, b) (edges_iff.2 he)

-- A triangle with rounded coordinates and a point inside.
example : Clear (4 / 10 ^ 13) ([dp 0 0, dp (7 / 10) (1 / 10), dp (1 / 3) (9 / 10)].map Hull2d.value) (Hull2d.value (dp (3 / 10) (2 / 10))) ∧
    ConvexPolygon ([dp 0 0, dp (7 / 10) (1 / 10), dp (1 / 3) (9 / 10)].map Hull2d.value) ∧
    (∀ v ∈ [dp 0 0, dp (7 / 10) (1 / 10), dp (1 / 3) (9 / 10)], |v.x.val| ≤ 100) ∧
    pointInPolygon [dp 0 0, dp (7 / 10) (1 / 10), dp (1 / 3) (9 / 10)] (dp (3 / 10) (2 / 10)) = true := by
  refine ⟨fun a b he => ?_, ⟨by decide, Or.inl (three (by unfold turn; decide +kernel))⟩, by decide +kernel, by decide +kernel⟩
  have key : ∀ e ∈ edges ([dp 0 0, dp (7 / 10) (1 / 10), dp (1 / 3) (9 / 10)].map Hull2d.value),
      ((e.1.y ≤ (Hull2d.value (dp (3 / 10) (2 / 10))).y ∧ (Hull2d.value (dp (3 / 10) (2 / 10))).y < e.2.y) ∨
        (e.2.y ≤ (Hull2d.value (dp (3 / 10) (2 / 10))).y ∧ (Hull2d.value (dp (3 / 10) (2 / 10))).y < e.1.y)) →
      4 / 10 ^ 13 ≤ |(Hull2d.value (dp (3 / 10) (2 / 10))).x - (e.2.x + (e.1.x - e.2.x) * ((Hull2d.value (dp (3 / 10) (2 / 10))).y - e.2.y) / (e.1.y - e.2.y))| := by
    decide +kernel
  exact key (a, b) (edges_iff.2 he)

/-- The largest `double`. -/
private def bigD : Fp (Rounding.float (K := ℚ) 53 Nat.one_le_ofNat) := Fp.round _ (2 ^ 1024 - 2 ^ 971)

/-- **C150**: touching polygons are not told from overlapping ones in `double`. Two triangles have a common point but no common inner point, and the answer is INTERSECT. -/
theorem C150_touch_counterexample :
    ∃ a b : List (Vec2 (Fp (Rounding.float (K := ℚ) 53 Nat.one_le_ofNat))), (∀ p ∈ a ++ b, |p.x.val| ≤ 100 ∧ |p.y.val| ≤ 100) ∧
      ConvexPolygon (a.map Hull2d.value) ∧ ConvexPolygon (b.map Hull2d.value) ∧ (∃ p, InHull2 (a.map Hull2d.value) p ∧ InHull2 (b.map Hull2d.value) p) ∧
      (¬ ∃ p, Interior2 (a.map Hull2d.value) p ∧ Interior2 (b.map Hull2d.value) p) ∧ polygonRelationship bigD a b = .intersect := by
  refine ⟨[dp (15167466124 / 2 ^ 32) (6847440560 / 2 ^ 32), dp (18371872214 / 2 ^ 32) (13893811352 / 2 ^ 32), dp 5 1],
    [dp (16769669169 / 2 ^ 32) (10370625956 / 2 ^ 32), dp 2 2, dp 3 4], by decide +kernel, ⟨by decide, Or.inr (three (by unfold turn; decide +kernel))⟩,
    ⟨by decide, Or.inr (three (by unfold turn; decide +kernel))⟩, ?_, ?_, by decide +kernel⟩
  · exact ⟨⟨16769669169 / 2 ^ 32, 10370625956 / 2 ^ 32⟩, ⟨[1 / 2, 1 / 2, 0], rfl, by decide +kernel, by decide +kernel, by decide +kernel, by decide +kernel⟩,
      ⟨[1, 0, 0], rfl, by decide +kernel, by decide +kernel, by decide +kernel, by decide +kernel⟩⟩
  · rintro ⟨p, h1, h2⟩
    have s1 : ∀ v ∈ [dp (15167466124 / 2 ^ 32) (6847440560 / 2 ^ 32), dp (18371872214 / 2 ^ 32) (13893811352 / 2 ^ 32), dp 5 1].map Hull2d.value,
        ∀ w ∈ [dp (16769669169 / 2 ^ 32) (10370625956 / 2 ^ 32), dp 2 2, dp 3 4].map Hull2d.value,
        v.x * -(7046370792 / 2 ^ 32) + v.y * (3204406090 / 2 ^ 32) ≤ w.x * -(7046370792 / 2 ^ 32) + w.y * (3204406090 / 2 ^ 32) := by
      decide +kernel
    obtain ⟨v, hv, l1⟩ := h1 ⟨-(7046370792 / 2 ^ 32), 3204406090 / 2 ^ 32⟩ (by decide +kernel)
    obtain ⟨w, hw, l2⟩ := h2 ⟨7046370792 / 2 ^ 32, -(3204406090 / 2 ^ 32)⟩ (by decide +kernel)
    have := s1 v hv w hw
    dsimp only at l1 l2
    linarith

end Cmm.Sep
