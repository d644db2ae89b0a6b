import Verif.Model.Separability
import Verif.Spec.Separability
import Verif.Lemmas.HullMono
/-!
Lemmas about the separation tests.
-/
namespace Cmm.Sep
open Cmm.Geom
variable {K : Type} [Field K] [LinearOrder K] [IsStrictOrderedRing K]

omit [Field K] [LinearOrder K] [IsStrictOrderedRing K] in
theorem edges_iff {poly : List (Vec2 K)} {p q : Vec2 K} : (p, q) ∈ edges poly ↔ IsEdge poly p q := by
  have key : ∀ i, i < poly.length → (poly.drop 1 ++ poly.take 1)[i]? = poly[(i + 1) % poly.length]? := by
    intro i hi
    by_cases h : i + 1 < poly.length
    · rw [Nat.mod_eq_of_lt h, List.getElem?_append_left (by simp; omega), List.getElem?_drop]
      congr 1; omega
    · have e : i + 1 = poly.length := by omega
      rw [e, Nat.mod_self, List.getElem?_append_right (by simp; omega)]
      simp only [List.length_drop]
      rw [show i - (poly.length - 1) = 0 by omega, List.getElem?_take_of_lt Nat.one_pos]
  unfold edges IsEdge
  rw [List.mem_iff_getElem?]
  constructor
  · rintro ⟨i, h⟩
    rw [List.getElem?_zip_eq_some] at h
    have hi : i < poly.length := (List.getElem?_eq_some_iff.1 h.1).1
    exact ⟨i, hi, h.1, by rw [← key i hi]; exact h.2⟩
  · rintro ⟨i, hi, h1, h2⟩
    exact ⟨i, by rw [List.getElem?_zip_eq_some]; exact ⟨h1, by rw [key i hi]; exact h2⟩⟩

omit [Field K] [IsStrictOrderedRing K] in
/-- The running minimum and maximum. -/
theorem fold_minmax {V : Type} (f : V → K) : ∀ (l : List V) (m : K × K),
    (∀ p ∈ l, (l.foldl (fun m p => (min m.1 (f p), max m.2 (f p))) m).1 ≤ f p) ∧
    (∀ p ∈ l, f p ≤ (l.foldl (fun m p => (min m.1 (f p), max m.2 (f p))) m).2) ∧
    (l.foldl (fun m p => (min m.1 (f p), max m.2 (f p))) m).1 ≤ m.1 ∧ m.2 ≤ (l.foldl (fun m p => (min m.1 (f p), max m.2 (f p))) m).2 ∧
    (∀ c, c ≤ m.1 → (∀ p ∈ l, c ≤ f p) → c ≤ (l.foldl (fun m p => (min m.1 (f p), max m.2 (f p))) m).1) ∧
    (∀ c, m.2 ≤ c → (∀ p ∈ l, f p ≤ c) → (l.foldl (fun m p => (min m.1 (f p), max m.2 (f p))) m).2 ≤ c)
  | [], m => by simp
  | v :: l, m => by
    obtain ⟨h1, h2, h3, h4, h5, h6⟩ := fold_minmax f l (min m.1 (f v), max m.2 (f v))
    simp only [List.foldl_cons]
    refine ⟨?_, ?_, h3.trans (min_le_left _ _), (le_max_left _ _).trans h4, ?_, ?_⟩
    · intro p hp
      rcases List.mem_cons.1 hp with rfl | hp
      · exact h3.trans (min_le_right _ _)
      · exact h1 p hp
    · intro p hp
      rcases List.mem_cons.1 hp with rfl | hp
      · exact (le_max_right _ _).trans h4
      · exact h2 p hp
    · intro c hc hp
      exact h5 c (le_min hc (hp v List.mem_cons_self)) (fun p hp' => hp p (List.mem_cons_of_mem _ hp'))
    · intro c hc hp
      exact h6 c (max_le hc (hp v List.mem_cons_self)) (fun p hp' => hp p (List.mem_cons_of_mem _ hp'))

omit [IsStrictOrderedRing K] in
theorem dot_self_pos [IsStrictOrderedRing K] {n : Vec2 K} (hn : n ≠ ⟨0, 0⟩) : 0 < n.dot n := by
  unfold Vec2.dot
  rcases (add_nonneg (mul_self_nonneg n.x) (mul_self_nonneg n.y)).lt_or_eq with h | h
  · exact h
  · exfalso
    have h1 := mul_self_nonneg n.x
    have h2 := mul_self_nonneg n.y
    exact hn (Vec2.ext (mul_self_eq_zero.1 (by linarith)) (mul_self_eq_zero.1 (by linarith)))

/-- The comparison of vectors in exact arithmetic. -/
theorem tolEq_field (a b : Vec2 K) : tolEq a b = (decide (|a.x - b.x| < machEps) && decide (|a.y - b.y| < machEps)) := by
  have e : (1 / ((2 ^ 52 : Nat) : K)) = machEps := by unfold machEps; norm_num
  unfold tolEq
  simp only [Nurbs.absA, ← abs_eq_max_neg, e]

theorem polygonProject_eq (big : K) (poly : List (Vec2 K)) {n : Vec2 K} (hn : n ≠ ⟨0, 0⟩) :
    polygonProject big poly n = poly.foldl (fun m p => (min m.1 (p.dot n / n.dot n), max m.2 (p.dot n / n.dot n))) (big, -big) := by
  unfold polygonProject
  congr 1
  funext m p
  unfold projection
  rw [if_neg (dot_self_pos hn).ne']

omit [IsStrictOrderedRing K] in
theorem polygonProject_zero (big : K) (poly : List (Vec2 K)) : polygonProject big poly ⟨0, 0⟩ = (big, -big) := by
  unfold polygonProject
  induction poly with
  | nil => rfl
  | cons p l ih =>
    rw [List.foldl_cons]
    simp only [projection, Vec2.dot, mul_zero, add_zero, if_true] at ih ⊢
    exact ih

/-- A direction in which one comes strictly before the other separates the hulls. -/
theorem separated_disjoint {a b : List (Vec2 K)} {n : Vec2 K} {c d : K} (h1 : ∀ p ∈ a, p.dot n ≤ c) (h2 : ∀ q ∈ b, d ≤ q.dot n) (h : c < d) :
    Disjoint2 a b := by
  rintro p ⟨ha, hb⟩
  have := hull2_le ha h1
  have := hull2_ge hb h2
  linarith

theorem separatedAlong_disjoint {a b : List (Vec2 K)} {n : Vec2 K} (ha : a ≠ []) (hb : b ≠ []) (h : SeparatedAlong a b n) : Disjoint2 a b := by
  obtain ⟨m1, k1, g1⟩ : ∃ p ∈ a, ∀ q ∈ a, q.dot n ≤ p.dot n := by
    obtain ⟨i, hi⟩ := List.exists_mem_of_ne_nil a ha
    exact exists_max a (fun v => v.dot n) ha
  obtain ⟨m2, k2, g2⟩ : ∃ p ∈ b, ∀ q ∈ b, q.dot n ≤ p.dot n := exists_max b (fun v => v.dot n) hb
  obtain ⟨m3, k3, g3⟩ : ∃ p ∈ a, ∀ q ∈ a, -q.dot n ≤ -p.dot n := exists_max a (fun v => -v.dot n) ha
  obtain ⟨m4, k4, g4⟩ : ∃ p ∈ b, ∀ q ∈ b, -q.dot n ≤ -p.dot n := exists_max b (fun v => -v.dot n) hb
  rcases h with h | h
  · exact separated_disjoint g1 (fun q hq => neg_le_neg_iff.1 (g4 q hq)) (h m1 k1 m4 k4)
  · intro p hp
    exact separated_disjoint g2 (fun q hq => neg_le_neg_iff.1 (g3 q hq)) (h m3 k3 m2 k2) p ⟨hp.2, hp.1⟩
where
  exists_max {V : Type} (l : List V) (f : V → K) (hl : l ≠ []) : ∃ p ∈ l, ∀ q ∈ l, f q ≤ f p := by
    induction l with
    | nil => exact absurd rfl hl
    | cons v l ih =>
      by_cases h : l = []
      · subst h; exact ⟨v, by simp, by simp⟩
      · obtain ⟨p, hp, hm⟩ := ih h
        rcases le_total (f v) (f p) with hle | hle
        · exact ⟨p, List.mem_cons_of_mem _ hp, fun q hq => by
            rcases List.mem_cons.1 hq with rfl | hq
            · exact hle
            · exact hm q hq⟩
        · exact ⟨v, List.mem_cons_self, fun q hq => by
            rcases List.mem_cons.1 hq with rfl | hq
            · exact le_rfl
            · exact (hm q hq).trans hle⟩

/-- The test of one normal that is not zero. -/
theorem apart_sound {big : K} {a b : List (Vec2 K)} {n : Vec2 K} (hn : n ≠ ⟨0, 0⟩) (h : apart big a b n = true) :
    SeparatedAlong a b n := by
  have hp := dot_self_pos hn
  unfold apart swapIntervals at h
  rw [polygonProject_eq _ _ hn, polygonProject_eq _ _ hn] at h
  obtain ⟨h1, h2, -, -, -, -⟩ := fold_minmax (fun p : Vec2 K => p.dot n / n.dot n) a (big, -big)
  obtain ⟨g1, g2, -, -, -, -⟩ := fold_minmax (fun p : Vec2 K => p.dot n / n.dot n) b (big, -big)
  dsimp only at h
  split at h
  · right
    intro p hpa q hqb
    have := lt_of_le_of_lt (g2 q hqb) (lt_of_lt_of_le (of_decide_eq_true h) (h1 p hpa))
    exact (div_lt_div_iff_of_pos_right hp).1 this
  · left
    intro p hpa q hqb
    have := lt_of_le_of_lt (h2 p hpa) (lt_of_lt_of_le (of_decide_eq_true h) (g1 q hqb))
    exact (div_lt_div_iff_of_pos_right hp).1 this

theorem apart_complete {big : K} {a b : List (Vec2 K)} {n : Vec2 K} (hn : n ≠ ⟨0, 0⟩) (ha : a ≠ []) (hb : b ≠ [])
    (hba : ∀ p ∈ a, |p.dot n / n.dot n| < big) (hbb : ∀ p ∈ b, |p.dot n / n.dot n| < big)
    (h : SeparatedAlong a b n) : apart big a b n = true := by
  have hp := dot_self_pos hn
  unfold apart swapIntervals
  rw [polygonProject_eq _ _ hn, polygonProject_eq _ _ hn]
  obtain ⟨h1, h2, -, -, h5, h6⟩ := fold_minmax (fun p : Vec2 K => p.dot n / n.dot n) a (big, -big)
  obtain ⟨g1, g2, -, -, g5, g6⟩ := fold_minmax (fun p : Vec2 K => p.dot n / n.dot n) b (big, -big)
  have ex : ∀ (l : List (Vec2 K)) (f : Vec2 K → K), l ≠ [] → ∃ p ∈ l, ∀ q ∈ l, f q ≤ f p := fun l f hl => separatedAlong_disjoint.exists_max l f hl
  generalize List.foldl _ _ a = A at *
  generalize List.foldl _ _ b = B at *
  dsimp only at *
  have attain : ∀ l : List (Vec2 K), l ≠ [] → (∀ p ∈ l, |p.dot n / n.dot n| < big) →
      (∃ p ∈ l, ∀ q ∈ l, q.dot n / n.dot n ≤ p.dot n / n.dot n) ∧ (∃ p ∈ l, ∀ q ∈ l, p.dot n / n.dot n ≤ q.dot n / n.dot n) := by
    intro l hl _
    refine ⟨ex l (fun v => v.dot n / n.dot n) hl, ?_⟩
    obtain ⟨p, hp, hm⟩ := ex l (fun v => -(v.dot n / n.dot n)) hl
    exact ⟨p, hp, fun q hq => neg_le_neg_iff.1 (hm q hq)⟩
  obtain ⟨⟨pa, mpa, ma⟩, ⟨qa, mqa, na⟩⟩ := attain a ha hba
  obtain ⟨⟨pb, mpb, mb⟩, ⟨qb, mqb, nb⟩⟩ := attain b hb hbb
  have A2 : A.2 ≤ pa.dot n / n.dot n := h6 _ (by have := abs_lt.1 (hba pa mpa); linarith) ma
  have A1 : qa.dot n / n.dot n ≤ A.1 := h5 _ (by have := abs_lt.1 (hba qa mqa); linarith) na
  have B2 : B.2 ≤ pb.dot n / n.dot n := g6 _ (by have := abs_lt.1 (hbb pb mpb); linarith) mb
  have B1 : qb.dot n / n.dot n ≤ B.1 := g5 _ (by have := abs_lt.1 (hbb qb mqb); linarith) nb
  rcases h with h | h
  · have h' : pa.dot n / n.dot n < qb.dot n / n.dot n := (div_lt_div_iff_of_pos_right hp).2 (h pa mpa qb mqb)
    have : ¬ B.2 < A.2 := by
      have := g2 qb mqb
      rw [not_lt]; linarith
    rw [if_neg this]
    exact decide_eq_true (by dsimp only; linarith)
  · have h' : pb.dot n / n.dot n < qa.dot n / n.dot n := (div_lt_div_iff_of_pos_right hp).2 (h qa mqa pb mpb)
    have : B.2 < A.2 := by
      have := h2 qa mqa
      linarith
    rw [if_pos this]
    exact decide_eq_true (by dsimp only; linarith)

omit [IsStrictOrderedRing K] in
theorem sq_zero_iff [IsStrictOrderedRing K] {n : Vec2 K} : n.sqLength = 0 ↔ n = ⟨0, 0⟩ := by
  constructor
  · intro h
    by_contra hn
    exact (dot_self_pos hn).ne' h
  · rintro rfl; simp [Vec2.sqLength, Vec2.dot]

theorem apart_zero {big : K} (hb : 0 < big) (a b : List (Vec2 K)) : apart big a b ⟨0, 0⟩ = true := by
  unfold apart swapIntervals
  rw [polygonProject_zero, polygonProject_zero, if_neg (lt_irrefl _)]
  exact decide_eq_true (by dsimp only; linarith)

/-- The loop of SAT2D. -/
theorem satLoop_spec {big : K} (hbig : 0 < big) (ins : List (Vec2 K) → Vec2 K → Bool) (a b : List (Vec2 K)) (N : List (Vec2 K)) :
    ∀ ns set, (∀ n ∈ ns, n ∈ N) → (∀ n ∈ set, n ∈ N ∧ apart big a b n = false) →
      ∃ r, satLoop big ins a b ns set = .ok r ∧ (r = true → ∃ n ∈ ns, apart big a b n = true) ∧
      (r = false → ∀ n ∈ ns, ∃ n' ∈ N, (n' = n ∨ tolEq n' n = true) ∧ apart big a b n' = false)
  | [], set, _, _ => ⟨false, rfl, by simp, by simp⟩
  | n :: ns, set, hN, hs => by
    have hN' : ∀ n ∈ ns, n ∈ N := fun m hm => hN m (List.mem_cons_of_mem _ hm)
    unfold satLoop
    split
    · rename_i hc
      obtain ⟨r, e, h1, h2⟩ := satLoop_spec hbig ins a b N ns set hN' hs
      refine ⟨r, e, fun hr => ?_, fun hr m hm => ?_⟩
      · obtain ⟨m, hm, h⟩ := h1 hr
        exact ⟨m, List.mem_cons_of_mem _ hm, h⟩
      · rcases List.mem_cons.1 hm with rfl | hm
        · unfold contains at hc
          rw [List.any_eq_true] at hc
          obtain ⟨e, he, ht⟩ := hc
          exact ⟨e, (hs e he).1, Or.inr ht, (hs e he).2⟩
        · exact h2 hr m hm
    · split
      · rename_i hap
        exact ⟨true, rfl, fun _ => ⟨n, List.mem_cons_self, hap⟩, by simp⟩
      · rename_i hap
        rw [Bool.not_eq_true] at hap
        rw [if_neg (c := n.sqLength = 0) (fun hz => by
          rw [sq_zero_iff.1 hz, apart_zero hbig] at hap
          cases hap)]
        obtain ⟨r, e, h1, h2⟩ := satLoop_spec hbig ins a b N ns (if ins set n then n :: set else set) hN' (by
          intro m hm
          split at hm
          · rcases List.mem_cons.1 hm with rfl | hm
            · exact ⟨hN m List.mem_cons_self, hap⟩
            · exact hs m hm
          · exact hs m hm)
        refine ⟨r, e, fun hr => ?_, fun hr m hm => ?_⟩
        · obtain ⟨m, hm, h⟩ := h1 hr
          exact ⟨m, List.mem_cons_of_mem _ hm, h⟩
        · rcases List.mem_cons.1 hm with rfl | hm
          · exact ⟨m, hN m List.mem_cons_self, Or.inl rfl, hap⟩
          · exact h2 hr m hm

/-! ### The crossing count -/

/-- The vertex is above the height of `p`. -/
def above (p v : Vec2 K) : Bool := decide (p.y < v.y)

/-- The edge crosses the height of `p`. -/
def crosses (p i j : Vec2 K) : Bool :=
  (decide (i.y ≤ p.y) && decide (p.y < j.y)) || (decide (j.y ≤ p.y) && decide (p.y < i.y))

omit [Field K] [IsStrictOrderedRing K] in
theorem crosses_eq (p i j : Vec2 K) : crosses p i j = (above p i ^^ above p j) := by
  unfold crosses above
  by_cases h1 : p.y < i.y <;> by_cases h2 : p.y < j.y
  all_goals simp [h1, h2, not_lt.1, not_le.2]

omit [IsStrictOrderedRing K] in
/-- If every crossing edge is to the right, the count has the parity of the number of crossings. -/
theorem insideLoop_all (p : Vec2 K) : ∀ (l : List (Vec2 K)) (j : Vec2 K) (b : Bool),
    (∀ e ∈ (j :: l).zip l, crosses p e.2 e.1 = true → crossesRight p e.2 e.1 = true) →
    insideLoop p j l b = (b ^^ above p j ^^ above p ((j :: l).getLast (by simp)))
  | [], j, b, _ => by simp [insideLoop]
  | i :: l, j, b, h => by
    have ih := insideLoop_all p l i (if crossesRight p i j then !b else b) (fun e he => h e (by simp [he]))
    unfold insideLoop
    rw [ih, List.getLast_cons (by simp : i :: l ≠ [])]
    have h1 := h (j, i) (by simp)
    have hc : crossesRight p i j = crosses p i j := by
      cases hx : crosses p i j with
      | true => exact h1 hx
      | false => simp only [crossesRight]; unfold crosses at hx; rw [hx]; rfl
    rw [hc, crosses_eq]
    cases above p i <;> cases above p j <;> cases b <;> simp

omit [IsStrictOrderedRing K] in
theorem insideLoop_none (p : Vec2 K) : ∀ (l : List (Vec2 K)) (j : Vec2 K) (b : Bool),
    (∀ e ∈ (j :: l).zip l, crossesRight p e.2 e.1 = false) → insideLoop p j l b = b
  | [], j, b, _ => by simp [insideLoop]
  | i :: l, j, b, h => by
    have ih := insideLoop_none p l i b (fun e he => h e (by simp [he]))
    have h1 := h (j, i) (by simp)
    dsimp only at h1
    unfold insideLoop
    rw [h1]; exact ih

/-- The point of a crossing edge at the height of `p`. -/
theorem crossing_point {p i j : Vec2 K} (h : crosses p i j = true) :
    InHull2 [i, i, j] ⟨(j.x - i.x) * (p.y - i.y) / (j.y - i.y) + i.x, p.y⟩ := by
  unfold crosses at h
  simp only [Bool.or_eq_true, Bool.and_eq_true, decide_eq_true_eq] at h
  have hne : j.y - i.y ≠ 0 := by
    rcases h with ⟨h1, h2⟩ | ⟨h1, h2⟩
    · have : 0 < j.y - i.y := by linarith
      exact this.ne'
    · have : j.y - i.y < 0 := by linarith
      exact this.ne
  obtain ⟨t, ht⟩ : ∃ t, t = (p.y - i.y) / (j.y - i.y) := ⟨_, rfl⟩
  have ht' : t * (j.y - i.y) = p.y - i.y := by rw [ht]; exact div_mul_cancel₀ _ hne
  have t0 : 0 ≤ t := by
    rw [ht]
    rcases h with ⟨h1, h2⟩ | ⟨h1, h2⟩
    · exact div_nonneg (by linarith) (by linarith)
    · exact div_nonneg_of_nonpos (by linarith) (by linarith)
  have t1 : t ≤ 1 := by
    rw [ht]
    rcases h with ⟨h1, h2⟩ | ⟨h1, h2⟩
    · exact (div_le_one (by linarith)).2 (by linarith)
    · exact (div_le_one_of_neg (by linarith)).2 (by linarith)
  refine hull2_three 0 (1 - t) t le_rfl (by linarith) t0 (by ring) ?_ ?_
  · dsimp only
    rw [mul_div_assoc, ← ht]; ring
  · dsimp only
    linear_combination -ht'

/-- A point with a crossing to its right and one not to its right is in the hull. -/
theorem inside_hull {poly : List (Vec2 K)} {p : Vec2 K} (h : pointInPolygon poly p = true) : InHull2 poly p := by
  unfold pointInPolygon at h
  cases hl : poly.getLast? with
  | none => rw [hl] at h; cases h
  | some l =>
    rw [hl] at h
    dsimp only at h
    have hne : poly ≠ [] := by rintro rfl; simp at hl
    have hlast : (l :: poly).getLast (by simp) = l := by
      rw [List.getLast_cons hne]
      rw [List.getLast?_eq_some_getLast hne] at hl
      exact Option.some.inj hl
    have hlm : l ∈ poly := List.mem_of_getLast? hl
    have hmem : ∀ e ∈ (l :: poly).zip poly, e.1 ∈ poly ∧ e.2 ∈ poly := by
      intro e he
      have := List.of_mem_zip (a := e.1) (b := e.2) he
      refine ⟨?_, this.2⟩
      rcases List.mem_cons.1 this.1 with h | h
      · rw [h]; exact hlm
      · exact h
    have h1 : ∃ e ∈ (l :: poly).zip poly, crosses p e.2 e.1 = true ∧ crossesRight p e.2 e.1 = false := by
      by_contra hc
      have := insideLoop_all p poly l false (fun e he hx => by
        by_contra hr
        rw [Bool.not_eq_true] at hr
        exact hc ⟨e, he, hx, hr⟩)
      rw [hlast] at this
      rw [h] at this
      cases above p l <;> simp at this
    have h2 : ∃ e ∈ (l :: poly).zip poly, crossesRight p e.2 e.1 = true := by
      by_contra hc
      have := insideLoop_none p poly l false (fun e he => by
        by_contra hr
        rw [Bool.not_eq_false] at hr
        exact hc ⟨e, he, hr⟩)
      rw [h] at this
      cases this
    obtain ⟨e, he, x1, x2⟩ := h1
    obtain ⟨f, hf, y1⟩ := h2
    have y2 : crosses p f.2 f.1 = true ∧ p.x < (f.1.x - f.2.x) * (p.y - f.2.y) / (f.1.y - f.2.y) + f.2.x := by
      unfold crossesRight at y1
      rw [Bool.and_eq_true, decide_eq_true_iff] at y1
      exact y1
    have x3 : (e.1.x - e.2.x) * (p.y - e.2.y) / (e.1.y - e.2.y) + e.2.x ≤ p.x := by
      unfold crossesRight at x2
      unfold crosses at x1
      rw [x1, Bool.true_and, decide_eq_false_iff_not, not_lt] at x2
      exact x2
    have c1 := crossing_point x1
    have c2 := crossing_point y2.1
    have sub : ∀ {i j : Vec2 K} {q : Vec2 K}, i ∈ poly → j ∈ poly → InHull2 [i, i, j] q → InHull2 poly q := by
      intro i j q hi hj hq
      refine hull2_mono (fun v hv => ?_) hq
      simp only [List.mem_cons, List.not_mem_nil, or_false] at hv
      rcases hv with rfl | rfl | rfl
      · exact hull2_mem hi
      · exact hull2_mem hi
      · exact hull2_mem hj
    have d1 := sub (hmem e he).2 (hmem e he).1 c1
    have d2 := sub (hmem f hf).2 (hmem f hf).1 c2
    generalize (e.1.x - e.2.x) * (p.y - e.2.y) / (e.1.y - e.2.y) + e.2.x = u at *
    generalize (f.1.x - f.2.x) * (p.y - f.2.y) / (f.1.y - f.2.y) + f.2.x = w at *
    have huw : 0 < w - u := by linarith [y2.2]
    have hp : InHull2 [(⟨u, p.y⟩ : Vec2 K), ⟨u, p.y⟩, ⟨w, p.y⟩] p := by
      obtain ⟨t, ht⟩ : ∃ t, t = (p.x - u) / (w - u) := ⟨_, rfl⟩
      have ht' : t * (w - u) = p.x - u := by rw [ht]; exact div_mul_cancel₀ _ huw.ne'
      have t0 : 0 ≤ t := by rw [ht]; exact div_nonneg (by linarith) huw.le
      have t1 : t ≤ 1 := by rw [ht]; exact (div_le_one huw).2 (by linarith [y2.2])
      refine hull2_three 0 (1 - t) t le_rfl (by linarith) t0 (by ring) ?_ ?_
      · dsimp only; linear_combination -ht'
      · dsimp only; ring
    refine hull2_mono (fun v hv => ?_) hp
    simp only [List.mem_cons, List.not_mem_nil, or_false] at hv
    rcases hv with rfl | rfl | rfl
    · exact d1
    · exact d1
    · exact d2

/-! ### The relationship -/

theorem axisLoop_spec {K : Type} [Arith K] [LinearOrder K] {big : K} {a b : List (Vec2 K)} : ∀ (axes : List (Vec2 K)) (t : Bool),
    (axisLoop big a b axes t = none ↔ ∃ n ∈ axes, checkOverlap (projectPolygon big a n) (projectPolygon big b n) = false) ∧
    ∀ t', axisLoop big a b axes t = some t' → (t' = true ↔ t = true ∨ ∃ n ∈ axes,
      (projectPolygon big a n).1 = (projectPolygon big b n).2 ∨ (projectPolygon big a n).2 = (projectPolygon big b n).1)
  | [], t => by
    refine ⟨by simp [axisLoop], fun t' h => ?_⟩
    simp only [axisLoop, Option.some.injEq] at h
    subst h; simp
  | n :: axes, t => by
    unfold axisLoop
    dsimp only
    cases hc : checkOverlap (projectPolygon big a n) (projectPolygon big b n) with
    | false =>
      rw [Bool.not_false, if_pos rfl]
      exact ⟨⟨fun _ => ⟨n, List.mem_cons_self, hc⟩, fun _ => rfl⟩, fun t' h => by cases h⟩
    | true =>
      rw [Bool.not_true, if_neg Bool.false_ne_true]
      obtain ⟨h1, h2⟩ := axisLoop_spec (big := big) (a := a) (b := b) axes
        (if (projectPolygon big a n).1 = (projectPolygon big b n).2 ∨ (projectPolygon big a n).2 = (projectPolygon big b n).1 then true else t)
      refine ⟨?_, fun t' h => ?_⟩
      · rw [h1]
        constructor
        · rintro ⟨m, hm, h⟩; exact ⟨m, List.mem_cons_of_mem _ hm, h⟩
        · rintro ⟨m, hm, h⟩
          rcases List.mem_cons.1 hm with rfl | hm
          · rw [hc] at h; cases h
          · exact ⟨m, hm, h⟩
      · rw [h2 t' h]
        split
        · rename_i hx
          exact ⟨fun _ => Or.inr ⟨n, List.mem_cons_self, hx⟩, fun _ => Or.inl rfl⟩
        · rename_i hx
          constructor
          · rintro (h | ⟨m, hm, h⟩)
            · exact Or.inl h
            · exact Or.inr ⟨m, List.mem_cons_of_mem _ hm, h⟩
          · rintro (h | ⟨m, hm, h'⟩)
            · exact Or.inl h
            · rcases List.mem_cons.1 hm with rfl | hm
              · exact absurd h' hx
              · exact Or.inr ⟨m, hm, h'⟩

omit [IsStrictOrderedRing K] in
theorem checkOverlap_sound {big : K} {a b : List (Vec2 K)} {n : Vec2 K}
    (h : checkOverlap (projectPolygon big a n) (projectPolygon big b n) = false) : SeparatedAlong a b n := by
  obtain ⟨h1, h2, -, -, -, -⟩ := fold_minmax (fun p : Vec2 K => p.dot n) a (big, -big)
  obtain ⟨g1, g2, -, -, -, -⟩ := fold_minmax (fun p : Vec2 K => p.dot n) b (big, -big)
  unfold checkOverlap projectPolygon at h
  rw [Bool.and_eq_false_iff, decide_eq_false_iff_not, decide_eq_false_iff_not, not_le, not_le] at h
  rcases h with h | h
  · right
    intro p hp q hq
    exact lt_of_le_of_lt (g2 q hq) (lt_of_lt_of_le h (h1 p hp))
  · left
    intro p hp q hq
    exact lt_of_le_of_lt (h2 p hp) (lt_of_lt_of_le h (g1 q hq))

/-- For a non-empty list of points in range the bounds are attained. -/
theorem project_attained {big : K} {a : List (Vec2 K)} {n : Vec2 K} (ha : a ≠ []) (hb : ∀ p ∈ a, |p.dot n| < big) :
    (∃ p ∈ a, (projectPolygon big a n).1 = p.dot n) ∧ ∃ p ∈ a, (projectPolygon big a n).2 = p.dot n := by
  obtain ⟨h1, h2, -, -, h5, h6⟩ := fold_minmax (fun p : Vec2 K => p.dot n) a (big, -big)
  obtain ⟨pa, mpa, ma⟩ := separatedAlong_disjoint.exists_max a (fun v => v.dot n) ha
  obtain ⟨qa, mqa, na⟩ := separatedAlong_disjoint.exists_max a (fun v => -(v.dot n)) ha
  refine ⟨⟨qa, mqa, le_antisymm (h1 qa mqa) (h5 _ ?_ fun q hq => neg_le_neg_iff.1 (na q hq))⟩,
    ⟨pa, mpa, le_antisymm (h6 _ ?_ ma) (h2 pa mpa)⟩⟩
  · have := abs_lt.1 (hb qa mqa); dsimp only; linarith
  · have := abs_lt.1 (hb pa mpa); dsimp only; linarith

theorem checkOverlap_complete {big : K} {a b : List (Vec2 K)} {n : Vec2 K} (ha : a ≠ []) (hb : b ≠ [])
    (hba : ∀ p ∈ a, |p.dot n| < big) (hbb : ∀ p ∈ b, |p.dot n| < big) (h : SeparatedAlong a b n) :
    checkOverlap (projectPolygon big a n) (projectPolygon big b n) = false := by
  obtain ⟨⟨p1, m1, e1⟩, ⟨p2, m2, e2⟩⟩ := project_attained ha hba
  obtain ⟨⟨q1, k1, f1⟩, ⟨q2, k2, f2⟩⟩ := project_attained hb hbb
  unfold checkOverlap
  rw [e1, e2, f1, f2, Bool.and_eq_false_iff, decide_eq_false_iff_not, decide_eq_false_iff_not, not_le, not_le]
  rcases h with h | h
  · exact Or.inr (h p2 m2 q1 k1)
  · exact Or.inl (h p1 m1 q2 k2)

end Cmm.Sep
