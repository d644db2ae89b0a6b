import Verif.Props.Decompose
import Verif.Model.Decompose
/-!
C87: joining two curves. C88: the setters of a curve.
-/
namespace Cmm.Nurbs
variable {K : Type} [Field K] [LinearOrder K] [IsStrictOrderedRing K]

/-- The two points are closer than `1e-10`. -/
def Near (sqrt : K → K) (p q : Vec3 K) : Prop :=
  sqrt ((p.x - q.x) * (p.x - q.x) + (p.y - q.y) * (p.y - q.y) + (p.z - q.z) * (p.z - q.z)) < 1 / 10 ^ 10

/-- The list or the list read backwards. -/
def Oriented {α : Type} (l m : List α) : Prop := m = l ∨ m = l.reverse

/-- A curve as a user sees it: valid, clamped, positive weights, interval from the knots, first span not empty. -/
structure OpenCurve (c : Curve K) : Prop where
  valid : ValidCurve c
  weights : PositiveWeights c
  clamped : Clamped c
  interval : IntervalOk c
  span : ix c.knots c.degree < ix c.knots (c.degree + 1)

theorem OpenCurve.ends {c : Curve K} (h : OpenCurve c) : c.lo = ix c.knots c.degree ∧ c.hi = ix c.knots c.cpts.length := by
  have V := h.valid
  have hlen := V.len
  have hen := V.enough
  obtain ⟨lo, hi, e, ⟨l1, l2⟩, ⟨r1, r2⟩⟩ := updateInterval_ok (c := c) (ValidKnots.ne_nil V)
  have hI := h.interval
  unfold IntervalOk at hI
  rw [hI] at e
  have e := Res.ok.inj e
  have e1 : c.lo = lo := congrArg Curve.lo e
  have e2 : c.hi = hi := congrArg Curve.hi e
  have m1 : ix c.knots 0 ∈ c.knots := mem_ix (by omega)
  have m2 : ix c.knots (c.cpts.length + c.degree) ∈ c.knots := mem_ix (by omega)
  have hmem : ∀ x ∈ c.knots, ix c.knots 0 ≤ x ∧ x ≤ ix c.knots (c.cpts.length + c.degree) := by
    intro x hx
    obtain ⟨i, hi, rfl⟩ := List.getElem_of_mem hx
    rw [← ix_eq_getElem hi]
    exact ⟨ValidKnots.mono V _ _ (by omega) (by omega), ValidKnots.mono V _ _ (by omega) (by omega)⟩
  have c1 := h.clamped.1 0 (by omega)
  have c2 := h.clamped.2 (c.cpts.length + c.degree) (by omega) le_rfl
  constructor
  · rw [e1, ← c1]; exact le_antisymm (l2 _ m1) (hmem _ l1).1
  · rw [e2, ← c2]; exact le_antisymm (hmem _ r1).2 (r2 _ m2)

theorem OpenCurve.evaluate_ends {c : Curve K} (h : OpenCurve c) : c.evaluate c.lo = .ok (Vec4.pos (ix c.cpts 0)) ∧
    c.evaluate c.hi = .ok (Vec4.pos (ix c.cpts (c.cpts.length - 1))) := by
  rw [h.ends.1, h.ends.2]
  exact C28_end_points c h.valid h.weights h.clamped h.span

omit [IsStrictOrderedRing K] in
theorem near_iff (sqrt : K → K) (p q : Vec3 K) : distance sqrt p q < joinTol ↔ Near sqrt p q := Iff.rfl

/-- The constructor of an open curve gives an open curve. -/
theorem make_open {pts : List (Vec4 K)} {d : Nat} (h1 : 1 ≤ d) (h8 : d ≤ 8) (h : d < pts.length) (hw : ∀ q ∈ pts, 0 < q.w) :
    ∃ r, Curve.make pts d false = .ok r ∧ OpenCurve r ∧ r.cpts = pts ∧ r.degree = d ∧ r.periodic = false := by
  obtain ⟨k, hk, hm⟩ := C23_constructor pts d h
  obtain ⟨k', hk', g1, g2, g3, g4, g5⟩ := C23_generated_clamped (K := K) pts.length d h
  rw [hk] at hk'
  obtain rfl := Res.ok.inj hk'
  have hn : ((pts.length - 1 : Nat) : K) + 1 = (pts.length : K) := by
    have : pts.length - 1 + 1 = pts.length := by omega
    exact_mod_cast this
  refine ⟨_, hm, ⟨⟨h1, h8, h, g1, g2, ?_⟩, hw, ⟨fun i hi => ?_, fun i hi hi' => ?_⟩, ?_, ?_⟩, rfl, rfl, rfl⟩
  · show ix k (pts.length - 1) < ix k pts.length
    rw [g5 _ (by omega) (by omega), g5 _ (by omega) le_rfl]
    linarith
  · show ix k i = ix k d
    rw [g3 i hi, g3 d le_rfl]
  · show ix k i = ix k pts.length
    rw [g4 i hi hi', g4 pts.length le_rfl (by omega)]
  · have hne : k ≠ [] := by intro e; rw [e] at g1; simp at g1
    obtain ⟨lo, hi, e, ⟨l1, l2⟩, ⟨r1, r2⟩⟩ := updateInterval_ok (c := ⟨pts, d, k, false, 0, (pts.length : K) - d⟩) hne
    have hmem : ∀ x ∈ k, 0 ≤ x ∧ x ≤ (pts.length : K) - d := by
      intro x hx
      obtain ⟨i, hi, rfl⟩ := List.getElem_of_mem hx
      have hb1 := ix_mono g2 (Nat.zero_le i) hi
      have hb2 := ix_mono g2 (show i ≤ pts.length + d by omega) (by omega)
      rw [g3 0 (by omega), ix_eq_getElem hi] at hb1
      rw [g4 _ (by omega) le_rfl, ix_eq_getElem hi] at hb2
      exact ⟨hb1, hb2⟩
    have m1 : (0 : K) ∈ k := by rw [← g3 0 (by omega)]; exact mem_ix (by omega)
    have m2 : (pts.length : K) - d ∈ k := by rw [← g4 pts.length le_rfl (by omega)]; exact mem_ix (by omega)
    have x1 : lo = 0 := le_antisymm (l2 _ m1) (hmem _ l1).1
    have x2 : hi = (pts.length : K) - d := le_antisymm (hmem _ r1).2 (r2 _ m2)
    unfold IntervalOk
    rw [e, x1, x2]
  · show ix k d < ix k (d + 1)
    rw [g5 d le_rfl (by omega), g5 (d + 1) (by omega) (by omega)]
    push_cast
    linarith

/-- The constructor with the periodic flag: the points are kept and, unless they repeat already, the first `degree` ones are appended. -/
theorem make_closed {pts : List (Vec4 K)} {d : Nat} (h : d < pts.length) :
    ∃ r, Curve.make pts d true = .ok r ∧ r.isPeriodic = .ok true ∧ r.degree = d ∧ r.periodic = true ∧
      (r.cpts = pts ∨ r.cpts = pts ++ pts.take d) := by
  have hne : (generateKnotsPeriodic pts.length d : List K) ≠ [] := by simp [generateKnotsPeriodic]
  obtain ⟨lo, hi, e, -, -⟩ := updateInterval_ok (c := (⟨pts, d, generateKnotsPeriodic pts.length d, true, 0, 1⟩ : Curve K)) hne
  obtain ⟨r, h1, h2, -, h3⟩ := C34_make_periodic (⟨pts, d, generateKnotsPeriodic pts.length d, true, lo, hi⟩ : Curve K) h.le
  have hpts : pts.isEmpty = false := by
    cases pts with
    | nil => simp at h
    | cons a l => rfl
  have hm : Curve.make pts d true = .ok r := by
    unfold Curve.make Curve.generateKnotsPeriodic
    simp only [if_true]
    rw [e]
    simp only [Res.ok_bind]
    rw [h1]
    simp [hpts]
  rcases h3 with ⟨-, h3⟩ | ⟨-, h4, h5, h6, -⟩
  · exact ⟨r, hm, h2, by rw [h3], by rw [h3], .inl (by rw [h3])⟩
  · exact ⟨r, hm, h2, h6, h5, .inr h4⟩

omit [Field K] [LinearOrder K] [IsStrictOrderedRing K] in
theorem ix_reverse [Field K] {l : List (Vec4 K)} (h : l ≠ []) : ix l.reverse 0 = ix l (l.length - 1) ∧ ix l.reverse (l.length - 1) = ix l 0 := by
  have := List.length_pos_iff.2 h
  constructor
  · rw [ix_eq_getElem (by simpa using this), ix_eq_getElem (by omega), List.getElem_reverse]
    simp
  · rw [ix_eq_getElem (by simpa using this), ix_eq_getElem (by omega), List.getElem_reverse]
    congr 1
    omega

omit [LinearOrder K] [IsStrictOrderedRing K] in
theorem ix_joined {p q : List (Vec4 K)} (hp : p ≠ []) (hq : q ≠ []) : ix (p ++ q) 0 = ix p 0 ∧ ix (p ++ q) ((p ++ q).length - 1) = ix q (q.length - 1) := by
  have h1 := List.length_pos_iff.2 hp
  have h2 := List.length_pos_iff.2 hq
  constructor
  · exact ix_append_left h1
  · rw [ix_append_right (by simp; omega)]
    congr 1
    simp; omega

omit [IsStrictOrderedRing K] in
theorem join_eq (sqrt : K → K) {c second : Curve K} (hp : c.isPeriodic = .ok false) (hp2 : second.isPeriodic = .ok false) {a b d e : Vec3 K}
    (h1 : c.evaluate c.lo = .ok a) (h2 : c.evaluate c.hi = .ok b) (h3 : second.evaluate second.lo = .ok d) (h4 : second.evaluate second.hi = .ok e) :
    c.join sqrt second = match joinPoints c.cpts second.cpts (decide (distance sqrt a d < joinTol)) (decide (distance sqrt a e < joinTol))
        (decide (distance sqrt b d < joinTol)) (decide (distance sqrt b e < joinTol)) with
      | none => .ok none
      | some pts => (do
        let r ← Curve.make pts c.degree (decide (distance sqrt (ix pts 0).toVec3 (ix pts (pts.length - 1)).toVec3 < joinTol))
        .ok (some r)) := by
  unfold Curve.join
  rw [hp, hp2, h1, h2, h3, h4]
  rfl

/-- **C87**: a curve that is periodic is not joined. -/
theorem C87_periodic_refused (sqrt : K → K) (c second : Curve K) :
    (c.isPeriodic = .ok true → c.join sqrt second = .ok none) ∧
    (c.isPeriodic = .ok false → second.isPeriodic = .ok true → c.join sqrt second = .ok none) := by
  constructor
  · intro h; unfold Curve.join; rw [h]; rfl
  · intro h h'; unfold Curve.join; rw [h, h']; rfl

/-- **C87**: two open curves none of whose ends are near each other are not joined. -/
theorem C87_apart_refused (sqrt : K → K) (c second : Curve K) (h1 : OpenCurve c) (h2 : OpenCurve second)
    (hp : c.isPeriodic = .ok false) (hp2 : second.isPeriodic = .ok false)
    (h : ∀ x ∈ [ix c.cpts 0, ix c.cpts (c.cpts.length - 1)], ∀ y ∈ [ix second.cpts 0, ix second.cpts (second.cpts.length - 1)],
      ¬ Near sqrt (Vec4.pos x) (Vec4.pos y)) :
    c.join sqrt second = .ok none := by
  rw [join_eq sqrt hp hp2 h1.evaluate_ends.1 h1.evaluate_ends.2 h2.evaluate_ends.1 h2.evaluate_ends.2]
  have e : ∀ x ∈ [ix c.cpts 0, ix c.cpts (c.cpts.length - 1)], ∀ y ∈ [ix second.cpts 0, ix second.cpts (second.cpts.length - 1)],
      decide (distance sqrt (Vec4.pos x) (Vec4.pos y) < joinTol) = false := fun x hx y hy => decide_eq_false (h x hx y hy)
  rw [e _ (by simp) _ (by simp), e _ (by simp) _ (by simp), e _ (by simp) _ (by simp), e _ (by simp) _ (by simp)]
  rfl

/-- **C87** (part): two open curves with near ends are joined. The control points of the result are those of the first curve and then
those of the second, each forwards or backwards, such that near ends meet; neither is reversed if the end of the first is near the
start of the second. If the outer ends are not near, the result is an open curve from one outer end to the other. Missing: that the
result has the shape of the two curves, which is false (`C87_shape_counterexample`). -/
theorem C87_join_partial (sqrt : K → K) (c second : Curve K) (h1 : OpenCurve c) (h2 : OpenCurve second)
    (hp : c.isPeriodic = .ok false) (hp2 : second.isPeriodic = .ok false)
    (h : ∃ x ∈ [ix c.cpts 0, ix c.cpts (c.cpts.length - 1)], ∃ y ∈ [ix second.cpts 0, ix second.cpts (second.cpts.length - 1)],
      Near sqrt (Vec4.pos x) (Vec4.pos y)) :
    ∃ p q r, c.join sqrt second = .ok (some r) ∧ Oriented c.cpts p ∧ Oriented second.cpts q ∧
      Near sqrt (Vec4.pos (ix p (p.length - 1))) (Vec4.pos (ix q 0)) ∧
      (Near sqrt (Vec4.pos (ix c.cpts (c.cpts.length - 1))) (Vec4.pos (ix second.cpts 0)) → p = c.cpts ∧ q = second.cpts) ∧
      r.degree = c.degree ∧
      (¬ Near sqrt (ix p 0).toVec3 (ix q (q.length - 1)).toVec3 → OpenCurve r ∧ r.cpts = p ++ q ∧ r.periodic = false ∧
        r.evaluate r.lo = .ok (Vec4.pos (ix p 0)) ∧ r.evaluate r.hi = .ok (Vec4.pos (ix q (q.length - 1)))) ∧
      (Near sqrt (ix p 0).toVec3 (ix q (q.length - 1)).toVec3 → r.isPeriodic = .ok true ∧ r.periodic = true ∧
        (r.cpts = p ++ q ∨ r.cpts = p ++ q ++ (p ++ q).take c.degree)) := by
  have hc : c.cpts ≠ [] := by
    intro e; have := h1.valid.enough; rw [e] at this; simp at this
  have hs : second.cpts ≠ [] := by
    intro e; have := h2.valid.enough; rw [e] at this; simp at this
  rw [join_eq sqrt hp hp2 h1.evaluate_ends.1 h1.evaluate_ends.2 h2.evaluate_ends.1 h2.evaluate_ends.2]
  obtain ⟨p, q, e, op, oq, hn, hpref⟩ : ∃ p q, joinPoints c.cpts second.cpts
      (decide (distance sqrt (Vec4.pos (ix c.cpts 0)) (Vec4.pos (ix second.cpts 0)) < joinTol))
      (decide (distance sqrt (Vec4.pos (ix c.cpts 0)) (Vec4.pos (ix second.cpts (second.cpts.length - 1))) < joinTol))
      (decide (distance sqrt (Vec4.pos (ix c.cpts (c.cpts.length - 1))) (Vec4.pos (ix second.cpts 0)) < joinTol))
      (decide (distance sqrt (Vec4.pos (ix c.cpts (c.cpts.length - 1))) (Vec4.pos (ix second.cpts (second.cpts.length - 1))) < joinTol))
        = some (p ++ q) ∧ Oriented c.cpts p ∧ Oriented second.cpts q ∧
      Near sqrt (Vec4.pos (ix p (p.length - 1))) (Vec4.pos (ix q 0)) ∧
      (Near sqrt (Vec4.pos (ix c.cpts (c.cpts.length - 1))) (Vec4.pos (ix second.cpts 0)) → p = c.cpts ∧ q = second.cpts) := by
    have yes : ∀ a b, Near sqrt a b → decide (distance sqrt a b < joinTol) = true := fun a b h => decide_eq_true ((near_iff _ _ _).2 h)
    have no : ∀ a b, ¬ Near sqrt a b → ¬ decide (distance sqrt a b < joinTol) = true := fun a b h h' => h ((near_iff _ _ _).1 (of_decide_eq_true h'))
    unfold joinPoints
    by_cases n1 : Near sqrt (Vec4.pos (ix c.cpts (c.cpts.length - 1))) (Vec4.pos (ix second.cpts 0))
    · exact ⟨c.cpts, second.cpts, by rw [if_pos (yes _ _ n1)], .inl rfl, .inl rfl, n1, fun _ => ⟨rfl, rfl⟩⟩
    · rw [if_neg (no _ _ n1)]
      by_cases n2 : Near sqrt (Vec4.pos (ix c.cpts 0)) (Vec4.pos (ix second.cpts 0))
      · refine ⟨c.cpts.reverse, second.cpts, by rw [if_pos (yes _ _ n2)], .inr rfl, .inl rfl, ?_, fun h => absurd h n1⟩
        rw [List.length_reverse, (ix_reverse hc).2]; exact n2
      · rw [if_neg (no _ _ n2)]
        by_cases n3 : Near sqrt (Vec4.pos (ix c.cpts (c.cpts.length - 1))) (Vec4.pos (ix second.cpts (second.cpts.length - 1)))
        · refine ⟨c.cpts, second.cpts.reverse, by rw [if_pos (yes _ _ n3)], .inl rfl, .inr rfl, ?_, fun h => absurd h n1⟩
          rw [(ix_reverse hs).1]; exact n3
        · rw [if_neg (no _ _ n3)]
          have n4 : Near sqrt (Vec4.pos (ix c.cpts 0)) (Vec4.pos (ix second.cpts (second.cpts.length - 1))) := by
            obtain ⟨x, hx, y, hy, hxy⟩ := h
            simp only [List.mem_cons, List.not_mem_nil, or_false] at hx hy
            rcases hx with rfl | rfl <;> rcases hy with rfl | rfl
            · exact absurd hxy n2
            · exact hxy
            · exact absurd hxy n1
            · exact absurd hxy n3
          refine ⟨c.cpts.reverse, second.cpts.reverse, by rw [if_pos (yes _ _ n4)], .inr rfl, .inr rfl, ?_, fun h => absurd h n1⟩
          rw [List.length_reverse, (ix_reverse hc).2, (ix_reverse hs).1]; exact n4
  rw [e]
  have hp0 : p ≠ [] := by rcases op with rfl | rfl <;> simpa using hc
  have hq0 : q ≠ [] := by rcases oq with rfl | rfl <;> simpa using hs
  have hlp : p.length = c.cpts.length := by rcases op with rfl | rfl <;> simp
  have hlen : c.degree < (p ++ q).length := by
    have := h1.valid.enough
    rw [List.length_append]; omega
  have hw : ∀ x ∈ p ++ q, 0 < x.w := by
    intro x hx
    rcases List.mem_append.1 hx with hx | hx
    · refine h1.weights x ?_
      rcases op with rfl | rfl <;> simpa using hx
    · refine h2.weights x ?_
      rcases oq with rfl | rfl <;> simpa using hx
  obtain ⟨j0, j1⟩ := ix_joined hp0 hq0
  simp only
  rw [j0, j1]
  by_cases hcl : Near sqrt (ix p 0).toVec3 (ix q (q.length - 1)).toVec3
  · obtain ⟨r, m1, m2, m3, m4, m5⟩ := make_closed (K := K) hlen
    refine ⟨p, q, r, ?_, op, oq, hn, hpref, m3, fun h => absurd hcl h, fun _ => ⟨m2, m4, m5⟩⟩
    rw [decide_eq_true ((near_iff _ _ _).2 hcl), m1]; rfl
  · obtain ⟨r, m1, m2, m3, m4, m5⟩ := make_open h1.valid.deg_pos h1.valid.deg_le hlen hw
    refine ⟨p, q, r, ?_, op, oq, hn, hpref, m4, fun _ => ⟨m2, m3, m5, ?_, ?_⟩, fun h => absurd h hcl⟩
    · rw [decide_eq_false fun h => hcl ((near_iff _ _ _).1 h), m1]; rfl
    · rw [m2.evaluate_ends.1, m3, j0]
    · rw [m2.evaluate_ends.2, m3, j1]

/-- A straight segment from (0,0) to (2,0). -/
def joinFirst : Curve ℚ := ⟨[⟨0, 0, 0, 1⟩, ⟨2, 0, 0, 1⟩], 1, [0, 0, 1, 1], false, 0, 1⟩

/-- A parabola from (2,0) to (4,0) with top (3,1/2). -/
def joinSecond : Curve ℚ := ⟨[⟨2, 0, 0, 1⟩, ⟨3, 1, 0, 1⟩, ⟨4, 0, 0, 1⟩], 2, [0, 0, 0, 1, 1, 1], false, 0, 1⟩

theorem joinFirst_open : OpenCurve joinFirst := by
  refine ⟨⟨by decide, by decide, by decide, rfl, by unfold SortedKnots; decide +kernel, by decide +kernel⟩, by unfold PositiveWeights; decide +kernel,
    ⟨by decide +kernel, ?_⟩, by unfold IntervalOk; decide +kernel, by decide +kernel⟩
  intro i h1 h2
  have h1 : 2 ≤ i := h1
  have h2 : i ≤ 3 := h2
  obtain rfl | rfl : i = 2 ∨ i = 3 := by omega
  all_goals decide +kernel

theorem joinSecond_open : OpenCurve joinSecond := by
  refine ⟨⟨by decide, by decide, by decide, rfl, by unfold SortedKnots; decide +kernel, by decide +kernel⟩, by unfold PositiveWeights; decide +kernel,
    ⟨by decide +kernel, ?_⟩, by unfold IntervalOk; decide +kernel, by decide +kernel⟩
  intro i h1 h2
  have h1 : 3 ≤ i := h1
  have h2 : i ≤ 5 := h2
  obtain rfl | rfl | rfl : i = 3 ∨ i = 4 ∨ i = 5 := by omega
  all_goals decide +kernel

example : OpenCurve joinFirst ∧ OpenCurve joinSecond ∧ joinFirst.isPeriodic = .ok false ∧ joinSecond.isPeriodic = .ok false ∧
    Near id (Vec4.pos (ix joinFirst.cpts (joinFirst.cpts.length - 1))) (Vec4.pos (ix joinSecond.cpts 0)) :=
  ⟨joinFirst_open, joinSecond_open, by decide +kernel, by decide +kernel, by unfold Near; decide +kernel⟩

example : ∀ x ∈ [ix joinFirst.cpts 0, ix joinFirst.cpts (joinFirst.cpts.length - 1)],
    ∀ y ∈ [ix demoCurve.cpts 4, ix demoCurve.cpts 3], ¬ Near id (Vec4.pos x) (Vec4.pos y) := by unfold Near; decide +kernel

/-- The second curve stays below height 1/2. -/
theorem joinSecond_height (t : ℚ) (h : InDomain joinSecond t) : ∃ r, joinSecond.evaluate t = .ok r ∧ r.y ≤ 1 / 2 := by
  obtain ⟨a, b, hs, -, -, hdom, hea, heb, -, -⟩ := C30_split_reproduces joinSecond joinSecond_open.valid ⟨1, by norm_num, by decide +kernel⟩ (1 / 2)
    (by decide +kernel) (by decide +kernel) (by decide +kernel) (by decide +kernel) (by unfold ClearOf; decide +kernel) (by decide +kernel)
  have key : joinSecond.split (1 / 2) false = .ok (⟨[⟨2, 0, 0, 1⟩, ⟨5/2, 1/2, 0, 1⟩, ⟨3, 1/2, 0, 1⟩], 2, [0, 0, 0, 1/2, 1/2, 1/2], false, 0, 1/2⟩,
      ⟨[⟨3, 1/2, 0, 1⟩, ⟨7/2, 1/2, 0, 1⟩, ⟨4, 0, 0, 1⟩], 2, [1/2, 1/2, 1/2, 1, 1, 1], false, 1/2, 1⟩) := by decide +kernel
  rw [hs] at key
  obtain ⟨ka, kb⟩ := Prod.mk.inj (Res.ok.inj key)
  have ve : ∀ c : Curve ℚ, ValidCurve c → PositiveWeights c → (∀ q ∈ c.cpts, InBox (Vec4.pos q) ⟨⟨0, 0, 0⟩, ⟨4, 1/2, 0⟩⟩) → InDomain c t →
      ∃ r, c.evaluate t = .ok r ∧ r.y ≤ 1 / 2 := by
    intro c V hw hb hd
    obtain ⟨r, h1, h2⟩ := C27_curve_in_box c V hw _ hb t hd
    exact ⟨r, h1, h2.2.2.2.1⟩
  rcases le_total t (1 / 2) with ht | ht
  · have hd := (hdom t).1.2 ⟨h.1, ht⟩
    rw [← hea t hd]
    rw [ka] at hd ⊢
    exact ve _ ⟨by decide, by decide, by decide, rfl, by unfold SortedKnots; decide +kernel, by decide +kernel⟩ (by unfold PositiveWeights; decide +kernel)
      (by unfold InBox; decide +kernel) hd
  · have hd := (hdom t).2.2 ⟨ht, h.2⟩
    rw [← heb t hd]
    rw [kb] at hd ⊢
    exact ve _ ⟨by decide, by decide, by decide, rfl, by unfold SortedKnots; decide +kernel, by decide +kernel⟩ (by unfold PositiveWeights; decide +kernel)
      (by unfold InBox; decide +kernel) hd

/-- **C87** is false for the shape: the join takes the degree of the first curve and new knots, so a segment joined with a parabola
becomes a polyline through a point that neither of the two curves meets. -/
theorem C87_shape_counterexample :
    OpenCurve joinFirst ∧ OpenCurve joinSecond ∧ ∃ r t, joinFirst.join id joinSecond = .ok (some r) ∧ InDomain r t ∧ r.evaluate t = .ok ⟨3, 1, 0⟩ ∧
      (∀ u, InDomain joinFirst u → joinFirst.evaluate u ≠ .ok ⟨3, 1, 0⟩) ∧ (∀ u, InDomain joinSecond u → joinSecond.evaluate u ≠ .ok ⟨3, 1, 0⟩) := by
  refine ⟨joinFirst_open, joinSecond_open,
    ⟨[⟨0, 0, 0, 1⟩, ⟨2, 0, 0, 1⟩, ⟨2, 0, 0, 1⟩, ⟨3, 1, 0, 1⟩, ⟨4, 0, 0, 1⟩], 1, [0, 0, 1, 2, 3, 4, 4], false, 0, 4⟩, 3, by decide +kernel,
    by unfold InDomain; decide +kernel, by decide +kernel, fun u hu he => ?_, fun u hu he => ?_⟩
  · obtain ⟨r, h1, h2⟩ := C27_curve_in_box joinFirst joinFirst_open.valid joinFirst_open.weights ⟨⟨0, 0, 0⟩, ⟨2, 0, 0⟩⟩ (by unfold InBox; decide +kernel) u hu
    rw [he] at h1
    have := Res.ok.inj h1
    subst this
    have h3 := h2.2.2.2.1
    simp only at h3
    linarith
  · obtain ⟨r, h1, h2⟩ := joinSecond_height u hu
    rw [he] at h1
    have := Res.ok.inj h1
    subst this
    simp only at h2
    linarith

/-- **C87** is false for the closing test as well: it divides the positions of the outer control points by their weights although they
are stored undivided. Two segments from (1,0) over (1,1) to (2,0), the last point with weight 2, are taken for a closed curve: the
result is periodic, with a copy of the first point at its end. -/
theorem C87_closing_counterexample :
    ∃ c second r : Curve ℚ, OpenCurve c ∧ OpenCurve second ∧ c.evaluate c.lo = .ok ⟨1, 0, 0⟩ ∧ second.evaluate second.hi = .ok ⟨2, 0, 0⟩ ∧
      c.join id second = .ok (some r) ∧ r.periodic = true ∧ r.cpts = c.cpts ++ second.cpts ++ [ix c.cpts 0] := by
  refine ⟨⟨[⟨1, 0, 0, 1⟩, ⟨1, 1, 0, 1⟩], 1, [0, 0, 1, 1], false, 0, 1⟩, ⟨[⟨1, 1, 0, 1⟩, ⟨2, 0, 0, 2⟩], 1, [0, 0, 1, 1], false, 0, 1⟩,
    ⟨[⟨1, 0, 0, 1⟩, ⟨1, 1, 0, 1⟩, ⟨1, 1, 0, 1⟩, ⟨2, 0, 0, 2⟩, ⟨1, 0, 0, 1⟩], 1, [-1, 0, 1, 2, 3, 4, 5], true, -1, 5⟩, ?_, ?_, by decide +kernel,
    by decide +kernel, by decide +kernel, rfl, by decide +kernel⟩
  all_goals
    refine ⟨⟨by decide, by decide, by decide, rfl, by unfold SortedKnots; decide +kernel, by decide +kernel⟩, by unfold PositiveWeights; decide +kernel,
      ⟨by decide +kernel, ?_⟩, by unfold IntervalOk; decide +kernel, by decide +kernel⟩
    intro i h1 h2
    have h1 : 2 ≤ i := h1
    have h2 : i ≤ 3 := h2
    obtain rfl | rfl : i = 2 ∨ i = 3 := by omega
    all_goals decide +kernel

/-! ### C88 -/

/-- **C88**: replacing the control points of a valid curve by as many others keeps degree, knots, interval and validity. -/
theorem C88_same_count (c : Curve K) (pts : List (Vec4 K)) (V : ValidCurve c) (h : pts.length = c.cpts.length) :
    ∃ r, c.setControlPoints pts = .ok r ∧ r.cpts = pts ∧ r.degree = c.degree ∧ r.knots = c.knots ∧ r.lo = c.lo ∧ r.hi = c.hi ∧
      r.periodic = c.periodic ∧ ValidCurve r := by
  refine ⟨{ c with cpts := pts }, ?_, rfl, rfl, rfl, rfl, rfl, rfl, ?_⟩
  · unfold Curve.setControlPoints
    rw [if_neg (by simpa using h)]
  · show ValidKnots pts.length c.degree c.knots
    rw [h]; exact V

/-- **C88**: with another number of control points, more than the degree, an open curve becomes the open curve of the constructor. -/
theorem C88_other_count (c : Curve K) (pts : List (Vec4 K)) (h : pts.length ≠ c.cpts.length) (hd : 1 ≤ c.degree ∧ c.degree ≤ 8)
    (hn : c.degree < pts.length) (hp : c.periodic = false) (hw : ∀ q ∈ pts, 0 < q.w) :
    ∃ r, c.setControlPoints pts = .ok r ∧ Curve.make pts c.degree false = .ok r ∧ OpenCurve r ∧ r.cpts = pts ∧ r.degree = c.degree := by
  obtain ⟨r, h1, h2, h3, h4, h5⟩ := make_open hd.1 hd.2 hn hw
  refine ⟨r, ?_, h1, h2, h3, h4⟩
  rw [← h1]
  unfold Curve.setControlPoints Curve.make Curve.generateKnots
  have he : pts.isEmpty = false := by
    cases pts with
    | nil => simp at hn
    | cons a l => rfl
  rw [if_pos h, if_neg (by simp [hp])]
  simp only [he]
  obtain ⟨k, hk, g1, -⟩ := C23_generated_clamped (K := K) pts.length c.degree hn
  rw [hk]
  simp only [Res.ok_bind, Bool.false_eq_true, if_false]
  have hne : k ≠ [] := by intro e; rw [e] at g1; simp at g1
  obtain ⟨lo, a1, -, -⟩ := minElement_ok hne
  obtain ⟨hi, b1, -, -⟩ := maxElement_ok hne
  simp only [Curve.updateInterval, a1, b1, Res.ok_bind, hp]

/-- **C88**: new knots that fit the control points give a valid curve whose interval runs from the smallest to the largest knot. -/
theorem C88_set_knots (c : Curve K) (U : List K) (V : ValidKnots c.cpts.length c.degree U) :
    ∃ r, c.setKnots U = .ok r ∧ r.cpts = c.cpts ∧ r.degree = c.degree ∧ r.knots = U ∧ ValidCurve r ∧ IntervalOk r ∧
      (r.lo ∈ U ∧ ∀ x ∈ U, r.lo ≤ x) ∧ (r.hi ∈ U ∧ ∀ x ∈ U, x ≤ r.hi) := by
  obtain ⟨lo, hi, e, h1, h2⟩ := updateInterval_ok (c := { c with knots := U }) (ValidKnots.ne_nil V)
  exact ⟨_, e, rfl, rfl, rfl, V, intervalOk_of e, h1, h2⟩

/-- **C88** is false for the degree: `set_degree` leaves knots and control points as they are, so a valid curve is never valid
after a change of its degree. -/
theorem C88_set_degree_counterexample (c : Curve K) (V : ValidCurve c) (d : Nat) (h : d ≠ c.degree) :
    ∃ r, c.setDegree d = .ok r ∧ r.degree = d ∧ r.knots = c.knots ∧ r.cpts = c.cpts ∧ ¬ ValidCurve r := by
  obtain ⟨lo, hi, e, -, -⟩ := updateInterval_ok (c := { c with degree := d }) (ValidKnots.ne_nil V)
  refine ⟨_, e, rfl, rfl, rfl, fun W => h ?_⟩
  have h1 := V.len
  have h2 : c.knots.length = c.cpts.length + d + 1 := W.len
  omega

/-- **C88**: what this does to a curve from (0,0,0) to (6,1,0) of degree 2: with degree 1 or 3 it starts elsewhere, with degree 4 it
cannot be evaluated at all. -/
theorem C88_set_degree_example_counterexample :
    demoCurve.evaluate 0 = .ok ⟨0, 0, 0⟩ ∧
    (∃ r, demoCurve.setDegree 1 = .ok r ∧ r.evaluate 0 = .ok ⟨1, 2, 0⟩) ∧
    (∃ r, demoCurve.setDegree 3 = .ok r ∧ r.evaluate 0 = .ok ⟨-1/4, -3/4, 1/4⟩) ∧
    (∃ r, demoCurve.setDegree 4 = .ok r ∧ ∀ t, r.evaluate t = .ub) := by
  refine ⟨by decide +kernel, ⟨{ demoCurve with degree := 1 }, by decide +kernel, by decide +kernel⟩,
    ⟨{ demoCurve with degree := 3 }, by decide +kernel, by decide +kernel⟩, ⟨{ demoCurve with degree := 4 }, by decide +kernel, fun t => ?_⟩⟩
  have := findSpan_ge (demoCurve.cpts.length - 1) 4 t (ix demoCurve.knots)
  unfold Curve.evaluate
  simp only
  rw [if_pos]
  right; right; left
  show 8 ≤ _ + 4
  omega

/-- **C88** (part): setting the degree to the value it has changes nothing but the interval. Missing: any other value
(`C88_set_degree_counterexample`). -/
theorem C88_set_degree_partial (c : Curve K) (V : ValidCurve c) : ∃ r, c.setDegree c.degree = .ok r ∧ ValidCurve r ∧ IntervalOk r ∧
    r.degree = c.degree ∧ r.knots = c.knots ∧ r.cpts = c.cpts := by
  obtain ⟨lo, hi, e, h1, h2⟩ := updateInterval_ok (c := c) (ValidKnots.ne_nil V)
  exact ⟨_, e, V, intervalOk_of e, rfl, rfl, rfl⟩

omit [IsStrictOrderedRing K] in
/-- **C88** (part): `get_control_points3d` gives one point per control point, the position divided by the weight; with unit weights
these are the positions. Missing: weights other than one (`C88_points3d_counterexample`). -/
theorem C88_points3d_partial (c : Curve K) : c.controlPoints3d.length = c.cpts.length ∧
    (∀ (i : Nat) (q : Vec4 K), c.cpts[i]? = some q → c.controlPoints3d[i]? = some (⟨q.x / q.w, q.y / q.w, q.z / q.w⟩ : Vec3 K)) ∧
    ((∀ q ∈ c.cpts, q.w = 1) → c.controlPoints3d = c.cpts.map Vec4.pos) := by
  refine ⟨by simp [Curve.controlPoints3d], fun i q h => ?_, fun h => ?_⟩
  · simp [Curve.controlPoints3d, h, Vec4.toVec3]
  · refine List.map_congr_left fun q hq => ?_
    simp [Vec4.toVec3, Vec4.pos, h q hq]

/-- **C88** is false for the points with weights: the curve from (0,0,0) to (1,0,0), the end with weight 3, reports the end (1/3,0,0). -/
theorem C88_points3d_counterexample : weightedLine.evaluate 0 = .ok ⟨0, 0, 0⟩ ∧ weightedLine.evaluate 1 = .ok ⟨1, 0, 0⟩ ∧
    weightedLine.controlPoints3d = [⟨0, 0, 0⟩, ⟨1/3, 0, 0⟩] := by decide +kernel

example : ValidCurve demoCurve ∧ [(⟨0, 0, 0, 1⟩ : Vec4 ℚ), ⟨1, 0, 0, 1⟩, ⟨2, 1, 0, 1⟩].length ≠ demoCurve.cpts.length ∧
    demoCurve.degree < [(⟨0, 0, 0, 1⟩ : Vec4 ℚ), ⟨1, 0, 0, 1⟩, ⟨2, 1, 0, 1⟩].length ∧
    ValidKnots demoCurve.cpts.length demoCurve.degree [(0 : ℚ), 0, 0, 1/2, 3/4, 1, 1, 1] :=
  ⟨demoCurve_valid, by decide, by decide, ⟨by decide, by decide, by decide, by decide, by unfold SortedKnots; decide +kernel, by decide +kernel⟩⟩

/-- **C88**: the constructor of a surface from a rectangular net stores the net, its size, the degrees and the knots; an empty knot
vector is replaced by the generated one. With knots that fit, the surface is valid and its interval is the one of the knots. -/
theorem C88_surface_constructor (net : List (List (Vec4 K))) (m du dv : Nat) (ku kv : List K) (hm : 0 < m) (hne : net ≠ [])
    (hr : ∀ r ∈ net, r.length = m)
    (hu : ku = [] ∧ 1 ≤ du ∧ du ≤ 8 ∧ du < net.length ∨ ValidKnots net.length du ku)
    (hv : kv = [] ∧ 1 ≤ dv ∧ dv ≤ 8 ∧ dv < m ∨ ValidKnots m dv kv) :
    ∃ s, Surface.make net du dv ku kv = .ok s ∧ ValidSurface s ∧ SurfIntervalOk s ∧ s.cpts = net ∧ s.su = net.length ∧ s.sv = m ∧
      s.du = du ∧ s.dv = dv ∧ (if ku = [] then generateKnots net.length du = .ok s.ku else s.ku = ku) ∧
      (if kv = [] then generateKnots m dv = .ok s.kv else s.kv = kv) := by
  have gen : ∀ (n d : Nat) (k : List K), (k = [] ∧ 1 ≤ d ∧ d ≤ 8 ∧ d < n ∨ ValidKnots n d k) →
      ∃ k', (if k.isEmpty then generateKnots n d else .ok k : Res (List K)) = .ok k' ∧ ValidKnots n d k' ∧
        (if k = [] then generateKnots n d = .ok k' else k' = k) := by
    intro n d k h
    rcases h with ⟨rfl, h1, h8, hd⟩ | V
    · obtain ⟨k, hk, g1, g2, g3, g4, g5⟩ := C23_generated_clamped (K := K) n d hd
      refine ⟨k, by simpa using hk, ⟨h1, h8, hd, g1, g2, ?_⟩, by simpa using hk⟩
      have hn : ((n - 1 : Nat) : K) + 1 = (n : K) := by
        have : n - 1 + 1 = n := by omega
        exact_mod_cast this
      rw [g5 _ (by omega) (by omega), g5 _ (by omega) le_rfl]
      linarith
    · have hne := V.ne_nil
      refine ⟨k, ?_, V, by rw [if_neg hne]⟩
      cases k with
      | nil => exact absurd rfl hne
      | cons a l => rfl
  match net, hne with
  | [] :: rest, _ => have := hr [] (by simp); simp at this; omega
  | (a :: r) :: rest, _ =>
    have hlen : (a :: r).length = m := hr _ (by simp)
    obtain ⟨ku', e1, V1, q1⟩ := gen _ _ _ hu
    obtain ⟨kv', e2, V2, q2⟩ := gen _ _ _ hv
    rw [← hlen] at e2 V2 q2
    refine ⟨(⟨((a :: r) :: rest), du, dv, ((a :: r) :: rest).length, (a :: r).length, ku', kv', ix ku' 0, ix ku' (ku'.length - 1), ix kv' 0,
        ix kv' (kv'.length - 1)⟩ : Surface K), ?_, ⟨rfl, fun x hx => (hr x hx).trans hlen.symm, V1, V2⟩, surf_updateInterval V1.ne_nil V2.ne_nil, rfl, rfl,
      hlen, rfl, rfl, q1, by rw [← hlen]; exact q2⟩
    have em : Surface.make ((a :: r) :: rest) du dv ku kv =
        (if ku.isEmpty then generateKnots ((a :: r) :: rest).length du else .ok ku : Res (List K)) >>= fun ku' =>
          (if kv.isEmpty then generateKnots (a :: r).length dv else .ok kv : Res (List K)) >>= fun kv' =>
            (⟨(a :: r) :: rest, du, dv, ((a :: r) :: rest).length, (a :: r).length, ku', kv', 0, 0, 0, 0⟩ : Surface K).updateInterval := by
      unfold Surface.make
      dsimp only
      split <;> split <;> rfl
    rw [em, e1, Res.ok_bind, e2, Res.ok_bind]
    exact surf_updateInterval V1.ne_nil V2.ne_nil

example : ∃ s, Surface.make [[(⟨0, 0, 0, 1⟩ : Vec4 ℚ), ⟨0, 1, 1, 1⟩], [⟨1, 0, 2, 1⟩, ⟨1, 1, 0, 1⟩]] 1 1 [] [0, 0, 2, 2] = .ok s ∧
    s.ku = [0, 0, 1, 1] ∧ s.v1 = 2 :=
  ⟨⟨[[⟨0, 0, 0, 1⟩, ⟨0, 1, 1, 1⟩], [⟨1, 0, 2, 1⟩, ⟨1, 1, 0, 1⟩]], 1, 1, 2, 2, [0, 0, 1, 1], [0, 0, 2, 2], 0, 1, 0, 2⟩, by decide +kernel, rfl, rfl⟩

end Cmm.Nurbs
