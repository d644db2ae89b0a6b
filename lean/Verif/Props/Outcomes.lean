import Verif.Props.Curve
import Verif.Props.Surface
/-!
C85: which calls on curves and surfaces throw an exception, and which read outside their arrays.
-/
namespace Cmm.Nurbs
variable {K : Type} [Field K] [LinearOrder K]

theorem bind_ne_throws {A B : Type} {x : Res A} {f : A → Res B} (hx : x ≠ .throws) (hf : ∀ a, x = .ok a → f a ≠ .throws) :
    (x >>= f) ≠ .throws := by
  cases x with
  | ok a => exact hf a rfl
  | throws => exact absurd rfl hx
  | ub => simp

theorem ite_ne_throws {A : Type} {p : Prop} [Decidable p] {x y : Res A} (hx : p → x ≠ .throws) (hy : ¬ p → y ≠ .throws) :
    (if p then x else y) ≠ .throws := by
  split
  · exact hx ‹_›
  · exact hy ‹_›

theorem mapRes_ne_throws {A B : Type} {f : A → Res B} : ∀ {l : List A}, (∀ a ∈ l, f a ≠ .throws) → mapRes f l ≠ .throws
  | [], _ => by simp [mapRes]
  | a :: l, h => by
    rw [mapRes]
    refine bind_ne_throws (h a (by simp)) fun b _ => bind_ne_throws (mapRes_ne_throws fun x hx => h x (by simp [hx])) fun bs _ => by simp

theorem mapRes_ub_iff {A B : Type} {f : A → Res B} : ∀ {l : List A}, (∀ a ∈ l, f a ≠ .throws) → (mapRes f l = .ub ↔ ∃ a ∈ l, f a = .ub)
  | [], _ => by simp [mapRes]
  | a :: l, h => by
    have ih := mapRes_ub_iff (l := l) (f := f) fun x hx => h x (by simp [hx])
    have hl := mapRes_ne_throws (l := l) (f := f) fun x hx => h x (by simp [hx])
    rw [mapRes]
    cases e : f a with
    | throws => exact absurd e (h a (by simp))
    | ub => simp [e]
    | ok b =>
      rw [Res.ok_bind]
      cases e' : mapRes f l with
      | throws => exact absurd e' hl
      | ub => simp only [Res.ub_bind, true_iff]; obtain ⟨x, h1, h2⟩ := ih.1 e'; exact ⟨x, by simp [h1], h2⟩
      | ok bs =>
        simp only [Res.ok_bind]
        constructor
        · intro h; cases h
        · rintro ⟨x, h1, h2⟩
          rcases List.mem_cons.1 h1 with rfl | h1
          · rw [e] at h2; cases h2
          · have := ih.2 ⟨x, h1, h2⟩; rw [e'] at this; cases this

/-! ### Curves -/

omit [Field K] in
theorem minElement_ne_throws (l : List K) : minElement l ≠ .throws := by cases l <;> simp [minElement]
omit [Field K] in
theorem maxElement_ne_throws (l : List K) : maxElement l ≠ .throws := by cases l <;> simp [maxElement]

theorem curve_updateInterval_ne_throws (c : Curve K) : c.updateInterval ≠ .throws :=
  bind_ne_throws (minElement_ne_throws _) fun _ _ => bind_ne_throws (maxElement_ne_throws _) fun _ _ => by simp

omit [LinearOrder K] in
theorem generateKnots_ne_throws (n p : Nat) : (generateKnots n p : Res (List K)) ≠ .throws := by
  unfold generateKnots; split <;> simp

omit [LinearOrder K] in
theorem knotInsertion_ne_throws (d : Nat) (U : Nat → K) (P : List (Vec4 K)) (u : K) (n s k : Nat) (i : Nat → Vec4 K) :
    knotInsertion d U P u n s k i ≠ .throws := by
  unfold knotInsertion; split <;> simp

/-- **C85**: evaluating a curve never throws; it is undefined if the degree is above 8, if there are not more control points
than the degree, fewer knots than control points, or not more than twice as many knots as the degree. -/
theorem C85_curve_evaluate (c : Curve K) (t : K) : c.evaluate t ≠ .throws ∧
    (8 < c.degree ∨ c.cpts.length ≤ c.degree ∨ c.knots.length < c.cpts.length ∨ c.knots.length ≤ 2 * c.degree → c.evaluate t = .ub) := by
  have := findSpan_ge (c.cpts.length - 1) c.degree t (ix c.knots)
  unfold Curve.evaluate
  dsimp only
  constructor
  · split <;> simp
  · intro h
    rw [if_pos]
    unfold maxDegree
    omega

/-- **C85**: reading the value at the end of a curve of sufficient degree needs one knot per control point and `degree` more. -/
theorem C85_curve_evaluate_end (c : Curve K) (t : K) (ht : ∀ i, ix c.knots i ≤ t) (hl : c.degree < c.cpts.length)
    (hk : c.knots.length < c.cpts.length + c.degree) : c.evaluate t = .ub := by
  have h1 := findSpan_ge (c.cpts.length - 1) c.degree t (ix c.knots)
  have h2 : findSpan (c.cpts.length - 1) c.degree t (ix c.knots) = c.cpts.length - 1 := by
    have hle := findSpan_le (n := c.cpts.length - 1) (p := c.degree) (by omega) t (ix c.knots)
    rcases Nat.lt_or_ge (findSpan (c.cpts.length - 1) c.degree t (ix c.knots)) (c.cpts.length - 1) with h | h
    · exact absurd (ht _) (not_le.2 (findSpan_lt t (ix c.knots) h))
    · omega
  unfold Curve.evaluate
  dsimp only
  rw [if_pos]
  rw [h2]
  omega

theorem findSpan_lt_of_lt {n p i : Nat} {u : K} {U : Nat → K} (hp : p < i) (h : u < U i) : findSpan n p u U < i := by
  have hs := scanSpan_spec U u (n + 1) (p + 1)
  by_contra hc
  have := hs.2.2.2.1 i (by omega) (by unfold findSpan at hc; omega)
  exact absurd this (not_le.2 h)

/-- **C85**: one knot per control point is enough to evaluate a curve before a knot that has `degree` knots from itself on. -/
theorem C85_curve_evaluate_defined (c : Curve K) (t : K) (hd : c.degree ≤ 8) (hl : c.degree < c.cpts.length) (hk : c.cpts.length ≤ c.knots.length)
    (i : Nat) (h1 : c.degree < i) (h2 : i + c.degree ≤ c.knots.length) (ht : t < ix c.knots i) : c.evaluate t ≠ .ub := by
  have a := findSpan_lt_of_lt (n := c.cpts.length - 1) (p := c.degree) h1 ht
  have b := findSpan_le (n := c.cpts.length - 1) (p := c.degree) (by omega) t (ix c.knots)
  unfold Curve.evaluate
  dsimp only
  rw [if_neg]
  · simp
  · unfold maxDegree; omega

/-- Three knots for three control points of degree one are enough to evaluate between the first two. -/
example : (⟨[⟨0, 0, 0, 1⟩, ⟨1, 0, 0, 1⟩, ⟨2, 0, 0, 1⟩], 1, [0, 0, 1], false, 0, 1⟩ : Curve ℚ).evaluate (1 / 2) ≠ .ub :=
  C85_curve_evaluate_defined _ _ (by norm_num) (by norm_num) (by norm_num) 2 (by norm_num) (by norm_num) (by norm_num [ix])

/-- **C85**: inserting a knot never throws; it is undefined for a degree above 8, too few control points or knots (the occurrences
of the knot count) and if the knot would occur more often than the degree. -/
theorem C85_curve_insert (c : Curve K) (t : K) (count : Nat) : c.insertKnot t count ≠ .throws ∧
    (8 < c.degree ∨ c.cpts.length + findMultiplicity t c.knots ≤ c.degree ∨ c.knots.length < c.cpts.length ∨
      (0 < count ∧ c.knots.length + findMultiplicity t c.knots ≤ 2 * c.degree) ∨ c.degree < count + findMultiplicity t c.knots → c.insertKnot t count = .ub) := by
  have := findSpan_ge (c.cpts.length - 1) c.degree t (ix c.knots)
  unfold Curve.insertKnot
  dsimp only
  constructor
  · refine ite_ne_throws (fun _ => by simp) fun _ => bind_ne_throws (knotInsertion_ne_throws _ _ _ _ _ _ _ _) fun _ _ => curve_updateInterval_ne_throws _
  · intro h
    split
    · rfl
    · rename_i hn
      rw [knotInsertion, if_pos]
      · rfl
      · unfold maxDegree; omega

/-- **C85**: splitting throws exactly if the parameter is not inside the interval by more than the tolerance. -/
theorem C85_curve_split_throws_iff (c : Curve K) (t : K) (n : Bool) : c.split t n = .throws ↔
    t ≤ c.lo ∨ c.hi ≤ t ∨ |t - c.lo| ≤ 1 / 10 ^ 12 ∨ |t - c.hi| ≤ 1 / 10 ^ 12 := by
  unfold Curve.split
  rw [splitTol_eq, absA_eq, absA_eq]
  constructor
  · intro h
    by_contra hc
    rw [if_neg hc] at h
    revert h
    have hof : ∀ P d k b, (Curve.ofKnots P d k b : Res (Curve K)) ≠ .throws := fun P d k b =>
      bind_ne_throws (curve_updateInterval_ne_throws _) fun _ _ => ite_ne_throws (fun _ => by simp) fun _ => by simp
    have hno : ∀ c : Curve K, c.normalizeKnots ≠ .throws := fun c =>
      bind_ne_throws (bind_ne_throws (minElement_ne_throws _) fun _ _ => bind_ne_throws (maxElement_ne_throws _) fun _ _ => by simp)
        fun _ _ => curve_updateInterval_ne_throws _
    refine ite_ne_throws (fun _ => by simp) fun _ => bind_ne_throws (hof _ _ _ _) fun _ _ => bind_ne_throws (C85_curve_insert _ _ _).1 fun _ _ =>
      bind_ne_throws (hof _ _ _ _) fun _ _ => bind_ne_throws (hof _ _ _ _) fun _ _ => ite_ne_throws (fun _ => ?_) fun _ => by simp
    exact bind_ne_throws (hno _) fun _ _ => bind_ne_throws (hno _) fun _ _ => by simp
  · intro h; rw [if_pos h]

/-- **C85**: splitting at a knot that occurs more often than the degree, or a curve without control points, is undefined. -/
theorem C85_curve_split_undefined (c : Curve K) (t : K) (n : Bool)
    (h : ¬ (t ≤ c.lo ∨ c.hi ≤ t ∨ |t - c.lo| ≤ 1 / 10 ^ 12 ∨ |t - c.hi| ≤ 1 / 10 ^ 12)) :
    (c.degree < findMultiplicity t c.knots ∨ c.cpts = [] ∨ c.knots = [] → c.split t n = .ub) := by
  intro h2
  unfold Curve.split
  rw [splitTol_eq, absA_eq, absA_eq]
  rw [if_neg h]
  dsimp only
  split
  · rfl
  · rename_i hm
    rcases h2 with h2 | h2 | h2
    · exact absurd h2 hm
    · have e : (Curve.ofKnots c.cpts c.degree c.knots c.periodic : Res (Curve K)) = .ub := by
        unfold Curve.ofKnots
        cases e : (⟨c.cpts, c.degree, c.knots, c.periodic, 0, 1⟩ : Curve K).updateInterval with
        | throws => exact absurd e (curve_updateInterval_ne_throws _)
        | ub => rfl
        | ok d => rw [Res.ok_bind, h2]; rfl
      rw [e]; rfl
    · rw [h2]; rfl

/-- **C85**: the constructors of a curve never throw; they are undefined without control points, and with fewer control points
than the degree (unless knots are given or the curve is periodic). -/
theorem C85_curve_constructors (P : List (Vec4 K)) (d : Nat) (k : List K) (b : Bool) :
    (Curve.make P d b : Res (Curve K)) ≠ .throws ∧ (Curve.ofKnots P d k b : Res (Curve K)) ≠ .throws ∧
    ((Curve.ofKnots P d k b : Res (Curve K)) = .ub ↔ P = [] ∨ k = []) ∧
    ((Curve.make P d false : Res (Curve K)) = .ub ↔ P = [] ∨ P.length < d) := by
  have hgp : ∀ c : Curve K, c.generateKnotsPeriodic ≠ .throws := fun c => curve_updateInterval_ne_throws _
  have hg : ∀ c : Curve K, c.generateKnots ≠ .throws := fun c =>
    bind_ne_throws (generateKnots_ne_throws _ _) fun _ _ => curve_updateInterval_ne_throws _
  have hp : ∀ (P : List (Vec4 K)) (d f j : Nat), isPeriodicFrom P d f j ≠ .throws := by
    intro P d f
    induction f with
    | zero => intro j; simp [isPeriodicFrom]
    | succ f ih =>
      intro j
      rw [isPeriodicFrom]
      exact ite_ne_throws (fun _ => by simp) fun _ => ite_ne_throws (fun _ => by simp) fun _ => ih _
  have hm : ∀ c : Curve K, c.makePeriodic ≠ .throws := fun c =>
    bind_ne_throws (hp _ _ _ _) fun _ _ => ite_ne_throws (fun _ => by simp) fun _ => bind_ne_throws (hgp _) fun _ _ => by simp
  have hu : ∀ c : Curve K, c.updateInterval = .ub ↔ c.knots = [] := by
    intro c
    cases e : c.knots with
    | nil => simp [Curve.updateInterval, e, minElement]
    | cons a l => simp [Curve.updateInterval, e, minElement, maxElement]
  refine ⟨?_, ?_, ?_, ?_⟩
  · have he : ∀ c : Curve K, (if P.isEmpty = true then Res.ub else Res.ok c : Res (Curve K)) ≠ .throws := fun c =>
      ite_ne_throws (fun _ => by simp) fun _ => by simp
    unfold Curve.make
    cases b
    · exact bind_ne_throws (hg _) fun _ _ => he _
    · exact bind_ne_throws (hgp _) fun _ _ => bind_ne_throws (hm _) fun _ _ => he _
  · exact bind_ne_throws (curve_updateInterval_ne_throws _) fun _ _ => ite_ne_throws (fun _ => by simp) fun _ => by simp
  · unfold Curve.ofKnots
    have := hu ⟨P, d, k, b, 0, 1⟩
    cases e : (⟨P, d, k, b, 0, 1⟩ : Curve K).updateInterval with
    | throws => exact absurd e (curve_updateInterval_ne_throws _)
    | ub => rw [e] at this; simp only [true_iff] at this; simp [this]
    | ok c => rw [e] at this; cases P <;> simp at this ⊢; exact this
  · unfold Curve.make Curve.generateKnots generateKnots
    simp only [Bool.false_eq_true, ↓reduceIte]
    split
    · rename_i h; simp [h]
    · rename_i h
      rw [Res.ok_bind]
      have := hu ⟨P, d, List.replicate (d + 1) 0 ++ (List.range (P.length - d)).map (fun i : Nat => (i : K) + 1) ++
        List.replicate d ((P.length - d : Nat) : K), false, 0, 1⟩
      cases e : (⟨P, d, List.replicate (d + 1) 0 ++ (List.range (P.length - d)).map (fun i : Nat => (i : K) + 1) ++
        List.replicate d ((P.length - d : Nat) : K), false, 0, 1⟩ : Curve K).updateInterval with
      | throws => exact absurd e (curve_updateInterval_ne_throws _)
      | ub => rw [e] at this; simp at this
      | ok c =>
        simp only [Res.ok_bind]
        cases P <;> simp at h ⊢
        omega

/-- **C85**: the box of a curve is undefined exactly without control points and never throws; the periodicity test is undefined
exactly if there are fewer control points than the degree. -/
theorem C85_curve_queries (c : Curve K) : (c.bbox = .ub ↔ c.cpts = []) ∧ c.bbox ≠ .throws ∧
    (c.isPeriodic = .ub ↔ c.cpts.length < c.degree) ∧ c.isPeriodic ≠ .throws := by
  refine ⟨?_, ?_, ?_⟩
  · unfold Curve.bbox; cases c.cpts <;> simp
  · unfold Curve.bbox; cases c.cpts <;> simp
  · have : ∀ f j, (isPeriodicFrom c.cpts c.degree f j = .ub ↔ 0 < f ∧ c.cpts.length < c.degree) ∧ isPeriodicFrom c.cpts c.degree f j ≠ .throws := by
      intro f
      induction f with
      | zero => intro j; simp [isPeriodicFrom]
      | succ f ih =>
        intro j
        rw [isPeriodicFrom]
        split
        · rename_i h; simp [h]
        · rename_i h
          split
          · simp [h]
          · have := ih (j + 1)
            simp only [h, and_false, iff_false] at this ⊢
            exact this
    have := this c.degree 0
    unfold Curve.isPeriodic
    refine ⟨this.1.trans ⟨fun h => h.2, fun h => ⟨by omega, h⟩⟩, this.2⟩

/-! ### Surfaces -/

omit [LinearOrder K] in
theorem frontBack_ne_throws (l : List K) : frontBack l ≠ .throws := by cases l <;> simp [frontBack]

theorem surf_updateInterval_ne_throws (s : Surface K) : s.updateInterval ≠ .throws :=
  bind_ne_throws (frontBack_ne_throws _) fun _ _ => bind_ne_throws (frontBack_ne_throws _) fun _ _ => by simp

/-- **C85**: the constructor of a surface throws exactly if there are no control points or the first row is empty; it is undefined
exactly if knots have to be generated for fewer control points than the degree. -/
theorem C85_surface_constructor (P : List (List (Vec4 K))) (du dv : Nat) (ku kv : List K) :
    ((Surface.make P du dv ku kv : Res (Surface K)) = .throws ↔ P = [] ∨ P.head? = some []) ∧
    ((Surface.make P du dv ku kv : Res (Surface K)) = .ub ↔ P ≠ [] ∧ P.headD [] ≠ [] ∧
      ((ku = [] ∧ P.length < du) ∨ (kv = [] ∧ (P.headD []).length < dv))) := by
  rcases P with _ | ⟨_ | ⟨a, r⟩, rest⟩
  · simp [Surface.make]
  · simp [Surface.make]
  · have gen : ∀ (l : List K) (n d : Nat), (if l.isEmpty then generateKnots n d else .ok l : Res (List K)) = .ub ∧ l = [] ∧ n < d ∨
        ¬ (l = [] ∧ n < d) ∧ ∃ k, k ≠ [] ∧ (if l.isEmpty then generateKnots n d else .ok l : Res (List K)) = .ok k := by
      intro l n d
      cases l with
      | nil =>
        unfold generateKnots
        by_cases h : n < d
        · left; simp [h]
        · right; refine ⟨by simp [h], ⟨_, ?_, by simp [h]; rfl⟩⟩; simp
      | cons a l => right; exact ⟨by simp, a :: l, by simp, by simp⟩
    have fb : ∀ l : List K, l ≠ [] → ∃ x, frontBack l = .ok x := by
      intro l h; cases l with
      | nil => exact absurd rfl h
      | cons a l => exact ⟨_, rfl⟩
    have hmk : (Surface.make ((a :: r) :: rest) du dv ku kv : Res (Surface K)) =
        (if ku.isEmpty then generateKnots ((a :: r) :: rest).length du else .ok ku : Res (List K)) >>= fun ku' =>
          (if kv.isEmpty then generateKnots (a :: r).length dv else .ok kv : Res (List K)) >>= fun kv' =>
            (⟨(a :: r) :: rest, du, dv, ((a :: r) :: rest).length, (a :: r).length, ku', kv', 0, 0, 0, 0⟩ : Surface K).updateInterval := by
      unfold Surface.make
      dsimp only
      split <;> split <;> rfl
    rw [hmk]
    rcases gen ku ((a :: r) :: rest).length du with ⟨e1, h1⟩ | ⟨h1, k1, n1, e1⟩
    · rw [e1]; simp only [Res.ub_bind]; simp [h1.1]; left; simpa using h1.2
    · rw [e1, Res.ok_bind]
      rcases gen kv (a :: r).length dv with ⟨e2, h2⟩ | ⟨h2, k2, n2, e2⟩
      · rw [e2]; simp only [Res.ub_bind]; simp [h2.1]; right; simpa using h2.2
      · rw [e2, Res.ok_bind]
        obtain ⟨x, hx⟩ := fb k1 n1
        obtain ⟨y, hy⟩ := fb k2 n2
        simp only [Surface.updateInterval, hx, hy, Res.ok_bind]
        refine ⟨by simp, ⟨fun h => (by cases h), ?_⟩⟩
        rintro ⟨-, -, h | h⟩
        · exact absurd h h1
        · exact absurd h h2

/-- **C85**: evaluating a surface never throws; it is undefined for a degree above 8, too few control points or too few knots in
either direction, and where the weight of the result is zero. -/
theorem C85_surface_evaluate (s : Surface K) (u v : K) : s.evaluate u v ≠ .throws ∧
    (8 < s.du ∨ 8 < s.dv ∨ s.cpts.length ≤ s.du ∨ s.ku.length < s.su ∨ s.kv.length < s.sv ∨ s.ku.length ≤ 2 * s.du ∨
      s.kv.length ≤ 2 * s.dv → s.evaluate u v = .ub) := by
  have h1 := findSpan_ge (s.su - 1) s.du u (ix s.ku)
  have h2 := findSpan_ge (s.sv - 1) s.dv v (ix s.kv)
  unfold Surface.evaluate
  dsimp only
  constructor
  · refine ite_ne_throws (fun _ => by simp) fun _ => ?_
    unfold dehomog; split <;> simp
  · intro h
    rw [if_pos]
    unfold maxDegree
    omega

/-- **C85**: one knot per row and column of the net is enough to evaluate a surface before a knot that has as many knots from itself on as the degree: the value
is then undefined only if its weight is zero. -/
theorem C85_surface_evaluate_defined (s : Surface K) (u v : K) (d1 : s.du ≤ 8) (d2 : s.dv ≤ 8) (l1 : s.du < s.su) (l2 : s.dv < s.sv) (hc : s.su ≤ s.cpts.length)
    (hr : ∀ r ∈ s.cpts, s.sv ≤ r.length) (k1 : s.su ≤ s.ku.length) (k2 : s.sv ≤ s.kv.length) (i j : Nat) (i1 : s.du < i) (i2 : i + s.du ≤ s.ku.length)
    (hu : u < ix s.ku i) (j1 : s.dv < j) (j2 : j + s.dv ≤ s.kv.length) (hv : v < ix s.kv j) :
    s.evaluate u v = .ub ↔
      (surfaceSum s.du s.dv (ix s.ku) (ix s.kv) (cell s.cpts) (findSpan (s.su - 1) s.du u (ix s.ku)) (findSpan (s.sv - 1) s.dv v (ix s.kv)) u v).w = 0 := by
  have a := findSpan_lt_of_lt (n := s.su - 1) (p := s.du) i1 hu
  have b := findSpan_le (n := s.su - 1) (p := s.du) (by omega) u (ix s.ku)
  have a' := findSpan_lt_of_lt (n := s.sv - 1) (p := s.dv) j1 hv
  have b' := findSpan_le (n := s.sv - 1) (p := s.dv) (by omega) v (ix s.kv)
  unfold Surface.evaluate
  dsimp only
  rw [if_neg]
  · unfold dehomog
    split <;> simp_all
  · unfold maxDegree
    have h : ¬ (((s.cpts.drop (findSpan (s.su - 1) s.du u (ix s.ku) - s.du)).take (s.du + 1)).any
        (fun r => decide (r.length ≤ findSpan (s.sv - 1) s.dv v (ix s.kv)))) = true := by
      rw [List.any_eq_true]
      rintro ⟨r, hm, h⟩
      have := hr r (List.mem_of_mem_drop (List.mem_of_mem_take hm))
      rw [decide_eq_true_iff] at h
      omega
    rintro (h' | h' | h' | h' | h' | h' | h' | h')
    on_goal 4 => exact h h'
    all_goals omega

/-- Three knots in each direction for a net of three by three control points. -/
example : (1 : Nat) < 3 ∧ (1 / 2 : ℚ) < ix [0, 0, 1] 2 ∧ 2 + 1 ≤ ([0, 0, 1] : List ℚ).length := by norm_num [ix]

/-- **C85**: a row of the net shorter than the degree in `v` needs is undefined wherever the row is used. -/
theorem C85_surface_evaluate_row (s : Surface K) (u v : K) (i : Nat) (r : List (Vec4 K)) (hr : s.cpts[i]? = some r)
    (h1 : findSpan (s.su - 1) s.du u (ix s.ku) - s.du ≤ i) (h2 : i ≤ findSpan (s.su - 1) s.du u (ix s.ku))
    (hl : r.length ≤ s.dv) : s.evaluate u v = .ub := by
  have h3 := findSpan_ge (s.sv - 1) s.dv v (ix s.kv)
  have h4 := findSpan_ge (s.su - 1) s.du u (ix s.ku)
  unfold Surface.evaluate
  dsimp only
  rw [if_pos]
  right; right; right; left
  rw [List.any_eq_true]
  refine ⟨r, ?_, by simp; omega⟩
  generalize findSpan (s.su - 1) s.du u (ix s.ku) = us at *
  rw [List.mem_iff_getElem?]
  refine ⟨i - (us - s.du), ?_⟩
  rw [List.getElem?_take, if_pos (by omega), List.getElem?_drop]
  rw [← hr]; congr 1; omega

/-- What `covered` means: every pair of indices below the size is a control point. -/
theorem covered_iff (s : Surface K) (hv : 0 < s.sv) :
    s.covered = false ↔ ∃ i j, i < s.su ∧ j < s.sv ∧ ∀ r, s.cpts[i]? = some r → r.length ≤ j := by
  unfold Surface.covered
  constructor
  · intro h
    rw [Bool.and_eq_false_iff] at h
    rcases h with h | h
    · have h := of_decide_eq_false h
      exact ⟨s.cpts.length, 0, by omega, hv, fun r hr => by simp at hr⟩
    · rw [List.all_eq_false] at h
      obtain ⟨r, hr, hl⟩ := h
      obtain ⟨i, hi⟩ := List.mem_iff_getElem?.1 hr
      rw [List.getElem?_take] at hi
      split at hi
      · exact ⟨i, s.sv - 1, by assumption, by omega, fun r' hr' => by rw [hi] at hr'; cases hr'; simp at hl; omega⟩
      · cases hi
  · rintro ⟨i, j, hi, hj, h⟩
    rw [Bool.and_eq_false_iff]
    by_cases hl : s.su ≤ s.cpts.length
    · right
      rw [List.all_eq_false]
      have hi' : i < s.cpts.length := by omega
      refine ⟨s.cpts[i], ?_, ?_⟩
      · rw [List.mem_iff_getElem?]; exact ⟨i, by rw [List.getElem?_take, if_pos hi, List.getElem?_eq_getElem hi']⟩
      · have := h _ (List.getElem?_eq_getElem hi')
        simp; omega
    · left; exact decide_eq_false hl

/-- **C85**: `control_points_flat`, `bbox` and `get_derivative` of a surface are undefined if the net is smaller than the size of
the surface says; the first two never throw. -/
theorem C85_surface_net (s : Surface K) (hv : 0 < s.sv) :
    (s.flat = .ub ↔ ∃ i j, i < s.su ∧ j < s.sv ∧ ∀ r, s.cpts[i]? = some r → r.length ≤ j) ∧ s.flat ≠ .throws ∧
    (s.bbox = .ub ↔ s.su = 0 ∨ ∃ i j, i < s.su ∧ j < s.sv ∧ ∀ r, s.cpts[i]? = some r → r.length ≤ j) ∧ s.bbox ≠ .throws ∧
    ((∃ i j, i < s.su ∧ j < s.sv ∧ ∀ r, s.cpts[i]? = some r → r.length ≤ j) → s.derivativeNet 0 = .ub ∧ s.derivativeNet 1 = .ub) := by
  rw [← covered_iff s hv]
  refine ⟨?_, ?_, ?_, ?_, ?_⟩
  · unfold Surface.flat; split <;> simp [*]
  · unfold Surface.flat; split <;> simp
  · unfold Surface.bbox
    have hv' : s.sv ≠ 0 := by omega
    split
    · rename_i h; simp only [true_iff]; rcases h with h | h | h
      · exact .inr h
      · exact .inl h
      · exact absurd h hv'
    · rename_i h; simp only [reduceCtorEq, false_iff]; tauto
  · unfold Surface.bbox; split <;> simp
  · intro h
    unfold Surface.derivativeNet
    simp [h]

/-- **C85**: `get_derivative` of a surface throws exactly for a direction other than 0 and 1; it is undefined for an empty
surface, for degree 0 and for missing knots. -/
theorem C85_surface_derivative (s : Surface K) (d : Int) : (s.derivativeNet d = .throws ↔ d ≠ 0 ∧ d ≠ 1) ∧
    (s.su = 0 ∨ s.sv = 0 → s.derivativeNet 0 = .ub ∧ s.derivativeNet 1 = .ub) ∧
    (s.du = 0 ∨ s.ku.length < s.su + s.du ∨ s.ku.length < 2 → s.derivativeNet 0 = .ub) ∧
    (s.dv = 0 ∨ s.kv.length < s.sv + s.dv ∨ s.kv.length < 2 → s.derivativeNet 1 = .ub) := by
  refine ⟨?_, ?_, ?_, ?_⟩
  · constructor
    · intro h
      by_contra hc
      revert h
      unfold Surface.derivativeNet
      rw [if_neg hc]
      refine ite_ne_throws (fun _ => by simp) fun _ => ite_ne_throws (fun _ => ite_ne_throws (fun _ => by simp) fun _ => by simp) fun _ =>
        ite_ne_throws (fun _ => by simp) fun _ => by simp
    · intro h; unfold Surface.derivativeNet; rw [if_pos h]
  · intro h
    unfold Surface.derivativeNet
    rcases h with h | h <;> simp [h]
  · intro h
    unfold Surface.derivativeNet
    rw [if_neg (by simp)]
    split
    · rfl
    · rw [if_pos rfl, if_pos]
      rcases h with h | h | h
      · exact .inr (.inr (.inl h))
      · exact .inl h
      · exact .inr (.inl h)
  · intro h
    unfold Surface.derivativeNet
    rw [if_neg (by simp)]
    split
    · rfl
    · rw [if_neg (by simp), if_pos]
      rcases h with h | h | h
      · exact .inr (.inr (.inl h))
      · exact .inl h
      · exact .inr (.inl h)

omit [LinearOrder K] in
/-- **C85**: transposing a net is undefined exactly if it is empty or a row is shorter than the first, and never throws. -/
theorem C85_transpose (c : List (List (Vec4 K))) : flipControlPoints c ≠ .throws ∧
    (flipControlPoints c = .ub ↔ c = [] ∨ ∃ r ∈ c, r.length < (c.headD []).length) := by
  cases c with
  | nil => simp [flipControlPoints]
  | cons r0 rest =>
    have h1 : ∀ i, ∀ row ∈ r0 :: rest, (if i < row.length then .ok (ix row i) else .ub : Res (Vec4 K)) ≠ .throws := by
      intro i row _; split <;> simp
    have h2 : ∀ i ∈ List.range r0.length, mapRes (fun row : List (Vec4 K) => if i < row.length then .ok (ix row i) else .ub) (r0 :: rest) ≠ .throws :=
      fun i _ => mapRes_ne_throws (h1 i)
    refine ⟨mapRes_ne_throws h2, (mapRes_ub_iff h2).trans ?_⟩
    constructor
    · rintro ⟨i, hi, e⟩
      obtain ⟨row, hr, e⟩ := (mapRes_ub_iff (h1 i)).1 e
      right
      refine ⟨row, hr, ?_⟩
      split at e
      · cases e
      · have := List.mem_range.1 hi; simp; omega
    · rintro (h | ⟨row, hr, hl⟩)
      · cases h
      · simp only [List.headD_cons] at hl
        refine ⟨row.length, List.mem_range.2 hl, (mapRes_ub_iff (h1 _)).2 ⟨row, hr, by simp⟩⟩

/-- **C85**: inserting a knot into a surface never throws; it is undefined with too few knots, without control points or if the net
is smaller than the size says. -/
theorem C85_surface_insert (s : Surface K) (t : K) (d : Int) (n : Nat) : s.insertKnot t d n ≠ .throws ∧
    (s.cpts = [] ∨ s.sv = 0 → s.insertKnot t 0 n = .ub) ∧ (s.cpts = [] → s.insertKnot t 1 n = .ub) ∧
    (s.ku.length < s.cpts.length ∨ (0 < n ∧ s.ku.length + findMultiplicity t s.ku ≤ 2 * s.du) ∨ s.covered = false →
      s.insertKnot t 0 n = .ub) ∧
    (s.kv.length < s.sv ∨ (0 < n ∧ s.kv.length + findMultiplicity t s.kv ≤ 2 * s.dv) → s.insertKnot t 1 n = .ub) := by
  have hflat : s.flat ≠ .throws := by unfold Surface.flat; split <;> simp
  refine ⟨?_, ?_, ?_, ?_, ?_⟩
  · unfold Surface.insertKnot
    refine ite_ne_throws (fun _ => ?_) fun _ => ?_
    · unfold Surface.insertKnotU
      dsimp only
      refine ite_ne_throws (fun _ => by simp) fun _ => bind_ne_throws hflat fun _ _ => bind_ne_throws (mapRes_ne_throws fun _ _ => knotInsertion_ne_throws _ _ _ _ _ _ _ _) fun _ _ =>
        bind_ne_throws (C85_transpose _).1 fun _ _ => by simp
    · unfold Surface.insertKnotV
      cases s.cpts with
      | nil => simp
      | cons r0 rest =>
        dsimp only
        exact ite_ne_throws (fun _ => by simp) fun _ => bind_ne_throws (mapRes_ne_throws fun _ _ => knotInsertion_ne_throws _ _ _ _ _ _ _ _) fun _ _ => surf_updateInterval_ne_throws _
  · intro h
    unfold Surface.insertKnot Surface.insertKnotU
    rw [if_pos rfl]
    dsimp only
    split
    · rfl
    · cases e : s.flat with
      | throws => exact absurd e hflat
      | ub => rfl
      | ok f =>
        rw [Res.ok_bind]
        rcases h with h | h
        · by_cases h0 : s.sv = 0
          · simp [h0, mapRes, flipControlPoints]
          · have hsu : s.su = 0 := by
              unfold Surface.flat Surface.covered at e
              rw [h] at e
              split at e
              · cases e
              · rename_i hc; simpa using hc
            have : mapRes (fun v => knotInsertion s.du (ix s.ku) ((List.range s.su).map fun u => ix f (u * s.sv + v)) t n (findMultiplicity t s.ku)
                (findSpan (s.cpts.length - 1) s.du t (ix s.ku)) (fun _ => 0)) (List.range s.sv) = .ub := by
              refine (mapRes_ub_iff fun _ _ => knotInsertion_ne_throws _ _ _ _ _ _ _ _).2 ⟨0, List.mem_range.2 (by omega), ?_⟩
              unfold knotInsertion
              rw [if_pos]
              have := findSpan_ge (s.cpts.length - 1) s.du t (ix s.ku)
              simp only [hsu, List.range_zero, List.map_nil, List.length_nil]
              omega
            rw [this]; rfl
        · simp [h, mapRes, flipControlPoints]
  · intro h
    unfold Surface.insertKnot Surface.insertKnotV
    rw [if_neg (by decide), h]
  · intro h
    unfold Surface.insertKnot Surface.insertKnotU
    rw [if_pos rfl]
    have := findSpan_ge (s.cpts.length - 1) s.du t (ix s.ku)
    dsimp only
    split
    · rfl
    · rename_i hn
      have hc : s.covered = false := by
        rcases h with h | h | h
        · omega
        · omega
        · exact h
      have : s.flat = .ub := by unfold Surface.flat; rw [if_pos hc]
      rw [this]; rfl
  · intro h
    have := findSpan_ge (s.sv - 1) s.dv t (ix s.kv)
    unfold Surface.insertKnot Surface.insertKnotV
    rw [if_neg (by decide)]
    cases s.cpts with
    | nil => rfl
    | cons r0 rest =>
      dsimp only
      rw [if_pos (by omega)]

/-- **C85**: splitting a surface where a knot occurs more often than the degree is undefined. -/
theorem C85_surface_split (s : Surface K) (t tol : K) :
    (¬ (t ≤ s.u0 ∨ s.u1 ≤ t ∨ |t - s.u0| ≤ tol ∨ |t - s.u1| ≤ tol) → s.du < findMultiplicity t s.ku → s.splitU t tol = .ub) ∧
    (¬ (t ≤ s.v0 ∨ s.v1 ≤ t ∨ |t - s.v0| ≤ tol ∨ |t - s.v1| ≤ tol) → s.dv < findMultiplicity t s.kv → s.splitV t tol = .ub) := by
  simp only [← absA_eq]
  unfold Surface.splitU Surface.splitV
  constructor
  · intro h1 h2; rw [if_neg h1]; dsimp only; rw [if_pos h2]
  · intro h1 h2; rw [if_neg h1]; dsimp only; rw [if_pos h2]

theorem ofSize_ne_throws (n d : Nat) : (Curve.ofSize n d : Res (Curve K)) ≠ .throws :=
  bind_ne_throws (bind_ne_throws (generateKnots_ne_throws _ _) fun _ _ => curve_updateInterval_ne_throws _) fun _ _ => curve_updateInterval_ne_throws _

/-- **C85**: extracting an isocurve throws exactly outside the interval, for the members and the free functions; inside it is undefined
for a degree above 8, for a net smaller than the size says, too few control points or too few knots. -/
theorem C85_isocurve (s : Surface K) (t : K) :
    (s.isocurveU t = .throws ↔ t < s.u0 ∨ s.u1 < t) ∧ (s.isocurveV t = .throws ↔ t < s.v0 ∨ s.v1 < t) ∧
    (freeIsocurveU s t = .throws ↔ t < s.u0 ∨ s.u1 < t) ∧ (freeIsocurveV s t = .throws ↔ t < s.v0 ∨ s.v1 < t) ∧
    (s.u0 ≤ t → t ≤ s.u1 → 8 < s.du ∨ s.covered = false ∨ s.su ≤ s.du ∨ s.ku.length < s.su ∨ s.ku.length ≤ 2 * s.du →
      s.isocurveU t = .ub ∧ freeIsocurveU s t = .ub) ∧
    (s.v0 ≤ t → t ≤ s.v1 → 8 < s.dv ∨ s.covered = false ∨ s.sv ≤ s.dv ∨ s.kv.length < s.sv ∨ s.kv.length ≤ 2 * s.dv →
      s.isocurveV t = .ub ∧ freeIsocurveV s t = .ub) := by
  have h1 := findSpan_ge (s.su - 1) s.du t (ix s.ku)
  have h2 := findSpan_ge (s.sv - 1) s.dv t (ix s.kv)
  unfold Surface.isocurveU Surface.isocurveV freeIsocurveU freeIsocurveV
  dsimp only
  refine ⟨?_, ?_, ?_, ?_, ?_, ?_⟩
  · refine ⟨fun h => ?_, fun h => if_pos h⟩
    by_contra hc
    rw [if_neg hc] at h
    revert h
    exact ite_ne_throws (fun _ => by simp) fun _ => bind_ne_throws (ofSize_ne_throws _ _) fun _ _ => curve_updateInterval_ne_throws _
  · refine ⟨fun h => ?_, fun h => if_pos h⟩
    by_contra hc
    rw [if_neg hc] at h
    revert h
    exact ite_ne_throws (fun _ => by simp) fun _ => bind_ne_throws (ofSize_ne_throws _ _) fun _ _ => curve_updateInterval_ne_throws _
  · refine ⟨fun h => ?_, fun h => if_pos h⟩
    by_contra hc
    rw [if_neg hc] at h
    revert h
    exact ite_ne_throws (fun _ => by simp) fun _ => bind_ne_throws (ofSize_ne_throws _ _) fun _ _ => ite_ne_throws (fun _ => by simp) fun _ =>
      curve_updateInterval_ne_throws _
  · refine ⟨fun h => ?_, fun h => if_pos h⟩
    by_contra hc
    rw [if_neg hc] at h
    revert h
    exact ite_ne_throws (fun _ => by simp) fun _ => bind_ne_throws (ofSize_ne_throws _ _) fun _ _ => by simp
  · intro a b h
    have hn : ¬ (t < s.u0 ∨ s.u1 < t) := by rintro (h | h); exacts [absurd a (not_le.2 h), absurd b (not_le.2 h)]
    rw [if_neg hn, if_neg hn]
    have : maxDegree < s.du ∨ s.covered = false ∨ s.su ≤ findSpan (s.su - 1) s.du t (ix s.ku) ∨
        s.ku.length ≤ findSpan (s.su - 1) s.du t (ix s.ku) + s.du ∨ s.ku.length < s.su := by
      unfold maxDegree
      rcases h with h | h | h | h | h
      · exact .inl h
      · exact .inr (.inl h)
      · exact .inr (.inr (.inl (by omega)))
      · exact .inr (.inr (.inr (.inr h)))
      · exact .inr (.inr (.inr (.inl (by omega))))
    rw [if_pos this, if_pos this]
    exact ⟨rfl, rfl⟩
  · intro a b h
    have hn : ¬ (t < s.v0 ∨ s.v1 < t) := by rintro (h | h); exacts [absurd a (not_le.2 h), absurd b (not_le.2 h)]
    rw [if_neg hn, if_neg hn]
    have : maxDegree < s.dv ∨ s.covered = false ∨ s.sv ≤ findSpan (s.sv - 1) s.dv t (ix s.kv) ∨
        s.kv.length ≤ findSpan (s.sv - 1) s.dv t (ix s.kv) + s.dv ∨ s.kv.length < s.sv := by
      unfold maxDegree
      rcases h with h | h | h | h | h
      · exact .inl h
      · exact .inr (.inl h)
      · exact .inr (.inr (.inl (by omega)))
      · exact .inr (.inr (.inr (.inr h)))
      · exact .inr (.inr (.inr (.inl (by omega))))
    rw [if_pos this, if_pos this]
    exact ⟨rfl, rfl⟩

/-- A surface whose net is smaller than its size. -/
example : (⟨[[⟨0, 0, 0, 1⟩, ⟨0, 1, 0, 1⟩], [⟨1, 0, 0, 1⟩]], 1, 1, 2, 2, [0, 0, 1, 1], [0, 0, 1, 1], 0, 1, 0, 1⟩ : Surface ℚ).flat = .ub := by
  decide +kernel
example : demoSurface.flat ≠ .ub ∧ demoSurface.isocurveU 2 = .throws ∧ demoSurface.insertKnot (1/2) 0 1 ≠ .ub := by decide +kernel

end Cmm.Nurbs
