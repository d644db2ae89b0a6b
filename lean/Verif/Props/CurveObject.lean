import Verif.Model.CurveObject
import Verif.Lemmas.InsertConvex
import Verif.Props.NestedBoxes
import Verif.Props.Periodic
/-!
C103: constructors, copies and moves of curves. C104: the cached box encloses the curve.
-/
namespace Cmm.Nurbs
variable {K : Type} [Field K] [LinearOrder K] [IsStrictOrderedRing K]

/-! ### C103 -/

/-- The members that the answers of a curve depend on agree: all but the flag. -/
structure SameCurve (a b : CurveObj K) : Prop where
  cpts : a.curve.cpts = b.curve.cpts
  degree : a.curve.degree = b.curve.degree
  knots : a.curve.knots = b.curve.knots
  lo : a.curve.lo = b.curve.lo
  hi : a.curve.hi = b.curve.hi
  box : a.box = b.box

/-- Both calls end in the same way, and on success with objects that agree. -/
def SameOutcome : Res (CurveObj K) → Res (CurveObj K) → Prop
  | .ok a, .ok b => SameCurve a b
  | .throws, .throws => True
  | .ub, .ub => True
  | _, _ => False

/-- **C103**: a copy, or a curve that was assigned another one, answers every sequence of later calls like the original. -/
theorem C103_copy (o other : CurveObj K) (ops : List (CurveOp K)) : (o.assign other).run ops = other.run ops := rfl

theorem sameCurve_iff {a b : CurveObj K} : SameCurve a b ↔ ∃ f, b = ⟨{ a.curve with periodic := f }, a.box⟩ := by
  obtain ⟨⟨c, d, k, f, lo, hi⟩, x⟩ := a
  obtain ⟨⟨c', d', k', f', lo', hi'⟩, x'⟩ := b
  constructor
  · rintro ⟨h1, h2, h3, h4, h5, h6⟩
    dsimp only at h1 h2 h3 h4 h5 h6
    subst h1 h2 h3 h4 h5 h6
    exact ⟨f', rfl⟩
  · rintro ⟨f, h⟩
    cases h
    exact ⟨rfl, rfl, rfl, rfl, rfl, rfl⟩

theorem updateInterval_flag (c : Curve K) (f : Bool) :
    ({ c with periodic := f } : Curve K).updateInterval = (c.updateInterval >>= fun c' => .ok { c' with periodic := f }) := by
  unfold Curve.updateInterval
  cases minElement c.knots <;> cases maxElement c.knots <;> rfl

theorem ofKnots_flag (pts : List (Vec4 K)) (d : Nat) (k : List K) (f g : Bool) :
    Curve.ofKnots pts d k f = (Curve.ofKnots pts d k g >>= fun c' => .ok { c' with periodic := f }) := by
  unfold Curve.ofKnots
  rw [show (⟨pts, d, k, f, 0, 1⟩ : Curve K) = { (⟨pts, d, k, g, 0, 1⟩ : Curve K) with periodic := f } from rfl, updateInterval_flag]
  cases (⟨pts, d, k, g, 0, 1⟩ : Curve K).updateInterval with
  | ok c => cases pts <;> rfl
  | throws => rfl
  | ub => rfl

theorem insertKnot_flag (c : Curve K) (t : K) (n : Nat) (f : Bool) :
    ({ c with periodic := f } : Curve K).insertKnot t n = (c.insertKnot t n >>= fun c' => .ok { c' with periodic := f }) := by
  simp only [Curve.insertKnot]
  split
  · rfl
  · cases knotInsertion c.degree (ix c.knots) c.cpts t n (findMultiplicity t c.knots)
        (findSpan (c.cpts.length - 1) c.degree t (ix c.knots)) fun i =>
          if i ≤ n then ix c.cpts (c.cpts.length - 1) - ⟨(i : K), (i : K), (i : K), (i : K)⟩ else ix c.cpts i with
    | ok cp => 
      exact updateInterval_flag (⟨cp, c.degree, knotInsertionKv c.knots t (findSpan (c.cpts.length - 1) c.degree t (ix c.knots)) n,
        c.periodic, c.lo, c.hi⟩ : Curve K) f
    | throws => rfl
    | ub => rfl

theorem split_flag (c : Curve K) (t : K) (n f : Bool) : ({ c with periodic := f } : Curve K).split t n = c.split t n := by
  simp only [Curve.split]
  rw [ofKnots_flag c.cpts c.degree c.knots f c.periodic]
  cases Curve.ofKnots c.cpts c.degree c.knots c.periodic with
  | ok d =>
    simp only [Res.ok_bind]
    rw [insertKnot_flag]
    cases d.insertKnot t (c.degree - findMultiplicity t c.knots) <;> rfl
  | throws => rfl
  | ub => rfl

theorem step_same {o : CurveObj K} (f : Bool) {op : CurveOp K} (h : ∀ pts, op ≠ .setControlPoints pts) :
    SameOutcome (o.step op) (CurveObj.step ⟨{ o.curve with periodic := f }, o.box⟩ op) := by
  have base : ∀ (c : Curve K) (x : AABB K), SameOutcome (c.updateInterval >>= fun c' => .ok ⟨c', x⟩)
      (({ c with periodic := f } : Curve K).updateInterval >>= fun c' => .ok ⟨c', x⟩) := by
    intro c x
    rw [updateInterval_flag c f]
    cases e : c.updateInterval with
    | ok c' => exact ⟨rfl, rfl, rfl, rfl, rfl, rfl⟩
    | throws => trivial
    | ub => trivial
  cases op with
  | setControlPoints pts => exact absurd rfl (h pts)
  | insertKnot t count =>
    simp only [CurveObj.step, Curve.insertKnot]
    split
    · trivial
    · cases knotInsertion o.curve.degree (ix o.curve.knots) o.curve.cpts t count (findMultiplicity t o.curve.knots)
        (findSpan (o.curve.cpts.length - 1) o.curve.degree t (ix o.curve.knots)) fun i =>
          if i ≤ count then ix o.curve.cpts (o.curve.cpts.length - 1) - ⟨(i : K), (i : K), (i : K), (i : K)⟩ else ix o.curve.cpts i with
      | ok cp => simp only [Res.ok_bind]; exact base _ _
      | throws => trivial
      | ub => trivial
  | setDegree d => exact base _ _
  | setKnots k => exact base _ _
  | normalizeKnots =>
    simp only [CurveObj.step, Curve.normalizeKnots]
    cases normalizeKnots o.curve.knots with
    | ok k => simp only [Res.ok_bind]; exact base _ _
    | throws => trivial
    | ub => trivial
  | makePeriodic =>
    simp only [CurveObj.step, Curve.makePeriodic, Curve.isPeriodic]
    cases isPeriodicFrom o.curve.cpts o.curve.degree o.curve.degree 0 with
    | ok b =>
      simp only [Res.ok_bind]
      cases b with
      | true => exact ⟨rfl, rfl, rfl, rfl, rfl, rfl⟩
      | false =>
        simp only [Bool.false_eq_true, if_false, Curve.generateKnotsPeriodic]
        have e := updateInterval_flag ({ o.curve with
          cpts := o.curve.cpts ++ o.curve.cpts.take o.curve.degree,
          knots := generateKnotsPeriodic (o.curve.cpts ++ o.curve.cpts.take o.curve.degree).length o.curve.degree } : Curve K) f
        dsimp only at e
        rw [e]
        cases ({ o.curve with
          cpts := o.curve.cpts ++ o.curve.cpts.take o.curve.degree,
          knots := generateKnotsPeriodic (o.curve.cpts ++ o.curve.cpts.take o.curve.degree).length o.curve.degree } : Curve K).updateInterval with
        | ok c => exact ⟨rfl, rfl, rfl, rfl, rfl, rfl⟩
        | throws => trivial
        | ub => trivial
    | throws => trivial
    | ub => trivial
  | bbox =>
    have e : ({ o.curve with periodic := f } : Curve K).bbox = o.curve.bbox := rfl
    simp only [CurveObj.step, CurveObj.rebuild, e]
    cases o.curve.bbox with
    | ok b => exact ⟨rfl, rfl, rfl, rfl, rfl, rfl⟩
    | throws => trivial
    | ub => trivial

theorem run_same (ops : List (CurveOp K)) (h : ∀ pts, CurveOp.setControlPoints pts ∉ ops) :
    ∀ a b : CurveObj K, SameCurve a b → SameOutcome (a.run ops) (b.run ops) := by
  induction ops with
  | nil => exact fun a b s => s
  | cons op rest ih =>
    intro a b s
    obtain ⟨f, rfl⟩ := sameCurve_iff.mp s
    have hs := step_same (o := a) f (op := op) (fun pts e => h pts (by rw [e]; exact List.mem_cons_self))
    simp only [CurveObj.run]
    revert hs
    cases a.step op <;> cases CurveObj.step ⟨{ a.curve with periodic := f }, a.box⟩ op <;> intro hs
    all_goals first | exact ih (fun pts hm => h pts (List.mem_cons_of_mem _ hm)) _ _ hs | exact hs.elim | trivial

/-- **C103** (part): a curve that was moved from another one answers every sequence of later calls like the original, as long as
`set_control_points` is not among them: the calls end in the same way, and leave curves that agree in everything but the flag. Missing:
the flag is not moved, which `set_control_points` looks at (`C103_moved_counterexample`). -/
theorem C103_moved_partial (big low : K) (o : CurveObj K) (ops : List (CurveOp K)) (h : ∀ pts, CurveOp.setControlPoints pts ∉ ops) :
    SameOutcome (o.run ops) ((CurveObj.moved big low o).run ops) :=
  run_same ops h _ _ ⟨rfl, rfl, rfl, rfl, rfl, rfl⟩

/-- **C103** (part): moving a curve whose flag is not set gives the same object, so all later calls agree. -/
theorem C103_moved_open_partial (big low : K) (o : CurveObj K) (h : o.curve.periodic = false) : CurveObj.moved big low o = o := by
  obtain ⟨⟨c, d, k, f, lo, hi⟩, x⟩ := o
  dsimp only at h
  subst h
  rfl

/-- Curves that agree in everything but the flag answer every query alike. -/
theorem C103_same_answers {a b : CurveObj K} (h : SameCurve a b) :
    a.box = b.box ∧ a.curve.bbox = b.curve.bbox ∧ a.curve.isPeriodic = b.curve.isPeriodic ∧
    (∀ t, a.curve.evaluate t = b.curve.evaluate t) ∧ (∀ t d, a.curve.derivs t d = b.curve.derivs t d) ∧
    (∀ t n, a.curve.split t n = b.curve.split t n) ∧ a.curve.getDerivative = b.curve.getDerivative := by
  obtain ⟨f, rfl⟩ := sameCurve_iff.mp h
  exact ⟨rfl, rfl, rfl, fun t => rfl, fun t d => rfl, fun t n => (split_flag _ t n f).symm, rfl⟩

/-- **C103** is false for moves: the closed curve of a triangle and the curve moved from it differ once they get a fourth control point. -/
theorem C103_moved_counterexample :
    ∃ (o a b : CurveObj ℚ) (pts : List (Vec4 ℚ)), CurveObj.make 1000 (-1000) triangle 2 true = .ok o ∧
      o.run [.setControlPoints pts] = .ok a ∧ (CurveObj.moved 1000 (-1000) o).run [.setControlPoints pts] = .ok b ∧
      a.curve.knots = [-2, -1, 0, 1, 2, 3, 4, 5, 6] ∧ b.curve.knots = [0, 0, 0, 1, 2, 3, 4, 4, 4] ∧
      a.curve.evaluate 0 ≠ b.curve.evaluate 0 :=
  ⟨⟨closedCurve, ⟨⟨0, 0, 0⟩, ⟨3, 6, 0⟩⟩⟩,
    ⟨⟨triangle ++ triangle, 2, [-2, -1, 0, 1, 2, 3, 4, 5, 6], true, -2, 6⟩, ⟨⟨0, 0, 0⟩, ⟨3, 6, 0⟩⟩⟩,
    ⟨⟨triangle ++ triangle, 2, [0, 0, 0, 1, 2, 3, 4, 4, 4], false, 0, 4⟩, ⟨⟨0, 0, 0⟩, ⟨3, 6, 0⟩⟩⟩,
    triangle ++ triangle, by decide +kernel, by decide +kernel, by decide +kernel, rfl, rfl, by decide +kernel⟩

/-- A call sequence that `C103_moved_partial` speaks of, on the closed curve of the triangle. -/
example : (match CurveObj.make (1000 : ℚ) (-1000) triangle 2 true >>= fun o => o.run [.insertKnot (1 / 2) 1, .normalizeKnots, .bbox] with
    | .ok o => decide (o.curve.cpts.length = 6 ∧ o.curve.lo = 0 ∧ o.curve.hi = 1)
    | _ => false) = true := by decide +kernel

/-- The least box that contains the points. -/
def LeastBox (b : AABB K) (pts : List (Vec3 K)) : Prop := ∀ d, BoxLe b d ↔ ∀ p ∈ pts, InBox p d

theorem rebuild_ok {o : CurveObj K} (h : o.curve.cpts ≠ []) :
    ∃ b, o.rebuild = .ok ⟨o.curve, b⟩ ∧ o.curve.bbox = .ok b ∧ LeastBox b o.curve.controlPoints3d := by
  obtain ⟨b, hb, hl⟩ := C92_curve_box_least o.curve h
  refine ⟨b, by rw [CurveObj.rebuild, hb]; rfl, hb, fun d => ?_⟩
  rw [hl d, Curve.controlPoints3d, List.forall_mem_map]

/-- The object that the constructor builds is the curve of `Curve.make` with its box. -/
theorem make_obj (big low : K) {pts : List (Vec4 K)} (hne : pts ≠ []) {d : Nat} {f : Bool} {c : Curve K} (h : Curve.make pts d f = .ok c) :
    CurveObj.make big low pts d f = CurveObj.rebuild ⟨c, AABB.init big low⟩ := by
  have he : pts.isEmpty = false := by
    cases pts with
    | nil => exact absurd rfl hne
    | cons a l => rfl
  revert h
  unfold Curve.make CurveObj.make
  simp only [he, Bool.false_eq_true, if_false]
  cases f with
  | true =>
    simp only [if_true]
    cases (⟨pts, d, [], true, 0, 1⟩ : Curve K).generateKnotsPeriodic with
    | ok c1 =>
      simp only [Res.ok_bind]
      cases c1.makePeriodic with
      | ok c2 => intro h; cases h; rfl
      | throws => intro h; cases h
      | ub => intro h; cases h
    | throws => intro h; cases h
    | ub => intro h; cases h
  | false =>
    simp only [Bool.false_eq_true, if_false]
    cases (⟨pts, d, [], false, 0, 1⟩ : Curve K).generateKnots with
    | ok c1 => intro h; cases h; rfl
    | throws => intro h; cases h
    | ub => intro h; cases h

/-- **C103**: the constructor from points without weights makes the open clamped curve of these points with all weights 1: the knots are
sorted and fit, the control points read back are the given ones, and the cached box is their least box. -/
theorem C103_points_without_weights (big low : K) (pts : List (Vec3 K)) (d : Nat) (h1 : 1 ≤ d) (h8 : d ≤ 8) (h : d < pts.length) :
    ∃ o, CurveObj.of3d big low pts d false = .ok o ∧ ValidCurve o.curve ∧ Clamped o.curve ∧ o.curve.degree = d ∧
      o.curve.controlPoints3d = pts ∧ (∀ q ∈ o.curve.cpts, q.w = 1) ∧ LeastBox o.box pts := by
  have hl : (pts.map Vec3.withWeight).length = pts.length := List.length_map ..
  obtain ⟨k, hk, hm⟩ := C23_constructor (pts.map Vec3.withWeight) d (by rw [hl]; exact h)
  obtain ⟨k', hk', g1, g2, g3, g4, g5⟩ := C23_generated_clamped (K := K) (pts.map Vec3.withWeight).length d (by rw [hl]; exact h)
  rw [hk] at hk'
  obtain rfl := Res.ok.inj hk'
  have hne : pts.map Vec3.withWeight ≠ [] := by intro e; rw [e] at hl; simp at hl; omega
  have hpts : (pts.map Vec3.withWeight).map Vec4.toVec3 = pts := by
    rw [List.map_map]
    conv_rhs => rw [← List.map_id pts]
    refine List.map_congr_left fun p _ => ?_
    simp [Vec3.withWeight, Vec4.toVec3]
  obtain ⟨b, hb, -, hB⟩ := rebuild_ok (o := ⟨⟨pts.map Vec3.withWeight, d, k, false, 0, ((pts.map Vec3.withWeight).length : K) - d⟩,
    AABB.init big low⟩) hne
  refine ⟨_, (make_obj big low hne hm).trans hb, ⟨h1, h8, by rw [hl]; exact h, g1, g2, ?_⟩, ⟨?_, ?_⟩, rfl, hpts, ?_, ?_⟩
  · dsimp only
    rw [g5 _ (by omega) (by omega), g5 _ (by omega) le_rfl]
    have : ((pts.map Vec3.withWeight).length - 1 + 1 : K) = ((pts.map Vec3.withWeight).length : K) - 1 + 1 := by ring
    rw [Nat.cast_sub (by omega)]
    push_cast
    linarith
  · intro i hi
    dsimp only at hi ⊢
    rw [g3 i hi, g3 d le_rfl]
  · intro i hi hi'
    dsimp only at hi hi' ⊢
    rw [g4 i hi hi', g4 _ le_rfl (by omega)]
  · intro q hq
    obtain ⟨p, -, rfl⟩ := List.mem_map.mp hq
    rfl
  · rw [← hpts]; exact hB

example : ∃ o, CurveObj.of3d (1000 : ℚ) (-1000) [⟨0, 0, 0⟩, ⟨1, 2, 0⟩, ⟨3, 0, 1⟩] 2 false = .ok o ∧ o.box = ⟨⟨0, 0, 0⟩, ⟨3, 2, 1⟩⟩ ∧
    o.curve.evaluate (1 / 2) = .ok ⟨5 / 4, 1, 1 / 4⟩ := ⟨_, rfl, by decide +kernel, by decide +kernel⟩

/-- **C103**: without a degree, four or more points give a cubic curve. -/
theorem C103_default_cubic (big low : K) (pts : List (Vec4 K)) (h : 4 ≤ pts.length) (f : Bool) :
    CurveObj.ofPoints big low pts f = CurveObj.make big low pts 3 f := by
  unfold CurveObj.ofPoints defaultDegree
  rw [if_pos h]

/-- **C103**: without a degree, two or three points with weight 1 give the polyline through them: between the parameters `i` and `i + 1`
the curve runs straight from point `i` to point `i + 1`. -/
theorem C103_default_polyline (big low : K) (pts : List (Vec4 K)) (h2 : 2 ≤ pts.length) (h3 : pts.length ≤ 3) (hw : ∀ q ∈ pts, q.w = 1) :
    ∃ o, CurveObj.ofPoints big low pts false = .ok o ∧ o.curve.lo = 0 ∧ o.curve.hi = (pts.length : K) - 1 ∧
      ∀ (i : Nat) (s : K), i + 1 < pts.length → 0 ≤ s → s ≤ 1 →
        o.curve.evaluate ((i : K) + s) = .ok ((ix pts i).toVec3.smul (1 - s) + (ix pts (i + 1)).toVec3.smul s) := by
  have hd : defaultDegree pts.length = 1 := if_neg (by omega)
  have hne : pts ≠ [] := by intro e; rw [e] at h2; simp at h2
  obtain ⟨k, hk, hm⟩ := C23_constructor pts 1 (by omega)
  obtain ⟨k', hk', g1, g2, g3, g4, g5⟩ := C23_generated_clamped (K := K) pts.length 1 (by omega)
  rw [hk] at hk'
  obtain rfl := Res.ok.inj hk'
  obtain ⟨b, hb, -, -⟩ := rebuild_ok (o := ⟨⟨pts, 1, k, false, 0, (pts.length : K) - (1 : Nat)⟩, AABB.init big low⟩) hne
  refine ⟨⟨⟨pts, 1, k, false, 0, (pts.length : K) - (1 : Nat)⟩, b⟩, ?_, rfl, by push_cast; rfl, ?_⟩
  · unfold CurveObj.ofPoints
    rw [hd]
    exact (make_obj big low hne hm).trans hb
  have V : ValidCurve (⟨pts, 1, k, false, 0, (pts.length : K) - (1 : Nat)⟩ : Curve K) := by
    refine ⟨le_rfl, by dsimp only; omega, by dsimp only; omega, g1, g2, ?_⟩
    dsimp only
    rw [g5 _ (by omega) (by omega), g5 _ (by omega) le_rfl, Nat.cast_sub (by omega)]
    push_cast
    linarith
  have hE : EqualWeights (⟨pts, 1, k, false, 0, (pts.length : K) - (1 : Nat)⟩ : Curve K) := ⟨1, one_pos, hw⟩
  have hv : ∀ j, j + 1 < pts.length → ∀ t : K, (j + 1 = 1 ∨ (j : K) ≤ t) → (j + 2 = pts.length ∨ t < (j : K) + 1) →
      Curve.evaluate ⟨pts, 1, k, false, 0, (pts.length : K) - (1 : Nat)⟩ t =
        .ok ((ix pts j).toVec3.smul (1 - (t - j)) + (ix pts (j + 1)).toVec3.smul (t - j)) := by
    intro j hj t ht ht'
    have e1 : ix k (j + 1) = (j : K) := by rw [g5 _ (by omega) (by omega)]; push_cast; ring
    have e2 : ix k (j + 2) = (j : K) + 1 := by rw [g5 _ (by omega) (by omega)]; push_cast; ring
    have hS : SpanOf (⟨pts, 1, k, false, 0, (pts.length : K) - (1 : Nat)⟩ : Curve K) (j + 1) t :=
      ⟨by dsimp only; omega, hj, by dsimp only; rw [e1, e2]; exact lt_add_one _, by dsimp only; rw [e1]; exact ht,
        by dsimp only; rw [e2]; exact ht'⟩
    rw [eval_equal V hE hS]
    have w1 := hw _ (mem_ix (l := pts) (x := j) (by omega))
    have w2 := hw _ (mem_ix (l := pts) (x := j + 1) (by omega))
    have key : ∀ g : Nat → K, splineVal (ix k) 1 g (j + 1) t = g j * (1 - (t - j)) + g (j + 1) * (t - j) := by
      intro g
      rw [splineVal]
      simp [basisFuns, basisInner, dotL, e1, e2]
      ring
    simp only [key, Vec4.toVec3, w1, w2, div_one, Vec3.smul]
    rfl
  intro i s hi hs0 hs1
  dsimp only
  rcases eq_or_lt_of_le hs1 with rfl | hs
  · rcases Nat.eq_or_lt_of_le (show i + 2 ≤ pts.length by omega) with e | e
    · rw [hv i hi _ (.inr (by linarith)) (.inl e)]; simp
    · have := hv (i + 1) (by omega) ((i : K) + 1) (.inr (by push_cast; exact le_rfl)) (.inr (by push_cast; linarith))
      rw [this]
      push_cast
      congr 1
      ext <;> simp [Vec3.smul]
  · rw [hv i hi _ (.inr (by linarith)) (.inr (by linarith))]
    simp

theorem updateInterval_again {c c' : Curve K} (h : c.updateInterval = .ok c') : c'.updateInterval = .ok c' := by
  unfold Curve.updateInterval at h
  obtain ⟨lo, h1, h⟩ := Csx.ok_of_bind h
  obtain ⟨hi, h2, h⟩ := Csx.ok_of_bind h
  cases h
  unfold Curve.updateInterval
  rw [h1, h2]
  rfl

/-- **C103**: a default constructed curve says that it is an open curve of degree 0 on `[0, 1]` without points and knots, but it cannot be evaluated
anywhere and its box cannot be rebuilt. -/
theorem C103_blank (big low t : K) :
    (CurveObj.blank big low).curve.lo = 0 ∧ (CurveObj.blank big low).curve.hi = 1 ∧ (CurveObj.blank big low).curve.degree = 0 ∧
      (CurveObj.blank big low).curve.periodic = false ∧ (CurveObj.blank big low).curve.cpts = [] ∧ (CurveObj.blank big low).curve.knots = [] ∧
      (CurveObj.blank big low).curve.evaluate t = .ub ∧ (CurveObj.blank big low).step .bbox = .ub := by
  refine ⟨rfl, rfl, rfl, rfl, rfl, rfl, ?_, rfl⟩
  simp [CurveObj.blank, Curve.evaluate]

/-- **C103**: the constructor from a number of points, followed by `set_control_points` and `bbox`, gives the same object as the
constructor from these points; without `bbox` it differs in the box only. -/
theorem C103_sized_then_set (big low : K) (pts : List (Vec4 K)) (d : Nat) (h : d < pts.length) :
    ∃ o a b, CurveObj.ofSize big low pts.length d false = .ok o ∧ CurveObj.make big low pts d false = .ok a ∧
      o.run [.setControlPoints pts, .bbox] = .ok a ∧ o.run [.setControlPoints pts] = .ok b ∧ b.curve = a.curve ∧
      b.box = AABB.init big low := by
  obtain ⟨k, hk, hm⟩ := C23_constructor pts d h
  obtain ⟨k', hk', hm'⟩ := C23_constructor (List.replicate pts.length (⟨0, 0, 0, 0⟩ : Vec4 K)) d (by rw [List.length_replicate]; exact h)
  rw [List.length_replicate] at hk' hm'
  rw [hk] at hk'
  obtain rfl := Res.ok.inj hk'
  have hne : pts ≠ [] := by intro e; rw [e] at h; simp at h
  obtain ⟨b, hb, -, -⟩ := rebuild_ok (o := ⟨⟨pts, d, k, false, 0, (pts.length : K) - d⟩, AABB.init big low⟩) hne
  have hpos : 0 < pts.length := by omega
  have hne' : List.replicate pts.length (⟨0, 0, 0, 0⟩ : Vec4 K) ≠ [] := by simpa using hne
  have hs : CurveObj.ofSize big low pts.length d false =
      .ok ⟨⟨List.replicate pts.length ⟨0, 0, 0, 0⟩, d, k, false, 0, (pts.length : K) - d⟩, AABB.init big low⟩ := by
    have hg : (⟨List.replicate pts.length ⟨0, 0, 0, 0⟩, d, [], false, 0, 1⟩ : Curve K).generateKnots =
        .ok ⟨List.replicate pts.length ⟨0, 0, 0, 0⟩, d, k, false, 0, (pts.length : K) - d⟩ := by
      revert hm'
      unfold Curve.make
      simp only [Bool.false_eq_true, if_false]
      cases (⟨List.replicate pts.length ⟨0, 0, 0, 0⟩, d, [], false, 0, 1⟩ : Curve K).generateKnots with
      | ok c =>
        simp only [Res.ok_bind]
        split
        · intro h; cases h
        · exact id
      | throws => intro h; cases h
      | ub => intro h; cases h
    unfold CurveObj.ofSize
    simp only [Bool.false_eq_true, if_false, hg, Res.ok_bind]
    unfold Curve.generateKnots at hg
    obtain ⟨k', -, hg⟩ := Csx.ok_of_bind hg
    rw [updateInterval_again hg, Res.ok_bind]
  have hr : (⟨⟨List.replicate pts.length ⟨0, 0, 0, 0⟩, d, k, false, 0, (pts.length : K) - d⟩, AABB.init big low⟩ : CurveObj K).step
      (.setControlPoints pts) = .ok ⟨⟨pts, d, k, false, 0, (pts.length : K) - d⟩, AABB.init big low⟩ := by
    simp [CurveObj.step, Curve.setControlPoints]
  refine ⟨_, _, ⟨⟨pts, d, k, false, 0, (pts.length : K) - d⟩, AABB.init big low⟩, hs, (make_obj big low hne hm).trans hb, ?_, ?_, rfl, rfl⟩
  · simp only [CurveObj.run, hr, Res.ok_bind]
    simp only [CurveObj.step, hb, Res.ok_bind]
  · simp only [CurveObj.run, hr, Res.ok_bind]

/-- **C103**: the surface constructor from points without weights makes the surface that the other constructor makes from the same points
with weight 1. -/
theorem C103_surface_without_weights (pts : List (List (Vec3 K))) (du dv : Nat) (ku kv : List K) (h : pts ≠ []) (h' : pts.head h ≠ []) :
    Surface.of3d pts du dv ku kv = Surface.make (pts.map fun r => r.map fun p => ⟨p.x, p.y, p.z, 1⟩) du dv ku kv := by
  match pts, h, h' with
  | (a :: r) :: rest, _, _ =>
    simp only [Surface.of3d, Surface.make, List.map_cons, List.length_cons, List.length_map]
    rfl

/-- **C103**: an empty grid is refused with an exception by one constructor and is undefined behaviour for the other one. -/
theorem C103_empty_surface (du dv : Nat) (ku kv : List K) : Surface.of3d ([] : List (List (Vec3 K))) du dv ku kv = .ub ∧
    Surface.make ([] : List (List (Vec4 K))) du dv ku kv = .throws := ⟨rfl, rfl⟩

/-! ### C104 -/

/-- The box is not older than the control points: no `set_control_points` after the last rebuild, starting from a fresh box. -/
def boxFresh : Bool → List (CurveOp K) → Bool
  | b, [] => b
  | _, .setControlPoints _ :: rest => boxFresh false rest
  | _, .bbox :: rest => boxFresh true rest
  | b, _ :: rest => boxFresh b rest

/-- All calls of the sequence keep the curve usable: knots are inserted inside the domain, and after every call the knots fit the control
points and all weights are 1. -/
def Usable : CurveObj K → List (CurveOp K) → Prop
  | _, [] => True
  | o, op :: rest =>
    (∀ t n, op = .insertKnot t n → InDomain o.curve t) ∧
    ∀ o', o.step op = .ok o' → ValidCurve o'.curve ∧ (∀ q ∈ o'.curve.cpts, q.w = 1) ∧ Usable o' rest

theorem insertKnot_closed {C : Vec4 K → Prop} (hC : LerpClosed C) {c c' : Curve K} (V : ValidCurve c) {t : K} (hd : InDomain c t) {n : Nat}
    (e : c.insertKnot t n = .ok c') (h : ∀ q ∈ c.cpts, C q) : ∀ q ∈ c'.cpts, C q := by
  obtain ⟨k, hk, a1, a2, a3, a4, -⟩ := ValidKnots.span V hd.1 hd.2
  simp only [Curve.insertKnot, hk] at e
  split at e
  · cases e
  · obtain ⟨cp, hcp, e⟩ := Csx.ok_of_bind e
    rw [updateInterval_cpts e]
    unfold knotInsertion at hcp
    split at hcp
    · cases hcp
    · rename_i _ hg
      cases hcp
      intro q hq
      obtain ⟨M, hM, rfl⟩ := List.mem_map.mp hq
      exact insArray_closed hC a1 (by omega) a2 (knots_mono V a2) a3 a4 (fun r hr => h _ (mem_ix hr)) _ (List.mem_range.mp hM)

/-- One call on a usable curve keeps all control points in the box, unless it sets them; `bbox` brings them back into it. -/
theorem step_box {o o' : CurveObj K} {op : CurveOp K} (V : ValidCurve o.curve) (e : o.step op = .ok o')
    (hd : ∀ t n, op = .insertKnot t n → InDomain o.curve t) (hs : ∀ pts, op ≠ .setControlPoints pts)
    (hb : op ≠ .bbox → ∀ q ∈ o.curve.cpts, InBoxW o.box q) (hw : ∀ q ∈ o.curve.cpts, q.w = 1) :
    ∀ q ∈ o'.curve.cpts, InBoxW o'.box q := by
  cases op with
  | setControlPoints pts => exact absurd rfl (hs pts)
  | insertKnot t n =>
    obtain ⟨c, hc, e⟩ := Csx.ok_of_bind e
    cases e
    exact insertKnot_closed (lerpClosed_box o.box) V (hd t n rfl) hc (hb (by simp))
  | setDegree d =>
    obtain ⟨c, hc, e⟩ := Csx.ok_of_bind e
    cases e
    dsimp only
    rw [updateInterval_cpts hc]
    exact hb (by simp)
  | setKnots k =>
    obtain ⟨c, hc, e⟩ := Csx.ok_of_bind e
    cases e
    dsimp only
    rw [updateInterval_cpts hc]
    exact hb (by simp)
  | normalizeKnots =>
    obtain ⟨c, hc, e⟩ := Csx.ok_of_bind e
    cases e
    obtain ⟨k, -, hc⟩ := Csx.ok_of_bind hc
    dsimp only
    rw [updateInterval_cpts hc]
    exact hb (by simp)
  | makePeriodic =>
    obtain ⟨c, hc, e⟩ := Csx.ok_of_bind e
    cases e
    obtain ⟨r, m1, -, -, m3⟩ := C34_make_periodic o.curve V.enough.le
    rw [m1] at hc
    obtain rfl := Res.ok.inj hc
    rcases m3 with ⟨-, rfl⟩ | ⟨-, g1, -⟩
    · exact hb (by simp)
    · intro q hq
      dsimp only at hq
      rw [g1, List.mem_append] at hq
      exact hb (by simp) q (hq.elim id List.mem_of_mem_take)
  | bbox =>
    have hne : o.curve.cpts ≠ [] := by intro h; have := V.enough; rw [h] at this; simp at this
    obtain ⟨b, h1, -, h2⟩ := rebuild_ok hne
    have e : o.rebuild = .ok o' := e
    rw [h1] at e
    cases e
    intro q hq
    dsimp only at hq ⊢
    have := (h2 b).mp ⟨le_rfl, le_rfl, le_rfl, le_rfl, le_rfl, le_rfl⟩ q.toVec3 (List.mem_map_of_mem hq)
    exact ⟨by rw [hw q hq]; exact one_pos, this⟩

theorem run_box (ops : List (CurveOp K)) : ∀ (o o' : CurveObj K) (b : Bool), ValidCurve o.curve → (∀ q ∈ o.curve.cpts, q.w = 1) →
    (b = true → ∀ q ∈ o.curve.cpts, InBoxW o.box q) → Usable o ops → boxFresh b ops = true → o.run ops = .ok o' →
    ValidCurve o'.curve ∧ (∀ q ∈ o'.curve.cpts, q.w = 1) ∧ ∀ q ∈ o'.curve.cpts, InBoxW o'.box q := by
  induction ops with
  | nil =>
    intro o o' b V hw hb _ hf e
    cases e
    exact ⟨V, hw, hb hf⟩
  | cons op rest ih =>
    intro o o' b V hw hb hu hf e
    obtain ⟨o1, h1, e'⟩ := Csx.ok_of_bind e
    obtain ⟨V1, w1, u1⟩ := hu.2 o1 h1
    cases op with
    | setControlPoints pts => exact ih o1 o' false V1 w1 (fun h => by cases h) u1 hf e'
    | bbox => exact ih o1 o' true V1 w1 (fun _ => step_box V h1 hu.1 (by simp) (fun h => absurd rfl h) hw) u1 hf e'
    | insertKnot t n => exact ih o1 o' b V1 w1 (fun h => step_box V h1 hu.1 (by simp) (fun _ => hb h) hw) u1 hf e'
    | setDegree d => exact ih o1 o' b V1 w1 (fun h => step_box V h1 hu.1 (by simp) (fun _ => hb h) hw) u1 hf e'
    | setKnots k => exact ih o1 o' b V1 w1 (fun h => step_box V h1 hu.1 (by simp) (fun _ => hb h) hw) u1 hf e'
    | normalizeKnots => exact ih o1 o' b V1 w1 (fun h => step_box V h1 hu.1 (by simp) (fun _ => hb h) hw) u1 hf e'
    | makePeriodic => exact ih o1 o' b V1 w1 (fun h => step_box V h1 hu.1 (by simp) (fun _ => hb h) hw) u1 hf e'

/-- **C104**: every constructor from control points leaves the least box of the control points in the cache, and so does `bbox`. -/
theorem C104_constructors (big low : K) (pts : List (Vec4 K)) (d : Nat) (k : List K) (f : Bool) (o : CurveObj K)
    (h : CurveObj.make big low pts d f = .ok o ∨ CurveObj.ofKnots big low pts d k f = .ok o ∨ ∃ o' : CurveObj K, o'.step .bbox = .ok o) :
    o.curve.bbox = .ok o.box ∧ LeastBox o.box o.curve.controlPoints3d := by
  have key : ∀ a : CurveObj K, a.rebuild = .ok o → o.curve.bbox = .ok o.box ∧ LeastBox o.box o.curve.controlPoints3d := by
    intro a ha
    by_cases hne : a.curve.cpts = []
    · unfold CurveObj.rebuild Curve.bbox at ha
      rw [hne] at ha
      cases ha
    · obtain ⟨b, h1, h2, h3⟩ := rebuild_ok hne
      rw [h1] at ha
      cases ha
      exact ⟨h2, h3⟩
  rcases h with h | h | ⟨o', h⟩
  · unfold CurveObj.make at h
    cases f <;> obtain ⟨c, -, h⟩ := Csx.ok_of_bind h <;> obtain ⟨c, -, h⟩ := Csx.ok_of_bind h <;> exact key _ h
  · obtain ⟨c, -, h⟩ := Csx.ok_of_bind h
    exact key _ h
  · exact key _ h

/-- **C104** (part): start with a fresh object (its box is that of its control points) with weights 1, and make any sequence of calls that
keep it usable. If `set_control_points` is not called after the last `bbox`, the cached box encloses the curve at the end. Missing:
`set_control_points` leaves the old box in place (`C104_stale_counterexample`), `get_derivative` and the constructor from a size never
build one (`C104_unbuilt_counterexample`), surfaces do not either (`C104_surface_counterexample`), and the box does not enclose curves
with unequal weights (C27). -/
theorem C104_history_partial (o o' : CurveObj K) (V : ValidCurve o.curve) (hw : ∀ q ∈ o.curve.cpts, q.w = 1) (hb : o.curve.bbox = .ok o.box)
    (ops : List (CurveOp K)) (hu : Usable o ops) (hf : boxFresh true ops = true) (e : o.run ops = .ok o') (t : K)
    (hd : InDomain o'.curve t) : ∃ r, o'.curve.evaluate t = .ok r ∧ InBox r o'.box := by
  have hne : o.curve.cpts ≠ [] := by intro h; have := V.enough; rw [h] at this; simp at this
  obtain ⟨b, -, h1, h2⟩ := rebuild_ok hne
  rw [hb] at h1
  obtain rfl := Res.ok.inj h1
  obtain ⟨V', hw', hB⟩ := run_box ops o o' true V hw (fun _ q hq => ⟨by rw [hw q hq]; exact one_pos,
    (h2 o.box).mp ⟨le_rfl, le_rfl, le_rfl, le_rfl, le_rfl, le_rfl⟩ q.toVec3 (List.mem_map_of_mem hq)⟩) hu hf e
  refine C27_curve_in_box o'.curve V' (fun q hq => by rw [hw' q hq]; exact one_pos) o'.box (fun q hq => ?_) t hd
  have := (hB q hq).2
  simpa [Vec4.toVec3, hw' q hq, Vec4.pos] using this

/-- The control points of an arch and of the same arch further up. -/
def arch (z : ℚ) : List (Vec4 ℚ) := [⟨0, 0, z, 1⟩, ⟨1, 2, z, 1⟩, ⟨3, 2, z, 1⟩, ⟨4, 0, z, 1⟩]

/-- The curve of degree 2 for the arch. -/
def archCurve : CurveObj ℚ := ⟨⟨arch 0, 2, [0, 0, 0, 1, 2, 2, 2], false, 0, 2⟩, ⟨⟨0, 0, 0⟩, ⟨4, 2, 0⟩⟩⟩

theorem archCurve_valid : ValidCurve archCurve.curve ∧ (∀ q ∈ archCurve.curve.cpts, q.w = 1) ∧ archCurve.curve.bbox = .ok archCurve.box :=
  ⟨⟨by decide, by decide, by decide, rfl, by unfold SortedKnots; decide +kernel, by decide +kernel⟩, by decide +kernel, by decide +kernel⟩

theorem usable_cons {o o1 : CurveObj K} {op : CurveOp K} {rest : List (CurveOp K)} (h : o.step op = .ok o1)
    (hd : ∀ t n, op = .insertKnot t n → InDomain o.curve t) (V : ValidCurve o1.curve) (hw : ∀ q ∈ o1.curve.cpts, q.w = 1)
    (hu : Usable o1 rest) : Usable o (op :: rest) :=
  ⟨hd, fun o' h' => by rw [h] at h'; cases h'; exact ⟨V, hw, hu⟩⟩

/-- A history that `C104_history_partial` speaks of: the arch is moved up and the box rebuilt, then a knot is inserted. -/
example : ∃ o', Usable archCurve [.setControlPoints (arch 5), .bbox, .insertKnot (1 / 2) 1] ∧
    boxFresh true [.setControlPoints (arch 5), .bbox, .insertKnot (1 / 2 : ℚ) 1] = true ∧
    archCurve.run [.setControlPoints (arch 5), .bbox, .insertKnot (1 / 2) 1] = .ok o' ∧ o'.box = ⟨⟨0, 0, 5⟩, ⟨4, 2, 5⟩⟩ ∧
    o'.curve.evaluate 1 = .ok ⟨2, 2, 5⟩ := by
  refine ⟨⟨⟨[⟨0, 0, 5, 1⟩, ⟨1 / 2, 1, 5, 1⟩, ⟨3 / 2, 2, 5, 1⟩, ⟨3, 2, 5, 1⟩, ⟨4, 0, 5, 1⟩], 2, [0, 0, 0, 1 / 2, 1, 2, 2, 2], false, 0, 2⟩,
    ⟨⟨0, 0, 5⟩, ⟨4, 2, 5⟩⟩⟩, ?_, rfl, by decide +kernel, rfl, by decide +kernel⟩
  have h1 : archCurve.step (.setControlPoints (arch 5)) = .ok ⟨{ archCurve.curve with cpts := arch 5 }, archCurve.box⟩ := by decide +kernel
  have h2 : CurveObj.step ⟨{ archCurve.curve with cpts := arch 5 }, archCurve.box⟩ .bbox =
      .ok ⟨{ archCurve.curve with cpts := arch 5 }, ⟨⟨0, 0, 5⟩, ⟨4, 2, 5⟩⟩⟩ := by decide +kernel
  have h3 : CurveObj.step ⟨{ archCurve.curve with cpts := arch 5 }, ⟨⟨0, 0, 5⟩, ⟨4, 2, 5⟩⟩⟩ (.insertKnot (1 / 2) 1) =
      .ok ⟨⟨[⟨0, 0, 5, 1⟩, ⟨1 / 2, 1, 5, 1⟩, ⟨3 / 2, 2, 5, 1⟩, ⟨3, 2, 5, 1⟩, ⟨4, 0, 5, 1⟩], 2, [0, 0, 0, 1 / 2, 1, 2, 2, 2], false, 0, 2⟩,
        ⟨⟨0, 0, 5⟩, ⟨4, 2, 5⟩⟩⟩ := by decide +kernel
  have V : ValidCurve ({ archCurve.curve with cpts := arch 5 } : Curve ℚ) := archCurve_valid.1
  refine usable_cons h1 (by simp) V (by decide +kernel) (usable_cons h2 (by simp) V (by decide +kernel) (usable_cons h3 ?_ ?_ ?_ trivial))
  · intro t n e
    cases e
    unfold InDomain
    decide +kernel
  · exact ⟨by decide, by decide, by decide, rfl, by unfold SortedKnots; decide +kernel, by decide +kernel⟩
  · decide +kernel

/-- **C104** is false after `set_control_points`: the arch is moved up, the cached box stays where it was and contains no point of the curve;
`ccx` compares the stale boxes and finds no intersection of the curve with its own copy that was built there, until `bbox` is called. -/
theorem C104_stale_counterexample :
    ∃ o' r, archCurve.run [.setControlPoints (arch 5)] = .ok o' ∧ o'.curve.evaluate 1 = .ok r ∧ ¬ InBox r o'.box ∧
      (∃ other, CurveObj.ofKnots 1000 (-1000) (arch 5) 2 [0, 0, 0, 1, 2, 2, 2] false = .ok other ∧ other.curve = o'.curve ∧
        (∀ sqrt tol fuel result, ccxObj sqrt tol fuel o' other result = some (.ok result)) ∧
        ∃ fresh, o'.run [.bbox] = .ok fresh ∧ fresh.box.intersects other.box = true) := by
  refine ⟨⟨⟨arch 5, 2, [0, 0, 0, 1, 2, 2, 2], false, 0, 2⟩, ⟨⟨0, 0, 0⟩, ⟨4, 2, 0⟩⟩⟩, ⟨2, 2, 5⟩, by decide +kernel, by decide +kernel, ?_,
    ⟨⟨arch 5, 2, [0, 0, 0, 1, 2, 2, 2], false, 0, 2⟩, ⟨⟨0, 0, 5⟩, ⟨4, 2, 5⟩⟩⟩, by decide +kernel, rfl, ?_,
    ⟨⟨arch 5, 2, [0, 0, 0, 1, 2, 2, 2], false, 0, 2⟩, ⟨⟨0, 0, 5⟩, ⟨4, 2, 5⟩⟩⟩, by decide +kernel, by decide +kernel⟩
  · unfold InBox; decide +kernel
  · intro sqrt tol fuel result
    unfold ccxObj
    rw [if_neg (by decide +kernel)]

/-- **C104**: with boxes that are up to date, `ccx` on the objects is the search that C56 is about. -/
theorem C104_ccx_fresh (sqrt : K → K) (tol : K) (fuel : Nat) (o1 o2 : CurveObj K) (result : List (K × K))
    (h1 : o1.curve.bbox = .ok o1.box) (h2 : o2.curve.bbox = .ok o2.box) :
    ccxObj sqrt tol fuel o1 o2 result = Ccx.ccx sqrt tol (fuel + 1) o1.curve o2.curve result := by
  simp only [ccxObj, Ccx.ccx, h1, h2]

/-- **C104** is false for the curve that `get_derivative` returns and for the curve made from a size: their boxes are the empty one, which
contains no point. -/
theorem C104_unbuilt_counterexample (big low : K) (h : low < big) :
    (∀ o o' : CurveObj K, o.derivative big low = .ok o' → ∀ p, ¬ InBox p o'.box) ∧
    (∀ n d f (o : CurveObj K), CurveObj.ofSize big low n d f = .ok o → ∀ p, ¬ InBox p o.box) := by
  have key : ∀ p : Vec3 K, ¬ InBox p (AABB.init big low) := by
    intro p hp
    have h1 : big ≤ p.x := hp.1
    have h2 : p.x ≤ low := hp.2.1
    exact absurd (h1.trans h2) (not_le.mpr h)
  constructor
  · intro o o' e
    obtain ⟨c, -, e⟩ := Csx.ok_of_bind e
    cases e
    exact key
  · intro n d f o e
    unfold CurveObj.ofSize at e
    cases f <;> obtain ⟨c, -, e⟩ := Csx.ok_of_bind e <;> obtain ⟨c, -, e⟩ := Csx.ok_of_bind e <;> cases e <;> exact key

example : ∃ o, archCurve.derivative 1000 (-1000) = .ok o ∧ o.curve.evaluate 1 = .ok ⟨2, 0, 0⟩ ∧ o.box = ⟨⟨1000, 1000, 1000⟩, ⟨-1000, -1000, -1000⟩⟩ :=
  ⟨_, rfl, by decide +kernel, rfl⟩

/-- **C104** is false for surfaces: no call sets the box that `aabb` returns, so it contains no point of any surface. -/
theorem C104_surface_counterexample (big low : K) (h : low < big) (s : Surface K) (p : Vec3 K) : ¬ InBox p (s.aabb big low) := by
  intro hp
  have h1 : big ≤ p.x := hp.1
  have h2 : p.x ≤ low := hp.2.1
  exact absurd (h1.trans h2) (not_le.mpr h)
end Cmm.Nurbs
