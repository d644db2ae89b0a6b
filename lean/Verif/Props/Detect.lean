import Verif.Lemmas.Detect
import Verif.Props.GaussMap
import Verif.Props.Decompose
import Verif.Props.AABB
/-!
C91: the search for the intersections of two surfaces.
-/
namespace Cmm.Gauss
open Cmm.Nurbs Cmm.Csx
variable {K : Type} [Field K] [LinearOrder K] [IsStrictOrderedRing K]

theorem PositivePatch.bez {s : Surface K} (S : PositivePatch s) : SurfBez s := ⟨S.valid, S.interval, S.bezier⟩

theorem inside_dom {s : Surface K} (B : SurfBez s) {u v : K} : Inside s u v ↔ SurfInDomain s u v := by
  unfold Inside SurfInDomain
  rw [B.dom.1.1, B.dom.1.2, B.dom.2.1, B.dom.2.2]

theorem _root_.Cmm.Csx.SurfPiece.part {s x : Surface K} (h : SurfPiece s x) : Part s x :=
  ⟨⟨h.2.1, h.2.2.1⟩, fun u v hu => h.2.2.2 u v hu.1.1 hu.1.2 hu.2.1 hu.2.2⟩

theorem _root_.Cmm.Csx.SurfPiece.refl {s : Surface K} (B : SurfBez s) : SurfPiece s s :=
  ⟨B, ⟨le_refl _, le_refl _⟩, ⟨le_refl _, le_refl _⟩, fun _ _ _ _ _ _ => rfl⟩

omit [IsStrictOrderedRing K] in
theorem mem_four {q h : Surface K × Surface K × Surface K × Surface K} {j : Surface K × Surface K} (hj : j ∈ fourParts q h) :
    j.1 ∈ [q.1, q.2.1, q.2.2.1, q.2.2.2] ∧ j.2 ∈ [h.1, h.2.1, h.2.2.1, h.2.2.2] := by
  simp only [fourParts, List.mem_cons, List.not_mem_nil, or_false] at hj ⊢
  rcases hj with rfl | rfl | rfl | rfl <;> simp

theorem box_near {lo hi lo' hi' x tol : K} (h1 : lo ≤ x) (h2 : x ≤ hi) (s1 : hi - lo ≤ tol) (s2 : hi' - lo' ≤ tol) (i1 : lo ≤ hi') (i2 : lo' ≤ hi)
    (v' : lo' ≤ hi') : |x - (lo + hi + lo' + hi') * (1 / 4)| ≤ tol := by
  rw [abs_le]; constructor <;> linarith

theorem near_of_boxes {b1 b2 : AABB K} {p : Vec3 K} {tol : K} (s1 s2 : Surface K) (hp : InBox p b1) (h1 : smallBox tol b1 = true)
    (h2 : smallBox tol b2 = true) (hi : b1.intersects b2 = true) (hv : ValidBox b2) : Near tol p (midHit s1 s2 b1 b2).xyz := by
  unfold smallBox at h1 h2
  simp only [Bool.and_eq_true, decide_eq_true_eq] at h1 h2
  obtain ⟨i1, i2, i3, i4, i5, i6⟩ := (intersects_iff _ _).1 hi
  obtain ⟨p1, p2, p3, p4, p5, p6⟩ := hp
  obtain ⟨v1, v2, v3⟩ := hv
  exact ⟨box_near p1 p2 h1.1.1 h2.1.1 i1 i2 v1, box_near p3 p4 h1.1.2 h2.1.2 i3 i4 v2, box_near p5 p6 h1.2 h2.2 i5 i6 v3⟩

theorem near_of_boxes' {b1 b2 : AABB K} {p : Vec3 K} {tol : K} (s1 s2 : Surface K) (hp : InBox p b2) (h1 : smallBox tol b1 = true)
    (h2 : smallBox tol b2 = true) (hi : b1.intersects b2 = true) (hv : ValidBox b1) : Near tol p (midHit s1 s2 b1 b2).xyz := by
  have h := near_of_boxes s2 s1 hp h2 h1 (by rw [C08_intersects_symm]; exact hi) hv
  have e : (midHit s2 s1 b2 b1).xyz = (midHit s1 s2 b1 b2).xyz := by
    simp only [midHit, Vec3.mk.injEq]
    refine ⟨?_, ?_, ?_⟩ <;> ring
  rw [← e]; exact h

theorem piece_box {s a : Surface K} {b : AABB K} (h : SurfPiece s a) (hw : SurfPositive a) (hb : a.bbox = .ok b) {u v : K} (hu : Inside a u v) :
    ∃ p, s.evaluate u v = .ok p ∧ InBox p b := by
  obtain ⟨b', e, H⟩ := C31_own_box a h.1.valid hw
  rw [hb] at e
  obtain rfl := Res.ok.inj e
  obtain ⟨p, hp, hin⟩ := H u v ((inside_dom h.1).1 hu)
  exact ⟨p, by rw [← h.part.2 u v hu]; exact hp, hin⟩

theorem mid_inside {a : Surface K} (B : SurfBez a) : Inside a (1 / 2 * (a.u1 + a.u0)) (1 / 2 * (a.v1 + a.v0)) := by
  have hu : a.u0 ≤ a.u1 := by rw [← B.dom.1.1, ← B.dom.1.2]; exact B.valid.knots_u.mono _ _ (by have := B.bezier.2.1; omega) (by have := B.valid.knots_u.len; omega)
  have hv : a.v0 ≤ a.v1 := by rw [← B.dom.2.1, ← B.dom.2.2]; exact B.valid.knots_v.mono _ _ (by have := B.bezier.2.2.2; omega) (by have := B.valid.knots_v.len; omega)
  unfold Inside
  exact ⟨⟨by linarith, by linarith⟩, by linarith, by linarith⟩

theorem box_valid {p : Vec3 K} {b : AABB K} (h : InBox p b) : ValidBox b :=
  ⟨le_trans h.1 h.2.1, le_trans h.2.2.1 h.2.2.2.1, le_trans h.2.2.2.2.1 h.2.2.2.2.2⟩

/-- The parts met by the search. -/
def Met (s1 s2 a b : Surface K) : Prop := (SurfPiece s1 a ∧ SurfPositive a) ∧ SurfPiece s2 b ∧ SurfPositive b

theorem met_sub {s1 s2 a b : Surface K} {q1 q2 h1 h2 : Surface K × Surface K × Surface K × Surface K} (M : Met s1 s2 a b)
    (f1 : a.subdivide = .ok q1) (f2 : b.subdivide = .ok q2) {j : Surface K × Surface K × Surface K × Surface K}
    (hj : j ∈ jobs (fourParts q1 h1) (fourParts q2 h2)) : Met s1 s2 j.1 j.2.1 := by
  obtain ⟨m1, m2⟩ := mem_jobs.1 hj
  obtain ⟨m1, -⟩ := mem_four m1
  obtain ⟨m2, -⟩ := mem_four m2
  exact ⟨⟨M.1.1.trans (M.1.1.1.subdivide f1 _ m1), subdivide_pos M.1.1.1 M.1.2 f1 _ m1⟩,
    M.2.1.trans (M.2.1.1.subdivide f2 _ m2), subdivide_pos M.2.1.1 M.2.2 f2 _ m2⟩

variable [FloorRing K]

/-- **C91**: every point reported for two Bézier surfaces with positive weights has parameters inside both surfaces, and both surfaces are within the
tolerance of the reported point there, in every coordinate. Whatever the Gauss maps. -/
theorem C91_points_genuine (env : Env K) (tol : K) (fuel : Nat) (s1 s2 g1 g2 : Surface K) (S1 : PositivePatch s1) (S2 : PositivePatch s2)
    (acc r : Found K) (h : detect env tol fuel s1 s2 g1 g2 acc = some (.ok r)) :
    ∃ new, r.points = acc.points ++ new ∧ ∀ x ∈ new, Inside s1 x.uv1.1 x.uv1.2 ∧ Inside s2 x.uv2.1 x.uv2.2 ∧
      ∃ p q, s1.evaluate x.uv1.1 x.uv1.2 = .ok p ∧ s2.evaluate x.uv2.1 x.uv2.2 = .ok q ∧ Near tol p x.xyz ∧ Near tol q x.xyz := by
  obtain ⟨np, na, e, -, g, -⟩ := detect_extends (env := env) (tol := tol) (P := fun a b _ _ => Met s1 s2 a b) (Qpa := fun _ => True)
    (Qpt := fun x => Inside s1 x.uv1.1 x.uv1.2 ∧ Inside s2 x.uv2.1 x.uv2.2 ∧
      ∃ p q, s1.evaluate x.uv1.1 x.uv1.2 = .ok p ∧ s2.evaluate x.uv2.1 x.uv2.2 = .ok q ∧ Near tol p x.xyz ∧ Near tol q x.xyz)
    (fun a b _ _ b1 b2 M e1 e2 hi hs1 hs2 => by
      have i1 := mid_inside M.1.1.1
      have i2 := mid_inside M.2.1.1
      obtain ⟨p, hp, hb1⟩ := piece_box M.1.1 M.1.2 e1 i1
      obtain ⟨q, hq, hb2⟩ := piece_box M.2.1 M.2.2 e2 i2
      have w1 := M.1.1.part.1
      have w2 := M.2.1.part.1
      refine ⟨⟨⟨le_trans w1.1.1 i1.1.1, le_trans i1.1.2 w1.1.2⟩, le_trans w1.2.1 i1.2.1, le_trans i1.2.2 w1.2.2⟩,
        ⟨⟨le_trans w2.1.1 i2.1.1, le_trans i2.1.2 w2.1.2⟩, le_trans w2.2.1 i2.2.1, le_trans i2.2.2 w2.2.2⟩, p, q, hp, hq, ?_, ?_⟩
      · exact near_of_boxes a b hb1 hs1 hs2 hi (box_valid hb2)
      · exact near_of_boxes' a b hb2 hs1 hs2 hi (box_valid hb1))
    (fun _ _ _ _ _ _ _ _ _ _ _ _ _ => trivial)
    (fun _ _ _ _ _ _ _ _ M f1 f2 _ _ j hj => met_sub M f1 f2 hj)
    fuel s1 s2 g1 g2 acc r ⟨⟨SurfPiece.refl S1.bez, S1.positive⟩, SurfPiece.refl S2.bez, S2.positive⟩ h
  exact ⟨np, e, g⟩

/-- **C91**: every patch reported comes from a pair of parts whose parts of the Gauss maps, which lie over the same shares of the parameter rectangles,
pass the separability test; it consists of the first and the last of at least two points of the intersection of the borders of these parts. -/
theorem C91_patches (env : Env K) (tol : K) (fuel : Nat) (s1 s2 g1 g2 : Surface K) (S1 : PositivePatch s1) (S2 : PositivePatch s2)
    (G1 : PositivePatch g1) (G2 : PositivePatch g2) (acc r : Found K) (h : detect env tol fuel s1 s2 g1 g2 acc = some (.ok r)) :
    ∃ new, r.patches = acc.patches ++ new ∧ ∀ x ∈ new, ∃ a b ga gb l, (Part s1 a ∧ PositivePatch a) ∧ (Part s2 b ∧ PositivePatch b) ∧
      (Part g1 ga ∧ SameShare s1 g1 a ga) ∧ (Part g2 gb ∧ SameShare s2 g2 b gb) ∧ gaussMapSeparability env ga gb = .ok true ∧
      Bnd.findBoundaryIntersections (env.csx tol) a b [] = .ok l ∧ 2 ≤ l.length ∧ l.head? = some x.1 ∧ l.getLast? = some x.2 := by
  obtain ⟨np, na, -, e, -, g⟩ := detect_extends (env := env) (tol := tol)
    (P := fun a b ga gb => Met s1 s2 a b ∧ Met g1 g2 ga gb ∧ SameShare s1 g1 a ga ∧ SameShare s2 g2 b gb) (Qpt := fun _ => True)
    (Qpa := fun x => ∃ a b ga gb l, (Part s1 a ∧ PositivePatch a) ∧ (Part s2 b ∧ PositivePatch b) ∧
      (Part g1 ga ∧ SameShare s1 g1 a ga) ∧ (Part g2 gb ∧ SameShare s2 g2 b gb) ∧ gaussMapSeparability env ga gb = .ok true ∧
      Bnd.findBoundaryIntersections (env.csx tol) a b [] = .ok l ∧ 2 ≤ l.length ∧ l.head? = some x.1 ∧ l.getLast? = some x.2)
    (fun _ _ _ _ _ _ _ _ _ _ _ _ => trivial)
    (fun a b ga gb l x y M hs el h2 hx hy => by
      obtain ⟨⟨⟨m1, w1⟩, m2, w2⟩, ⟨⟨m3, _⟩, m4, _⟩, h3, h4⟩ := M
      exact ⟨a, b, ga, gb, l, ⟨m1.part, m1.1.valid, m1.1.interval, m1.1.bezier, w1⟩, ⟨m2.part, m2.1.valid, m2.1.interval, m2.1.bezier, w2⟩,
        ⟨m3.part, h3⟩, ⟨m4.part, h4⟩, hs, el, h2, hx, hy⟩)
    (fun a b ga gb q1 q2 k1 k2 M f1 f2 f3 f4 j hj => by
      obtain ⟨M1, M2, h3, h4⟩ := M
      obtain ⟨n1, n2⟩ := mem_jobs.1 hj
      refine ⟨met_sub M1 f1 f2 hj, ?_, h3.trans (subdivide_share M1.1.1.1 M2.1.1.1 f1 f3 _ n1), h4.trans (subdivide_share M1.2.1.1 M2.2.1.1 f2 f4 _ n2)⟩
      refine met_sub (j := (j.2.2.1, j.2.2.2, j.1, j.2.1)) (h1 := q1) (h2 := q2) M2 f3 f4 (mem_jobs.2 ⟨?_, ?_⟩)
      · revert n1
        simp only [fourParts, List.mem_cons, List.not_mem_nil, or_false, Prod.mk.injEq]
        tauto
      · revert n2
        simp only [fourParts, List.mem_cons, List.not_mem_nil, or_false, Prod.mk.injEq]
        tauto)
    fuel s1 s2 g1 g2 acc r ⟨⟨⟨SurfPiece.refl S1.bez, S1.positive⟩, SurfPiece.refl S2.bez, S2.positive⟩,
      ⟨⟨SurfPiece.refl G1.bez, G1.positive⟩, SurfPiece.refl G2.bez, G2.positive⟩, SameShare.refl _ _, SameShare.refl _ _⟩ h
  exact ⟨na, e, g⟩

/-- **C91**: the search ends: its depth is at most the width of the first surface in u divided by the split tolerance 1e-7, plus one. -/
theorem C91_terminates (env : Env K) (tol : K) : ∀ (n : Nat) (s1 s2 g1 g2 : Surface K) (acc : Found K), SurfIntervalOk s1 →
    s1.u1 - s1.u0 < n * (1 / 10 ^ 7) → detect env tol (n + 1) s1 s2 g1 g2 acc ≠ none := by
  intro n
  induction n with
  | zero =>
    intro s1 s2 g1 g2 acc hs hw
    rw [Nat.cast_zero, zero_mul] at hw
    rw [detect]
    refine andThen_ne_none (by simp) fun b1 _ => andThen_ne_none (by simp) fun b2 _ => ?_
    split; · simp
    split; · simp
    split; · simp
    refine andThen_ne_none (by simp) fun p1 _ => andThen_ne_none (by simp) fun p2 _ => andThen_ne_none (by simp) fun apart _ => ?_
    split; · simp
    refine andThen_ne_none (by simp) fun simple _ => ?_
    split
    · exact andThen_ne_none (by simp) fun _ _ => by simp
    · refine andThen_ne_none (by simp) fun ⟨q1, q2, q3, q4⟩ e => ?_
      obtain ⟨x1, x2, -⟩ := subdivide_shrinks (δ := 1 / 10 ^ 7) hs (Option.some.inj e) (Or.inl (le_refl _))
      exact absurd hw (by linarith)
  | succ n ih =>
    intro s1 s2 g1 g2 acc hs hw
    rw [detect]
    refine andThen_ne_none (by simp) fun b1 _ => andThen_ne_none (by simp) fun b2 _ => ?_
    split; · simp
    split; · simp
    split; · simp
    refine andThen_ne_none (by simp) fun p1 _ => andThen_ne_none (by simp) fun p2 _ => andThen_ne_none (by simp) fun apart _ => ?_
    split; · simp
    refine andThen_ne_none (by simp) fun simple _ => ?_
    split
    · exact andThen_ne_none (by simp) fun _ _ => by simp
    · refine andThen_ne_none (by simp) fun ⟨q1, q2, q3, q4⟩ e => andThen_ne_none (by simp) fun r2 _ => andThen_ne_none (by simp) fun r3 _ =>
        andThen_ne_none (by simp) fun r4 _ => ?_
      obtain ⟨-, -, x3⟩ := subdivide_shrinks (δ := 1 / 10 ^ 7) hs (Option.some.inj e) (Or.inl (le_refl _))
      refine forJobs_ne _ _ fun j hj acc => ?_
      obtain ⟨y1, y2⟩ := x3 _ (mem_four (mem_jobs.1 hj).1).1
      refine ih _ _ _ _ _ y1 ?_
      push_cast at hw
      linarith

omit [IsStrictOrderedRing K] [FloorRing K] in
theorem Part.inside {s x : Surface K} (h : Part s x) {u v : K} (hu : Inside x u v) : Inside s u v :=
  ⟨⟨le_trans h.1.1.1 hu.1.1, le_trans hu.1.2 h.1.1.2⟩, le_trans h.1.2.1 hu.2.1, le_trans hu.2.2 h.1.2.2⟩

omit [IsStrictOrderedRing K] [FloorRing K] in
theorem Part.trans {s x y : Surface K} (h : Part s x) (g : Part x y) : Part s y :=
  ⟨⟨⟨le_trans h.1.1.1 g.1.1.1, le_trans g.1.1.2 h.1.1.2⟩, le_trans h.1.2.1 g.1.2.1, le_trans g.1.2.2 h.1.2.2⟩,
    fun u v hu => (g.2 u v hu).trans (h.2 u v (g.inside hu))⟩

omit [IsStrictOrderedRing K] [FloorRing K] in
theorem HullKeeps.part {env : Env K} {s x : Surface K} (h : HullKeeps env s) (p : Part s x) (d : x.du = s.du ∧ x.dv = s.dv) : HullKeeps env x :=
  fun y q Q e l hl => h y (p.trans q) Q ⟨e.1.trans d.1, e.2.trans d.2⟩ l hl

omit [IsStrictOrderedRing K] [FloorRing K] in
theorem make_degrees {c : List (List (Vec4 K))} {p q : Nat} {ku kv : List K} {s : Surface K} (h : Surface.make c p q ku kv = .ok s) :
    s.du = p ∧ s.dv = q := by
  unfold Surface.make at h
  split at h
  · cases h
  · cases h
  dsimp only at h
  split at h <;> obtain ⟨ku', h1, h⟩ := ok_of_bind h <;> split at h <;> obtain ⟨kv', h2, h⟩ := ok_of_bind h <;>
    (unfold Surface.updateInterval at h
     obtain ⟨iu, h3, h⟩ := ok_of_bind h
     obtain ⟨iv, h4, h⟩ := ok_of_bind h
     cases h
     exact ⟨rfl, rfl⟩)

omit [IsStrictOrderedRing K] [FloorRing K] in
theorem splitU_degrees {s a b : Surface K} {u t : K} (h : s.splitU u t = .ok (a, b)) : (a.du = s.du ∧ a.dv = s.dv) ∧ b.du = s.du ∧ b.dv = s.dv := by
  unfold Surface.splitU at h
  split at h; · cases h
  dsimp only at h
  split at h; · cases h
  obtain ⟨t, h1, h⟩ := ok_of_bind h
  obtain ⟨s1, h2, h⟩ := ok_of_bind h
  obtain ⟨s2, h3, h⟩ := ok_of_bind h
  cases h
  exact ⟨make_degrees h2, make_degrees h3⟩

omit [IsStrictOrderedRing K] [FloorRing K] in
theorem splitV_degrees {s a b : Surface K} {u t : K} (h : s.splitV u t = .ok (a, b)) : (a.du = s.du ∧ a.dv = s.dv) ∧ b.du = s.du ∧ b.dv = s.dv := by
  unfold Surface.splitV at h
  split at h; · cases h
  dsimp only at h
  split at h; · cases h
  obtain ⟨t, h1, h⟩ := ok_of_bind h
  split at h; · cases h
  obtain ⟨s1, h2, h⟩ := ok_of_bind h
  obtain ⟨s2, h3, h⟩ := ok_of_bind h
  cases h
  exact ⟨make_degrees h2, make_degrees h3⟩

omit [IsStrictOrderedRing K] [FloorRing K] in
theorem subdivide_degrees {s : Surface K} {q : Surface K × Surface K × Surface K × Surface K} (h : s.subdivide = .ok q) :
    ∀ x ∈ [q.1, q.2.1, q.2.2.1, q.2.2.2], x.du = s.du ∧ x.dv = s.dv := by
  unfold Surface.subdivide Surface.subdivideAt at h
  obtain ⟨⟨a, b⟩, h1, h⟩ := ok_of_bind h
  obtain ⟨⟨a1, a2⟩, h2, h⟩ := ok_of_bind h
  obtain ⟨⟨b1, b2⟩, h3, h⟩ := ok_of_bind h
  cases h
  obtain ⟨⟨e1, e2⟩, e3, e4⟩ := splitU_degrees h1
  obtain ⟨⟨f1, f2⟩, f3, f4⟩ := splitV_degrees h2
  obtain ⟨⟨g1, g2⟩, g3, g4⟩ := splitV_degrees h3
  intro x hx
  simp only [List.mem_cons, List.not_mem_nil, or_false] at hx
  rcases hx with rfl | rfl | rfl | rfl
  · exact ⟨f1.trans e1, f2.trans e2⟩
  · exact ⟨f3.trans e1, f4.trans e2⟩
  · exact ⟨g1.trans e3, g2.trans e4⟩
  · exact ⟨g3.trans e3, g4.trans e4⟩

/-- **C91** (partial: the claim that every common point is reported is false, see the counterexamples; this is what holds instead). Let `convex_hull3d`
lose no control point of any part of the surfaces. Every common point of the two surfaces lies in a pair of parts of which one of the following is true: a point within the tolerance of it was
reported with parameters in these parts; the boxes of the parts have an overlap with a side of at most the tolerance or a volume less than it; or the pair was
handed to the boundary search, and the first and last boundary point were reported if there were two. -/
theorem C91_complete_partial (env : Env K) (tol : K) (ht : 0 ≤ tol) (h0 : env.sqrt 0 = 0)
    (s1 s2 : Surface K) (S1 : PositivePatch s1) (S2 : PositivePatch s2) (hh1 : HullKeeps env s1) (hh2 : HullKeeps env s2) (u v s t : K) (p : Vec3 K) (i1 : Inside s1 u v) (i2 : Inside s2 s t)
    (e1 : s1.evaluate u v = .ok p) (e2 : s2.evaluate s t = .ok p) :
    ∀ (fuel : Nat) (g1 g2 : Surface K) (acc r : Found K), detect env tol fuel s1 s2 g1 g2 acc = some (.ok r) →
    ∃ a b, (Part s1 a ∧ PositivePatch a ∧ Inside a u v) ∧ (Part s2 b ∧ PositivePatch b ∧ Inside b s t) ∧
      ((∃ x ∈ r.points, Inside a x.uv1.1 x.uv1.2 ∧ Inside b x.uv2.1 x.uv2.2 ∧ Near tol p x.xyz) ∨
       (∃ b1 b2, a.bbox = .ok b1 ∧ b.bbox = .ok b2 ∧ ThinOverlap tol b1 b2) ∨
       (∃ l, Bnd.findBoundaryIntersections (env.csx tol) a b [] = .ok l ∧
         (2 ≤ l.length → ∃ x ∈ r.patches, l.head? = some x.1 ∧ l.getLast? = some x.2))) := by
  intro fuel
  have main : ∀ (fuel : Nat) (a b ga gb : Surface K) (acc r : Found K), Met s1 s2 a b → (a.du = s1.du ∧ a.dv = s1.dv) → (b.du = s2.du ∧ b.dv = s2.dv) →
      Inside a u v → Inside b s t → detect env tol fuel a b ga gb acc = some (.ok r) →
      ∃ a b, (Part s1 a ∧ PositivePatch a ∧ Inside a u v) ∧ (Part s2 b ∧ PositivePatch b ∧ Inside b s t) ∧
      ((∃ x ∈ r.points, Inside a x.uv1.1 x.uv1.2 ∧ Inside b x.uv2.1 x.uv2.2 ∧ Near tol p x.xyz) ∨
       (∃ b1 b2, a.bbox = .ok b1 ∧ b.bbox = .ok b2 ∧ ThinOverlap tol b1 b2) ∨
       (∃ l, Bnd.findBoundaryIntersections (env.csx tol) a b [] = .ok l ∧
         (2 ≤ l.length → ∃ x ∈ r.patches, l.head? = some x.1 ∧ l.getLast? = some x.2))) := by
    intro fuel
    induction fuel with
    | zero => intro _ _ _ _ _ _ _ _ _ _ _ h; cases h
    | succ fuel ih =>
      intro a b ga gb acc r M D1 D2 ia ib h
      obtain ⟨⟨m1, w1⟩, m2, w2⟩ := M
      have A : Part s1 a ∧ PositivePatch a ∧ Inside a u v := ⟨m1.part, ⟨m1.1.valid, m1.1.interval, m1.1.bezier, w1⟩, ia⟩
      have B : Part s2 b ∧ PositivePatch b ∧ Inside b s t := ⟨m2.part, ⟨m2.1.valid, m2.1.interval, m2.1.bezier, w2⟩, ib⟩
      rw [detect] at h
      obtain ⟨b1, f1, h⟩ := andThen_ok h
      obtain ⟨b2, f2, h⟩ := andThen_ok h
      have f1 := Option.some.inj f1
      have f2 := Option.some.inj f2
      obtain ⟨p1, hp1, hin1⟩ := piece_box m1 w1 f1 ia
      obtain ⟨p2, hp2, hin2⟩ := piece_box m2 w2 f2 ib
      obtain rfl : p1 = p := by rw [e1] at hp1; exact (Res.ok.inj hp1).symm
      obtain rfl : p2 = p1 := by rw [e2] at hp2; exact (Res.ok.inj hp2).symm
      have hi : b1.intersects b2 = true := (C08_intersects_iff_common_point b1 b2 (box_valid hin1) (box_valid hin2)).2 ⟨_, hin1, hin2⟩
      rw [if_neg (by simp [hi])] at h
      split at h
      · rename_i hs
        rw [Bool.and_eq_true] at hs
        cases h
        refine ⟨a, b, A, B, Or.inl ⟨midHit a b b1 b2, by simp, mid_inside m1.1, mid_inside m2.1, near_of_boxes a b hin1 hs.1 hs.2 hi (box_valid hin2)⟩⟩
      split at h
      · rename_i hthin
        refine ⟨a, b, A, B, Or.inr (Or.inl ⟨b1, b2, f1, f2, ?_⟩)⟩
        rw [intersection_snd_true _ hi] at hthin
        unfold thinBox at hthin
        simp only [Bool.or_eq_true, decide_eq_true_eq, AABB.volume] at hthin
        unfold ThinOverlap
        rcases hthin with ((hthin | hthin) | hthin) | hthin
        · exact Or.inr (Or.inr (Or.inr (of_decide_eq_true hthin)))
        · exact Or.inl (le_trans (le_abs_self _) hthin)
        · exact Or.inr (Or.inl (le_trans (le_abs_self _) hthin))
        · exact Or.inr (Or.inr (Or.inl (le_trans (le_abs_self _) hthin)))
      obtain ⟨l1, k1, h⟩ := andThen_ok h
      obtain ⟨l2, k2, h⟩ := andThen_ok h
      obtain ⟨apart, k3, h⟩ := andThen_ok h
      have k1 := Option.some.inj k1
      have k2 := Option.some.inj k2
      have k3 := Option.some.inj k3
      split at h
      · rename_i ha
        subst ha
        exfalso
        obtain ⟨x1, hx1, hc1⟩ := evaluate_hull m1.1.valid w1 k1 ((inside_dom m1.1).1 ia)
        obtain ⟨x2, hx2, hc2⟩ := evaluate_hull m2.1.valid w2 k2 ((inside_dom m2.1).1 ib)
        rw [m1.part.2 u v ia, hp1] at hx1
        rw [m2.part.2 s t ib, hp2] at hx2
        obtain rfl := Res.ok.inj hx1
        obtain rfl := Res.ok.inj hx2
        exact (Sep.C51_sat3d_sound env.hull3 (fun v => env.sqrt v.sqLength) (by
          have : (0 : Vec3 K).sqLength = 0 := by simp [Vec3.sqLength]
          simp only [this, h0]) tol ht l1 l2 (hh1 a A.1 A.2.1 D1 l1 k1) (hh2 b B.1 B.2.1 D2 l2 k2)).2.2 k3 _ ⟨hc1, hc2⟩
      obtain ⟨simple, es, h⟩ := andThen_ok h
      split at h
      · obtain ⟨pat, ep, h⟩ := andThen_ok h
        cases h
        obtain ⟨l, el, hl⟩ := processSimple_cases (Option.some.inj ep)
        refine ⟨a, b, A, B, Or.inr (Or.inr ⟨l, el, fun h2 => ?_⟩)⟩
        rcases hl with ⟨h3, _⟩ | ⟨_, x, y, hx, hy, rfl⟩
        · omega
        · exact ⟨(x, y), by simp, hx, hy⟩
      · obtain ⟨q1, c1, h⟩ := andThen_ok h
        obtain ⟨q2, c2, h⟩ := andThen_ok h
        obtain ⟨h1, c3, h⟩ := andThen_ok h
        obtain ⟨h2, c4, h⟩ := andThen_ok h
        have c1 := Option.some.inj c1
        have c2 := Option.some.inj c2
        obtain ⟨x, hx, ix⟩ := subdivide_covers m1.1 c1 ia
        obtain ⟨y, hy, iy⟩ := subdivide_covers m2.1 c2 ib
        have four : ∀ (q h : Surface K × Surface K × Surface K × Surface K) x, x ∈ [q.1, q.2.1, q.2.2.1, q.2.2.2] →
            ∃ g, (x, g) ∈ fourParts q h := by
          intro q h x hx
          simp only [List.mem_cons, List.not_mem_nil, or_false] at hx
          rcases hx with rfl | rfl | rfl | rfl
          · exact ⟨h.1, by simp [fourParts]⟩
          · exact ⟨h.2.1, by simp [fourParts]⟩
          · exact ⟨h.2.2.1, by simp [fourParts]⟩
          · exact ⟨h.2.2.2, by simp [fourParts]⟩
        obtain ⟨gx, hgx⟩ := four q1 h1 x hx
        obtain ⟨gy, hgy⟩ := four q2 h2 y hy
        have hj : (x, y, gx, gy) ∈ jobs (fourParts q1 h1) (fourParts q2 h2) := mem_jobs.2 ⟨hgx, hgy⟩
        obtain ⟨acc1, acc2, hr, hext⟩ := forJobs_mem _ _ _ (fun j _ acc r hr => detect_grows fuel _ _ _ _ acc r hr) h _ hj
        obtain ⟨a', b', A', B', hc⟩ := ih x y gx gy acc1 acc2 (met_sub ⟨⟨m1, w1⟩, m2, w2⟩ c1 c2 hj)
          (by rw [(subdivide_degrees c1 x hx).1, (subdivide_degrees c1 x hx).2]; exact D1)
          (by rw [(subdivide_degrees c2 y hy).1, (subdivide_degrees c2 y hy).2]; exact D2) ix iy hr
        obtain ⟨np, na, n1, n2, -, -⟩ := hext
        refine ⟨a', b', A', B', ?_⟩
        rcases hc with ⟨z, hz, hz'⟩ | hc | ⟨l, el, hl⟩
        · exact Or.inl ⟨z, by rw [n1]; exact List.mem_append_left _ hz, hz'⟩
        · exact Or.inr (Or.inl hc)
        · refine Or.inr (Or.inr ⟨l, el, fun h2 => ?_⟩)
          obtain ⟨z, hz, hz'⟩ := hl h2
          exact ⟨z, by rw [n2]; exact List.mem_append_left _ hz, hz'⟩
  intro g1 g2 acc r h
  exact main fuel s1 s2 g1 g2 acc r ⟨⟨SurfPiece.refl S1.bez, S1.positive⟩, SurfPiece.refl S2.bez, S2.positive⟩ ⟨rfl, rfl⟩ ⟨rfl, rfl⟩ i1 i2 h

/-! ### Whole surfaces -/

omit [FloorRing K] in
theorem decompose_parts {s : Surface K} (S : ClampedSurface s) : ∃ l, s.decompose [] = .ok l ∧
    (∀ q ∈ l, Part s q ∧ PositivePatch q) ∧ (∀ u v, Inside s u v → ∃ q ∈ l, Inside q u v) ∧ ∀ q ∈ l, q.du = s.du ∧ q.dv = s.dv := by
  obtain ⟨a, ks, b, Ru⟩ := S.knots_u
  obtain ⟨c, ls, d, Rv⟩ := S.knots_v
  have ht : (0 : K) ≤ 1 / 10 ^ 7 := by positivity
  obtain ⟨grid, hg, hlen, hall⟩ := C86_surface s S.valid a b ks Ru c d ls Rv []
  obtain ⟨-, -, iu0, iu1, iv0, iv1⟩ := interval_eq S.interval
  obtain ⟨-, -, u3, u4⟩ := Ru.domain ht S.valid.knots_u.len
  obtain ⟨-, -, v3, v4⟩ := Rv.domain ht S.valid.knots_v.len
  rw [u3] at iu0
  rw [u4] at iu1
  rw [v3] at iv0
  rw [v4] at iv1
  refine ⟨grid.flatten, by rw [hg, List.nil_append], ?_, ?_, ?_⟩
  · intro q hq
    obtain ⟨row, hrow, hq⟩ := List.mem_flatten.1 hq
    obtain ⟨i, hi, rfl⟩ := List.mem_iff_getElem.1 hrow
    obtain ⟨row, r1, r2, r3⟩ := hall i (by omega)
    rw [List.getElem?_eq_getElem hi] at r1
    rw [Option.some.inj r1] at hq
    obtain ⟨j, hj, rfl⟩ := List.mem_iff_getElem.1 hq
    obtain ⟨q, ulo, uhi, vlo, vhi, f1, n1, n2, B⟩ := r3 j (by omega)
    rw [List.getElem?_eq_getElem hj] at f1
    obtain rfl := Option.some.inj f1
    obtain ⟨-, x1, x2⟩ := neighbours_between ht Ru n1
    obtain ⟨-, x3, x4⟩ := neighbours_between ht Rv n2
    obtain ⟨k1, k2, k3, k4⟩ := B.interval
    obtain ⟨e1, e2⟩ := bezier_ends (p := s.du) ulo uhi
    obtain ⟨e3, e4⟩ := bezier_ends (p := s.dv) vlo vhi
    refine ⟨⟨⟨⟨?_, ?_⟩, ?_, ?_⟩, fun u v h => B.same u v ((B.domain u v).2 ?_)⟩, B.valid, ?_, ?_, (B.net S.positive).1⟩
    · rw [iu0, k1]; exact x1
    · rw [iu1, k2]; exact x2
    · rw [iv0, k3]; exact x3
    · rw [iv1, k4]; exact x4
    · unfold Inside at h; rw [k1, k2, k3, k4] at h; exact h
    · unfold SurfIntervalOk
      rw [surf_updateInterval B.valid.knots_u.ne_nil B.valid.knots_v.ne_nil, B.knots_u, B.knots_v, e1, e2, e3, e4, ← k1, ← k2, ← k3, ← k4]
      congr 1
      generalize row[j] = q at *
      have h1 := B.knots_u
      have h2 := B.knots_v
      rw [← k1, ← k2] at h1
      rw [← k3, ← k4] at h2
      rw [← h1, ← h2]
    · refine ⟨?_, ?_, ?_, ?_⟩
      · rw [B.degree.1, k1, k2]; exact B.knots_u
      · rw [B.degree.1]; exact B.size.1
      · rw [B.degree.2, k3, k4]; exact B.knots_v
      · rw [B.degree.2]; exact B.size.2
  · intro u v h
    unfold Inside at h
    rw [iu0, iu1, iv0, iv1] at h
    obtain ⟨i, lo, hi, hi', e, h1, h2⟩ := neighbours_cover ks a b h.1.1 h.1.2
    obtain ⟨j, lo', hi'', hj', e', h1', h2'⟩ := neighbours_cover ls c d h.2.1 h.2.2
    obtain ⟨row, r1, r2, r3⟩ := hall i hi'
    obtain ⟨q, ulo, uhi, vlo, vhi, f1, n1, n2, B⟩ := r3 j hj'
    obtain rfl : ulo = lo := Option.some.inj (n1.1.symm.trans e.1)
    obtain rfl : uhi = hi := Option.some.inj (n1.2.symm.trans e.2)
    obtain rfl : vlo = lo' := Option.some.inj (n2.1.symm.trans e'.1)
    obtain rfl : vhi = hi'' := Option.some.inj (n2.2.symm.trans e'.2)
    refine ⟨q, List.mem_flatten.2 ⟨row, List.mem_of_getElem? r1, List.mem_of_getElem? f1⟩, ?_⟩
    obtain ⟨k1, k2, k3, k4⟩ := B.interval
    unfold Inside
    rw [k1, k2, k3, k4]
    exact ⟨⟨h1, h2⟩, h1', h2'⟩
  · intro q hq
    obtain ⟨row, hrow, hq⟩ := List.mem_flatten.1 hq
    obtain ⟨i, hi, rfl⟩ := List.mem_iff_getElem.1 hrow
    obtain ⟨row, r1, r2, r3⟩ := hall i (by omega)
    rw [List.getElem?_eq_getElem hi] at r1
    rw [Option.some.inj r1] at hq
    obtain ⟨j, hj, rfl⟩ := List.mem_iff_getElem.1 hq
    obtain ⟨q, ulo, uhi, vlo, vhi, f1, n1, n2, B⟩ := r3 j (by omega)
    rw [List.getElem?_eq_getElem hj] at f1
    obtain rfl := Option.some.inj f1
    exact B.degree

omit [Field K] [LinearOrder K] [IsStrictOrderedRing K] [FloorRing K] in
theorem mapRes_zip {A B : Type} {f : A → Res B} : ∀ {l : List A} {m : List B}, mapRes f l = .ok m →
    (∀ x ∈ l.zip m, f x.1 = .ok x.2) ∧ ∀ a ∈ l, ∃ b, (a, b) ∈ l.zip m
  | [], m, h => by simp
  | a :: l, m, h => by
    rw [mapRes] at h
    obtain ⟨b, h1, h⟩ := ok_of_bind h
    obtain ⟨bs, h2, h⟩ := ok_of_bind h
    cases h
    obtain ⟨i1, i2⟩ := mapRes_zip h2
    constructor
    · intro x hx
      rcases List.mem_cons.1 hx with rfl | hx
      · exact h1
      · exact i1 x hx
    · intro x hx
      rcases List.mem_cons.1 hx with rfl | hx
      · exact ⟨b, by simp⟩
      · obtain ⟨y, hy⟩ := i2 x hx
        exact ⟨y, by simp [hy]⟩

omit [IsStrictOrderedRing K] in
theorem findStart_ok {env : Env K} {tol : K} {fuel : Nat} {s1 s2 : Surface K} {acc r : Found K} (h : findStart env tol fuel s1 s2 acc = some (.ok r)) :
    ∃ l1 l2 g1 g2, s1.decompose [] = .ok l1 ∧ s2.decompose [] = .ok l2 ∧ mapRes gaussMap l1 = .ok g1 ∧ mapRes gaussMap l2 = .ok g2 ∧
      forJobs (detect env tol fuel) (jobs (l1.zip g1) (l2.zip g2)) acc = some (.ok r) := by
  unfold findStart at h
  obtain ⟨l1, h1, h⟩ := andThen_ok h
  obtain ⟨l2, h2, h⟩ := andThen_ok h
  obtain ⟨g1, h3, h⟩ := andThen_ok h
  obtain ⟨g2, h4, h⟩ := andThen_ok h
  exact ⟨l1, l2, g1, g2, Option.some.inj h1, Option.some.inj h2, Option.some.inj h3, Option.some.inj h4, h⟩

/-- **C91**: the points reported for two clamped surfaces with positive weights have parameters inside both surfaces, and both surfaces are within the
tolerance of the reported point there, in every coordinate. -/
theorem C91_start_points_genuine (env : Env K) (tol : K) (fuel : Nat) (s1 s2 : Surface K) (S1 : ClampedSurface s1) (S2 : ClampedSurface s2)
    (acc r : Found K) (h : findStart env tol fuel s1 s2 acc = some (.ok r)) :
    ∃ new, r.points = acc.points ++ new ∧ ∀ x ∈ new, Inside s1 x.uv1.1 x.uv1.2 ∧ Inside s2 x.uv2.1 x.uv2.2 ∧
      ∃ p q, s1.evaluate x.uv1.1 x.uv1.2 = .ok p ∧ s2.evaluate x.uv2.1 x.uv2.2 = .ok q ∧ Near tol p x.xyz ∧ Near tol q x.xyz := by
  obtain ⟨l1, l2, g1, g2, e1, e2, e3, e4, h⟩ := findStart_ok h
  obtain ⟨l1', f1, P1, -⟩ := decompose_parts S1
  obtain ⟨l2', f2, P2, -⟩ := decompose_parts S2
  rw [e1] at f1
  rw [e2] at f2
  obtain rfl := Res.ok.inj f1
  obtain rfl := Res.ok.inj f2
  have key : Extends (fun x : PointHit K => Inside s1 x.uv1.1 x.uv1.2 ∧ Inside s2 x.uv2.1 x.uv2.2 ∧
      ∃ p q, s1.evaluate x.uv1.1 x.uv1.2 = .ok p ∧ s2.evaluate x.uv2.1 x.uv2.2 = .ok q ∧ Near tol p x.xyz ∧ Near tol q x.xyz)
      (fun _ => True) acc r := by
    refine forJobs_extends _ _ _ (fun j hj acc r hr => ?_) h
    obtain ⟨m1, m2⟩ := mem_jobs.1 hj
    obtain ⟨p1, q1⟩ := P1 _ (List.of_mem_zip m1).1
    obtain ⟨p2, q2⟩ := P2 _ (List.of_mem_zip m2).1
    obtain ⟨np, en, hn⟩ := C91_points_genuine env tol fuel _ _ _ _ q1 q2 acc r hr
    obtain ⟨_, na, _, ea, _, _⟩ := detect_grows fuel _ _ _ _ acc r hr
    refine ⟨np, na, en, ea, fun x hx => ?_, fun _ _ => trivial⟩
    obtain ⟨i1, i2, p, q, ep, eq, n1, n2⟩ := hn x hx
    exact ⟨p1.inside i1, p2.inside i2, p, q, by rw [← p1.2 _ _ i1]; exact ep, by rw [← p2.2 _ _ i2]; exact eq, n1, n2⟩
  obtain ⟨np, -, en, -, hn, -⟩ := key
  exact ⟨np, en, hn⟩

/-- **C91**: the search ends for all clamped surfaces. -/
theorem C91_start_terminates (env : Env K) (tol : K) (n : Nat) (s1 s2 : Surface K) (S1 : ClampedSurface s1) (hn : s1.u1 - s1.u0 < n * (1 / 10 ^ 7))
    (acc : Found K) : findStart env tol (n + 1) s1 s2 acc ≠ none := by
  obtain ⟨l1, f1, P1, -⟩ := decompose_parts S1
  unfold findStart
  refine andThen_ne_none (by simp) fun l e => andThen_ne_none (by simp) fun l2 _ => andThen_ne_none (by simp) fun g1 _ =>
    andThen_ne_none (by simp) fun g2 _ => ?_
  have e := Option.some.inj e
  rw [f1] at e
  obtain rfl := Res.ok.inj e
  refine forJobs_ne _ _ fun j hj acc => ?_
  obtain ⟨p1, q1⟩ := P1 _ (List.of_mem_zip (mem_jobs.1 hj).1).1
  refine C91_terminates env tol n _ _ _ _ acc q1.interval ?_
  have := p1.1.1
  linarith

/-- **C91** (partial, as `C91_complete_partial`) for clamped surfaces. -/
theorem C91_start_complete_partial (env : Env K) (tol : K) (ht : 0 ≤ tol) (h0 : env.sqrt 0 = 0)
    (s1 s2 : Surface K) (S1 : ClampedSurface s1) (S2 : ClampedSurface s2) (hh1 : HullKeeps env s1) (hh2 : HullKeeps env s2)
    (u v s t : K) (p : Vec3 K) (i1 : Inside s1 u v) (i2 : Inside s2 s t) (e1 : s1.evaluate u v = .ok p) (e2 : s2.evaluate s t = .ok p)
    (fuel : Nat) (acc r : Found K) (h : findStart env tol fuel s1 s2 acc = some (.ok r)) :
    ∃ a b, (Part s1 a ∧ PositivePatch a ∧ Inside a u v) ∧ (Part s2 b ∧ PositivePatch b ∧ Inside b s t) ∧
      ((∃ x ∈ r.points, Inside a x.uv1.1 x.uv1.2 ∧ Inside b x.uv2.1 x.uv2.2 ∧ Near tol p x.xyz) ∨
       (∃ b1 b2, a.bbox = .ok b1 ∧ b.bbox = .ok b2 ∧ ThinOverlap tol b1 b2) ∨
       (∃ l, Bnd.findBoundaryIntersections (env.csx tol) a b [] = .ok l ∧
         (2 ≤ l.length → ∃ x ∈ r.patches, l.head? = some x.1 ∧ l.getLast? = some x.2))) := by
  obtain ⟨l1, l2, g1, g2, c1, c2, c3, c4, h⟩ := findStart_ok h
  obtain ⟨l1', f1, P1, Q1, D1⟩ := decompose_parts S1
  obtain ⟨l2', f2, P2, Q2, D2⟩ := decompose_parts S2
  rw [c1] at f1
  rw [c2] at f2
  obtain rfl := Res.ok.inj f1
  obtain rfl := Res.ok.inj f2
  obtain ⟨x, hx, ix⟩ := Q1 u v i1
  obtain ⟨y, hy, iy⟩ := Q2 s t i2
  obtain ⟨gx, hgx⟩ := (mapRes_zip c3).2 x hx
  obtain ⟨gy, hgy⟩ := (mapRes_zip c4).2 y hy
  have hj : (x, y, gx, gy) ∈ jobs (l1.zip g1) (l2.zip g2) := mem_jobs.2 ⟨hgx, hgy⟩
  obtain ⟨acc1, acc2, hr, hext⟩ := forJobs_mem _ _ _ (fun j _ acc r hr => detect_grows fuel _ _ _ _ acc r hr) h _ hj
  obtain ⟨p1, q1⟩ := P1 x hx
  obtain ⟨p2, q2⟩ := P2 y hy
  obtain ⟨a, b, ⟨A1, A2, A3⟩, ⟨B1, B2, B3⟩, hc⟩ := C91_complete_partial env tol ht h0 x y q1 q2 (hh1.part p1 (D1 x hx)) (hh2.part p2 (D2 y hy)) u v s t p ix iy (by rw [p1.2 _ _ ix]; exact e1)
    (by rw [p2.2 _ _ iy]; exact e2) fuel gx gy acc1 acc2 hr
  obtain ⟨np, na, n1, n2, -, -⟩ := hext
  refine ⟨a, b, ⟨p1.trans A1, A2, A3⟩, ⟨p2.trans B1, B2, B3⟩, ?_⟩
  rcases hc with ⟨z, hz, hz'⟩ | hc | ⟨l, el, hl⟩
  · exact Or.inl ⟨z, by rw [n1]; exact List.mem_append_left _ hz, hz'⟩
  · exact Or.inr (Or.inl hc)
  · refine Or.inr (Or.inr ⟨l, el, fun h2 => ?_⟩)
    obtain ⟨z, hz, hz'⟩ := hl h2
    exact ⟨z, by rw [n2]; exact List.mem_append_left _ hz, hz'⟩

omit [FloorRing K] in
/-- The Gauss map of a patch of degrees 1 to 4 is again a patch with positive weights. -/
theorem gaussMap_patch {s : Surface K} (S : PositivePatch s) (hu : s.du ≤ 4) (hv : s.dv ≤ 4) :
    ∃ g, gaussMap s = .ok g ∧ PositivePatch g := by
  have b1 := S.bezier.2.1
  have b2 := S.bezier.2.2.2
  have d1 := S.valid.knots_u.deg_pos
  have d2 := S.valid.knots_v.deg_pos
  obtain ⟨g, h1, ⟨h2, h3⟩, ⟨h4, h5⟩, h6, h7, h8, h9, ⟨i1, i2, i3, i4⟩, hw⟩ := gaussMap_shape s ⟨by omega, by omega⟩ ⟨by omega, by omega⟩ S.valid.rows
    S.valid.cols (fun r hr p hp => ne_of_gt (S.positive r hr p hp))
  have e1 : g.du + 1 = g.su := by omega
  have e2 : g.dv + 1 = g.sv := by omega
  have kn : ∀ m : Nat, 1 ≤ m → m ≤ 7 → ValidKnots (m + 1) m (List.replicate (m + 1) (0 : K) ++ List.replicate (m + 1) 1) := by
    intro m h1 h2
    refine ⟨h1, by omega, by omega, by simp; omega, ?_, ?_⟩
    · unfold SortedKnots
      rw [List.pairwise_append]
      refine ⟨List.pairwise_replicate.2 (Or.inr (le_refl _)), List.pairwise_replicate.2 (Or.inr (le_refl _)), ?_⟩
      intro x hx y hy
      rw [List.eq_of_mem_replicate hx, List.eq_of_mem_replicate hy]
      exact zero_le_one
    · rw [Ccx.ix_bezier _ (by omega), Ccx.ix_bezier _ (by omega), if_pos (by omega), if_neg (by omega)]
      exact zero_lt_one
  have V : ValidSurface g := by
    refine ⟨h6, h7, ?_, ?_⟩
    · rw [h8, ← e1]; exact kn g.du (by omega) (by omega)
    · rw [h9, ← e2]; exact kn g.dv (by omega) (by omega)
  obtain ⟨x1, x2⟩ := bezier_ends (p := g.du) (0 : K) 1
  obtain ⟨y1, y2⟩ := bezier_ends (p := g.dv) (0 : K) 1
  rw [← e1] at h8
  rw [← e2] at h9
  refine ⟨g, h1, V, ?_, ⟨by rw [i1, i2]; exact h8, e1.symm, by rw [i3, i4]; exact h9, e2.symm⟩, fun r hr p hp => ?_⟩
  · unfold SurfIntervalOk
    rw [surf_updateInterval V.knots_u.ne_nil V.knots_v.ne_nil]
    congr 1
    rw [← h8] at x1 x2
    rw [← h9] at y1 y2
    rw [x1, x2, y1, y2]
    obtain ⟨_, _, _, _, _, _, _, _, _, _, _⟩ := g
    simp only [Surface.mk.injEq] at *
    simp only [i1, i2, i3, i4, and_self]
  · rw [hw r hr p hp]; exact zero_lt_one

/-- **C91**: every patch reported for two clamped surfaces of degrees at most 4 comes from parts of two of their Bézier patches whose parts of the Gauss
maps (C89), over the same shares of the rectangles, pass the separability test; it consists of the first and the last of at least two points of the
intersection of the borders of the parts. -/
theorem C91_start_patches (env : Env K) (tol : K) (fuel : Nat) (s1 s2 : Surface K) (S1 : ClampedSurface s1) (S2 : ClampedSurface s2)
    (d1 : s1.du ≤ 4 ∧ s1.dv ≤ 4) (d2 : s2.du ≤ 4 ∧ s2.dv ≤ 4) (acc r : Found K) (h : findStart env tol fuel s1 s2 acc = some (.ok r)) :
    ∃ new, r.patches = acc.patches ++ new ∧ ∀ x ∈ new, ∃ q1 q2 g1 g2, Part s1 q1 ∧ Part s2 q2 ∧ gaussMap q1 = .ok g1 ∧ gaussMap q2 = .ok g2 ∧
      ∃ a b ga gb l, (Part q1 a ∧ PositivePatch a) ∧ (Part q2 b ∧ PositivePatch b) ∧
      (Part g1 ga ∧ SameShare q1 g1 a ga) ∧ (Part g2 gb ∧ SameShare q2 g2 b gb) ∧ gaussMapSeparability env ga gb = .ok true ∧
      Bnd.findBoundaryIntersections (env.csx tol) a b [] = .ok l ∧ 2 ≤ l.length ∧ l.head? = some x.1 ∧ l.getLast? = some x.2 := by
  obtain ⟨l1, l2, g1, g2, e1, e2, e3, e4, h⟩ := findStart_ok h
  have deg : ∀ {s : Surface K} (S : ClampedSurface s) {l : List (Surface K)}, s.decompose [] = .ok l → ∀ q ∈ l, Part s q ∧ PositivePatch q ∧
      q.du = s.du ∧ q.dv = s.dv := by
    intro s S l e q hq
    obtain ⟨l', f, P, -⟩ := decompose_parts S
    rw [e] at f
    obtain rfl := Res.ok.inj f
    refine ⟨(P q hq).1, (P q hq).2, ?_⟩
    obtain ⟨a, ks, b, Ru⟩ := S.knots_u
    obtain ⟨c, ls, d, Rv⟩ := S.knots_v
    obtain ⟨grid, hg, hlen, hall⟩ := C86_surface s S.valid a b ks Ru c d ls Rv []
    rw [e, List.nil_append] at hg
    rw [Res.ok.inj hg] at hq
    obtain ⟨row, hrow, hq⟩ := List.mem_flatten.1 hq
    obtain ⟨i, hi, rfl⟩ := List.mem_iff_getElem.1 hrow
    obtain ⟨row, r1, r2, r3⟩ := hall i (by omega)
    rw [List.getElem?_eq_getElem hi] at r1
    rw [Option.some.inj r1] at hq
    obtain ⟨j, hj, rfl⟩ := List.mem_iff_getElem.1 hq
    obtain ⟨q, ulo, uhi, vlo, vhi, f1, n1, n2, B⟩ := r3 j (by omega)
    rw [List.getElem?_eq_getElem hj] at f1
    rw [Option.some.inj f1]
    exact B.degree
  have key : Extends (fun _ => True) (fun x : Bnd.Point K × Bnd.Point K => ∃ q1 q2 g1 g2, Part s1 q1 ∧ Part s2 q2 ∧ gaussMap q1 = .ok g1 ∧
      gaussMap q2 = .ok g2 ∧ ∃ a b ga gb l, (Part q1 a ∧ PositivePatch a) ∧ (Part q2 b ∧ PositivePatch b) ∧
      (Part g1 ga ∧ SameShare q1 g1 a ga) ∧ (Part g2 gb ∧ SameShare q2 g2 b gb) ∧ gaussMapSeparability env ga gb = .ok true ∧
      Bnd.findBoundaryIntersections (env.csx tol) a b [] = .ok l ∧ 2 ≤ l.length ∧ l.head? = some x.1 ∧ l.getLast? = some x.2) acc r := by
    refine forJobs_extends _ _ _ (fun j hj acc r hr => ?_) h
    obtain ⟨m1, m2⟩ := mem_jobs.1 hj
    obtain ⟨p1, q1, t1, t2⟩ := deg S1 e1 _ (List.of_mem_zip m1).1
    obtain ⟨p2, q2, t3, t4⟩ := deg S2 e2 _ (List.of_mem_zip m2).1
    have x1 := (mapRes_zip e3).1 _ m1
    have x2 := (mapRes_zip e4).1 _ m2
    obtain ⟨y1, z1, G1⟩ := gaussMap_patch q1 (by rw [t1]; exact d1.1) (by rw [t2]; exact d1.2)
    obtain ⟨y2, z2, G2⟩ := gaussMap_patch q2 (by rw [t3]; exact d2.1) (by rw [t4]; exact d2.2)
    dsimp only at x1 x2
    obtain rfl := Res.ok.inj (z1.symm.trans x1)
    obtain rfl := Res.ok.inj (z2.symm.trans x2)
    obtain ⟨na, en, hn⟩ := C91_patches env tol fuel _ _ _ _ q1 q2 G1 G2 acc r hr
    obtain ⟨np, _, ep, _, _, _⟩ := detect_grows fuel _ _ _ _ acc r hr
    exact ⟨np, na, ep, en, fun _ _ => trivial, fun x hx => ⟨_, _, _, _, p1, p2, z1, z2, hn x hx⟩⟩
  obtain ⟨-, na, -, en, -, hn⟩ := key
  exact ⟨na, en, hn⟩

theorem bilinear_patch (a b c d : Vec4 ℚ) (h : 0 < a.w ∧ 0 < b.w ∧ 0 < c.w ∧ 0 < d.w) : PositivePatch (bilinear a b c d) := by
  refine ⟨⟨rfl, by simp [bilinear], ?_, ?_⟩, rfl, ⟨rfl, rfl, rfl, rfl⟩, ?_⟩
  · exact ⟨by simp [bilinear], by simp [bilinear], by simp [bilinear], rfl, by unfold SortedKnots; simp [bilinear], by simp [bilinear, ix]⟩
  · exact ⟨by simp [bilinear], by simp [bilinear], by simp [bilinear], rfl, by unfold SortedKnots; simp [bilinear], by simp [bilinear, ix]⟩
  · intro r hr p hp
    simp only [bilinear, List.mem_cons, List.not_mem_nil, or_false] at hr
    rcases hr with rfl | rfl <;> simp only [List.mem_cons, List.not_mem_nil, or_false] at hp <;> rcases hp with rfl | rfl
    · exact h.1
    · exact h.2.1
    · exact h.2.2.1
    · exact h.2.2.2

omit [IsStrictOrderedRing K] in
theorem detect_thin {env : Env K} {tol : K} {fuel : Nat} {s1 s2 g1 g2 : Surface K} {acc : Found K} {b1 b2 : AABB K} (e1 : s1.bbox = .ok b1)
    (e2 : s2.bbox = .ok b2) (hi : b1.intersects b2 = true) (hs : (smallBox tol b1 && smallBox tol b2) = false)
    (ht : thinBox tol (⟨⟨max b1.min.x b2.min.x, max b1.min.y b2.min.y, max b1.min.z b2.min.z⟩,
      ⟨min b1.max.x b2.max.x, min b1.max.y b2.max.y, min b1.max.z b2.max.z⟩⟩ : AABB K) = true) :
    detect env tol (fuel + 1) s1 s2 g1 g2 acc = some (.ok acc) := by
  rw [detect, e1, e2]
  simp only [Ccx.andThen]
  rw [if_neg (by simp [hi]), if_neg (by simp [hs]), intersection_snd_true _ hi, if_pos ht]

omit [IsStrictOrderedRing K] in
/-- **C91**: two surfaces whose boxes meet and have no side longer than the tolerance are reported as one point: the middles of the parameter rectangles and
the middle between the centres of the boxes. Surfaces with boxes apart report nothing. -/
theorem C91_small_pair (env : Env K) (tol : K) (fuel : Nat) (s1 s2 g1 g2 : Surface K) (acc : Found K) (b1 b2 : AABB K) (e1 : s1.bbox = .ok b1)
    (e2 : s2.bbox = .ok b2) :
    (b1.intersects b2 = false → detect env tol (fuel + 1) s1 s2 g1 g2 acc = some (.ok acc)) ∧
    (b1.intersects b2 = true → (∀ b ∈ [b1, b2], b.max.x - b.min.x ≤ tol ∧ b.max.y - b.min.y ≤ tol ∧ b.max.z - b.min.z ≤ tol) →
      ∃ h, detect env tol (fuel + 1) s1 s2 g1 g2 acc = some (.ok ⟨acc.patches, acc.points ++ [h]⟩) ∧
        h.uv1 = ((s1.u0 + s1.u1) / 2, (s1.v0 + s1.v1) / 2) ∧ h.uv2 = ((s2.u0 + s2.u1) / 2, (s2.v0 + s2.v1) / 2) ∧
        h.xyz = ⟨(b1.min.x + b1.max.x + b2.min.x + b2.max.x) / 4, (b1.min.y + b1.max.y + b2.min.y + b2.max.y) / 4,
          (b1.min.z + b1.max.z + b2.min.z + b2.max.z) / 4⟩) := by
  rw [detect, e1, e2]
  simp only [Ccx.andThen]
  constructor
  · intro hi
    rw [if_pos (by simp [hi])]
  · intro hi hs
    obtain ⟨x1, x2, x3⟩ := hs b1 (by simp)
    obtain ⟨y1, y2, y3⟩ := hs b2 (by simp)
    rw [if_neg (by simp [hi]), if_pos (by simp [smallBox, x1, x2, x3, y1, y2, y3])]
    refine ⟨_, rfl, ?_, ?_, ?_⟩ <;> simp only [midHit, Prod.mk.injEq, Vec3.mk.injEq]
    · constructor <;> ring
    · constructor <;> ring
    · refine ⟨?_, ?_, ?_⟩ <;> ring

/-- C91: two unit squares that cross at a right angle: the boxes overlap in a segment, and nothing is reported, whatever the Gauss maps, the hull and the
curve-surface intersection are. -/
theorem C91_crossing_counterexample (env : Env ℚ) (fuel : Nat) (g1 g2 : Surface ℚ) (acc : Found ℚ) :
    ∃ s1 s2, PositivePatch s1 ∧ PositivePatch s2 ∧ (∀ t, 0 ≤ t → t ≤ 1 → s1.evaluate (1 / 2) t = s2.evaluate (1 / 2) t ∧ s1.evaluate (1 / 2) t = .ok ⟨1 / 2, t, 0⟩) ∧
      detect env (1 / 1000) (fuel + 1) s1 s2 g1 g2 acc = some (.ok acc) := by
  refine ⟨bilinear ⟨0,0,0,1⟩ ⟨0,1,0,1⟩ ⟨1,0,0,1⟩ ⟨1,1,0,1⟩, bilinear ⟨1/2,0,-1/2,1⟩ ⟨1/2,1,-1/2,1⟩ ⟨1/2,0,1/2,1⟩ ⟨1/2,1,1/2,1⟩,
    bilinear_patch _ _ _ _ (by decide +kernel), bilinear_patch _ _ _ _ (by decide +kernel), ?_, ?_⟩
  · intro t h0 h1
    have e : ∀ a b c d : Vec4 ℚ, a.w = 1 → b.w = 1 → c.w = 1 → d.w = 1 → (bilinear a b c d).evaluate (1 / 2) t =
        .ok ⟨(a.x * (1 - t) + b.x * t + c.x * (1 - t) + d.x * t) / 2, (a.y * (1 - t) + b.y * t + c.y * (1 - t) + d.y * t) / 2,
          (a.z * (1 - t) + b.z * t + c.z * (1 - t) + d.z * t) / 2⟩ := by
      intro a b c d ha hb hc hd
      have B : Mono.BezierPatch (bilinear a b c d) 1 := by
        refine ⟨by simp [bilinear], by simp [bilinear], rfl, by simp [bilinear], ⟨rfl, rfl⟩, rfl, rfl, one_ne_zero, by simp [bilinear, ha, hb, hc, hd]⟩
      rw [Mono.patch_eval B (by norm_num) ⟨h0, h1⟩]
      congr 1
      simp only [Mono.bezier, Mono.bezierValue, Mono.bernstein, bilinear, cell, ix, Finset.sum_range_succ, Finset.sum_range_zero, Vec4.toVec3]
      simp [ha, hb, hc, hd]
      refine ⟨?_, ?_, ?_⟩ <;> ring
    rw [e _ _ _ _ rfl rfl rfl rfl, e _ _ _ _ rfl rfl rfl rfl]
    constructor <;> congr 2 <;> ring
  · have e1 : (bilinear ⟨0,0,0,1⟩ ⟨0,1,0,1⟩ ⟨1,0,0,1⟩ ⟨1,1,0,1⟩).bbox = .ok ⟨⟨0,0,0⟩, ⟨1,1,0⟩⟩ := by decide +kernel
    have e2 : (bilinear ⟨1/2,0,-1/2,1⟩ ⟨1/2,1,-1/2,1⟩ ⟨1/2,0,1/2,1⟩ ⟨1/2,1,1/2,1⟩).bbox = .ok ⟨⟨1/2,0,-1/2⟩, ⟨1/2,1,1/2⟩⟩ := by decide +kernel
    exact detect_thin e1 e2 (by decide +kernel) (by decide +kernel) (by decide +kernel)

/-- C91: two inclined squares with sides of more than 60 times the tolerance that cross in the middle: the volume of the common box is compared with the
tolerance, and nothing is reported. -/
theorem C91_volume_counterexample (env : Env ℚ) (fuel : Nat) (g1 g2 : Surface ℚ) (acc : Found ℚ) :
    ∃ s1 s2, PositivePatch s1 ∧ PositivePatch s2 ∧ s1.evaluate (1 / 2) (1 / 2) = .ok ⟨1 / 32, 1 / 32, 1 / 32⟩ ∧
      s2.evaluate (1 / 2) (1 / 2) = .ok ⟨1 / 32, 1 / 32, 1 / 32⟩ ∧
      (∃ b1 b2, s1.bbox = .ok b1 ∧ s2.bbox = .ok b2 ∧ b1 = b2 ∧ 60 * (1 / 1000) < b1.max.x - b1.min.x ∧ 60 * (1 / 1000) < b1.max.y - b1.min.y ∧
        60 * (1 / 1000) < b1.max.z - b1.min.z) ∧
      detect env (1 / 1000) (fuel + 1) s1 s2 g1 g2 acc = some (.ok acc) := by
  have e1 : (bilinear ⟨0,0,0,1⟩ ⟨0,1/16,0,1⟩ ⟨1/16,0,1/16,1⟩ ⟨1/16,1/16,1/16,1⟩).bbox = .ok ⟨⟨0,0,0⟩, ⟨1/16,1/16,1/16⟩⟩ := by decide +kernel
  have e2 : (bilinear ⟨0,0,1/16,1⟩ ⟨0,1/16,1/16,1⟩ ⟨1/16,0,0,1⟩ ⟨1/16,1/16,0,1⟩).bbox = .ok ⟨⟨0,0,0⟩, ⟨1/16,1/16,1/16⟩⟩ := by decide +kernel
  exact ⟨bilinear ⟨0,0,0,1⟩ ⟨0,1/16,0,1⟩ ⟨1/16,0,1/16,1⟩ ⟨1/16,1/16,1/16,1⟩, bilinear ⟨0,0,1/16,1⟩ ⟨0,1/16,1/16,1⟩ ⟨1/16,0,0,1⟩ ⟨1/16,1/16,0,1⟩,
    bilinear_patch _ _ _ _ (by decide +kernel), bilinear_patch _ _ _ _ (by decide +kernel), by decide +kernel, by decide +kernel,
    ⟨_, _, e1, e2, rfl, by norm_num, by norm_num, by norm_num⟩, detect_thin e1 e2 (by decide +kernel) (by decide +kernel) (by decide +kernel)⟩

/-- The surface of the other sections is clamped, and a patch of another kind than the ones above. -/
example : ClampedSurface demoSurface := by
  refine ⟨demoSurface_valid, rfl, by unfold SurfPositive; decide +kernel, ⟨0, [1/3], 1, ?_⟩, ⟨0, [], 2, ?_⟩⟩
  · refine ⟨by unfold SortedKnots; decide +kernel, ?_, by decide +kernel, by decide +kernel, by decide +kernel, by decide +kernel⟩
    intro x
    simp only [demoSurface, List.mem_cons, List.cons_append, List.nil_append, List.not_mem_nil, or_false]
    tauto
  · refine ⟨by unfold SortedKnots; decide +kernel, ?_, by decide +kernel, by decide +kernel, by decide +kernel, by decide +kernel⟩
    intro x
    simp only [demoSurface, List.mem_cons, List.nil_append, List.not_mem_nil, or_false]
    tauto

end Cmm.Gauss
