import Verif.Model.SsxCode
import Verif.Spec.SsxCode
import Verif.Lemmas.SsxCode
import Verif.Props.Boundary
import Verif.Props.CsxCode
import Verif.Props.SatQuick
/-!
C132: the search of surface-surface intersections with its own curve-surface search: where the ends of the reported patches lie.
-/
namespace Cmm.Gauss
open Cmm.Nurbs Cmm.Csx Cmm.Bnd
variable {K : Type} [Field K] [LinearOrder K] [IsStrictOrderedRing K]

/-- A Bézier surface with unit weights. -/
def UnitBez (s : Surface K) : Prop := SurfBez s ∧ SurfUnit s

/-- The borders of a part: the curves are Bézier curves, the first two carry the parameter v, the others the relative position in u. -/
theorem borders {s : Surface K} (S : UnitBez s) {cs : List (Curve K)} (h : freeBoundaries s = .ok cs) {i : Nat} {c : Curve K} (hc : cs[i]? = some c) :
    CurveBez c ∧ ∀ t, c.lo ≤ t → t ≤ c.hi → ∀ uv, uv = boundaryParams ((s.u0, s.u1), (s.v0, s.v1)) i t →
      i < 4 ∧ (i < 2 → Inside s uv.1 uv.2 ∧ c.evaluate t = s.evaluate uv.1 uv.2) ∧
      (2 ≤ i → (0 ≤ uv.1 ∧ uv.1 ≤ 1) ∧ Inside s (s.u0 + uv.1 * (s.u1 - s.u0)) uv.2 ∧ c.evaluate t = s.evaluate (s.u0 + uv.1 * (s.u1 - s.u0)) uv.2) := by
  obtain ⟨B, hw⟩ := S
  have m := mid_inside B
  have hu : s.u0 ≤ s.u1 := le_trans m.1.1 m.1.2
  have hv : s.v0 ≤ s.v1 := le_trans m.2.1 m.2.2
  unfold freeBoundaries at h
  obtain ⟨a, h1, h⟩ := ok_of_bind h
  obtain ⟨b, h2, h⟩ := ok_of_bind h
  obtain ⟨d, h3, h⟩ := ok_of_bind h
  obtain ⟨e, h4, h⟩ := ok_of_bind h
  obtain rfl := Res.ok.inj h
  have ev : ∀ t : K, 0 ≤ t → t ≤ 1 → s.u0 ≤ s.u0 + t * (s.u1 - s.u0) ∧ s.u0 + t * (s.u1 - s.u0) ≤ s.u1 := by
    intro t t0 t1
    have := mul_nonneg t0 (sub_nonneg.2 hu)
    have := mul_nonneg (sub_nonneg.2 t1) (sub_nonneg.2 hu)
    constructor <;> linarith
  match i, hc with
  | 0, hc =>
    obtain rfl := Option.some.inj hc
    obtain ⟨C, l, r, ev⟩ := borderU B hw ⟨le_refl _, hu⟩ h1
    rw [l, r]
    refine ⟨C, fun t t0 t1 uv e => ⟨by omega, fun _ => ?_, fun h => absurd h (by omega)⟩⟩
    subst e
    exact ⟨⟨⟨le_refl _, hu⟩, t0, t1⟩, ev t t0 t1⟩
  | 1, hc =>
    obtain rfl := Option.some.inj hc
    obtain ⟨C, l, r, ev⟩ := borderU B hw ⟨hu, le_refl _⟩ h2
    rw [l, r]
    refine ⟨C, fun t t0 t1 uv e => ⟨by omega, fun _ => ?_, fun h => absurd h (by omega)⟩⟩
    subst e
    exact ⟨⟨⟨hu, le_refl _⟩, t0, t1⟩, ev t t0 t1⟩
  | 2, hc =>
    obtain rfl := Option.some.inj hc
    obtain ⟨C, l, r, ev'⟩ := borderV B hw ⟨le_refl _, hv⟩ h3
    rw [l, r]
    refine ⟨C, fun t t0 t1 uv e => ⟨by omega, fun h => absurd h (by omega), fun _ => ?_⟩⟩
    subst e
    exact ⟨⟨t0, t1⟩, ⟨ev t t0 t1, le_refl _, hv⟩, ev' t t0 t1⟩
  | 3, hc =>
    obtain rfl := Option.some.inj hc
    obtain ⟨C, l, r, ev'⟩ := borderV B hw ⟨hv, le_refl _⟩ h4
    rw [l, r]
    refine ⟨C, fun t t0 t1 uv e => ⟨by omega, fun h => absurd h (by omega), fun _ => ?_⟩⟩
    subst e
    exact ⟨⟨t0, t1⟩, ⟨ev t t0 t1, hv, le_refl _⟩, ev' t t0 t1⟩
  | i + 4, hc => simp at hc

variable [FloorRing K]

omit [IsStrictOrderedRing K] [FloorRing K] in
theorem toHits_ok {o : Option (Res (List (Csx.Hit K)))} {l : List (Bnd.Hit K)} (h : toHits o = .ok l) :
    ∃ res, o = some (.ok res) ∧ l = res.map fun h => ⟨h.point, h.t, h.u, h.v⟩ := by
  match o, h with
  | some (.ok res), h => exact ⟨res, rfl, (Res.ok.inj h).symm⟩

variable (sqrt : K → K) (big tiny : K) (ins : List (Vec2 K) → Vec2 K → Bool) (sort : Hull2d.StdSort (Vec2 K)) (rounds depth : Nat)

omit [FloorRing K] in
/-- The hits of a border of a part with the other part. -/
theorem border_hit {tol : K} {s a o b : Surface K} (A : UnitBez a) (Ap : SurfPiece s a) (Bo : SurfPiece o b) {cs : List (Curve K)}
    (h : freeBoundaries a = .ok cs) {i : Nat} {c : Curve K} (hc : cs[i]? = some c) {hits : List (Bnd.Hit K)}
    (hh : (codeEnv sqrt big tiny ins sort rounds depth).csx tol c b = .ok hits) {x : Bnd.Hit K} (hx : x ∈ hits) (ff : Bool) :
    TrueEnd sqrt tol s o (boundaryParams ((a.u0, a.u1), (a.v0, a.v1)) i x.t) (x.u, x.v)
      (Point.make x.point x.t (x.u, x.v) i ff ((a.u0, a.u1), (a.v0, a.v1))) := by
  obtain ⟨res, hr, rfl⟩ := toHits_ok hh
  obtain ⟨y, hy, rfl⟩ := List.mem_map.1 hx
  obtain ⟨C, H⟩ := borders A h hc
  obtain ⟨l, -, hr⟩ := csxCode_ok hr
  obtain ⟨g1, g2, g3, g4, q, g5, g6⟩ := C55_bezier_genuine _ _ _ _ _ _ _ hr C.valid C.weights C.interval C.bezier Bo.1.valid Bo.1.interval Bo.1.bezier y hy
  obtain ⟨k1, k2, k3⟩ := H y.t g1.1 g1.2 _ rfl
  have m := mid_inside A.1
  have fields : ∀ (P : Vec3 K) (T : K) (sp : K × K) (iv : (K × K) × (K × K)), (Point.make P T sp i ff iv).boundary = i ∧
      (Point.make P T sp i ff iv).iv = iv ∧ (Point.make P T sp i ff iv).point = P := by
    intro P T sp iv; unfold Point.make; split <;> exact ⟨rfl, rfl, rfl⟩
  obtain ⟨f1, f2, f3⟩ := fields y.point y.t (y.u, y.v) ((a.u0, a.u1), (a.v0, a.v1))
  refine ⟨?_, ?_, ?_, ?_, ?_⟩
  · rw [f1]; exact k1
  · rw [f2]; exact ⟨Ap.part.1.1.1, le_trans m.1.1 m.1.2, Ap.part.1.1.2⟩
  · rw [f1, f3]
    intro hi
    obtain ⟨i1, e1⟩ := k2 hi
    exact ⟨Ap.part.inside i1, by rw [← Ap.part.2 _ _ i1, ← e1]; exact g4⟩
  · rw [f1, f2, f3]
    intro hi
    obtain ⟨z, i1, e1⟩ := k3 hi
    exact ⟨z, Ap.part.inside i1, by rw [← Ap.part.2 _ _ i1, ← e1]; exact g4⟩
  · rw [f3]
    exact ⟨Bo.part.inside ⟨g2, g3⟩, q, by rw [← Bo.part.2 _ _ ⟨g2, g3⟩]; exact g5, g6⟩

/-- The ends found for two parts. -/
theorem ends_true {tol : K} {s1 s2 a b : Surface K} (A : UnitBez a) (B : UnitBez b) (Ap : SurfPiece s1 a) (Bp : SurfPiece s2 b) {l : List (Bnd.Point K)}
    (h : findBoundaryIntersections ((codeEnv sqrt big tiny ins sort rounds depth).csx tol) a b [] = .ok l) :
    ∀ e ∈ l, TrueEndOf sqrt tol s1 s2 e := by
  unfold findBoundaryIntersections at h
  obtain ⟨b1, h1, h⟩ := ok_of_bind h
  obtain ⟨b2, h2, h⟩ := ok_of_bind h
  obtain ⟨p1, h3, h⟩ := ok_of_bind h
  obtain ⟨p2, h4, h⟩ := ok_of_bind h
  obtain ⟨d1, -, -⟩ := C53_dedup_representatives _ _ h
  intro e he
  have he := d1.subset he
  rw [List.nil_append, List.mem_append, collect_mem _ _ _ h3, collect_mem _ _ _ h4] at he
  rcases he with ⟨j, c, hits, x, e1, e2, e3, rfl⟩ | ⟨j, c, hits, x, e1, e2, e3, rfl⟩
  · rw [Nat.zero_add]
    exact border_hit sqrt big tiny ins sort rounds depth A Ap Bp h1 e1 e2 e3 true
  · rw [Nat.zero_add]
    exact border_hit sqrt big tiny ins sort rounds depth B Bp Ap h2 e1 e2 e3 false

/-- **C132** (partial: on the borders with fixed v the stored u is not the parameter of the point, see `C132_stored_u_counterexample`): the ends of the
patches the search reports for two Bézier surfaces with unit weights lie on one surface and within the tolerance of the other one, at the parameters stored
for that one. -/
theorem C132_patch_ends_partial (tol : K) (fuel : Nat) (s1 s2 g1 g2 : Surface K) (S1 : PositivePatch s1) (S2 : PositivePatch s2) (W1 : SurfUnit s1)
    (W2 : SurfUnit s2) (acc r : Found K) (h : detect (codeEnv sqrt big tiny ins sort rounds depth) tol fuel s1 s2 g1 g2 acc = some (.ok r)) :
    ∃ new, r.patches = acc.patches ++ new ∧ ∀ x ∈ new, TrueEndOf sqrt tol s1 s2 x.1 ∧ TrueEndOf sqrt tol s1 s2 x.2 := by
  obtain ⟨np, na, -, e, -, g⟩ := detect_extends (env := codeEnv sqrt big tiny ins sort rounds depth) (tol := tol)
    (P := fun a b _ _ => Met s1 s2 a b ∧ SurfUnit a ∧ SurfUnit b) (Qpt := fun _ => True)
    (Qpa := fun x => TrueEndOf sqrt tol s1 s2 x.1 ∧ TrueEndOf sqrt tol s1 s2 x.2)
    (fun _ _ _ _ _ _ _ _ _ _ _ _ => trivial)
    (fun a b ga gb l x y M hs el h2 hx hy => by
      obtain ⟨⟨⟨m1, _⟩, m2, _⟩, u1, u2⟩ := M
      have := ends_true sqrt big tiny ins sort rounds depth ⟨m1.1, u1⟩ ⟨m2.1, u2⟩ m1 m2 el
      exact ⟨this x (List.mem_of_mem_head? hx), this y (List.mem_of_mem_getLast? hy)⟩)
    (fun a b ga gb q1 q2 k1 k2 M f1 f2 f3 f4 j hj => by
      obtain ⟨M, u1, u2⟩ := M
      obtain ⟨n1, n2⟩ := mem_jobs.1 hj
      obtain ⟨n1, -⟩ := mem_four n1
      obtain ⟨n2, -⟩ := mem_four n2
      exact ⟨met_sub M f1 f2 hj, subdivide_unit M.1.1.1 u1 f1 _ n1, subdivide_unit M.2.1.1 u2 f2 _ n2⟩)
    fuel s1 s2 g1 g2 acc r ⟨⟨⟨SurfPiece.refl S1.bez, S1.positive⟩, SurfPiece.refl S2.bez, S2.positive⟩, W1, W2⟩ h
  exact ⟨na, e, g⟩

omit [IsStrictOrderedRing K] [FloorRing K] in
theorem TrueEnd.whole {tol : K} {s a o b : Surface K} {mine its : K × K} {e : Bnd.Point K} (A : Part s a) (B : Part o b)
    (h : TrueEnd sqrt tol a b mine its e) : TrueEnd sqrt tol s o mine its e := by
  obtain ⟨h1, h2, h3, h4, h5, q, h6, h7⟩ := h
  exact ⟨h1, ⟨le_trans A.1.1.1 h2.1, h2.2.1, le_trans h2.2.2 A.1.1.2⟩,
    fun hi => ⟨A.inside (h3 hi).1, by rw [← A.2 _ _ (h3 hi).1]; exact (h3 hi).2⟩,
    fun hi => ⟨(h4 hi).1, A.inside (h4 hi).2.1, by rw [← A.2 _ _ (h4 hi).2.1]; exact (h4 hi).2.2⟩, B.inside h5, q, by rw [← B.2 _ _ h5]; exact h6, h7⟩

/-- **C132** (partial, as `C132_patch_ends_partial`) for `findStartIntersectionPoints` on two clamped surfaces with unit weights. -/
theorem C132_start_patch_ends_partial (tol : K) (fuel : Nat) (s1 s2 : Surface K) (S1 : ClampedSurface s1) (S2 : ClampedSurface s2) (W1 : SurfUnit s1)
    (W2 : SurfUnit s2) (acc r : Found K) (h : findStart (codeEnv sqrt big tiny ins sort rounds depth) tol fuel s1 s2 acc = some (.ok r)) :
    ∃ new, r.patches = acc.patches ++ new ∧ ∀ x ∈ new, TrueEndOf sqrt tol s1 s2 x.1 ∧ TrueEndOf sqrt tol s1 s2 x.2 := by
  obtain ⟨l1, l2, g1, g2, e1, e2, e3, e4, h⟩ := findStart_ok h
  obtain ⟨l1', f1, P1, -⟩ := decompose_parts S1
  obtain ⟨l2', f2, P2, -⟩ := decompose_parts S2
  rw [e1] at f1
  rw [e2] at f2
  obtain rfl := Res.ok.inj f1
  obtain rfl := Res.ok.inj f2
  have key : Extends (fun _ => True) (fun x => TrueEndOf sqrt tol s1 s2 x.1 ∧ TrueEndOf sqrt tol s1 s2 x.2) acc r := by
    refine forJobs_extends _ _ _ (fun j hj acc r hr => ?_) h
    obtain ⟨m1, m2⟩ := mem_jobs.1 hj
    obtain ⟨m1, -⟩ := List.of_mem_zip m1
    obtain ⟨m2, -⟩ := List.of_mem_zip m2
    obtain ⟨p1, q1⟩ := P1 _ m1
    obtain ⟨p2, q2⟩ := P2 _ m2
    obtain ⟨na, ea, hn⟩ := C132_patch_ends_partial sqrt big tiny ins sort rounds depth tol fuel _ _ _ _ q1 q2 (decompose_unit S1 W1 e1 _ m1)
      (decompose_unit S2 W2 e2 _ m2) acc r hr
    obtain ⟨np, _, en, _, _, _⟩ := detect_grows fuel _ _ _ _ acc r hr
    refine ⟨np, na, en, ea, fun _ _ => trivial, fun x hx => ?_⟩
    have lift : ∀ e, TrueEndOf sqrt tol j.1 j.2.1 e → TrueEndOf sqrt tol s1 s2 e := by
      intro e he
      unfold TrueEndOf at he ⊢
      split
      · rename_i hf; rw [if_pos hf] at he; exact he.whole sqrt p1 p2
      · rename_i hf; rw [if_neg hf] at he; exact he.whole sqrt p2 p1
    exact ⟨lift _ (hn x hx).1, lift _ (hn x hx).2⟩
  obtain ⟨-, na, -, en, -, hn⟩ := key
  exact ⟨na, en, hn⟩

/-! ### What the search passes on -/

omit [IsStrictOrderedRing K] in
/-- C132: an exception of `csx` on the first border of the first surface reaches the caller of the border search, and undefined behaviour stays undefined; the
same holds for a recursion without end. -/
theorem C132_outcomes (tol : K) (s1 s2 : Surface K) (acc : List (Bnd.Point K)) (c : Curve K) (cs cs' : List (Curve K)) (h1 : freeBoundaries s1 = .ok (c :: cs))
    (h2 : freeBoundaries s2 = .ok cs') (o : Option (Res (List (Csx.Hit K))))
    (ho : Csx.csxCode (codeEnv sqrt big tiny ins sort rounds depth) tiny rounds depth c s2 tol = o) :
    (o = some .throws → findBoundaryIntersections ((codeEnv sqrt big tiny ins sort rounds depth).csx tol) s1 s2 acc = .throws) ∧
    (o = some .ub ∨ o = none → findBoundaryIntersections ((codeEnv sqrt big tiny ins sort rounds depth).csx tol) s1 s2 acc = .ub) := by
  have e : (codeEnv sqrt big tiny ins sort rounds depth).csx tol c s2 = toHits o := by rw [← ho]; rfl
  unfold findBoundaryIntersections
  rw [h1, h2]
  simp only [Res.ok_bind, collect, e]
  constructor
  · rintro rfl; rfl
  · rintro (rfl | rfl) <;> rfl

omit [FloorRing K] in
/-- C132: the hull the search takes keeps the control points of a patch, if there are fewer than five of them or they are integer and no four lie in a plane. -/
theorem C132_hull_partial (hsq : Newton.IsSqrt sqrt) (pts : List (Vec3 K)) (h : Sep.Easy pts) :
    ∀ p ∈ pts, Geom.InHull ((codeEnv sqrt big tiny ins sort rounds depth).hull3 pts) p := Sep.codeHull_keeps hsq h

end Cmm.Gauss
