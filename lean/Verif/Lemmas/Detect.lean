import Verif.Spec.Detect
import Verif.Lemmas.CsxBezier
import Verif.Lemmas.InsertConvex
/-! The parts met by the search of surface-surface intersections. -/
namespace Cmm.Gauss
open Cmm.Nurbs Cmm.Csx
variable {K : Type} [Field K] [LinearOrder K] [IsStrictOrderedRing K]

theorem tol12 : (1 / 10 ^ 12 : K) ≤ surfSplitTol := by rw [surfSplitTol_eq]; norm_num

theorem splitU_pos {s a b : Surface K} {t : K} (B : SurfBez s) (hw : SurfPositive s) (h : s.splitU t surfSplitTol = .ok (a, b)) :
    SurfPositive a ∧ SurfPositive b := by
  obtain ⟨-, ⟨g1, g2⟩, ⟨g3, g4⟩, -⟩ := B.splitU_full h
  obtain ⟨⟨dlo, dhi⟩, -⟩ := B.dom
  have kn := B.bezier.1
  exact splitU_closed lerpClosed_pos B.valid hw (by rw [dlo]; exact g1) (by rw [dhi]; exact g2)
    (by rw [kn]; exact clear_inner (lt_of_le_of_lt tol12 g3) (lt_of_le_of_lt tol12 g4)) (by rw [kn, count_inner g1 g2]; omega) h

theorem splitV_pos {s a b : Surface K} {t : K} (B : SurfBez s) (hw : SurfPositive s) (h : s.splitV t surfSplitTol = .ok (a, b)) :
    SurfPositive a ∧ SurfPositive b := by
  obtain ⟨-, ⟨g1, g2⟩, ⟨g3, g4⟩, -⟩ := B.splitV_full h
  obtain ⟨-, dlo, dhi⟩ := B.dom
  have kn := B.bezier.2.2.1
  exact splitV_closed lerpClosed_pos B.valid hw (by rw [dlo]; exact g1) (by rw [dhi]; exact g2)
    (by rw [kn]; exact clear_inner (lt_of_le_of_lt tol12 g3) (lt_of_le_of_lt tol12 g4)) (by rw [kn, count_inner g1 g2]; omega) h

/-- The rectangles of the four parts. -/
theorem subdivide_rects {s q1 q2 q3 q4 : Surface K} {u v : K} (B : SurfBez s) (h : s.subdivideAt u v = .ok (q1, q2, q3, q4)) :
    (s.u0 < u ∧ u < s.u1) ∧ (s.v0 < v ∧ v < s.v1) ∧
      (q1.u0 = s.u0 ∧ q1.u1 = u ∧ q1.v0 = s.v0 ∧ q1.v1 = v) ∧ (q2.u0 = s.u0 ∧ q2.u1 = u ∧ q2.v0 = v ∧ q2.v1 = s.v1) ∧
      (q3.u0 = u ∧ q3.u1 = s.u1 ∧ q3.v0 = s.v0 ∧ q3.v1 = v) ∧ (q4.u0 = u ∧ q4.u1 = s.u1 ∧ q4.v0 = v ∧ q4.v1 = s.v1) := by
  unfold Surface.subdivideAt at h
  obtain ⟨⟨a, b⟩, h1, h⟩ := ok_of_bind h
  obtain ⟨⟨a1, a2⟩, h2, h⟩ := ok_of_bind h
  obtain ⟨⟨b1, b2⟩, h3, h⟩ := ok_of_bind h
  cases h
  obtain ⟨⟨Pa, Pb⟩, gu, -, ⟨e1, e2, e3, e4⟩, f1, f2, f3, f4⟩ := B.splitU_full h1
  obtain ⟨-, gv, -, ⟨i1, i2, i3, i4⟩, j1, j2, j3, j4⟩ := Pa.1.splitV_full h2
  obtain ⟨-, gv', -, ⟨k1, k2, k3, k4⟩, l1, l2, l3, l4⟩ := Pb.1.splitV_full h3
  rw [f1, f2] at gv
  refine ⟨gu, gv, ⟨?_, ?_, ?_, ?_⟩, ⟨?_, ?_, ?_, ?_⟩, ⟨?_, ?_, ?_, ?_⟩, ⟨?_, ?_, ?_, ?_⟩⟩ <;> simp_all

theorem subdivide_pos {s q1 q2 q3 q4 : Surface K} {u v : K} (B : SurfBez s) (hw : SurfPositive s) (h : s.subdivideAt u v = .ok (q1, q2, q3, q4)) :
    ∀ x ∈ [q1, q2, q3, q4], SurfPositive x := by
  unfold Surface.subdivideAt at h
  obtain ⟨⟨a, b⟩, h1, h⟩ := ok_of_bind h
  obtain ⟨⟨a1, a2⟩, h2, h⟩ := ok_of_bind h
  obtain ⟨⟨b1, b2⟩, h3, h⟩ := ok_of_bind h
  cases h
  have A := B.splitU h1
  obtain ⟨wa, wb⟩ := splitU_pos B hw h1
  obtain ⟨w1, w2⟩ := splitV_pos (A a (by simp)).1 wa h2
  obtain ⟨w3, w4⟩ := splitV_pos (A b (by simp)).1 wb h3
  intro x hx
  simp only [List.mem_cons, List.not_mem_nil, or_false] at hx
  rcases hx with rfl | rfl | rfl | rfl <;> assumption

/-- The four parts cover the surface. -/
theorem subdivide_covers {s q1 q2 q3 q4 : Surface K} {u v : K} (B : SurfBez s) (h : s.subdivideAt u v = .ok (q1, q2, q3, q4)) {a b : K}
    (hab : Inside s a b) : ∃ x ∈ [q1, q2, q3, q4], Inside x a b := by
  obtain ⟨-, -, ⟨a1, a2, a3, a4⟩, ⟨b1, b2, b3, b4⟩, ⟨c1, c2, c3, c4⟩, ⟨d1, d2, d3, d4⟩⟩ := subdivide_rects B h
  obtain ⟨⟨h1, h2⟩, h3, h4⟩ := hab
  rcases le_total a u with hu | hu <;> rcases le_total b v with hv | hv
  · exact ⟨q1, by simp, by unfold Inside; rw [a1, a2, a3, a4]; exact ⟨⟨h1, hu⟩, h3, hv⟩⟩
  · exact ⟨q2, by simp, by unfold Inside; rw [b1, b2, b3, b4]; exact ⟨⟨h1, hu⟩, hv, h4⟩⟩
  · exact ⟨q3, by simp, by unfold Inside; rw [c1, c2, c3, c4]; exact ⟨⟨hu, h2⟩, h3, hv⟩⟩
  · exact ⟨q4, by simp, by unfold Inside; rw [d1, d2, d3, d4]; exact ⟨⟨hu, h2⟩, hv, h4⟩⟩

omit [IsStrictOrderedRing K] in
theorem SameShare.refl (s g : Surface K) : SameShare s g s g :=
  ⟨0, 1, 0, 1, ⟨by ring, by ring⟩, ⟨by ring, by ring⟩, ⟨by ring, by ring⟩, by ring, by ring⟩

omit [IsStrictOrderedRing K] in
theorem SameShare.trans {s g x y z w : Surface K} (h1 : SameShare s g x y) (h2 : SameShare x y z w) : SameShare s g z w := by
  obtain ⟨a, b, c, d, ⟨p1, p2⟩, ⟨p3, p4⟩, ⟨p5, p6⟩, p7, p8⟩ := h1
  obtain ⟨a', b', c', d', ⟨q1, q2⟩, ⟨q3, q4⟩, ⟨q5, q6⟩, q7, q8⟩ := h2
  refine ⟨a + a' * (b - a), a + b' * (b - a), c + c' * (d - c), c + d' * (d - c), ⟨?_, ?_⟩, ⟨?_, ?_⟩, ⟨?_, ?_⟩, ?_, ?_⟩
  · rw [q1, p1, p3]; ring
  · rw [q2, p2, p4]; ring
  · rw [q3, p1, p3]; ring
  · rw [q4, p2, p4]; ring
  · rw [q5, p5, p7]; ring
  · rw [q6, p6, p8]; ring
  · rw [q7, p5, p7]; ring
  · rw [q8, p6, p8]; ring

/-- The parts of the surface and of its Gauss map are paired. -/
theorem subdivide_share {s g : Surface K} {q h : Surface K × Surface K × Surface K × Surface K} (B : SurfBez s) (G : SurfBez g)
    (e : s.subdivide = .ok q) (f : g.subdivide = .ok h) : ∀ j ∈ fourParts q h, SameShare s g j.1 j.2 := by
  obtain ⟨-, -, ⟨a1, a2, a3, a4⟩, ⟨b1, b2, b3, b4⟩, ⟨c1, c2, c3, c4⟩, ⟨d1, d2, d3, d4⟩⟩ := subdivide_rects B e
  obtain ⟨-, -, ⟨a1', a2', a3', a4'⟩, ⟨b1', b2', b3', b4'⟩, ⟨c1', c2', c3', c4'⟩, ⟨d1', d2', d3', d4'⟩⟩ := subdivide_rects G f
  intro j hj
  simp only [fourParts, List.mem_cons, List.not_mem_nil, or_false] at hj
  rcases hj with rfl | rfl | rfl | rfl
  · refine ⟨0, 1 / 2, 0, 1 / 2, ⟨?_, ?_⟩, ⟨?_, ?_⟩, ⟨?_, ?_⟩, ?_, ?_⟩ <;> simp only [*] <;> ring
  · refine ⟨0, 1 / 2, 1 / 2, 1, ⟨?_, ?_⟩, ⟨?_, ?_⟩, ⟨?_, ?_⟩, ?_, ?_⟩ <;> simp only [*] <;> ring
  · refine ⟨1 / 2, 1, 0, 1 / 2, ⟨?_, ?_⟩, ⟨?_, ?_⟩, ⟨?_, ?_⟩, ?_, ?_⟩ <;> simp only [*] <;> ring
  · refine ⟨1 / 2, 1, 1 / 2, 1, ⟨?_, ?_⟩, ⟨?_, ?_⟩, ⟨?_, ?_⟩, ?_, ?_⟩ <;> simp only [*] <;> ring

end Cmm.Gauss

/-! ### What the search adds -/
namespace Cmm.Gauss
open Cmm.Nurbs Cmm.Csx
variable {K : Type} [Field K] [LinearOrder K]

/-- `r` extends `acc` by points and patches with the given properties. -/
def Extends (Qpt : PointHit K → Prop) (Qpa : Bnd.Point K × Bnd.Point K → Prop) (acc r : Found K) : Prop :=
  ∃ np na, r.points = acc.points ++ np ∧ r.patches = acc.patches ++ na ∧ (∀ h ∈ np, Qpt h) ∧ ∀ p ∈ na, Qpa p

variable {Qpt : PointHit K → Prop} {Qpa : Bnd.Point K × Bnd.Point K → Prop}

theorem Extends.refl (acc : Found K) : Extends Qpt Qpa acc acc := ⟨[], [], by simp, by simp, by simp, by simp⟩

theorem Extends.trans {x y z : Found K} (h : Extends Qpt Qpa x y) (g : Extends Qpt Qpa y z) : Extends Qpt Qpa x z := by
  obtain ⟨a1, b1, e1, f1, p1, q1⟩ := h
  obtain ⟨a2, b2, e2, f2, p2, q2⟩ := g
  refine ⟨a1 ++ a2, b1 ++ b2, by rw [e2, e1, List.append_assoc], by rw [f2, f1, List.append_assoc], ?_, ?_⟩
  · intro h hh
    rcases List.mem_append.1 hh with hh | hh
    · exact p1 h hh
    · exact p2 h hh
  · intro h hh
    rcases List.mem_append.1 hh with hh | hh
    · exact q1 h hh
    · exact q2 h hh

theorem Extends.mono {Qpt' : PointHit K → Prop} {Qpa' : Bnd.Point K × Bnd.Point K → Prop} {x y : Found K} (h : Extends Qpt Qpa x y)
    (h1 : ∀ p, Qpt p → Qpt' p) (h2 : ∀ p, Qpa p → Qpa' p) : Extends Qpt' Qpa' x y := by
  obtain ⟨a1, b1, e1, f1, p1, q1⟩ := h
  exact ⟨a1, b1, e1, f1, fun h hh => h1 _ (p1 h hh), fun h hh => h2 _ (q1 h hh)⟩

theorem forJobs_extends {rec : Surface K → Surface K → Surface K → Surface K → Found K → Option (Res (Found K))} :
    ∀ (js : List (Surface K × Surface K × Surface K × Surface K)) acc r,
    (∀ j ∈ js, ∀ acc r, rec j.1 j.2.1 j.2.2.1 j.2.2.2 acc = some (.ok r) → Extends Qpt Qpa acc r) →
    forJobs rec js acc = some (.ok r) → Extends Qpt Qpa acc r := by
  intro js
  induction js with
  | nil => intro acc r _ h; cases h; exact Extends.refl _
  | cons j js ih =>
    intro acc r hrec h
    obtain ⟨acc1, h1, h2⟩ := andThen_ok h
    exact (hrec j List.mem_cons_self _ _ h1).trans (ih _ _ (fun q hq => hrec q (List.mem_cons_of_mem _ hq)) h2)

theorem forJobs_mem {rec : Surface K → Surface K → Surface K → Surface K → Found K → Option (Res (Found K))} :
    ∀ (js : List (Surface K × Surface K × Surface K × Surface K)) acc r,
    (∀ j ∈ js, ∀ acc r, rec j.1 j.2.1 j.2.2.1 j.2.2.2 acc = some (.ok r) → Extends (fun _ => True) (fun _ => True) acc r) →
    forJobs rec js acc = some (.ok r) → ∀ j ∈ js, ∃ acc1 acc2, rec j.1 j.2.1 j.2.2.1 j.2.2.2 acc1 = some (.ok acc2) ∧
      Extends (fun _ => True) (fun _ => True) acc2 r := by
  intro js
  induction js with
  | nil => intro acc r _ _ j hj; cases hj
  | cons j js ih =>
    intro acc r hrec h j' hj'
    obtain ⟨acc1, h1, h2⟩ := andThen_ok h
    have hrec' := fun q hq => hrec q (List.mem_cons_of_mem _ hq)
    rcases List.mem_cons.1 hj' with rfl | hj'
    · exact ⟨_, _, h1, forJobs_extends _ _ _ hrec' h2⟩
    · exact ih _ _ hrec' h2 j' hj'

theorem forJobs_ne {rec : Surface K → Surface K → Surface K → Surface K → Found K → Option (Res (Found K))} :
    ∀ (js : List (Surface K × Surface K × Surface K × Surface K)) acc, (∀ j ∈ js, ∀ acc, rec j.1 j.2.1 j.2.2.1 j.2.2.2 acc ≠ none) →
    forJobs rec js acc ≠ none := by
  intro js
  induction js with
  | nil => intro acc _ h; cases h
  | cons j js ih =>
    intro acc hrec
    exact andThen_ne_none (hrec j List.mem_cons_self _) fun a _ => ih _ fun q hq => hrec q (List.mem_cons_of_mem _ hq)

theorem mem_jobs {l1 l2 : List (Surface K × Surface K)} {j : Surface K × Surface K × Surface K × Surface K} :
    j ∈ jobs l1 l2 ↔ (j.1, j.2.2.1) ∈ l1 ∧ (j.2.1, j.2.2.2) ∈ l2 := by
  unfold jobs
  rw [List.mem_flatMap]
  constructor
  · rintro ⟨a, ha, hj⟩
    obtain ⟨b, hb, rfl⟩ := List.mem_map.1 hj
    exact ⟨ha, hb⟩
  · rintro ⟨h1, h2⟩
    exact ⟨_, h1, List.mem_map.2 ⟨_, h2, rfl⟩⟩

/-- What `processSimple` adds. -/
theorem processSimple_cases [FloorRing K] {csx : Curve K → Surface K → Res (List (Bnd.Hit K))} {s1 s2 : Surface K}
    {p r : List (Bnd.Point K × Bnd.Point K)} (h : Bnd.processSimple csx s1 s2 p = .ok r) :
    ∃ l, Bnd.findBoundaryIntersections csx s1 s2 [] = .ok l ∧
      ((l.length < 2 ∧ r = p) ∨ (2 ≤ l.length ∧ ∃ x y, l.head? = some x ∧ l.getLast? = some y ∧ r = p ++ [(x, y)])) := by
  unfold Bnd.processSimple at h
  obtain ⟨l, h1, h⟩ := ok_of_bind h
  refine ⟨l, h1, ?_⟩
  match l, h with
  | [], h => cases h; exact Or.inl ⟨by simp, rfl⟩
  | [a], h => cases h; exact Or.inl ⟨by simp, rfl⟩
  | a :: b :: l, h =>
    right
    have e : (a :: b :: l)[(a :: b :: l).length - 1]? = some ((a :: b :: l).getLast (by simp)) := by
      rw [List.getLast_eq_getElem, List.getElem?_eq_getElem]
    rw [e] at h
    simp only [List.getElem?_cons_zero] at h
    rw [if_pos (by simp)] at h
    cases h
    exact ⟨by simp, a, _, rfl, List.getLast?_eq_some_getLast (by simp), rfl⟩

variable [FloorRing K] {env : Env K} {tol : K}

theorem detect_extends {P : Surface K → Surface K → Surface K → Surface K → Prop}
    (hpt : ∀ a b ga gb b1 b2, P a b ga gb → a.bbox = .ok b1 → b.bbox = .ok b2 → b1.intersects b2 = true → smallBox tol b1 = true →
      smallBox tol b2 = true → Qpt (midHit a b b1 b2))
    (hpa : ∀ a b ga gb l x y, P a b ga gb → gaussMapSeparability env ga gb = .ok true →
      Bnd.findBoundaryIntersections (env.csx tol) a b [] = .ok l → 2 ≤ l.length → l.head? = some x → l.getLast? = some y → Qpa (x, y))
    (hsub : ∀ a b ga gb q1 q2 h1 h2, P a b ga gb → a.subdivide = .ok q1 → b.subdivide = .ok q2 → ga.subdivide = .ok h1 →
      gb.subdivide = .ok h2 → ∀ j ∈ jobs (fourParts q1 h1) (fourParts q2 h2), P j.1 j.2.1 j.2.2.1 j.2.2.2) :
    ∀ fuel a b ga gb acc r, P a b ga gb → detect env tol fuel a b ga gb acc = some (.ok r) → Extends Qpt Qpa acc r := by
  intro fuel
  induction fuel with
  | zero => intro _ _ _ _ _ _ _ h; cases h
  | succ fuel ih =>
    intro a b ga gb acc r hP h
    rw [detect] at h
    obtain ⟨b1, e1, h⟩ := andThen_ok h
    obtain ⟨b2, e2, h⟩ := andThen_ok h
    split at h
    · cases h; exact Extends.refl _
    rename_i hi
    split at h
    · rename_i hs
      rw [Bool.and_eq_true] at hs
      cases h
      refine ⟨[midHit a b b1 b2], [], rfl, by simp, ?_, by simp⟩
      intro x hx
      rw [List.mem_singleton] at hx
      subst hx
      exact hpt a b ga gb b1 b2 hP (Option.some.inj e1) (Option.some.inj e2) (by simpa using hi) hs.1 hs.2
    split at h
    · cases h; exact Extends.refl _
    obtain ⟨p1, _, h⟩ := andThen_ok h
    obtain ⟨p2, _, h⟩ := andThen_ok h
    obtain ⟨apart, _, h⟩ := andThen_ok h
    split at h
    · cases h; exact Extends.refl _
    obtain ⟨simple, es, h⟩ := andThen_ok h
    split at h
    · rename_i hs
      obtain ⟨pat, ep, h⟩ := andThen_ok h
      cases h
      obtain ⟨l, el, hl⟩ := processSimple_cases (Option.some.inj ep)
      rcases hl with ⟨_, rfl⟩ | ⟨h2, x, y, hx, hy, rfl⟩
      · exact Extends.refl _
      · refine ⟨[], [(x, y)], by simp, rfl, by simp, ?_⟩
        intro z hz
        rw [List.mem_singleton] at hz
        subst hz
        subst hs
        exact hpa a b ga gb l x y hP (Option.some.inj es) el h2 hx hy
    · obtain ⟨q1, f1, h⟩ := andThen_ok h
      obtain ⟨q2, f2, h⟩ := andThen_ok h
      obtain ⟨h1, f3, h⟩ := andThen_ok h
      obtain ⟨h2, f4, h⟩ := andThen_ok h
      exact forJobs_extends _ _ _ (fun j hj acc r hr => ih _ _ _ _ _ _
        (hsub a b ga gb q1 q2 h1 h2 hP (Option.some.inj f1) (Option.some.inj f2) (Option.some.inj f3) (Option.some.inj f4) j hj) hr) h

theorem detect_grows (fuel : Nat) (a b ga gb : Surface K) (acc r : Found K) (h : detect env tol fuel a b ga gb acc = some (.ok r)) :
    Extends (fun _ => True) (fun _ => True) acc r :=
  detect_extends (P := fun _ _ _ _ => True) (fun _ _ _ _ _ _ _ _ _ _ _ _ => trivial) (fun _ _ _ _ _ _ _ _ _ _ _ _ _ => trivial)
    (fun _ _ _ _ _ _ _ _ _ _ _ _ _ _ _ => trivial) fuel a b ga gb acc r trivial h

end Cmm.Gauss
