import Verif.Spec.Boundary
import Verif.Props.Hash
import Verif.Props.Surface
/-!
Properties of cmmcore/boundary_intersection.h: C53.
-/
namespace Cmm.Bnd
open Cmm.Nurbs Cmm.Hash
variable {K : Type}

section sorting
variable {α : Type} [LinearOrder K]

theorem scan_spec (dist : α → K) (l : List α) : ∀ (i : Nat) (pre : List α), pre.length = i →
    ∀ (best : Option (Nat × K)), (best = none → pre = []) →
    (∀ j d, best = some (j, d) → ∃ p b q, pre = p ++ b :: q ∧ j = p.length ∧ d = dist b ∧ (∀ c ∈ p, dist b < dist c) ∧ (∀ c ∈ q, dist b ≤ dist c)) →
    (scan dist l i best = none → pre ++ l = []) ∧
    (∀ j d, scan dist l i best = some (j, d) → ∃ p b q, pre ++ l = p ++ b :: q ∧ j = p.length ∧ (∀ c ∈ p, dist b < dist c) ∧ (∀ c ∈ q, dist b ≤ dist c)) := by
  induction l with
  | nil =>
    intro i pre _ best h0 h1
    simp only [scan, List.append_nil]
    refine ⟨h0, fun j d h => ?_⟩
    obtain ⟨p, b, q, e, ej, -, e1, e2⟩ := h1 j d h
    exact ⟨p, b, q, e, ej, e1, e2⟩
  | cons a l ih =>
    intro i pre hi best h0 h1
    have key : ∀ best', (best' ≠ none) →
        (∀ j d, best' = some (j, d) → ∃ p b q, pre ++ [a] = p ++ b :: q ∧ j = p.length ∧ d = dist b ∧ (∀ c ∈ p, dist b < dist c) ∧ (∀ c ∈ q, dist b ≤ dist c)) →
        (scan dist l (i + 1) best' = none → pre ++ a :: l = []) ∧
        (∀ j d, scan dist l (i + 1) best' = some (j, d) → ∃ p b q, pre ++ a :: l = p ++ b :: q ∧ j = p.length ∧ (∀ c ∈ p, dist b < dist c) ∧ (∀ c ∈ q, dist b ≤ dist c)) := by
      intro best' hn h
      have := ih (i + 1) (pre ++ [a]) (by simp [hi]) best' (fun e => absurd e hn) h
      simpa using this
    cases best with
    | none =>
      have hp := h0 rfl
      subst hp
      simp only [scan]
      refine key _ (by simp) ?_
      intro j d e
      cases e
      exact ⟨[], a, [], by simp, by simpa using hi.symm, rfl, by simp, by simp⟩
    | some jd =>
      obtain ⟨j, d⟩ := jd
      obtain ⟨p, b, q, e, ej, ed, e1, e2⟩ := h1 j d rfl
      simp only [scan]
      refine key _ (by split <;> simp) ?_
      intro j' d' h
      split at h
      · rename_i hlt
        cases h
        refine ⟨pre, a, [], rfl, hi.symm, rfl, ?_, by simp⟩
        intro c hc
        rw [e] at hc
        rw [ed] at hlt
        rcases List.mem_append.1 hc with hc | hc
        · exact lt_trans hlt (e1 c hc)
        · rcases List.mem_cons.1 hc with rfl | hc
          · exact hlt
          · exact lt_of_lt_of_le hlt (e2 c hc)
      · rename_i hlt
        cases h
        refine ⟨p, b, q ++ [a], by simp [e], ej, ed, e1, ?_⟩
        intro c hc
        rcases List.mem_append.1 hc with hc | hc
        · exact e2 c hc
        · rw [List.mem_singleton.1 hc, ← ed]; exact not_lt.1 hlt

theorem sequences_spec (dist : α → α → K) : ∀ (n : Nat) (l : List α), l.length ≤ n → ∃ r, sequences dist n l = some r ∧ Pairing dist l r := by
  intro n
  induction n with
  | zero => intro l hl; rw [List.length_eq_zero_iff.1 (Nat.le_zero.1 hl)]; exact ⟨[], by simp [sequences], rfl⟩
  | succ n ih =>
    intro l hl
    cases l with
    | nil => exact ⟨[], by simp [sequences], rfl⟩
    | cons a rest =>
      unfold sequences
      obtain ⟨h0, h1⟩ := scan_spec (dist a) rest 0 [] rfl none (fun _ => rfl) (by simp)
      simp only [List.nil_append] at h0 h1
      cases hs : scan (dist a) rest 0 none with
      | none =>
        have := h0 hs
        subst this
        exact ⟨[[a]], by simp [sequences], Or.inl ⟨a, rfl, rfl, rfl⟩⟩
      | some jd =>
        obtain ⟨j, d⟩ := jd
        obtain ⟨p, b, q, e, ej, e1, e2⟩ := h1 j d hs
        have hj : rest[j]? = some b := by rw [e, ej]; simp
        have he : rest.eraseIdx j = p ++ q := by
          rw [e, ej, List.eraseIdx_append_of_length_le (le_refl _), Nat.sub_self]; rfl
        obtain ⟨r, hr, hp⟩ := ih (p ++ q) (by rw [e] at hl; simp at hl ⊢; omega)
        simp only [hj, he, hr]
        exact ⟨[a, b] :: r, rfl, Or.inr ⟨a, p, b, q, by rw [e], rfl, e1, e2, hp⟩⟩

/-- What a pairing means for the whole: nothing lost or repeated, sequences of one or two points, a single point only at the end. -/
theorem pairing_facts (dist : α → α → K) : ∀ (r : List (List α)) (l : List α), Pairing dist l r →
    r.flatten.Perm l ∧ (∀ s ∈ r, s.length = 1 ∨ s.length = 2) ∧ (∀ s ∈ r.dropLast, s.length = 2) := by
  intro r
  induction r with
  | nil => intro l h; rw [show l = [] from h]; simp
  | cons s r ih =>
    intro l h
    rcases h with ⟨a, rfl, rfl, rfl⟩ | ⟨a, pre, b, post, rfl, rfl, -, -, h⟩
    · simp
    · obtain ⟨i1, i2, i3⟩ := ih _ h
      refine ⟨?_, ?_, ?_⟩
      · simp only [List.flatten_cons, List.cons_append, List.nil_append]
        refine List.Perm.cons a ?_
        exact ((List.Perm.cons b i1).trans List.perm_middle.symm)
      · intro s hs
        rcases List.mem_cons.1 hs with rfl | hs
        · right; rfl
        · exact i2 s hs
      · intro s hs
        cases r with
        | nil => simp at hs
        | cons t r =>
          rw [List.dropLast_cons_of_ne_nil (by simp)] at hs
          rcases List.mem_cons.1 hs with rfl | hs
          · rfl
          · exact i3 s hs

/-- **C53**: `sort_boundary_intersections` finishes and appends to the output a pairing of the points: every point once, sequences of one or two, a
single point only at the end, each start the first point left, its partner a nearest of the others. -/
theorem C53_sort (dist : α → α → K) (points : List α) (result : List (List α)) :
    ∃ r, sortIntersections dist points result = some (result ++ r) ∧ Pairing dist points r ∧ r.flatten.Perm points ∧
      (∀ s ∈ r, s.length = 1 ∨ s.length = 2) ∧ (∀ s ∈ r.dropLast, s.length = 2) := by
  unfold sortIntersections
  split
  · rename_i h
    rw [List.isEmpty_iff.1 h]
    exact ⟨[], by simp, rfl, by simp, by simp, by simp⟩
  · obtain ⟨r, hr, hp⟩ := sequences_spec dist points.length points (le_refl _)
    exact ⟨r, by rw [hr]; rfl, hp, pairing_facts dist r points hp⟩

example : sortIntersections (fun a b : ℚ => |a - b|) [0, 10, 1, 12, 5] [[7]] = some [[7], [0, 1], [10, 12], [5]] := by decide +kernel

end sorting

section dedup
variable [Field K] [LinearOrder K] [IsStrictOrderedRing K] [FloorRing K]

/-- The point has a key: its coordinates are in range. -/
def HasKey (p : Vec3 K) : Prop := ∃ k, vec3Hash p = .ok k

omit [IsStrictOrderedRing K] in
theorem vec3Equal_defined {a b : Vec3 K} (ha : HasKey a) (hb : HasKey b) : ∃ c, vec3Equal a b = .ok c := by
  obtain ⟨k, ha⟩ := ha
  obtain ⟨x, ex, ha⟩ := ok_of_bind ha
  obtain ⟨y, ey, ha⟩ := ok_of_bind ha
  obtain ⟨z, ez, -⟩ := ok_of_bind ha
  obtain ⟨k', hb⟩ := hb
  obtain ⟨x', ex', hb⟩ := ok_of_bind hb
  obtain ⟨y', ey', hb⟩ := ok_of_bind hb
  obtain ⟨z', ez', -⟩ := ok_of_bind hb
  unfold vec3Equal
  rw [ex, ex', ey, ey', ez, ez']
  simp only [Res.ok_bind]
  split
  · split
    · exact ⟨_, rfl⟩
    · exact ⟨_, rfl⟩
  · exact ⟨_, rfl⟩

instance (a b : Vec3 K) : Decidable (SameKey a b) := inferInstanceAs (Decidable (_ = _))

omit [IsStrictOrderedRing K] in
theorem sameKey_symm {a b : Vec3 K} (h : SameKey a b) : SameKey b a := (C54_vec3_equivalence a b b).2.1 h

omit [IsStrictOrderedRing K] in
theorem sameKey_trans {a b c : Vec3 K} (h : SameKey a b) (h' : SameKey b c) : SameKey a c := (C54_vec3_equivalence a b c).2.2 h h'

omit [IsStrictOrderedRing K] in
theorem sameKey_refl {a : Vec3 K} (h : HasKey a) : SameKey a a := (C54_vec3_equivalence a a a).1.1 h

omit [IsStrictOrderedRing K] in
theorem contains_spec (p : Vec3 K) (hp : HasKey p) : ∀ seen : List (Vec3 K), (∀ q ∈ seen, HasKey q) →
    contains p seen = .ok (seen.any fun q => decide (SameKey p q)) := by
  intro seen
  induction seen with
  | nil => intro _; rfl
  | cons q qs ih =>
    intro hk
    unfold contains
    obtain ⟨c, hc⟩ := vec3Equal_defined (hk q List.mem_cons_self) hp
    rw [hc, Res.ok_bind, ih (fun r hr => hk r (List.mem_cons_of_mem _ hr)), Res.ok_bind]
    have : c = decide (SameKey p q) := by
      have h2 : c = true ↔ SameKey q p := by unfold SameKey; rw [hc]; simp
      rw [Bool.eq_iff_iff, h2, decide_eq_true_eq]
      exact ⟨sameKey_symm, sameKey_symm⟩
    rw [this]; rfl

/-- Points compared by their keys. -/
def samePoint (a b : Point K) : Bool := decide (SameKey a.point b.point)

omit [Field K] [LinearOrder K] [IsStrictOrderedRing K] [FloorRing K] in
theorem keepLast_mem {same : Point K → Point K → Bool} {l : List (Point K)} {p : Point K} (h : p ∈ keepLast same l) : p ∈ l := by
  induction l with
  | nil => exact h
  | cons q l ih =>
    unfold keepLast at h
    split at h
    · exact List.mem_cons_of_mem _ (ih h)
    · rcases List.mem_cons.1 h with rfl | h
      · exact List.mem_cons_self
      · exact List.mem_cons_of_mem _ (ih h)

omit [IsStrictOrderedRing K] in
theorem any_keepLast (p : Point K) (l : List (Point K)) : (keepLast samePoint l).any (samePoint p) = l.any (samePoint p) := by
  induction l with
  | nil => rfl
  | cons q l ih =>
    unfold keepLast
    split
    · rename_i h
      rw [ih, List.any_cons]
      cases hq : samePoint p q with
      | false => rfl
      | true =>
        obtain ⟨r, hr, hs⟩ := List.any_eq_true.1 h
        rw [Bool.true_or]
        exact List.any_eq_true.2 ⟨r, hr, decide_eq_true (sameKey_trans (of_decide_eq_true hq) (of_decide_eq_true hs))⟩
    · rw [List.any_cons, List.any_cons, ih]

omit [IsStrictOrderedRing K] in
theorem dedupFrom_spec : ∀ (rev todo : List (Point K)), (∀ p ∈ rev.reverse ++ todo, HasKey p.point) →
    dedupFrom rev ((keepLast samePoint todo).map Point.point) (keepLast samePoint todo) = .ok (keepLast samePoint (rev.reverse ++ todo)) := by
  intro rev
  induction rev with
  | nil => intro todo _; simp [dedupFrom]
  | cons p rev ih =>
    intro todo hk
    unfold dedupFrom
    have hp : HasKey p.point := hk p (by simp)
    obtain ⟨k, hk'⟩ := id hp
    rw [hk', Res.ok_bind, contains_spec p.point hp _ (by
      intro q hq
      obtain ⟨q', hq', rfl⟩ := List.mem_map.1 hq
      exact hk q' (by simp [keepLast_mem hq'])), Res.ok_bind]
    have hany : (((keepLast samePoint todo).map Point.point).any fun q => decide (SameKey p.point q)) = todo.any (samePoint p) := by
      rw [← any_keepLast, List.any_map]; rfl
    rw [hany]
    have := ih (p :: todo) (by intro q hq; exact hk q (by simpa using hq))
    rw [List.reverse_cons, List.append_assoc, List.singleton_append, ← this]
    conv_rhs => unfold keepLast
    cases h : todo.any (samePoint p) with
    | true => simp
    | false => simp

omit [IsStrictOrderedRing K] in
theorem hasKey_of_dedupFrom : ∀ (rev : List (Point K)) (seen : List (Vec3 K)) (kept r : List (Point K)), dedupFrom rev seen kept = .ok r →
    ∀ p ∈ rev, HasKey p.point := by
  intro rev
  induction rev with
  | nil => intro _ _ _ _ p hp; cases hp
  | cons q rev ih =>
    intro seen kept r h p hp
    unfold dedupFrom at h
    obtain ⟨k, hk, h⟩ := ok_of_bind h
    obtain ⟨b, -, h⟩ := ok_of_bind h
    rcases List.mem_cons.1 hp with rfl | hp
    · exact ⟨k, hk⟩
    · split at h
      · exact ih _ _ _ h p hp
      · exact ih _ _ _ h p hp

omit [IsStrictOrderedRing K] in
/-- **C53**: duplicate removal is defined exactly if all points have keys in range, and keeps exactly the points without an equal one further on. -/
theorem C53_dedup (ps r : List (Point K)) :
    dedup ps = .ok r ↔ (∀ p ∈ ps, ∃ k, vec3Hash p.point = .ok k) ∧ r = keepLast samePoint ps := by
  constructor
  · intro h
    have hk : ∀ p ∈ ps, HasKey p.point := fun p hp => hasKey_of_dedupFrom _ _ _ _ h p (List.mem_reverse.2 hp)
    refine ⟨hk, ?_⟩
    have := dedupFrom_spec ps.reverse [] (by simpa using hk)
    unfold dedup at h
    simp only [keepLast, List.map_nil, List.reverse_reverse, List.append_nil] at this
    rw [this] at h
    exact (Res.ok.inj h).symm
  · rintro ⟨hk, rfl⟩
    have hk : ∀ p ∈ ps, HasKey p.point := hk
    have := dedupFrom_spec ps.reverse [] (by simpa using hk)
    unfold dedup
    simpa [keepLast] using this

omit [IsStrictOrderedRing K] in
/-- **C53**: what is kept is a part of the list in its order, no two kept points are equal, and every point equals a kept one. -/
theorem C53_dedup_representatives (ps r : List (Point K)) (h : dedup ps = .ok r) :
    r.Sublist ps ∧ r.Pairwise (fun a b => vec3Equal a.point b.point = .ok false) ∧ ∀ p ∈ ps, ∃ q ∈ r, vec3Equal p.point q.point = .ok true := by
  obtain ⟨hk, rfl⟩ := (C53_dedup ps r).1 h
  clear h
  induction ps with
  | nil => simp [keepLast]
  | cons p ps ih =>
    obtain ⟨i1, i2, i3⟩ := ih (fun q hq => hk q (List.mem_cons_of_mem _ hq))
    unfold keepLast
    split
    · rename_i h
      refine ⟨i1.cons p, i2, ?_⟩
      intro q hq
      rcases List.mem_cons.1 hq with rfl | hq
      · rw [← any_keepLast] at h
        obtain ⟨s, hs, e⟩ := List.any_eq_true.1 h
        exact ⟨s, hs, of_decide_eq_true e⟩
      · exact i3 q hq
    · rename_i h
      refine ⟨i1.cons_cons p, List.pairwise_cons.2 ⟨?_, i2⟩, ?_⟩
      · intro q hq
        obtain ⟨c, hc⟩ := vec3Equal_defined (hk p List.mem_cons_self) (hk q (List.mem_cons_of_mem _ (keepLast_mem hq)))
        cases c with
        | false => exact hc
        | true => exact absurd (List.any_eq_true.2 ⟨q, keepLast_mem hq, decide_eq_true hc⟩) h
      · intro q hq
        rcases List.mem_cons.1 hq with rfl | hq
        · exact ⟨q, List.mem_cons_self, sameKey_refl (hk q List.mem_cons_self)⟩
        · obtain ⟨s, hs, e⟩ := i3 q hq
          exact ⟨s, List.mem_cons_of_mem _ hs, e⟩

example : (match dedup ([⟨⟨0, 0, 0⟩, 1, (0, 0), (0, 0), (0, 0), 0, true, ((0, 1), (0, 1))⟩, ⟨⟨1, 0, 0⟩, 2, (0, 0), (0, 0), (0, 0), 0, true, ((0, 1), (0, 1))⟩,
    ⟨⟨1 / 100, 0, 0⟩, 3, (0, 0), (0, 0), (0, 0), 0, true, ((0, 1), (0, 1))⟩] : List (Point ℚ)) with
    | .ok l => l.map Point.curveParam
    | _ => []) = [2, 3] := by decide +kernel

end dedup

section params

/-- **C53**: the parameters stored for the surface the boundary belongs to are those of the boundary, those for the other surface are the hit's,
and `get_start_params` returns the stored ones. -/
theorem C53_params (s : Surface K) (point : Vec3 K) (t : K) (sp : K × K) (i : Nat) (hi : i < 4) :
    let iv := ((s.u0, s.u1), (s.v0, s.v1))
    let p := Point.make point t sp i true iv
    let q := Point.make point t sp i false iv
    OnBoundary s i t p.params1 ∧ p.params2 = sp ∧ q.params1 = sp ∧ OnBoundary s i t q.params2 ∧ p.startParams = (p.params1, p.params2) ∧
      q.startParams = (q.params1, q.params2) ∧ p.point = point ∧ q.point = point ∧ p.curveParam = t ∧ q.curveParam = t := by
  refine ⟨?_, rfl, rfl, ?_, rfl, rfl, rfl, rfl, rfl, rfl⟩
  all_goals
    simp only [Point.make, boundaryParams, OnBoundary]
    match i, hi with
    | 0, _ => simp
    | 1, _ => simp
    | 2, _ => simp
    | 3, _ => simp

example : OnBoundary (K := ℚ) ⟨[], 0, 0, 0, 0, [], [], 1, 2, 3, 4⟩ 3 7 (7, 4) := by unfold OnBoundary; decide

variable [Field K] [LinearOrder K] [IsStrictOrderedRing K] [FloorRing K]

omit [Field K] [LinearOrder K] [IsStrictOrderedRing K] [FloorRing K] in
theorem collect_mem {csx : Curve K → Surface K → Res (List (Hit K))} {other : Surface K} {ff : Bool} {iv : (K × K) × (K × K)} :
    ∀ (cs : List (Curve K)) (i : Nat) (r : List (Point K)), collect csx other ff iv cs i = .ok r → ∀ p,
      p ∈ r ↔ ∃ j c hits h, cs[j]? = some c ∧ csx c other = .ok hits ∧ h ∈ hits ∧ p = Point.make h.point h.t (h.u, h.v) (i + j) ff iv := by
  intro cs
  induction cs with
  | nil => intro i r h p; rw [← Res.ok.inj h]; simp
  | cons c cs ih =>
    intro i r h p
    unfold collect at h
    obtain ⟨hits, h1, h⟩ := ok_of_bind h
    obtain ⟨rest, h2, h⟩ := ok_of_bind h
    rw [← Res.ok.inj h, List.mem_append, List.mem_map, ih _ _ h2 p]
    constructor
    · rintro (⟨x, hx, rfl⟩ | ⟨j, c', hits', x, e1, e2, e3, e4⟩)
      · exact ⟨0, c, hits, x, rfl, h1, hx, rfl⟩
      · exact ⟨j + 1, c', hits', x, by simpa using e1, e2, e3, by rw [e4]; congr 1; omega⟩
    · rintro ⟨j, c', hits', x, e1, e2, e3, e4⟩
      cases j with
      | zero =>
        simp only [List.getElem?_cons_zero, Option.some.injEq] at e1
        subst e1
        rw [h1] at e2
        rw [← Res.ok.inj e2] at e3
        exact Or.inl ⟨x, e3, e4.symm⟩
      | succ j => exact Or.inr ⟨j, c', hits', x, by simpa using e1, e2, e3, by rw [e4]; congr 1; omega⟩

/-- A hit of boundary `i` of `s` (a free iso-curve) with the other surface. -/
def BoundaryHit (csx : Curve K → Surface K → Res (List (Hit K))) (s other : Surface K) (i : Nat) (h : Hit K) : Prop :=
  ∃ cs c hits, freeBoundaries s = .ok cs ∧ cs[i]? = some c ∧ csx c other = .ok hits ∧ h ∈ hits

omit [IsStrictOrderedRing K] [FloorRing K] in
theorem freeBoundaries_length {s : Surface K} {cs : List (Curve K)} (h : freeBoundaries s = .ok cs) : cs.length = 4 := by
  unfold freeBoundaries at h
  obtain ⟨a, -, h⟩ := ok_of_bind h
  obtain ⟨b, -, h⟩ := ok_of_bind h
  obtain ⟨c, -, h⟩ := ok_of_bind h
  obtain ⟨d, -, h⟩ := ok_of_bind h
  rw [← Res.ok.inj h]; rfl

omit [IsStrictOrderedRing K] in
/-- **C53**: every point `find_boundary_intersections` leaves in an empty output vector is a hit of one of the four boundaries of one surface with the
other surface, at the parameters of that boundary; and every such hit is represented by a point with an equal position. -/
theorem C53_find (csx : Curve K → Surface K → Res (List (Hit K))) (s1 s2 : Surface K) (r : List (Point K))
    (hr : findBoundaryIntersections csx s1 s2 [] = .ok r) :
    (∀ p ∈ r, ∃ i h, i < 4 ∧ p.point = h.point ∧ p.curveParam = h.t ∧
      ((p.fromFirst = true ∧ BoundaryHit csx s1 s2 i h ∧ OnBoundary s1 i h.t p.params1 ∧ p.params2 = (h.u, h.v)) ∨
       (p.fromFirst = false ∧ BoundaryHit csx s2 s1 i h ∧ OnBoundary s2 i h.t p.params2 ∧ p.params1 = (h.u, h.v)))) ∧
    (∀ i h, BoundaryHit csx s1 s2 i h ∨ BoundaryHit csx s2 s1 i h → ∃ p ∈ r, vec3Equal h.point p.point = .ok true) ∧
    r.Pairwise (fun a b => vec3Equal a.point b.point = .ok false) := by
  unfold findBoundaryIntersections at hr
  obtain ⟨b1, h1, hr⟩ := ok_of_bind hr
  obtain ⟨b2, h2, hr⟩ := ok_of_bind hr
  obtain ⟨p1, h3, hr⟩ := ok_of_bind hr
  obtain ⟨p2, h4, hr⟩ := ok_of_bind hr
  obtain ⟨d1, d2, d3⟩ := C53_dedup_representatives _ _ hr
  have m1 := collect_mem _ _ _ h3
  have m2 := collect_mem _ _ _ h4
  refine ⟨?_, ?_, d2⟩
  · intro p hp
    have hp := d1.subset hp
    rw [List.nil_append, List.mem_append, m1, m2] at hp
    rcases hp with ⟨j, c, hits, h, e1, e2, e3, rfl⟩ | ⟨j, c, hits, h, e1, e2, e3, rfl⟩
    · have hj : j < 4 := by rw [← freeBoundaries_length h1]; exact (List.getElem?_eq_some_iff.1 e1).1
      obtain ⟨q1, q2, -⟩ := C53_params s1 h.point h.t (h.u, h.v) j hj
      rw [Nat.zero_add]
      exact ⟨j, h, hj, rfl, rfl, Or.inl ⟨rfl, ⟨b1, c, hits, h1, e1, e2, e3⟩, q1, q2⟩⟩
    · have hj : j < 4 := by rw [← freeBoundaries_length h2]; exact (List.getElem?_eq_some_iff.1 e1).1
      obtain ⟨-, -, q1, q2, -⟩ := C53_params s2 h.point h.t (h.u, h.v) j hj
      rw [Nat.zero_add]
      exact ⟨j, h, hj, rfl, rfl, Or.inr ⟨rfl, ⟨b2, c, hits, h2, e1, e2, e3⟩, q2, q1⟩⟩
  · rintro i h (⟨cs, c, hits, e0, e1, e2, e3⟩ | ⟨cs, c, hits, e0, e1, e2, e3⟩)
    · rw [h1] at e0
      cases e0
      exact d3 (Point.make h.point h.t (h.u, h.v) (0 + i) true _) (by
        rw [List.nil_append, List.mem_append, m1]; exact Or.inl ⟨i, c, hits, h, e1, e2, e3, rfl⟩)
    · rw [h2] at e0
      cases e0
      exact d3 (Point.make h.point h.t (h.u, h.v) (0 + i) false _) (by
        rw [List.nil_append, List.mem_append, m2]; exact Or.inr ⟨i, c, hits, h, e1, e2, e3, rfl⟩)

omit [IsStrictOrderedRing K] in
/-- C53: points already in the output vector take part in the duplicate removal and are otherwise kept. -/
theorem C53_find_appends (csx : Curve K → Surface K → Res (List (Hit K))) (s1 s2 : Surface K) (acc r : List (Point K))
    (hr : findBoundaryIntersections csx s1 s2 acc = .ok r) : ∀ p ∈ acc, ∃ q ∈ r, vec3Equal p.point q.point = .ok true := by
  unfold findBoundaryIntersections at hr
  obtain ⟨b1, h1, hr⟩ := ok_of_bind hr
  obtain ⟨b2, h2, hr⟩ := ok_of_bind hr
  obtain ⟨p1, h3, hr⟩ := ok_of_bind hr
  obtain ⟨p2, h4, hr⟩ := ok_of_bind hr
  intro p hp
  exact (C53_dedup_representatives _ _ hr).2.2 p (by simp [hp])

omit [IsStrictOrderedRing K] in
/-- C53: `processSimpleSurfaceIntersection` adds one patch, from the first to the last boundary point, if there are at least two, and nothing otherwise. -/
theorem C53_process_simple (csx : Curve K → Surface K → Res (List (Hit K))) (s1 s2 : Surface K) (patches r : List (Point K × Point K)) :
    processSimple csx s1 s2 patches = .ok r ↔ ∃ ixs, findBoundaryIntersections csx s1 s2 [] = .ok ixs ∧
      ((ixs.length < 2 ∧ r = patches) ∨ ∃ a mid b, ixs = a :: (mid ++ [b]) ∧ r = patches ++ [(a, b)]) := by
  unfold processSimple
  constructor
  · intro h
    obtain ⟨ixs, e, h⟩ := ok_of_bind h
    refine ⟨ixs, e, ?_⟩
    rcases ixs with _ | ⟨a, _ | ⟨b, l⟩⟩
    · left; exact ⟨by simp, (Res.ok.inj h).symm⟩
    · left; exact ⟨by simp, (Res.ok.inj h).symm⟩
    · right
      obtain ⟨mid, z, e⟩ := List.eq_nil_or_concat (b :: l) |>.resolve_left (by simp)
      rw [List.concat_eq_append] at e
      rw [e] at h ⊢
      refine ⟨a, mid, z, rfl, ?_⟩
      have hz : (a :: (mid ++ [z]))[(a :: (mid ++ [z])).length - 1]? = some z := by simp
      rw [hz] at h
      simp only [List.getElem?_cons_zero] at h
      rw [if_pos (by simp)] at h
      exact (Res.ok.inj h).symm
  · rintro ⟨ixs, e, h⟩
    rw [e, Res.ok_bind]
    rcases h with ⟨h, rfl⟩ | ⟨a, mid, b, rfl, rfl⟩
    · rcases ixs with _ | ⟨a, _ | ⟨b, l⟩⟩
      · rfl
      · rfl
      · simp at h
    · have hz : (a :: (mid ++ [b]))[(a :: (mid ++ [b])).length - 1]? = some b := by simp
      rw [hz]
      simp only [List.getElem?_cons_zero]
      rw [if_pos (by simp)]; rfl

omit [FloorRing K] in
/-- **C53**: on the two boundaries with fixed u, the stored parameters give on the surface the same point as the boundary curve. -/
theorem C53_u_boundary_on_surface_partial (s : Surface K) (S : ValidSurface s) (hw : SurfUnit s) (hI : SurfIntervalOk s)
    (hcu : ClampedKnots s.su s.du s.ku) (cs : List (Curve K)) (hcs : freeBoundaries s = .ok cs) (i : Nat) (hi : i < 2) (t : K)
    (uv : K × K) (huv : OnBoundary s i t uv) :
    ∃ c, cs[i]? = some c ∧ (InDomain c t → c.evaluate t = s.evaluate uv.1 uv.2) := by
  unfold SurfIntervalOk at hI
  rw [surf_updateInterval S.knots_u.ne_nil S.knots_v.ne_nil] at hI
  have hI' := Res.ok.inj hI
  have hlu := S.knots_u.len
  have heu := S.knots_u.enough
  have u0 : s.u0 = ix s.ku s.du := by rw [← hcu.1 0 (by omega)]; rw [← hI']
  have u1 : s.u1 = ix s.ku s.su := by
    rw [← hcu.2 (s.su + s.du) (by omega) (by omega), show s.su + s.du = s.ku.length - 1 by omega]; rw [← hI']
  have hu : ix s.ku s.du ≤ ix s.ku s.su := S.knots_u.mono _ _ (by omega) (by omega)
  obtain ⟨a, ha, _, _, _, _, ea⟩ := C32_isocurve_u_partial s S hw (ix s.ku s.du) (by rw [u0]) (by rw [u1]; exact hu) ⟨le_refl _, hu⟩
  obtain ⟨b, hb, _, _, _, _, eb⟩ := C32_isocurve_u_partial s S hw (ix s.ku s.su) (by rw [u0]; exact hu) (by rw [u1]) ⟨hu, le_refl _⟩
  rw [← u0] at ha ea
  rw [← u1] at hb eb
  unfold freeBoundaries at hcs
  rw [C32_free_u_agrees s S, C32_free_u_agrees s S, ha, Res.ok_bind, hb, Res.ok_bind] at hcs
  obtain ⟨c, -, hcs⟩ := ok_of_bind hcs
  obtain ⟨d, -, hcs⟩ := ok_of_bind hcs
  rw [← Res.ok.inj hcs]
  rcases huv with ⟨rfl, rfl⟩ | ⟨rfl, rfl⟩ | ⟨rfl, _⟩ | ⟨rfl, _⟩
  · exact ⟨a, rfl, (ea t).2⟩
  · exact ⟨b, rfl, (eb t).2⟩
  · omega
  · omega

example : (match freeBoundaries demoSurface with | .ok cs => cs.length | _ => 0) = 4 := by decide +kernel

omit [FloorRing K] in
/-- **C53**: on the two boundaries with fixed v they do if the surface's u knots are the generated ones. -/
theorem C53_v_boundary_on_surface_partial (s : Surface K) (S : ValidSurface s) (hw : SurfUnit s) (hI : SurfIntervalOk s)
    (hk : generateKnots s.su s.du = .ok s.ku) (hcv : ClampedKnots s.sv s.dv s.kv) (cs : List (Curve K)) (hcs : freeBoundaries s = .ok cs) (i : Nat)
    (hi : 2 ≤ i) (t : K) (uv : K × K) (huv : OnBoundary s i t uv) :
    ∃ c, cs[i]? = some c ∧ (InDomain c t → c.evaluate t = s.evaluate uv.1 uv.2) := by
  unfold SurfIntervalOk at hI
  rw [surf_updateInterval S.knots_u.ne_nil S.knots_v.ne_nil] at hI
  have hI' := Res.ok.inj hI
  have hlv := S.knots_v.len
  have hev := S.knots_v.enough
  have v0 : s.v0 = ix s.kv s.dv := by rw [← hcv.1 0 (by omega)]; rw [← hI']
  have v1 : s.v1 = ix s.kv s.sv := by
    rw [← hcv.2 (s.sv + s.dv) (by omega) (by omega), show s.sv + s.dv = s.kv.length - 1 by omega]; rw [← hI']
  have hv : ix s.kv s.dv ≤ ix s.kv s.sv := S.knots_v.mono _ _ (by omega) (by omega)
  obtain ⟨c, hc, _, _, _, _, ec⟩ := C32_isocurve_v_partial s S hw (ix s.kv s.dv) (by rw [v0]) (by rw [v1]; exact hv) ⟨le_refl _, hv⟩
  obtain ⟨d, hd, _, _, _, _, ed⟩ := C32_isocurve_v_partial s S hw (ix s.kv s.sv) (by rw [v0]; exact hv) (by rw [v1]) ⟨hv, le_refl _⟩
  rw [← v0] at hc ec
  rw [← v1] at hd ed
  unfold freeBoundaries at hcs
  obtain ⟨a, -, hcs⟩ := ok_of_bind hcs
  obtain ⟨b, -, hcs⟩ := ok_of_bind hcs
  rw [C32_free_v_agrees_partial s S hk, C32_free_v_agrees_partial s S hk, hc, Res.ok_bind, hd, Res.ok_bind] at hcs
  rw [← Res.ok.inj hcs]
  rcases huv with ⟨rfl, _⟩ | ⟨rfl, _⟩ | ⟨rfl, rfl⟩ | ⟨rfl, rfl⟩
  · omega
  · omega
  · exact ⟨c, rfl, (ec t).2⟩
  · exact ⟨d, rfl, (ed t).2⟩

example : SurfUnit plainSurface ∧ SurfIntervalOk plainSurface ∧ (match freeBoundaries plainSurface with | .ok cs => cs.length | _ => 0) = 4 :=
  ⟨by unfold SurfUnit; decide +kernel, by unfold SurfIntervalOk; decide +kernel, by decide +kernel⟩

/-- **C53 fails on the boundaries with fixed v**: the boundary curve has lost the surface's knots, so the surface point at the stored parameters is
another one. -/
theorem C53_v_boundary_counterexample :
    ∃ s : Surface ℚ, ValidSurface s ∧ SurfUnit s ∧ SurfIntervalOk s ∧ ∃ cs c t uv p q, freeBoundaries s = .ok cs ∧ cs[2]? = some c ∧ InDomain c t ∧
      OnBoundary s 2 t uv ∧ SurfInDomain s uv.1 uv.2 ∧ c.evaluate t = .ok p ∧ s.evaluate uv.1 uv.2 = .ok q ∧ p ≠ q := by
  have key : ∀ x : Res (List (Curve ℚ)), (match x with
      | .ok cs => decide (cs[2]? = some ⟨[⟨0, 0, 0, 1⟩, ⟨1, 0, 2, 1⟩, ⟨2, 0, 1, 1⟩, ⟨3, 0, 0, 1⟩], 2, [0, 0, 0, 1, 2, 2, 2], false, 0, 2⟩)
      | _ => false) = true → ∃ cs, x = .ok cs ∧ cs[2]? = some ⟨[⟨0, 0, 0, 1⟩, ⟨1, 0, 2, 1⟩, ⟨2, 0, 1, 1⟩, ⟨3, 0, 0, 1⟩], 2, [0, 0, 0, 1, 2, 2, 2], false, 0, 2⟩ := by
    intro x h
    cases x with
    | ok cs => exact ⟨cs, rfl, of_decide_eq_true h⟩
    | throws => cases h
    | ub => cases h
  obtain ⟨cs, h1, h2⟩ := key (freeBoundaries demoSurface) (by decide +kernel)
  exact ⟨demoSurface, demoSurface_valid, by unfold SurfUnit; decide +kernel, by unfold SurfIntervalOk; decide +kernel, cs, _, 1, (1, 0),
    ⟨3 / 2, 0, 3 / 2⟩, ⟨3, 0, 0⟩, h1, h2, by unfold InDomain; decide +kernel, by unfold OnBoundary; decide +kernel,
    by unfold SurfInDomain; decide +kernel, by decide +kernel, by decide +kernel, by decide +kernel⟩

end params
end Cmm.Bnd
