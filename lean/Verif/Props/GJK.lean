import Verif.Lemmas.GJK
import Verif.Props.ClosestPoint
/-!
Properties of cmmcore/gjk.h: C49, C60.
-/
namespace Cmm.Gjk
open Cmm.Geom
variable {K : Type} [Field K] [LinearOrder K] [IsStrictOrderedRing K]

/-! ### C49 -/

omit [IsStrictOrderedRing K] in
theorem gjk_spec {A B : List (Vec3 K)} (hA : A ≠ []) (hB : B ≠ []) (tol : K) (cp : Option (Vec3 K)) (n : Nat) :
    ∃ r, gjk A B [] cp tol n = .ok r ∧ r.rounds ≤ n ∧ 1 ≤ r.simplex.length ∧ r.simplex.length ≤ 4 ∧
        (∀ v ∈ r.simplex, ∃ a ∈ A, ∃ b ∈ B, v = a - b) ∧
        (r.collide = false → r.simplex.length ≤ 3 ∧ closestPointOnSimplex r.simplex = .ok r.closest ∧
          ∃ d c : Vec3 K, ∃ e ∈ B, c ∈ A ∧ (∀ u ∈ A, u.dot d ≤ c.dot d) ∧ (∀ u ∈ B, u.dot (-d) ≤ e.dot (-d)) ∧ (c - e).dot d < 0) ∧
        (r.collide = true → r.rounds < n → r.simplex.length = 4 ∧ r.closest = cp) := by
  match A, B, hA, hB with
  | a0 :: A', b0 :: B', hA, hB =>
    unfold gjk
    dsimp only
    obtain ⟨a, ha, b, hb, e, _, _⟩ := support_spec hA hB (if (b0 - a0).sqLength = 0 then (⟨1, 0, 0⟩ : Vec3 K) else b0 - a0)
    rw [e]
    obtain ⟨r, h1, _, h3, h4, h5, h6, h7, h8⟩ := gjkLoop_spec hA hB tol cp n 0 ([] ++ [a - b]) (-(a - b)) (by simp) (by simp) (by
      intro v hv
      exact ⟨a, ha, b, hb, by simpa using hv⟩)
    rw [Nat.zero_add] at h3 h8
    exact ⟨r, h1, h3, h4, h5, h6, h7, h8⟩

/-- **C49**: if `GJK` answers that two point sets do not collide, their convex hulls have no point in common: there is a direction in
which every point of the first hull is strictly before every point of the second. -/
theorem C49_separation_sound (A B : List (Vec3 K)) (hA : A ≠ []) (hB : B ≠ []) (cp : Option (Vec3 K)) (tol : K) (n : Nat) (r : Out K)
    (h : gjk A B [] cp tol n = .ok r) (hf : r.collide = false) :
    (∃ d : Vec3 K, ∀ p q, InHull A p → InHull B q → p.dot d < q.dot d) ∧ ∀ p, ¬ (InHull A p ∧ InHull B p) := by
  obtain ⟨r', h1, _, _, _, _, h7, _⟩ := gjk_spec hA hB tol cp n
  rw [h] at h1
  cases h1
  obtain ⟨_, _, d, c, e, _, _, ma, mb, hneg⟩ := h7 hf
  have hd : ∃ d : Vec3 K, ∀ p q, InHull A p → InHull B q → p.dot d < q.dot d := by
    refine ⟨d, fun p q hp hq => ?_⟩
    have h1 := hull_le hp ma
    have h2 := hull_le hq mb
    simp only [Vec3.dot, Vec3.neg_x, Vec3.neg_y, Vec3.neg_z, Vec3.sub_x, Vec3.sub_y, Vec3.sub_z] at h1 h2 hneg ⊢
    linarith
  refine ⟨hd, fun p hp => ?_⟩
  obtain ⟨d, hd⟩ := hd
  exact lt_irrefl _ (hd p p hp.1 hp.2)

/-- Reads a fact about the result of a run off its value. -/
theorem run_of {z : Res (Out ℚ)} {P : Out ℚ → Prop} [DecidablePred P]
    (h : (match z with | .ok r => decide (P r) | _ => false) = true) : ∃ r, z = .ok r ∧ P r := by
  cases z with
  | ok r => exact ⟨r, rfl, by simpa using h⟩
  | throws => simp at h
  | ub => simp at h

example : ∃ r, gjk [(⟨0, 5, 0⟩ : Vec3 ℚ), ⟨2, 0, 3⟩, ⟨0, 2, 0⟩] [⟨2, 2, 0⟩, ⟨1, 2, 5⟩] [] none 0 25 = .ok r ∧
    r.collide = false ∧ r.simplex = [⟨-2, 3, 0⟩, ⟨1, -2, -2⟩, ⟨0, -2, 3⟩] := run_of (by decide +kernel)

omit [IsStrictOrderedRing K] in
/-- **C49**: for two non-empty sets and an empty simplex the call returns after at most `maxIterations` rounds; the simplex has one to four
points, all of them differences of a point of the first and one of the second set. -/
theorem C49_terminates (A B : List (Vec3 K)) (hA : A ≠ []) (hB : B ≠ []) (cp : Option (Vec3 K)) (tol : K) (n : Nat) :
    ∃ r, gjk A B [] cp tol n = .ok r ∧ r.rounds ≤ n ∧ 1 ≤ r.simplex.length ∧ r.simplex.length ≤ 4 ∧
      (∀ v ∈ r.simplex, ∃ a ∈ A, ∃ b ∈ B, v = a - b) ∧ (r.collide = true → r.rounds < n → r.simplex.length = 4) := by
  obtain ⟨r, h1, h2, h3, h4, h5, _, h8⟩ := gjk_spec hA hB tol cp n
  exact ⟨r, h1, h2, h3, h4, h5, fun a b => (h8 a b).1⟩

example : ([(⟨0, 0, 0⟩ : Vec3 ℚ)] : List (Vec3 ℚ)) ≠ [] := by simp

omit [IsStrictOrderedRing K] in
theorem handleSimplex_length {s s' : List (Vec3 K)} {d d' : Vec3 K} {tol : K} {b : Bool} (h : handleSimplex s d tol = .ok (b, s', d')) : s'.length ≤ s.length := by
  unfold handleSimplex at h
  split at h
  · dsimp only at h
    split at h <;> cases h <;> simp
  · dsimp only at h
    split at h
    · cases h; simp
    split at h
    · cases h; simp
    split at h <;> cases h <;> simp
  · dsimp only at h
    split at h
    · cases h; simp
    split at h
    · cases h; simp
    split at h <;> cases h <;> simp
  · cases h

omit [IsStrictOrderedRing K] in
theorem gjkLoop_rounds {A B : List (Vec3 K)} {tol : K} {cp : Option (Vec3 K)} : ∀ (n rounds : Nat) (s : List (Vec3 K)) (dir : Vec3 K) (r : Out K),
    gjkLoop A B tol cp n rounds s dir = .ok r → s.length ≤ rounds + 1 → r.simplex.length ≤ r.rounds + 1 ∧ (r.collide = false → r.simplex.length ≤ r.rounds)
  | 0, rounds, s, dir, r, h, hl => by
    rw [gjkLoop] at h
    cases hc : closestPointOnSimplex s <;> rw [hc] at h <;> cases h
    exact ⟨hl, by simp⟩
  | n + 1, rounds, s, dir, r, h, hl => by
    rw [gjkLoop] at h
    split at h
    · cases h
    · cases h
    · split at h
      · cases hc : closestPointOnSimplex s <;> rw [hc] at h <;> cases h
        exact ⟨by dsimp only; omega, fun _ => hl⟩
      · split at h
        · cases h
        · cases h
        · rename_i hs
          have := handleSimplex_length hs
          simp at this
          cases h
          exact ⟨by dsimp only; omega, by simp⟩
        · rename_i hs
          have := handleSimplex_length hs
          simp at this
          exact gjkLoop_rounds n _ _ _ r h (by omega)

omit [IsStrictOrderedRing K] in
/-- **C49**: every round adds at most one point to the simplex, the one before the loop included, and the round that finds a separation adds none. So a collision that is
found before the limit took at least three rounds. -/
theorem C49_rounds (A B : List (Vec3 K)) (hA : A ≠ []) (hB : B ≠ []) (cp : Option (Vec3 K)) (tol : K) (n : Nat) (r : Out K) (h : gjk A B [] cp tol n = .ok r) :
    r.simplex.length ≤ r.rounds + 1 ∧ (r.collide = false → r.simplex.length ≤ r.rounds) ∧ (r.collide = true → r.rounds < n → 3 ≤ r.rounds) := by
  have key : r.simplex.length ≤ r.rounds + 1 ∧ (r.collide = false → r.simplex.length ≤ r.rounds) := by
    match A, B, hA, hB with
    | a0 :: A', b0 :: B', hA, hB =>
      unfold gjk at h
      dsimp only at h
      obtain ⟨a, ha, b, hb, e, _, _⟩ := support_spec hA hB (if (b0 - a0).sqLength = 0 then (⟨1, 0, 0⟩ : Vec3 K) else b0 - a0)
      rw [e] at h
      exact gjkLoop_rounds _ _ _ _ r h (by simp)
  refine ⟨key.1, key.2, fun hc hn => ?_⟩
  obtain ⟨r', h1, _, _, _, _, h6⟩ := C49_terminates A B hA hB cp tol n
  rw [h] at h1
  cases h1
  have := h6 hc hn
  omega

/-- Two tetrahedra with a common inner point: found in three rounds, with four points. -/
example : ∃ r, gjk [(⟨0, 0, 0⟩ : Vec3 ℚ), ⟨4, 0, 0⟩, ⟨0, 4, 0⟩, ⟨0, 0, 4⟩] [⟨1, 1, 1⟩, ⟨5, 1, 1⟩, ⟨1, 5, 1⟩, ⟨1, 1, 5⟩] [] none 0 25 = .ok r ∧
    r.collide = true ∧ r.rounds < 25 := run_of (by decide +kernel)

omit [IsStrictOrderedRing K] in
/-- C49: an empty point set is undefined behaviour. -/
theorem C49_empty (A B s : List (Vec3 K)) (cp : Option (Vec3 K)) (tol : K) (n : Nat) (h : A = [] ∨ B = []) :
    gjk A B s cp tol n = .ub := by
  rcases h with rfl | rfl
  · cases B <;> rfl
  · cases A <;> rfl

omit [IsStrictOrderedRing K] in
/-- C49: a simplex left over from an earlier call with four points makes the call throw, unless its first round (the only one of a call with
the limit one) finds a separation or there is no round: then it reads outside a table. -/
theorem C49_stale_simplex (A B s : List (Vec3 K)) (hA : A ≠ []) (hB : B ≠ []) (cp : Option (Vec3 K)) (tol : K) (n : Nat) (hs : 4 ≤ s.length) :
    gjk A B s cp tol 0 = .ub ∧ (gjk A B s cp tol (n + 1) = .throws ∨ gjk A B s cp tol (n + 1) = .ub) ∧
      (gjk A B s cp tol (n + 1) = .ub ↔ ∃ r, gjk A B [] cp tol 1 = .ok r ∧ r.collide = false) := by
  match A, B, hA, hB with
  | a0 :: A', b0 :: B', hA, hB =>
    unfold gjk
    dsimp only
    obtain ⟨a, ha, b, hb, e, _, _⟩ := support_spec hA hB (if (b0 - a0).sqLength = 0 then (⟨1, 0, 0⟩ : Vec3 K) else b0 - a0)
    rw [e]
    obtain ⟨a', _, b', _, e', _, _⟩ := support_spec hA hB (-(a - b))
    have hu : closestPointOnSimplex (s ++ [a - b]) = .ub := closestPointOnSimplex_ub (by simp; omega)
    have ht : handleSimplex (s ++ [a - b] ++ [a' - b']) (-(a - b)) tol = .throws := by
      have : 6 ≤ (s ++ [a - b] ++ [a' - b']).length := by simp; omega
      generalize s ++ [a - b] ++ [a' - b'] = t at this
      match t, this with
      | _ :: _ :: _ :: _ :: _ :: _ :: _, _ => rfl
    obtain ⟨r2, s2, d2, h2, _, _, _, l3⟩ := handleSimplex_spec (s := ([] ++ [a - b] ++ [a' - b'])) (by simp) (by simp) (-(a - b)) tol
    have r2f : r2 = false := by
      simp only [List.nil_append, List.cons_append, handleSimplex] at h2
      split at h2 <;> cases h2 <;> rfl
    subst r2f
    obtain ⟨c2, hc2⟩ := closestPointOnSimplex_ok (s := s2) (by have := l3 rfl; omega)
    obtain ⟨c1, hc1⟩ := closestPointOnSimplex_ok (s := [] ++ [a - b]) (by simp)
    simp only [gjkLoop, e', hu, ht, h2, hc2, hc1]
    refine ⟨rfl, ?_, ?_⟩
    · split
      · exact Or.inr rfl
      · exact Or.inl rfl
    · split
      · exact ⟨fun _ => ⟨_, rfl, rfl⟩, fun _ => rfl⟩
      · exact ⟨fun h => (nomatch h), fun ⟨r, h, h'⟩ => by cases h; cases h'⟩

theorem hull_reverse2 {a b p : Vec3 K} : InHull [a, b] p ↔ InHull [b, a] p := by
  rw [← onSegment_hull, ← onSegment_hull]
  constructor <;> rintro ⟨t, h0, h1, rfl⟩ <;> exact ⟨1 - t, by linarith, by linarith, by ext <;> simp only [along] <;> ring⟩

omit [IsStrictOrderedRing K] in
theorem hull_reverse3 {a b c p : Vec3 K} : InHull [a, b, c] p ↔ InHull [c, b, a] p := by
  rw [← onTriangle_hull, ← onTriangle_hull]
  constructor <;> rintro ⟨u, v, w, hu, hv, hw, hs, rfl⟩ <;>
    exact ⟨w, v, u, hw, hv, hu, by rw [← hs]; ring, by ext <;> dsimp only <;> ring⟩

/-- The points are in general position: all different, and not on one line. -/
def Independent (s : List (Vec3 K)) : Prop :=
  match s with
  | [_] => True
  | [a, b] => a ≠ b
  | [a, b, c] => ¬ Collinear a b c
  | _ => False

omit [LinearOrder K] [IsStrictOrderedRing K] in
theorem collinear_reverse [LinearOrder K] {a b c : Vec3 K} (h : Collinear a b c) : Collinear c b a := by
  obtain ⟨h1, h2, h3⟩ := h
  refine ⟨?_, ?_, ?_⟩
  · linear_combination -h1
  · linear_combination -h2
  · linear_combination -h3

/-- **C49**: if the sets do not collide, the point reported with the answer is the point of the final simplex closest to the origin
(the simplex being in general position, which has at most three points then). -/
theorem C49_closest (A B : List (Vec3 K)) (hA : A ≠ []) (hB : B ≠ []) (cp : Option (Vec3 K)) (tol : K) (n : Nat) (r : Out K)
    (h : gjk A B [] cp tol n = .ok r) (hf : r.collide = false) (hi : Independent r.simplex) :
    r.simplex.length ≤ 3 ∧ ∃ p, r.closest = some p ∧ Closest (InHull r.simplex) 0 p := by
  obtain ⟨r', h1, _, _, _, _, h7, _⟩ := gjk_spec hA hB tol cp n
  rw [h] at h1
  cases h1
  obtain ⟨h3, hc, _⟩ := h7 hf
  refine ⟨h3, ?_⟩
  generalize r.closest = q at hc
  generalize r.simplex = s at *
  match s, hi with
  | [p], _ =>
    cases hc
    refine ⟨p, rfl, ?_, fun q hq => ?_⟩
    · refine ⟨[1], rfl, by simp, by simp, ?_, ?_, ?_⟩ <;> simp
    · obtain ⟨w, hl, _, hs, hx, hy, hz⟩ := hq
      match w, hl with
      | [u], _ =>
        simp only [List.zipWith_cons_cons, List.zipWith_nil_right, List.sum_cons, List.sum_nil, add_zero] at hs hx hy hz
        subst hs
        rw [show q = p by ext <;> [rw [hx]; rw [hy]; rw [hz]] <;> ring]
  | [a, b], hi =>
    cases hc
    obtain ⟨p, e, h1, h2⟩ := C45_segment b a (Ne.symm hi)
    exact ⟨p, e, hull_reverse2.1 (onSegment_hull.1 h1), fun q hq => h2 q (onSegment_hull.2 (hull_reverse2.1 hq))⟩
  | [a, b, c], hi =>
    cases hc
    obtain ⟨p, e, h1, h2⟩ := C45_triangle c b a (fun hc => hi (collinear_reverse hc))
    exact ⟨p, e, hull_reverse3.1 (onTriangle_hull.1 h1), fun q hq => h2 q (onTriangle_hull.2 (hull_reverse3.1 hq))⟩

example : Independent [(⟨-2, 3, 0⟩ : Vec3 ℚ), ⟨1, -2, -2⟩, ⟨0, -2, 3⟩] := by
  unfold Independent Collinear; decide +kernel

/-- C49: an answer that the sets collide cannot be relied on: a triangle and a segment that are strictly separated, for which the search
runs in circles until the default limit of 25 rounds, and collision is reported. -/
theorem C49_collision_counterexample :
    let A : List (Vec3 ℚ) := [⟨3, 5, -2⟩, ⟨5, -5, 1⟩, ⟨-3, -4, 4⟩]
    let B : List (Vec3 ℚ) := [⟨-6, -2, -1⟩, ⟨2, 0, 0⟩]
    (∀ p q, InHull A p → InHull B q → p.dot ⟨-2, -2, -5⟩ < q.dot ⟨-2, -2, -5⟩) ∧
      ∃ r, gjk A B [] none (1 / 2 ^ 52) 25 = .ok r ∧ r.collide = true ∧ r.rounds = 25 ∧ r.closest = some 0 := by
  refine ⟨fun p q hp hq => ?_, ?_⟩
  · have m1 : ∀ v ∈ ([⟨3, 5, -2⟩, ⟨5, -5, 1⟩, ⟨-3, -4, 4⟩] : List (Vec3 ℚ)), v.dot ⟨-2, -2, -5⟩ ≤ -5 := by decide +kernel
    have m2 : ∀ v ∈ ([⟨-6, -2, -1⟩, ⟨2, 0, 0⟩] : List (Vec3 ℚ)), -4 ≤ v.dot ⟨-2, -2, -5⟩ := by decide +kernel
    have h1 := hull_le hp m1
    have h2 := hull_ge hq m2
    linarith
  · exact run_of (by decide +kernel)

/-- C49: one step of the search keeps looking towards the origin: the new direction does not point away from it (up to the tolerance). -/
theorem C49_towards_origin (s : List (Vec3 K)) (a dir d' : Vec3 K) (s' : List (Vec3 K)) (tol : K) (ht : 0 ≤ tol)
    (h : handleSimplex (s ++ [a]) dir tol = .ok (false, s', d')) : -tol ≤ d'.dot (-a) ∧ a ∈ s' := by
  have hn : ∀ v : Vec3 K, 0 ≤ v.dot v := fun v => sqLength_nonneg v
  match s, h with
  | [], h => exact absurd h (by simp [handleSimplex])
  | [b], h =>
    simp only [List.cons_append, List.nil_append, handleSimplex] at h
    split at h
    · cases h
      have := hn ((b - a).cross (-a))
      refine ⟨?_, by simp⟩
      have e : (((b - a).cross (-a)).cross (b - a)).dot (-a) = ((b - a).cross (-a)).dot ((b - a).cross (-a)) := by
        simp only [Vec3.dot, Vec3.cross, Vec3.sub_x, Vec3.sub_y, Vec3.sub_z, Vec3.neg_x, Vec3.neg_y, Vec3.neg_z]; ring
      rw [e]; linarith
    · cases h
      have := hn (-a)
      exact ⟨by linarith, by simp⟩
  | [c, b], h =>
    simp only [List.cons_append, List.nil_append, handleSimplex] at h
    split at h
    · rename_i h1; cases h; exact ⟨by linarith, by simp⟩
    split at h
    · rename_i h1; cases h; exact ⟨by linarith, by simp⟩
    split at h
    · rename_i h1; cases h; exact ⟨by linarith, by simp⟩
    · rename_i h1; cases h
      refine ⟨?_, by simp⟩
      rw [not_lt] at h1
      have e : (-((b - a).cross (c - a))).dot (-a) = -(((b - a).cross (c - a)).dot (-a)) := by
        simp only [Vec3.dot, Vec3.neg_x, Vec3.neg_y, Vec3.neg_z]; ring
      rw [e]; linarith
  | [d, c, b], h =>
    simp only [List.cons_append, List.nil_append, handleSimplex] at h
    split at h
    · rename_i h1; cases h; exact ⟨by linarith, by simp⟩
    split at h
    · rename_i h1; cases h; exact ⟨by linarith, by simp⟩
    split at h
    · rename_i h1; cases h; exact ⟨by linarith, by simp⟩
    · cases h
  | _ :: _ :: _ :: _ :: _, h => exact absurd h (by simp [handleSimplex])

example : ∃ s' d', handleSimplex [(⟨1, 0, 0⟩ : Vec3 ℚ), ⟨0, 1, 0⟩] 0 0 = .ok (false, s', d') := by
  simp only [handleSimplex]; split <;> exact ⟨_, _, rfl⟩

omit [LinearOrder K] [IsStrictOrderedRing K] in
/-- The new direction is at right angles to what was kept: for an edge, to the edge; for a face of four points, to the face. -/
theorem cross_perp (u v : Vec3 K) : (u.cross v).dot u = 0 ∧ (u.cross v).dot v = 0 := by
  constructor <;> simp only [Vec3.dot, Vec3.cross] <;> ring

omit [IsStrictOrderedRing K] in
/-- C49: from an edge or a face of a tetrahedron the search goes on at right angles to the points that are kept. -/
theorem C49_perpendicular (s : List (Vec3 K)) (a dir d' : Vec3 K) (s' : List (Vec3 K)) (tol : K) (hs : s.length ≠ 2)
    (h : handleSimplex (s ++ [a]) dir tol = .ok (false, s', d')) (hk : s' ≠ [a]) : ∀ v ∈ s', d'.dot (v - a) = 0 := by
  have h0 : ∀ d' : Vec3 K, d'.dot (a - a) = 0 := by intro d'; simp [Vec3.dot]
  have e3 : ∀ u v : Vec3 K, (u.cross v).dot u = 0 := fun u v => (cross_perp u v).1
  have e4 : ∀ u v : Vec3 K, (u.cross v).dot v = 0 := fun u v => (cross_perp u v).2
  match s, h with
  | [], h => exact absurd h (by simp [handleSimplex])
  | [b], h =>
    simp only [List.cons_append, List.nil_append, handleSimplex] at h
    split at h
    · cases h
      intro v hv
      simp only [List.mem_cons, List.not_mem_nil, or_false] at hv
      rcases hv with rfl | rfl
      · exact e4 _ _
      · exact h0 _
    · cases h; exact absurd rfl hk
  | [c, b], h => exact absurd rfl hs
  | [d, c, b], h =>
    simp only [List.cons_append, List.nil_append, handleSimplex] at h
    split at h
    · cases h
      intro v hv
      simp only [List.mem_cons, List.not_mem_nil, or_false] at hv
      rcases hv with rfl | rfl | rfl
      · exact e4 _ _
      · exact e3 _ _
      · exact h0 _
    split at h
    · cases h
      intro v hv
      simp only [List.mem_cons, List.not_mem_nil, or_false] at hv
      rcases hv with rfl | rfl | rfl
      · exact e4 _ _
      · exact e3 _ _
      · exact h0 _
    split at h
    · cases h
      intro v hv
      simp only [List.mem_cons, List.not_mem_nil, or_false] at hv
      rcases hv with rfl | rfl | rfl
      · exact e3 _ _
      · exact e4 _ _
      · exact h0 _
    · cases h
  | _ :: _ :: _ :: _ :: _, h => exact absurd h (by simp [handleSimplex])

omit [IsStrictOrderedRing K] in
/-- C49: from a triangle it does not: the edge AB is kept, but the new direction is at right angles to AC (and the other way round). This
is what makes the search run in circles. -/
theorem C49_triangle_edge (a b c dir : Vec3 K) (tol : K) (s' : List (Vec3 K)) (d' : Vec3 K)
    (h : handleSimplex [c, b, a] dir tol = .ok (false, s', d')) :
    (s' = [b, a] ∧ d'.dot (c - a) = 0) ∨ (s' = [c, a] ∧ d'.dot (b - a) = 0) ∨
      ((s' = [c, b, a] ∨ s' = [b, c, a]) ∧ d'.dot (c - a) = 0 ∧ d'.dot (b - a) = 0) := by
  have e3 : ∀ u v : Vec3 K, (u.cross v).dot u = 0 := fun u v => (cross_perp u v).1
  have e4 : ∀ u v : Vec3 K, (u.cross v).dot v = 0 := fun u v => (cross_perp u v).2
  simp only [handleSimplex] at h
  split at h
  · cases h; exact Or.inl ⟨rfl, e4 _ _⟩
  split at h
  · cases h; exact Or.inr (Or.inl ⟨rfl, e3 _ _⟩)
  split at h
  · cases h; exact Or.inr (Or.inr ⟨Or.inl rfl, e4 _ _, e3 _ _⟩)
  · cases h
    refine Or.inr (Or.inr ⟨Or.inr rfl, ?_, ?_⟩)
    · have := e4 (b - a) (c - a)
      simp only [Vec3.dot, Vec3.neg_x, Vec3.neg_y, Vec3.neg_z] at this ⊢; linear_combination -this
    · have := e3 (b - a) (c - a)
      simp only [Vec3.dot, Vec3.neg_x, Vec3.neg_y, Vec3.neg_z] at this ⊢; linear_combination -this

/-- C49: "inside" is answered for four points only, and if their orientation is negative it means that the origin is in the cone at the
newest point spanned by the others. -/
theorem C49_inside_cone (s : List (Vec3 K)) (dir d' : Vec3 K) (s' : List (Vec3 K)) (tol : K)
    (h : handleSimplex s dir tol = .ok (true, s', d')) :
    ∃ a b c d : Vec3 K, s = [d, c, b, a] ∧ s' = s ∧ ((b - a).dot ((c - a).cross (d - a)) < 0 →
      ∃ β γ δ, 0 ≤ β ∧ 0 ≤ γ ∧ 0 ≤ δ ∧ (0 : Vec3 K) = a + (b - a).smul β + (c - a).smul γ + (d - a).smul δ) := by
  match s, h with
  | [], h => exact absurd h (by simp [handleSimplex])
  | [_], h => exact absurd h (by simp [handleSimplex])
  | [_, _], h => simp only [handleSimplex] at h; split at h <;> cases h
  | [_, _, _], h =>
    simp only [handleSimplex] at h
    split at h
    · cases h
    split at h
    · cases h
    split at h <;> cases h
  | [d, c, b, a], h =>
    simp only [handleSimplex] at h
    split at h
    · cases h
    rename_i h1
    split at h
    · cases h
    rename_i h2
    split at h
    · cases h
    rename_i h3
    cases h
    refine ⟨a, b, c, d, rfl, rfl, fun hD => ?_⟩
    rw [not_lt] at h1 h2 h3
    refine ⟨((c - a).cross (d - a)).dot (-a) / (b - a).dot ((c - a).cross (d - a)),
      ((d - a).cross (b - a)).dot (-a) / (b - a).dot ((c - a).cross (d - a)),
      ((b - a).cross (c - a)).dot (-a) / (b - a).dot ((c - a).cross (d - a)), ?_, ?_, ?_, ?_⟩
    · exact div_nonneg_of_nonpos h2 hD.le
    · exact div_nonneg_of_nonpos h3 hD.le
    · exact div_nonneg_of_nonpos h1 hD.le
    · have hne := hD.ne
      have x1 := div_mul_cancel₀ (((c - a).cross (d - a)).dot (-a)) hne
      have x2 := div_mul_cancel₀ (((d - a).cross (b - a)).dot (-a)) hne
      have x3 := div_mul_cancel₀ (((b - a).cross (c - a)).dot (-a)) hne
      generalize ((c - a).cross (d - a)).dot (-a) / (b - a).dot ((c - a).cross (d - a)) = β at *
      generalize ((d - a).cross (b - a)).dot (-a) / (b - a).dot ((c - a).cross (d - a)) = γ at *
      generalize ((b - a).cross (c - a)).dot (-a) / (b - a).dot ((c - a).cross (d - a)) = δ at *
      simp only [Vec3.dot, Vec3.cross, Vec3.sub_x, Vec3.sub_y, Vec3.sub_z, Vec3.neg_x, Vec3.neg_y, Vec3.neg_z] at x1 x2 x3 hne
      ext <;> simp only [Vec3.add_x, Vec3.add_y, Vec3.add_z, Vec3.sub_x, Vec3.sub_y, Vec3.sub_z, Vec3.smul_x, Vec3.smul_y, Vec3.smul_z,
        Vec3.zero_x, Vec3.zero_y, Vec3.zero_z] <;> apply mul_right_cancel₀ hne
      · linear_combination (-(b.x - a.x)) * x1 - (c.x - a.x) * x2 - (d.x - a.x) * x3
      · linear_combination (-(b.y - a.y)) * x1 - (c.y - a.y) * x2 - (d.y - a.y) * x3
      · linear_combination (-(b.z - a.z)) * x1 - (c.z - a.z) * x2 - (d.z - a.z) * x3
  | _ :: _ :: _ :: _ :: _ :: _, h => exact absurd h (by simp [handleSimplex])

omit [IsStrictOrderedRing K] in
/-- C49: the support index is the first one with the largest product. -/
theorem C49_support_first (vs : List (Vec3 K)) (d : Vec3 K) (j : Nat) :
    supportVector vs d = some j ↔ ∃ v, vs[j]? = some v ∧ (∀ u ∈ vs, u.dot d ≤ v.dot d) ∧ ∀ i u, i < j → vs[i]? = some u → u.dot d < v.dot d := by
  obtain ⟨h1, h2⟩ := supportVector_spec vs d
  refine ⟨h2 j, ?_⟩
  rintro ⟨v, e1, e2, e3⟩
  cases hs : supportVector vs d with
  | none => rw [h1.1 hs] at e1; simp at e1
  | some k =>
    obtain ⟨w, f1, f2, f3⟩ := h2 k hs
    rcases lt_trichotomy j k with h | h | h
    · exact absurd (f3 j v h e1) (not_lt.2 (e2 w (List.mem_of_getElem? f1)))
    · rw [h]
    · exact absurd (e3 k w h f1) (not_lt.2 (f2 v (List.mem_of_getElem? e1)))

omit [IsStrictOrderedRing K] in
/-- C49: with four points `closestPointOnSimplex` returns the point found on the first of the faces `p0 p2 p1`, `p0 p1 p3`, `p0 p3 p2` and
`p1 p2 p3` on which one is found (no division by zero), and the origin if there is none. -/
theorem C49_tetrahedron_partial (p0 p1 p2 p3 : Vec3 K) : closestPointOnSimplex [p0, p1, p2, p3] =
    .ok (closestPointOnTriangle p0 p2 p1 <|> closestPointOnTriangle p0 p1 p3 <|> closestPointOnTriangle p0 p3 p2 <|>
      closestPointOnTriangle p1 p2 p3 <|> some ⟨0, 0, 0⟩) := by
  simp only [closestPointOnSimplex, simplexFaces, List.foldl, List.getD, List.getElem?_cons_zero, List.getElem?_cons_succ, Option.getD_some]
  cases closestPointOnTriangle p0 p2 p1 <;> cases closestPointOnTriangle p0 p1 p3 <;> cases closestPointOnTriangle p0 p3 p2 <;>
    cases closestPointOnTriangle p1 p2 p3 <;> rfl

/-- C49: with four points `closestPointOnSimplex` returns the result for the last face, although another one is closer. -/
theorem C49_tetrahedron_counterexample :
    ∃ s : List (Vec3 ℚ), s.length = 4 ∧ ∃ p, closestPointOnSimplex s = .ok (some p) ∧ ∃ q, InHull s q ∧ sqDist 0 q < sqDist 0 p := by
  refine ⟨[⟨2, 0, 0⟩, ⟨2, 1, 0⟩, ⟨2, 0, 1⟩, ⟨1, 0, 0⟩], rfl, ⟨2, 0, 0⟩, by decide +kernel, ⟨1, 0, 0⟩, ?_, by unfold sqDist; decide +kernel⟩
  refine ⟨[0, 0, 0, 1], rfl, by decide +kernel, by decide +kernel, by decide +kernel, by decide +kernel, by decide +kernel⟩

/-! ### C60 -/

omit [Field K] [IsStrictOrderedRing K] in
/-- **C60**: `operator<` on points is irreflexive, transitive and total. -/
theorem C60_strict_total_order [Field K] :
    (∀ a : Vec3 K, lexLt a a = false) ∧ (∀ a b c : Vec3 K, lexLt a b = true → lexLt b c = true → lexLt a c = true) ∧
      ∀ a b : Vec3 K, lexLt a b = true ∨ a = b ∨ lexLt b a = true := by
  have e : ∀ a b : Vec3 K, lexLt a b = true ↔ a.x < b.x ∨ (a.x = b.x ∧ (a.y < b.y ∨ (a.y = b.y ∧ a.z < b.z))) := by
    intro a b
    unfold lexLt
    split
    · simp_all
    split
    · simp_all
    split
    · simp_all
    · rename_i h1 h2 h3
      simp only [Bool.false_eq_true, false_iff]
      rintro (h | ⟨h, h' | h'⟩)
      · exact h1 h
      · exact h2 ⟨h, h'⟩
      · exact h3 ⟨h, h'⟩
  refine ⟨fun a => ?_, fun a b c h1 h2 => ?_, fun a b => ?_⟩
  · rw [← Bool.not_eq_true, e]; simp
  · rw [e] at *
    rcases h1 with h1 | ⟨h1, h1' | ⟨h1', h1''⟩⟩ <;> rcases h2 with h2 | ⟨h2, h2' | ⟨h2', h2''⟩⟩
    · exact Or.inl (h1.trans h2)
    · exact Or.inl (h2 ▸ h1)
    · exact Or.inl (h2 ▸ h1)
    · exact Or.inl (h1 ▸ h2)
    · exact Or.inr ⟨h1.trans h2, Or.inl (h1'.trans h2')⟩
    · exact Or.inr ⟨h1.trans h2, Or.inl (h2' ▸ h1')⟩
    · exact Or.inl (h1 ▸ h2)
    · exact Or.inr ⟨h1.trans h2, Or.inl (h1' ▸ h2')⟩
    · exact Or.inr ⟨h1.trans h2, Or.inr ⟨h1'.trans h2', h1''.trans h2''⟩⟩
  · rw [e, e]
    rcases lt_trichotomy a.x b.x with h | h | h
    · exact Or.inl (Or.inl h)
    · rcases lt_trichotomy a.y b.y with h' | h' | h'
      · exact Or.inl (Or.inr ⟨h, Or.inl h'⟩)
      · rcases lt_trichotomy a.z b.z with h'' | h'' | h''
        · exact Or.inl (Or.inr ⟨h, Or.inr ⟨h', h''⟩⟩)
        · exact Or.inr (Or.inl (Vec3.ext h h' h''))
        · exact Or.inr (Or.inr (Or.inr ⟨h.symm, Or.inr ⟨h'.symm, h''⟩⟩))
      · exact Or.inr (Or.inr (Or.inr ⟨h.symm, Or.inl h'⟩))
    · exact Or.inr (Or.inr (Or.inl h))

omit [IsStrictOrderedRing K] in
/-- C49: from a segment both points are kept exactly if the origin is ahead of the newest point in the direction of the older one by more than the tolerance. -/
theorem C49_segment_region (a b dir : Vec3 K) (tol : K) :
    ∃ s' d', handleSimplex [b, a] dir tol = .ok (false, s', d') ∧ (s' = [b, a] ∨ s' = [a]) ∧ (s'.length = 2 ↔ tol < (b - a).dot (0 - a)) := by
  have e : (0 : Vec3 K) - a = -a := by ext <;> simp
  rw [e]
  simp only [handleSimplex]
  by_cases h : (b - a).dot (-a) > tol
  · rw [if_pos h]; exact ⟨_, _, rfl, Or.inl rfl, by simpa using h⟩
  · rw [if_neg h]; exact ⟨_, _, rfl, Or.inr rfl, by simpa using h⟩

omit [IsStrictOrderedRing K] in
/-- C49: from a triangle the oldest point is dropped exactly if the origin is ahead of the newest point along `(AB × AC) × AC` by more than the tolerance, the middle one exactly if it is not and
the origin is ahead along `AB × (AB × AC)` by more than the tolerance; all three are kept otherwise. -/
theorem C49_triangle_region (a b c dir : Vec3 K) (tol : K) (hab : b ≠ c) :
    ∃ s' d', handleSimplex [c, b, a] dir tol = .ok (false, s', d') ∧
      (s' = [b, a] ↔ tol < (((b - a).cross (c - a)).cross (c - a)).dot (0 - a)) ∧
      (s' = [c, a] ↔ (((b - a).cross (c - a)).cross (c - a)).dot (0 - a) ≤ tol ∧ tol < ((b - a).cross ((b - a).cross (c - a))).dot (0 - a)) ∧
      (s' = [c, b, a] ↔ (((b - a).cross (c - a)).cross (c - a)).dot (0 - a) ≤ tol ∧ ((b - a).cross ((b - a).cross (c - a))).dot (0 - a) ≤ tol ∧
        tol < ((b - a).cross (c - a)).dot (0 - a)) := by
  have e : (0 : Vec3 K) - a = -a := by ext <;> simp
  rw [e]
  simp only [handleSimplex]
  have hab' : ¬ c = b := fun h => hab h.symm
  by_cases h1 : (((b - a).cross (c - a)).cross (c - a)).dot (-a) > tol
  · rw [if_pos h1]
    exact ⟨_, _, rfl, by simpa using h1, by simp [hab, h1], by simp [h1]⟩
  · rw [if_neg h1]
    by_cases h2 : ((b - a).cross ((b - a).cross (c - a))).dot (-a) > tol
    · rw [if_pos h2]
      exact ⟨_, _, rfl, by simpa [hab'] using h1, by simpa [h2] using h1, by simp [h2]⟩
    · rw [if_neg h2]
      by_cases h3 : ((b - a).cross (c - a)).dot (-a) > tol
      · rw [if_pos h3]
        exact ⟨_, _, rfl, by simpa using h1, by simp [not_lt.1 h2], by simp [not_lt.1 h1, not_lt.1 h2, h3]⟩
      · rw [if_neg h3]
        exact ⟨_, _, rfl, by simpa using h1, by simp [not_lt.1 h2], by simp [not_lt.1 h3, hab]⟩

/-- On the border itself the point is dropped. -/
example : handleSimplex [(⟨1, 0, 0⟩ : Vec3 ℚ), ⟨-1, 0, 0⟩] 0 2 = .ok (false, [⟨-1, 0, 0⟩], ⟨1, 0, 0⟩) ∧ (⟨0, 1, 0⟩ : Vec3 ℚ) ≠ ⟨1, 0, 0⟩ := by decide +kernel

end Cmm.Gjk
