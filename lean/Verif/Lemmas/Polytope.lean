import Verif.Lemmas.Orient
import Mathlib.Data.Finset.Max
import Mathlib.Data.Fin.VecNotation
import Mathlib.Data.Fintype.Card
import Mathlib.Logic.Relation
import Mathlib.Tactic.FinCases
/-!
Closed surfaces of triangles that are the boundary of a convex body: what is visible from a point is connected, and a cone over the rim of what is visible from
a point is again such a surface.
-/
namespace Cmm.Geom
variable {K : Type} [Field K] [LinearOrder K] [IsStrictOrderedRing K]

/-- `orient` of the triangle whose corners have the numbers `vs`. -/
def ov (P : Nat → Vec3 K) (vs : Fin 3 → Nat) (x : Vec3 K) : K := orient (P (vs 0)) (P (vs 1)) (P (vs 2)) x

/-- The point number `p` is a corner of the triangle or strictly below its plane. -/
def Below (P : Nat → Vec3 K) (vs : Fin 3 → Nat) (p : Nat) : Prop := (∃ k, p = vs k) ∨ ov P vs (P p) < 0

/-- No four points are in a plane. -/
def Gen (P : Nat → Vec3 K) (n : Nat) : Prop :=
  ∀ vs : Fin 3 → Nat, Function.Injective vs → (∀ k, vs k < n) → ∀ p < n, (∀ k, p ≠ vs k) → ov P vs (P p) ≠ 0

/-- A closed convex surface of triangles: `L` are the numbers of the triangles, `V f` the corners of `f`, and `N f k` the triangle at the edge against corner `k`. -/
structure Complex (P : Nat → Vec3 K) (n : Nat) (L : Finset Nat) (V N : Nat → Fin 3 → Nat) : Prop where
  inj : ∀ f ∈ L, Function.Injective (V f)
  lt : ∀ f ∈ L, ∀ k, V f k < n
  nb : ∀ f ∈ L, ∀ k, N f k ∈ L
  back : ∀ f ∈ L, ∀ k, ∃ j, N (N f k) j = f ∧ V (N f k) (j + 1) = V f (k + 2) ∧ V (N f k) (j + 2) = V f (k + 1)
  uniq : ∀ f ∈ L, ∀ g ∈ L, ∀ k j, V f (k + 1) = V g (j + 1) → V f (k + 2) = V g (j + 2) → f = g
  cov : ∀ f ∈ L, ∀ g ∈ L, ∀ k, Below P (V f) (V g k)
  full : ∃ b : Fin 4 → Nat, Function.Injective b ∧ ∀ i, b i < n ∧ ∀ f ∈ L, Below P (V f) (b i)

theorem fin3_cases (i k : Fin 3) : i = k ∨ i = k + 1 ∨ i = k + 2 := by revert i k; decide
theorem fin3_11 (k : Fin 3) : k + 1 + 1 = k + 2 := by revert k; decide
theorem fin3_12 (k : Fin 3) : k + 1 + 2 = k := by revert k; decide
theorem fin3_21 (k : Fin 3) : k + 2 + 1 = k := by revert k; decide
theorem fin3_22 (k : Fin 3) : k + 2 + 2 = k + 1 := by revert k; decide
theorem fin3_ne1 (k : Fin 3) : k + 1 ≠ k := by revert k; decide
theorem fin3_ne2 (k : Fin 3) : k + 2 ≠ k := by revert k; decide
theorem fin3_ne12 (k : Fin 3) : k + 1 ≠ k + 2 := by revert k; decide

variable {P : Nat → Vec3 K} {n : Nat} {L : Finset Nat} {V N : Nat → Fin 3 → Nat}

omit [LinearOrder K] [IsStrictOrderedRing K] in
theorem ov_rot (vs : Fin 3 → Nat) (x : Vec3 K) (k : Fin 3) : ov P vs x = orient (P (vs k)) (P (vs (k + 1))) (P (vs (k + 2))) x := by
  fin_cases k
  · rfl
  · show _ = orient (P (vs 1)) (P (vs 2)) (P (vs 0)) x
    rw [orient_rot]; rfl
  · show _ = orient (P (vs 2)) (P (vs 0)) (P (vs 1)) x
    rw [orient_rot, orient_rot]; rfl

omit [LinearOrder K] [IsStrictOrderedRing K] in
theorem ov_vertex (vs : Fin 3 → Nat) (k : Fin 3) : ov P vs (P (vs k)) = 0 := by rw [ov_rot vs _ k, orient_self1]

omit [LinearOrder K] [IsStrictOrderedRing K] in
/-- Seen over the edge against corner `k`. -/
theorem ov_edge (vs : Fin 3 → Nat) (x : Vec3 K) (k : Fin 3) : ov P vs x = orient (P (vs (k + 1))) (P (vs (k + 2))) (P (vs k)) x := by
  rw [ov_rot vs x k, ← orient_rot]

omit [LinearOrder K] [IsStrictOrderedRing K] in
theorem ov_update (vs : Fin 3 → Nat) (x : Vec3 K) (k : Fin 3) (q : Nat) :
    ov P (Function.update vs k q) x = orient (P (vs (k + 1))) (P (vs (k + 2))) (P q) x := by
  rw [ov_edge _ x k, Function.update_self, Function.update_of_ne (fin3_ne1 k), Function.update_of_ne (fin3_ne2 k)]

omit [IsStrictOrderedRing K] in
theorem Below.le {vs : Fin 3 → Nat} {p : Nat} (h : Below P vs p) : ov P vs (P p) ≤ 0 := by
  rcases h with ⟨k, rfl⟩ | h
  · rw [ov_vertex]
  · exact h.le

theorem Below.of_gen {vs : Fin 3 → Nat} {p : Nat} (hg : Gen P n) (hv : Function.Injective vs) (hl : ∀ k, vs k < n) (hp : p < n)
    (h : ov P vs (P p) ≤ 0) : Below P vs p := by
  by_cases e : ∃ k, p = vs k
  · exact Or.inl e
  · exact Or.inr (lt_of_le_of_ne h (hg vs hv hl p hp fun k hk => e ⟨k, hk⟩))

namespace Complex

/-- A point below all planes that is no corner of `f`. -/
theorem exists_off (C : Complex P n L V N) {f : Nat} : ∃ p < n, (∀ k, p ≠ V f k) ∧ ∀ g ∈ L, Below P (V g) p := by
  obtain ⟨b, hb, h⟩ := C.full
  by_contra hc
  push Not at hc
  have : ∀ i, ∃ k, b i = V f k := by
    intro i
    by_contra hi
    push Not at hi
    obtain ⟨g, hg, hn⟩ := hc (b i) (h i).1 hi
    exact hn ((h i).2 g hg)
  choose k hk using this
  have hi : Function.Injective k := fun i j e => hb (by rw [hk i, hk j, e])
  have := Fintype.card_le_of_injective k hi
  simp at this

theorem off_neg (C : Complex P n L V N) {f : Nat} (hf : f ∈ L) : ∃ p < n, ov P (V f) (P p) < 0 ∧ (∀ k, p ≠ V f k) ∧ ∀ g ∈ L, Below P (V g) p := by
  obtain ⟨p, hp, hk, h⟩ := C.exists_off (f := f)
  refine ⟨p, hp, ?_, hk, h⟩
  rcases h f hf with ⟨k, e⟩ | h
  · exact absurd e (hk k)
  · exact h

/-- Two triangles cannot be the two sides of the same triangle. -/
theorem not_reversed (C : Complex P n L V N) {f g : Nat} (hf : f ∈ L) (hg : g ∈ L) {i j : Fin 3} (h0 : V f i = V g j)
    (h1 : V f (i + 1) = V g (j + 2)) (h2 : V f (i + 2) = V g (j + 1)) : False := by
  obtain ⟨p, -, hn, hk, h⟩ := C.off_neg hf
  have e : ov P (V g) (P p) = -ov P (V f) (P p) := by
    rw [ov_rot (V g) _ j, ov_rot (V f) _ i, h0, h1, h2]
    unfold orient; ring
  rcases h g hg with ⟨l, hl⟩ | h
  · rcases fin3_cases l j with rfl | rfl | rfl
    · exact hk i (hl.trans h0.symm)
    · exact hk _ (hl.trans h2.symm)
    · exact hk _ (hl.trans h1.symm)
  · linarith

/-- The corner of `f` against an edge is strictly below the triangle behind the edge. -/
theorem opposite_neg (C : Complex P n L V N) {f : Nat} (hf : f ∈ L) (k : Fin 3) : ov P (V (N f k)) (P (V f k)) < 0 := by
  obtain ⟨j, hj, h1, h2⟩ := C.back f hf k
  rcases C.cov _ (C.nb f hf k) f hf k with ⟨i, hi⟩ | h
  · exfalso
    rcases fin3_cases i j with rfl | rfl | rfl
    · exact C.not_reversed hf (C.nb f hf k) hi h2.symm h1.symm
    · exact fin3_ne2 k (C.inj f hf (h1.symm.trans hi.symm))
    · exact fin3_ne1 k (C.inj f hf (h2.symm.trans hi.symm))
  · exact h

/-- The triangle behind an edge, seen over the edge. -/
theorem ov_nb (C : Complex P n L V N) {f : Nat} (hf : f ∈ L) (k : Fin 3) :
    ∃ d : Nat, (∃ j, d = V (N f k) j) ∧ (∀ x, ov P (V (N f k)) x = orient (P (V f (k + 2))) (P (V f (k + 1))) (P d) x) := by
  obtain ⟨j, hj, h1, h2⟩ := C.back f hf k
  exact ⟨V (N f k) j, ⟨j, rfl⟩, fun x => by rw [ov_edge _ x j, h1, h2]⟩

/-- A point of the plane of `f` below the three planes at its edges is in the triangle. -/
theorem in_triangle (C : Complex P n L V N) {f : Nat} (hf : f ∈ L) {x : Vec3 K} (h0 : ov P (V f) x = 0)
    (h : ∀ k, ov P (V (N f k)) x ≤ 0) : ∃ s t u : K, 0 ≤ s ∧ 0 ≤ t ∧ 0 ≤ u ∧ s + t + u = 1 ∧
      x = (P (V f 0)).smul s + (P (V f 1)).smul t + (P (V f 2)).smul u := by
  obtain ⟨p, -, hn, -⟩ := C.off_neg hf
  obtain ⟨s, t, u, h1, h2⟩ := exists_bary (p := P p) (x := x) hn.ne h0
  have key : ∀ k, ov P (V (N f k)) x = (![s, t, u] k) * ov P (V (N f k)) (P (V f k)) := by
    intro k
    obtain ⟨d, -, hd⟩ := C.ov_nb hf k
    rw [hd, hd, orient_affine3 _ _ _ h1 h2]
    fin_cases k
    · show s * orient (P (V f 2)) (P (V f 1)) _ (P (V f 0)) + t * orient (P (V f 2)) (P (V f 1)) _ (P (V f 1)) + u * orient (P (V f 2)) (P (V f 1)) _ (P (V f 2))
        = s * orient (P (V f 2)) (P (V f 1)) _ (P (V f 0))
      rw [orient_self1, orient_self2]; ring
    · show s * orient (P (V f 0)) (P (V f 2)) _ (P (V f 0)) + t * orient (P (V f 0)) (P (V f 2)) _ (P (V f 1)) + u * orient (P (V f 0)) (P (V f 2)) _ (P (V f 2))
        = t * orient (P (V f 0)) (P (V f 2)) _ (P (V f 1))
      rw [orient_self1, orient_self2]; ring
    · show s * orient (P (V f 1)) (P (V f 0)) _ (P (V f 0)) + t * orient (P (V f 1)) (P (V f 0)) _ (P (V f 1)) + u * orient (P (V f 1)) (P (V f 0)) _ (P (V f 2))
        = u * orient (P (V f 1)) (P (V f 0)) _ (P (V f 2))
      rw [orient_self1, orient_self2]; ring
  have hc : ∀ k, 0 ≤ (![s, t, u] k : K) := by
    intro k
    by_contra hk
    push Not at hk
    have := mul_pos_of_neg_of_neg hk (C.opposite_neg hf k)
    have h3 := h k
    rw [key k] at h3
    linarith
  exact ⟨s, t, u, hc 0, hc 1, hc 2, h1, h2⟩

/-- If all corners of `g` are corners of `f`, it is the same triangle. -/
theorem eq_of_corners (C : Complex P n L V N) {f g : Nat} (hf : f ∈ L) (hg : g ∈ L) (h : ∀ k, ∃ i, V g k = V f i) : f = g := by
  obtain ⟨i, h0⟩ := h 0
  obtain ⟨j, h1⟩ := h 1
  obtain ⟨l, h2⟩ := h 2
  have ij : j ≠ i := by
    rintro rfl
    exact absurd (C.inj g hg (h1.trans h0.symm)) (by decide)
  have il : l ≠ i := by
    rintro rfl
    exact absurd (C.inj g hg (h2.trans h0.symm)) (by decide)
  have jl : l ≠ j := by
    rintro rfl
    exact absurd (C.inj g hg (h2.trans h1.symm)) (by decide)
  rcases fin3_cases j i with rfl | rfl | rfl
  · exact absurd rfl ij
  · refine C.uniq f hf g hg (i + 2) 2 ?_ ?_
    · rw [fin3_21]; exact h0.symm
    · rw [fin3_22]; exact h1.symm
  · have : l = i + 1 := by
      rcases fin3_cases l i with rfl | rfl | rfl
      · exact absurd rfl il
      · rfl
      · exact absurd rfl jl
    subst this
    exact (C.not_reversed hf hg (i := i) (j := 0) h0.symm h2.symm h1.symm).elim

/-- The centre of a triangle. -/
def centre (P : Nat → Vec3 K) (vs : Fin 3 → Nat) : Vec3 K := (P (vs 0)).smul (1 / 3) + (P (vs 1)).smul (1 / 3) + (P (vs 2)).smul (1 / 3)

theorem ov_centre (vs ws : Fin 3 → Nat) :
    ov P ws (centre P vs) = 1 / 3 * ov P ws (P (vs 0)) + 1 / 3 * ov P ws (P (vs 1)) + 1 / 3 * ov P ws (P (vs 2)) :=
  orient_affine3 _ _ _ (by norm_num) rfl

theorem centre_le (C : Complex P n L V N) {f g : Nat} (hf : f ∈ L) (hg : g ∈ L) : ov P (V f) (centre P (V g)) ≤ 0 := by
  rw [ov_centre]
  have := (C.cov f hf g hg 0).le
  have := (C.cov f hf g hg 1).le
  have := (C.cov f hf g hg 2).le
  linarith

theorem centre_neg (C : Complex P n L V N) {f g : Nat} (hf : f ∈ L) (hg : g ∈ L) (hne : f ≠ g) : ov P (V f) (centre P (V g)) < 0 := by
  rw [ov_centre]
  have h0 := (C.cov f hf g hg 0).le
  have h1 := (C.cov f hf g hg 1).le
  have h2 := (C.cov f hf g hg 2).le
  by_contra hc
  refine hne (C.eq_of_corners hf hg fun k => ?_)
  rcases C.cov f hf g hg k with h | h
  · exact h
  · exfalso
    fin_cases k
    · change ov P (V f) (P (V g 0)) < 0 at h; linarith
    · change ov P (V f) (P (V g 1)) < 0 at h; linarith
    · change ov P (V f) (P (V g 2)) < 0 at h; linarith

/-- From a triangle visible from `p` there is a step to a visible neighbour nearer to the visible triangle `g`. -/
theorem ascend (C : Complex P n L V N) {p : Vec3 K} {f g : Nat} (hf : f ∈ L) (hg : g ∈ L) (hne : f ≠ g) (vf : 0 < ov P (V f) p)
    (vg : 0 < ov P (V g) p) : ∃ k, 0 < ov P (V (N f k)) p ∧
      ov P (V f) (centre P (V g)) / ov P (V f) p < ov P (V (N f k)) (centre P (V g)) / ov P (V (N f k)) p := by
  have hy := C.centre_neg hf hg hne
  set y := centre P (V g) with hyd
  have hd : 0 < ov P (V f) p - ov P (V f) y := by linarith
  set t := ov P (V f) p / (ov P (V f) p - ov P (V f) y) with ht
  have ht0 : 0 < t := div_pos vf hd
  have ht1 : 0 < 1 - t := by
    rw [ht, one_sub_div hd.ne']
    exact div_pos (by linarith) hd
  have hl : ∀ vs, ov P vs (p.smul (1 - t) + y.smul t) = (1 - t) * ov P vs p + t * ov P vs y := fun vs =>
    orient_affine _ _ _ (by ring) rfl
  have h0 : ov P (V f) (p.smul (1 - t) + y.smul t) = 0 := by
    rw [hl, ht]
    field_simp
    ring
  by_cases hk : ∀ k, ov P (V (N f k)) (p.smul (1 - t) + y.smul t) ≤ 0
  · exfalso
    obtain ⟨s, r, u, hs, hr, hu, h1, hx⟩ := C.in_triangle hf h0 hk
    have e : ov P (V g) (p.smul (1 - t) + y.smul t) ≤ 0 := by
      have : ov P (V g) (p.smul (1 - t) + y.smul t) = _ := orient_affine3 _ _ _ h1 hx
      rw [this]
      have e0 := mul_nonneg hs (neg_nonneg.mpr (C.cov g hg f hf 0).le)
      have e1 := mul_nonneg hr (neg_nonneg.mpr (C.cov g hg f hf 1).le)
      have e2 := mul_nonneg hu (neg_nonneg.mpr (C.cov g hg f hf 2).le)
      simp only [ov] at e0 e1 e2
      linarith
    rw [hl] at e
    have : ov P (V g) y = 0 := by
      rw [hyd, ov_centre, ov_vertex, ov_vertex, ov_vertex]; ring
    rw [this, mul_zero, add_zero] at e
    exact absurd (mul_pos ht1 vg) (not_lt.mpr e)
  · push Not at hk
    obtain ⟨k, hk⟩ := hk
    have hy' : ov P (V (N f k)) y ≤ 0 := C.centre_le (C.nb f hf k) hg
    rw [hl] at hk
    have hp : 0 < ov P (V (N f k)) p := by
      by_contra hp
      have := mul_nonneg ht1.le (neg_nonneg.mpr (not_lt.mp hp))
      have := mul_nonneg ht0.le (neg_nonneg.mpr hy')
      linarith
    refine ⟨k, hp, ?_⟩
    rw [div_lt_div_iff₀ vf hp]
    have e1 : (1 - t) * (ov P (V f) p - ov P (V f) y) = -ov P (V f) y := by rw [ht]; field_simp; ring
    have e2 : t * (ov P (V f) p - ov P (V f) y) = ov P (V f) p := by rw [ht]; field_simp
    have := mul_pos hd hk
    have e3 : (ov P (V f) p - ov P (V f) y) * ((1 - t) * ov P (V (N f k)) p + t * ov P (V (N f k)) y) =
        -ov P (V f) y * ov P (V (N f k)) p + ov P (V f) p * ov P (V (N f k)) y := by
      rw [← e1]; nth_rw 3 [← e2]; ring
    rw [e3] at this
    linarith

/-- The triangles visible from a point are connected through visible ones. -/
theorem connected (C : Complex P n L V N) {p : Vec3 K} {f g : Nat} (hf : f ∈ L) (hg : g ∈ L) (vf : 0 < ov P (V f) p) (vg : 0 < ov P (V g) p) :
    Relation.ReflTransGen (fun t u => ∃ k, u = N t k ∧ 0 < ov P (V u) p) f g := by
  classical
  set R := L.filter fun t => Relation.ReflTransGen (fun t u => ∃ k, u = N t k ∧ 0 < ov P (V u) p) f t with hR
  have hne : R.Nonempty := ⟨f, by rw [hR, Finset.mem_filter]; exact ⟨hf, .refl⟩⟩
  obtain ⟨t, ht, hmax⟩ := R.exists_max_image (fun t => ov P (V t) (centre P (V g)) / ov P (V t) p) hne
  rw [hR, Finset.mem_filter] at ht
  have vt : 0 < ov P (V t) p := by
    rcases ht.2.cases_tail with e | ⟨u, -, k, -, h⟩
    · rw [e]; exact vf
    · exact h
  by_cases e : t = g
  · exact e ▸ ht.2
  · exfalso
    obtain ⟨k, hk, hlt⟩ := C.ascend ht.1 hg e vt vg
    exact absurd hlt (not_lt.mpr (hmax _ (by rw [hR, Finset.mem_filter]; exact ⟨C.nb t ht.1 k, ht.2.tail ⟨k, rfl, hk⟩⟩)))

/-- The triangle over a rim edge: points below both triangles at the edge are below it. -/
theorem cone_below (C : Complex P n L V N) {f q : Nat} (hf : f ∈ L) {k : Fin 3} (vf : 0 < ov P (V f) (P q)) (vu : ov P (V (N f k)) (P q) < 0) {p : Nat}
    (h1 : Below P (V f) p) (h2 : Below P (V (N f k)) p) : Below P (Function.update (V f) k q) p := by
  obtain ⟨d, -, hd⟩ := C.ov_nb hf k
  have hw := wedge (P (V f (k + 1))) (P (V f (k + 2))) (P (V f k)) (P d) (P q) (P p)
  rw [← ov_edge (V f) (P p) k, ← ov_edge (V f) (P q) k, ← hd, ← hd, ← hd, ← ov_update (V f) (P p) k q] at hw
  have hn := C.opposite_neg hf k
  have g1 := h1.le
  have g2 := h2.le
  have l1 := mul_nonneg_of_nonpos_of_nonpos vu.le g1
  have l2 := mul_nonneg vf.le (neg_nonneg.mpr g2)
  by_cases h0 : ov P (V f) (P p) < 0 ∨ ov P (V (N f k)) (P p) < 0
  · refine Or.inr ?_
    have : 0 < ov P (V (N f k)) (P (V f k)) * ov P (Function.update (V f) k q) (P p) := by
      rw [hw]
      rcases h0 with h0 | h0
      · have := mul_pos_of_neg_of_neg vu h0
        linarith
      · have := mul_pos vf (neg_pos.mpr h0)
        linarith
    by_contra hc
    exact absurd (mul_nonpos_of_nonpos_of_nonneg hn.le (not_lt.mp hc)) (not_le.mpr this)
  · push Not at h0
    refine Or.inl ?_
    rcases h1 with ⟨i, rfl⟩ | h1
    · rcases fin3_cases i k with rfl | rfl | rfl
      · exact absurd hn (not_lt.mpr h0.2)
      · exact ⟨k + 1, by rw [Function.update_of_ne (fin3_ne1 k)]⟩
      · exact ⟨k + 2, by rw [Function.update_of_ne (fin3_ne2 k)]⟩
    · exact absurd h1 (not_lt.mpr h0.1)

/-- A point above both triangles at a rim edge is above the triangle over it. -/
theorem cone_above (C : Complex P n L V N) {f q : Nat} (hf : f ∈ L) {k : Fin 3} (vf : 0 < ov P (V f) (P q)) (vu : ov P (V (N f k)) (P q) < 0)
    {p : Vec3 K} (h1 : 0 < ov P (V f) p) (h2 : 0 < ov P (V (N f k)) p) : 0 < ov P (Function.update (V f) k q) p := by
  obtain ⟨d, -, hd⟩ := C.ov_nb hf k
  have hw := wedge (P (V f (k + 1))) (P (V f (k + 2))) (P (V f k)) (P d) (P q) p
  rw [← ov_edge (V f) p k, ← ov_edge (V f) (P q) k, ← hd, ← hd, ← hd, ← ov_update (V f) p k q] at hw
  have hn := C.opposite_neg hf k
  have a := mul_pos vf h2
  have b := mul_neg_of_neg_of_pos vu h1
  by_contra hc
  have := mul_nonneg_of_nonpos_of_nonpos hn.le (not_lt.mp hc)
  linarith

end Complex
end Cmm.Geom
