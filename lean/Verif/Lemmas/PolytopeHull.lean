import Verif.Lemmas.PolytopeStep
import Mathlib.Algebra.BigOperators.Group.Finset.Sigma
import Mathlib.Algebra.BigOperators.Fin
import Mathlib.Algebra.Order.BigOperators.Group.Finset
/-!
A closed convex surface bounds the convex hull of its corners, and its corners are extreme.
-/
namespace Cmm.Geom
variable {K : Type} [Field K] [LinearOrder K] [IsStrictOrderedRing K]
variable {P : Nat → Vec3 K} {n : Nat} {L : Finset Nat} {V N : Nat → Fin 3 → Nat}

namespace Complex

omit [LinearOrder K] [IsStrictOrderedRing K] in
theorem ov_diff (vs : Fin 3 → Nat) (x y : Vec3 K) :
    ov P vs y - ov P vs x = ∑ k : Fin 3, triple (P (vs (k + 1))) (P (vs (k + 2))) (y - x) := by
  rw [Fin.sum_univ_three]
  show _ = triple (P (vs 1)) (P (vs 2)) (y - x) + triple (P (vs 2)) (P (vs 0)) (y - x) + triple (P (vs 0)) (P (vs 1)) (y - x)
  unfold ov orient triple
  simp only [Vec3.sub_x, Vec3.sub_y, Vec3.sub_z]
  ring

/-- The normals of a closed surface add up to zero. -/
theorem sum_diff (C : Complex P n L V N) (x y : Vec3 K) : ∑ f ∈ L, (ov P (V f) y - ov P (V f) x) = 0 := by
  have : ∀ f k, ∃ j, f ∈ L → N (N f k) j = f ∧ V (N f k) (j + 1) = V f (k + 2) ∧ V (N f k) (j + 2) = V f (k + 1) := by
    intro f k
    by_cases hf : f ∈ L
    · obtain ⟨j, h⟩ := C.back f hf k
      exact ⟨j, fun _ => h⟩
    · exact ⟨0, fun h => absurd h hf⟩
  choose b hb using this
  simp only [ov_diff]
  rw [← Finset.sum_product' L Finset.univ (fun f k => triple (P (V f (k + 1))) (P (V f (k + 2))) (y - x))]
  have key : ∀ c ∈ L ×ˢ (Finset.univ : Finset (Fin 3)), triple (P (V c.1 (c.2 + 1))) (P (V c.1 (c.2 + 2))) (y - x) +
      triple (P (V (N c.1 c.2) (b c.1 c.2 + 1))) (P (V (N c.1 c.2) (b c.1 c.2 + 2))) (y - x) = 0 := by
    intro c hc
    have h := hb c.1 c.2 (Finset.mem_product.mp hc).1
    rw [h.2.1, h.2.2]
    unfold triple; ring
  refine Finset.sum_involution (fun c _ => (N c.1 c.2, b c.1 c.2)) key ?_ ?_ ?_
  · intro c hc h0 e
    have h := key c hc
    have e1 : N c.1 c.2 = c.1 := congrArg Prod.fst e
    have e2 : b c.1 c.2 = c.2 := congrArg Prod.snd e
    rw [e1, e2] at h
    exact h0 (by linarith)
  · intro c hc
    have hc := (Finset.mem_product.mp hc).1
    exact Finset.mem_product.mpr ⟨C.nb _ hc _, Finset.mem_univ _⟩
  · intro c hc
    have hc := (Finset.mem_product.mp hc).1
    have h := hb c.1 c.2 hc
    have h' := hb (N c.1 c.2) (b c.1 c.2) (C.nb _ hc _)
    rw [h.1, h.2.2] at h'
    refine Prod.ext h.1 ?_
    exact fin3_cancel1 (C.inj c.1 hc h'.2.1)

/-- A point strictly below all the planes is in the convex hull of four corners. -/
theorem inside (C : Complex P n L V N) {f0 : Nat} (h0 : f0 ∈ L) {x : Vec3 K} (hx : ∀ f ∈ L, ov P (V f) x < 0) :
    ∃ f ∈ L, InHull [P (V f0 0), P (V f 0), P (V f 1), P (V f 2)] x := by
  classical
  set v := P (V f0 0) with hv
  set D := fun f => ov P (V f) x - ov P (V f) v with hD
  have hsum : ∑ f ∈ L, D f = 0 := C.sum_diff v x
  have hv0 : ∀ f ∈ L, ov P (V f) v ≤ 0 := fun f hf => (C.cov f hf f0 h0 0).le
  have hpos : ∃ f ∈ L, 0 < D f := by
    by_contra hn
    push Not at hn
    have : ∑ f ∈ L, D f < ∑ f ∈ L, 0 := Finset.sum_lt_sum hn ⟨f0, h0, by
      simp only [hD, hv, ov_vertex, sub_zero]; exact hx f0 h0⟩
    rw [hsum, Finset.sum_const_zero] at this
    exact lt_irrefl _ this
  obtain ⟨f1, hf1, hd1⟩ := hpos
  obtain ⟨f, hf, hmin⟩ := (L.filter fun f => 0 < D f).exists_min_image (fun f => -ov P (V f) v / D f) ⟨f1, Finset.mem_filter.mpr ⟨hf1, hd1⟩⟩
  obtain ⟨hf, hd⟩ := Finset.mem_filter.mp hf
  set l := -ov P (V f) v / D f with hl
  have hl1 : 1 < l := by
    rw [hl, one_lt_div hd]
    have := hx f hf
    simp only [hD] at hd ⊢
    linarith
  have hl0 : 0 < l := by linarith
  have haff : ∀ vs, ov P vs (v.smul (1 - l) + x.smul l) = ov P vs v + l * (ov P vs x - ov P vs v) := by
    intro vs
    have := orient_affine (P (vs 0)) (P (vs 1)) (P (vs 2)) (p := v) (q := x) (s := 1 - l) (t := l) (by ring) rfl
    unfold ov
    rw [this]; ring
  have hz : ov P (V f) (v.smul (1 - l) + x.smul l) = 0 := by
    rw [haff]
    show ov P (V f) v + l * D f = 0
    rw [hl, div_mul_cancel₀ _ hd.ne']; ring
  have hle : ∀ g ∈ L, ov P (V g) (v.smul (1 - l) + x.smul l) ≤ 0 := by
    intro g hg
    rw [haff]
    show ov P (V g) v + l * D g ≤ 0
    by_cases hgd : 0 < D g
    · have := hmin g (Finset.mem_filter.mpr ⟨hg, hgd⟩)
      rw [le_div_iff₀ hgd] at this
      linarith
    · have := mul_nonneg hl0.le (neg_nonneg.mpr (not_lt.mp hgd))
      have := hv0 g hg
      linarith
  obtain ⟨s, t, u, hs, ht, hu, h1, h2⟩ := C.in_triangle hf hz fun k => hle _ (C.nb f hf k)
  refine ⟨f, hf, [1 - 1 / l, s / l, t / l, u / l], rfl, ?_, ?_, ?_, ?_, ?_⟩
  · intro a ha
    simp only [List.mem_cons, List.not_mem_nil, or_false] at ha
    rcases ha with rfl | rfl | rfl | rfl
    · rw [sub_nonneg, div_le_one hl0]; exact hl1.le
    · exact div_nonneg hs hl0.le
    · exact div_nonneg ht hl0.le
    · exact div_nonneg hu hl0.le
  · simp only [List.sum_cons, List.sum_nil]
    field_simp
    linear_combination h1
  · have := congrArg Vec3.x h2
    simp only [Vec3.add_x, Vec3.smul_x] at this
    simp only [List.zipWith_cons_cons, List.zipWith_nil_left, List.sum_cons, List.sum_nil]
    field_simp
    linear_combination this
  · have := congrArg Vec3.y h2
    simp only [Vec3.add_y, Vec3.smul_y] at this
    simp only [List.zipWith_cons_cons, List.zipWith_nil_left, List.sum_cons, List.sum_nil]
    field_simp
    linear_combination this
  · have := congrArg Vec3.z h2
    simp only [Vec3.add_z, Vec3.smul_z] at this
    simp only [List.zipWith_cons_cons, List.zipWith_nil_left, List.sum_cons, List.sum_nil]
    field_simp
    linear_combination this

end Complex

omit [LinearOrder K] [IsStrictOrderedRing K] in
theorem zipWith_orient (a b c : Vec3 K) : ∀ (w : List K) (l : List (Vec3 K)), w.length = l.length → ∀ x : Vec3 K, w.sum = 1 →
    x.x = (List.zipWith (fun a v => a * v.x) w l).sum → x.y = (List.zipWith (fun a v => a * v.y) w l).sum →
    x.z = (List.zipWith (fun a v => a * v.z) w l).sum → orient a b c x = (List.zipWith (fun t v => t * orient a b c v) w l).sum := by
  have gen : ∀ (w : List K) (l : List (Vec3 K)), w.length = l.length → (List.zipWith (fun t v => t * orient a b c v) w l).sum =
      orient a b c ⟨(List.zipWith (fun a v => a * v.x) w l).sum, (List.zipWith (fun a v => a * v.y) w l).sum,
        (List.zipWith (fun a v => a * v.z) w l).sum⟩ - (1 - w.sum) * orient a b c ⟨0, 0, 0⟩ := by
    intro w
    induction w with
    | nil => intro l _; simp
    | cons s w ih =>
      intro l hl
      cases l with
      | nil => simp at hl
      | cons v l =>
        simp only [List.zipWith_cons_cons, List.sum_cons]
        rw [ih l (by simpa using hl)]
        unfold orient
        ring
  intro w l hl x hs hx hy hz
  rw [gen w l hl, hs, sub_self, zero_mul, sub_zero, ← hx, ← hy, ← hz]

theorem zipWith_support (f g : Vec3 K → K) : ∀ (w : List K) (l : List (Vec3 K)), (∀ x ∈ w, 0 ≤ x) → (∀ v ∈ l, f v < 0 ∨ f v = 0 ∧ g v = 0) →
    0 ≤ (List.zipWith (fun t v => t * f v) w l).sum → (List.zipWith (fun t v => t * g v) w l).sum = 0
  | [], _, _, _, _ => by simp
  | _ :: _, [], _, _, _ => by simp
  | s :: w, v :: l, hw, hl, h => by
    simp only [List.zipWith_cons_cons, List.sum_cons] at h ⊢
    have hs := hw s List.mem_cons_self
    have hrest : (List.zipWith (fun t v => t * f v) w l).sum ≤ 0 := by
      have : ∀ (w : List K) (l : List (Vec3 K)), (∀ x ∈ w, 0 ≤ x) → (∀ v ∈ l, f v < 0 ∨ f v = 0 ∧ g v = 0) →
          (List.zipWith (fun t v => t * f v) w l).sum ≤ 0 := by
        intro w
        induction w with
        | nil => intro l _ _; simp
        | cons s w ih =>
          intro l hw hl
          cases l with
          | nil => simp
          | cons v l =>
            simp only [List.zipWith_cons_cons, List.sum_cons]
            have h1 := ih l (fun x hx => hw x (List.mem_cons_of_mem _ hx)) (fun x hx => hl x (List.mem_cons_of_mem _ hx))
            have h2 : f v ≤ 0 := by
              rcases hl v List.mem_cons_self with h | h
              · exact h.le
              · exact h.1.le
            have := mul_nonneg (hw s List.mem_cons_self) (neg_nonneg.mpr h2)
            linarith
      exact this w l (fun x hx => hw x (List.mem_cons_of_mem _ hx)) (fun x hx => hl x (List.mem_cons_of_mem _ hx))
    have h2 : f v ≤ 0 := by
      rcases hl v List.mem_cons_self with h | h
      · exact h.le
      · exact h.1.le
    have hsf := mul_nonneg hs (neg_nonneg.mpr h2)
    have ih := zipWith_support f g w l (fun x hx => hw x (List.mem_cons_of_mem _ hx)) (fun x hx => hl x (List.mem_cons_of_mem _ hx)) (by linarith)
    rw [ih, add_zero]
    rcases hl v List.mem_cons_self with h' | h'
    · have : s = 0 := by
        rcases hs.lt_or_eq with hs | hs
        · have := mul_pos hs (neg_pos.mpr h')
          linarith
        · exact hs.symm
      rw [this, zero_mul]
    · rw [h'.2, mul_zero]

/-- A corner of a triangle above no point is no weighted mean of other points. -/
theorem corner_extreme (hG : Gen P n) {vs : Fin 3 → Nat} (hv : Function.Injective vs) (hlt : ∀ k, vs k < n) (hn : 4 ≤ n) (k : Fin 3) {l : List (Vec3 K)}
    (hl : ∀ v ∈ l, ∃ p < n, p ≠ vs k ∧ Below P vs p ∧ v = P p) : ¬ InHull l (P (vs k)) := by
  rintro ⟨w, hlen, hw, hs, hx, hy, hz⟩
  obtain ⟨p, hp, hpk⟩ : ∃ p < n, ∀ i, p ≠ vs i := by
    by_contra hc
    push Not at hc
    choose k hk using fun p : Fin 4 => hc p.val (by omega)
    have hi : Function.Injective k := fun i j e => Fin.ext (by rw [hk i, hk j, e])
    have := Fintype.card_le_of_injective k hi
    simp at this
  have h1 := zipWith_orient (P (vs 0)) (P (vs 1)) (P (vs 2)) w l hlen (P (vs k)) hs hx hy hz
  have h2 := zipWith_orient (P (vs (k + 1))) (P (vs (k + 2))) (P p) w l hlen (P (vs k)) hs hx hy hz
  have h3 := zipWith_support (fun x => orient (P (vs 0)) (P (vs 1)) (P (vs 2)) x) (fun x => orient (P (vs (k + 1))) (P (vs (k + 2))) (P p) x) w l hw ?_ ?_
  · rw [h3, orient_last, ← ov_edge vs (P p) k] at h2
    exact hG vs hv hlt p hp hpk (neg_eq_zero.mp h2)
  · intro v hv'
    obtain ⟨r, -, hr, hb, rfl⟩ := hl v hv'
    rcases hb with ⟨i, rfl⟩ | hb
    · refine Or.inr ⟨ov_vertex vs i, ?_⟩
      rcases fin3_cases i k with rfl | rfl | rfl
      · exact absurd rfl hr
      · exact orient_self1 _ _ _
      · exact orient_self2 _ _ _
    · exact Or.inl hb
  · rw [← h1]
    exact (ov_vertex vs k).ge

end Cmm.Geom
