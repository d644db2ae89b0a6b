import Verif.Lemmas.Blossom
import Verif.Spec.Curve
/-! Properties of the basis functions computed by the code. -/
namespace Cmm.Nurbs
variable {K : Type} [Field K]

theorem basisInner_seg (U : Nat → K) (i : Nat) (u : K) (j : Nat) (F G : Nat → K) (D : Nat → K)
    (hD : ∀ x, D x = (U (i + (x + 1)) - u) + (u - U (i + 1 - (j - x)))) :
    ∀ len r saved, (G r = saved + if 0 < len then (U (i + (r + 1)) - u) * (F r / D r) else 0) →
      (∀ x, r ≤ x → x < r + len → G (x + 1) = (u - U (i + 1 - (j - x))) * (F x / D x) +
        if x + 1 < r + len then (U (i + (x + 1 + 1)) - u) * (F (x + 1) / D (x + 1)) else 0) →
      basisInner U i u j r saved (seg F r len) = seg G r (len + 1) := by
  intro len
  induction len with
  | zero =>
    intro r saved h _
    simp only [lt_irrefl, if_false, add_zero] at h
    rw [seg_succ, seg_zero, seg_zero, h]; rfl
  | succ len ih =>
    intro r saved h H
    rw [seg_succ, basisInner, seg_succ G]
    simp only [Nat.succ_pos, if_true] at h
    rw [h, ← hD r]
    congr 1
    apply ih
    · have h0 := H r (le_refl _) (by omega)
      rw [h0]
      by_cases hl : 0 < len
      · rw [if_pos hl, if_pos (by omega)]
      · rw [if_neg hl, if_neg (by omega)]
    · intro x h1 h2
      have h0 := H x (by omega) (by omega)
      rw [h0]
      by_cases hl : x + 1 < r + 1 + len
      · rw [if_pos hl, if_pos (by omega)]
      · rw [if_neg hl, if_neg (by omega)]

theorem piece_zero (U : Nat → K) (i : Nat) (p : Nat) : ∀ k u, k + p < i ∨ i < k → coxDeBoorPiece U i p k u = 0 := by
  induction p with
  | zero => intro k u h; rw [coxDeBoorPiece, if_neg (by omega)]
  | succ p ih =>
    intro k u h
    rw [coxDeBoorPiece, ih k u (by omega), ih (k + 1) u (by omega)]
    simp

theorem basisFuns_eq_piece (U : Nat → K) (i : Nat) (u : K) (p : Nat) (hp : p ≤ i) :
    basisFuns i u U p = seg (fun r => coxDeBoorPiece U i p (i - p + r) u) 0 (p + 1) := by
  induction p with
  | zero => rw [seg_succ, seg_zero]; simp [basisFuns, coxDeBoorPiece]
  | succ p ih =>
    rw [basisFuns, ih (by omega)]
    apply basisInner_seg U i u (p + 1) _ _ (fun x => (U (i + (x + 1)) - u) + (u - U (i + 1 - (p + 1 - x))))
      (fun _ => rfl)
    · simp only [Nat.succ_pos, if_true, zero_add]
      rw [coxDeBoorPiece, piece_zero U i p (i - (p + 1) + 0) u (by omega)]
      have e1 : i - (p + 1) + 0 + p + 2 = i + 1 := by omega
      have e2 : i - (p + 1) + 0 + 1 = i - p := by omega
      have e3 : i + 1 - (p + 1 - 0) = i - p := by omega
      have e4 : i - p + 0 = i - p := by omega
      rw [e1, e2, e3, e4]
      ring
    · intro x _ hx
      have hx' : x < p + 1 := by omega
      simp only [zero_add]
      rw [coxDeBoorPiece]
      have e1 : i - (p + 1) + (x + 1) = i - p + x := by omega
      have e2 : i - p + x + p + 1 = i + (x + 1) := by omega
      have e3 : i + 1 - (p + 1 - x) = i - p + x := by omega
      have e4 : i - p + x + p + 2 = i + (x + 1 + 1) := by omega
      have e5 : i - p + x + 1 = i - p + (x + 1) := by omega
      rw [e1, e2, e3, e4]
      by_cases h : x + 1 < p + 1
      · rw [if_pos h]
        have e6 : i + 1 - (p + 1 - (x + 1)) = i - p + (x + 1) := by omega
        rw [e6, e5]; ring
      · rw [if_neg h, piece_zero U i p (i - p + x + 1) u (by omega)]
        ring

variable [LinearOrder K]

/-- On its half-open span the polynomial piece is the basis function. -/
theorem piece_eq_cdb {U : Nat → K} {i N : Nat} {u : K} (hs : ∀ a b, a ≤ b → b < N → U a ≤ U b) (h1 : U i ≤ u)
    (h2 : u < U (i + 1)) (hi : i + 1 < N) (p : Nat) :
    ∀ k, k + p + 1 < N → coxDeBoorPiece U i p k u = coxDeBoor U p k u := by
  induction p with
  | zero =>
    intro k hk
    rw [coxDeBoorPiece, coxDeBoor]
    rcases lt_trichotomy k i with h | h | h
    · rw [if_neg (by omega), if_neg]
      rintro ⟨_, b⟩
      exact absurd b (not_lt.mpr (le_trans (hs (k + 1) i (by omega) (by omega)) h1))
    · subst h; rw [if_pos rfl, if_pos ⟨h1, h2⟩]
    · rw [if_neg (by omega), if_neg]
      rintro ⟨a, _⟩
      exact absurd (lt_of_lt_of_le h2 (hs (i + 1) k (by omega) (by omega))) (not_lt.mpr a)
  | succ p ih =>
    intro k hk
    rw [coxDeBoorPiece, coxDeBoor, ih k (by omega), ih (k + 1) (by omega)]

theorem goodSpan_of_sorted {U : Nat → K} {i p N : Nat} (hs : ∀ a b, a ≤ b → b < N → U a ≤ U b) (h : U i < U (i + 1))
    (hN : i + p < N) : GoodSpan U p i := by
  intro a b _ h2 h3 h4
  exact lt_of_le_of_lt (hs a i h2 (by omega)) (lt_of_lt_of_le h (hs (i + 1) b h3 (by omega)))

variable [IsStrictOrderedRing K]

theorem basisInner_nonneg {U : Nat → K} {i : Nat} {u : K} {j : Nat} (ns : List K) :
    ∀ r saved, 0 ≤ saved → (∀ n ∈ ns, 0 ≤ n) →
      (∀ x, r ≤ x → x < r + ns.length → u ≤ U (i + (x + 1)) ∧ U (i + 1 - (j - x)) ≤ u) →
      ∀ n ∈ basisInner U i u j r saved ns, 0 ≤ n := by
  induction ns with
  | nil => intro r saved h _ _ n hn; simp [basisInner] at hn; subst hn; exact h
  | cons a ns ih =>
    intro r saved h h1 h2 n hn
    have ⟨ha, hb⟩ := h2 r (le_refl _) (by simp)
    have hA : 0 ≤ U (i + (r + 1)) - u := sub_nonneg.mpr ha
    have hB : 0 ≤ u - U (i + 1 - (j - r)) := sub_nonneg.mpr hb
    have ht : 0 ≤ a / ((U (i + (r + 1)) - u) + (u - U (i + 1 - (j - r)))) :=
      div_nonneg (h1 a (by simp)) (by linarith)
    rw [basisInner] at hn
    rcases List.mem_cons.mp hn with rfl | hn
    · have := mul_nonneg hA ht; linarith
    · refine ih (r + 1) _ (mul_nonneg hB ht) (fun n hn => h1 n (by simp [hn])) ?_ n hn
      intro x hx1 hx2
      exact h2 x (by omega) (by simp; omega)

theorem basisFuns_nonneg {U : Nat → K} {i N : Nat} {u : K} (hs : ∀ a b, a ≤ b → b < N → U a ≤ U b) (h1 : U i ≤ u)
    (h2 : u ≤ U (i + 1)) (p : Nat) (hp : p ≤ i) (hN : i + p < N) : ∀ n ∈ basisFuns i u U p, 0 ≤ n := by
  induction p with
  | zero => intro n hn; simp [basisFuns] at hn; subst hn; exact zero_le_one
  | succ p ih =>
    rw [basisFuns]
    apply basisInner_nonneg _ _ _ (le_refl _) (ih (by omega) (by omega))
    intro x _ hx
    rw [basisFuns_length] at hx
    exact ⟨le_trans h2 (hs _ _ (by omega) (by omega)), le_trans (hs _ _ (by omega) (by omega)) h1⟩

theorem basisFuns_sum {U : Nat → K} {i p : Nat} (hp : p ≤ i) (hU : GoodSpan U p i) (u : K) :
    (basisFuns i u U p).sum = 1 := by
  have hf : IsBlossom p (fun _ : List K => (1 : K)) := ⟨fun _ _ _ _ => rfl, fun a b c us _ => by ring⟩
  have h := basis_blossom hp hU hf u p (le_refl _)
  rw [dotL_const] at h
  simpa using h

/-! ### Ends of a span -/

theorem basisInner_start (U : Nat → K) (i : Nat) (u : K) (j : Nat) (len : Nat) :
    ∀ r, (∀ x, r ≤ x → x ≤ r + len → u = U (i + 1 - (j - x))) → U (i + (r + 1)) ≠ u → ∀ a : K,
      basisInner U i u j r 0 (a :: List.replicate len 0) = a :: List.replicate (len + 1) 0 := by
  have hz : ∀ len r, basisInner U i u j r 0 (List.replicate len 0) = List.replicate (len + 1) (0 : K) := by
    intro len
    induction len with
    | zero => intro r; rfl
    | succ len ih =>
      intro r
      rw [List.replicate_succ, basisInner]
      simp only [zero_div, mul_zero, add_zero, ih]
      rw [← List.replicate_succ]
  intro r h1 h2 a
  rw [basisInner, ← h1 r (le_refl _) (by omega)]
  have hne : U (i + (r + 1)) - u ≠ 0 := sub_ne_zero.mpr h2
  simp only [sub_self, add_zero, zero_mul, hz, zero_add]
  congr 1
  field_simp

/-- At the left end of a span whose first knots coincide, only the first basis function is not zero. -/
theorem basisFuns_start {U : Nat → K} {i : Nat} {u : K} (p : Nat) (hp : p ≤ i) (h1 : ∀ a, i < a + p → a ≤ i → U a = u)
    (h2 : U (i + 1) ≠ u) : basisFuns i u U p = 1 :: List.replicate p 0 := by
  induction p with
  | zero => rfl
  | succ p ih =>
    rw [basisFuns, ih (by omega) (fun a h h' => h1 a (by omega) h')]
    rw [basisInner_start U i u (p + 1) p 0 _ (by simpa using h2)]
    intro x _ hx
    exact (h1 _ (by omega) (by omega)).symm

theorem basisInner_end (U : Nat → K) (i : Nat) (u : K) (j : Nat) (len : Nat) :
    ∀ r, (∀ x, r ≤ x → x ≤ r + len → U (i + (x + 1)) = u) → U (i + 1 - (j - (r + len))) ≠ u →
      basisInner U i u j r 0 (List.replicate len 0 ++ [1]) = List.replicate (len + 1) 0 ++ [1] := by
  induction len with
  | zero =>
    intro r h1 h2
    have hne : u - U (i + 1 - (j - r)) ≠ 0 := sub_ne_zero.mpr (Ne.symm h2)
    simp only [List.replicate_zero, List.nil_append, basisInner]
    rw [h1 r (le_refl _) (by omega)]
    simp [div_self hne, mul_div_assoc]
    field_simp
  | succ len ih =>
    intro r h1 h2
    rw [List.replicate_succ, List.cons_append, basisInner, h1 r (le_refl _) (by omega)]
    simp only [zero_div, mul_zero, add_zero]
    rw [ih (r + 1) (fun x a b => h1 x (by omega) (by omega)) (by
      have : r + 1 + len = r + (len + 1) := by omega
      rw [this]; exact h2)]
    rw [List.replicate_succ (n := len + 1)]; rfl

/-- At the right end of a span whose following knots coincide, only the last basis function is not zero. -/
theorem basisFuns_end {U : Nat → K} {i : Nat} {u : K} (p : Nat) (hp : p ≤ i)
    (h1 : ∀ a, i < a → a ≤ i + p → U a = u) (h2 : U i ≠ u) : basisFuns i u U p = List.replicate p 0 ++ [1] := by
  induction p with
  | zero => rfl
  | succ p ih =>
    rw [basisFuns, ih (by omega) (fun a h h' => h1 a h (by omega))]
    rw [basisInner_end U i u (p + 1) p 0]
    · intro x _ hx; exact h1 _ (by omega) (by omega)
    · have : i + 1 - (p + 1 - (0 + p)) = i := by omega
      rw [this]; exact h2

/-! ### The evaluation loop -/

omit [LinearOrder K] [IsStrictOrderedRing K] in
theorem curveAcc_eq (P : Nat → Vec4 K) (ns : List K) : ∀ k sw res,
    curveAcc P ns k sw res = (sw + dotL ns (fun r => (P r).w) k,
      ⟨res.x + dotL ns (fun r => (P r).w * (P r).x) k, res.y + dotL ns (fun r => (P r).w * (P r).y) k,
       res.z + dotL ns (fun r => (P r).w * (P r).z) k⟩) := by
  induction ns with
  | nil => intro k sw res; simp [curveAcc, dotL]
  | cons n ns ih =>
    intro k sw res
    rw [curveAcc, ih]
    simp only [dotL, Prod.mk.injEq, Vec3.mk.injEq]
    refine ⟨by ring, by ring, by ring, by ring⟩

omit [LinearOrder K] [IsStrictOrderedRing K] in
theorem curvePointAt_eq (span p : Nat) (U : Nat → K) (P : Nat → Vec4 K) (u : K) :
    curvePointAt span p U P u =
      ⟨splineVal U p (fun r => (P r).w * (P r).x) span u / splineVal U p (fun r => (P r).w) span u,
       splineVal U p (fun r => (P r).w * (P r).y) span u / splineVal U p (fun r => (P r).w) span u,
       splineVal U p (fun r => (P r).w * (P r).z) span u / splineVal U p (fun r => (P r).w) span u⟩ := by
  unfold curvePointAt
  simp only [curveAcc_eq, splineVal, Vec3.sdiv, Vec3.zero_x, Vec3.zero_y, Vec3.zero_z, zero_add]

end Cmm.Nurbs
