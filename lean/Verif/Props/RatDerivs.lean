import Verif.Lemmas.RatDerivs
import Mathlib.Algebra.Polynomial.Derivation
/-! Property C93: `rat_surface_derivs` is the quotient rule. -/
namespace Cmm.Nurbs
open Finset
variable {K : Type} [Field K] [LinearOrder K] [IsStrictOrderedRing K]

theorem ratSurfaceDerivs_ok {SKLw : List (List (Vec4 K))} {d : Nat} (hd : d ≤ 30) (h : ∀ k ≤ d, ∃ row, SKLw[k]? = some row ∧ d < row.length)
    (hw : (tab2 SKLw 0 0).w ≠ 0) :
    ∃ S : Nat → Nat → Vec4 K, ratSurfaceDerivs SKLw d = .ok ((List.range (d + 1)).map fun k => (List.range (d + 1)).map fun l => S k l) ∧
      ∀ k l, k ≤ d → l ≤ d → EntryOk (tab2 SKLw) S k l := by
  have h1 : ¬ (SKLw.length ≤ d ∨ (SKLw.take (d + 1)).any (fun row => decide (row.length ≤ d)) = true) := by
    rintro (h' | h')
    · obtain ⟨row, e, -⟩ := h d (le_refl _)
      obtain ⟨hh, -⟩ := List.getElem?_eq_some_iff.1 e
      omega
    · obtain ⟨row, hr, hl⟩ := List.any_eq_true.1 h'
      obtain ⟨k, hk, e⟩ := List.mem_iff_getElem.1 hr
      rw [List.length_take] at hk
      obtain ⟨row', e', hl'⟩ := h k (by omega)
      rw [List.getElem_take] at e
      obtain ⟨_, e''⟩ := List.getElem?_eq_some_iff.1 e'
      rw [e''] at e
      subst e
      have := of_decide_eq_true hl
      omega
  obtain ⟨S, e, hS⟩ := ratRows_ok (tab2 SKLw) (d + 1) (by omega) hw (d + 1) 0 (fun _ _ => 0) (by omega) (by intro a b h; omega)
  refine ⟨S, ?_, fun k l hk hl => hS k l (by omega) (by omega)⟩
  rw [ratSurfaceDerivs, if_neg h1, e, Res.ok_bind]

/-- C93. The computed table `S` satisfies the Leibniz relation: the derivatives of weight times surface, put together from the given derivatives of the
weight and the computed ones, are the given derivatives. -/
theorem C93_leibniz (SKLw : List (List (Vec4 K))) (d : Nat) (hd : d ≤ 30) (h : ∀ k ≤ d, ∃ row, SKLw[k]? = some row ∧ d < row.length)
    (hw : (tab2 SKLw 0 0).w ≠ 0) :
    ∃ T, ratSurfaceDerivs SKLw d = .ok T ∧ ∀ k l, k ≤ d → l ≤ d →
      (∑ i ∈ range (k + 1), ∑ j ∈ range (l + 1), (k.choose i : K) * (l.choose j : K) * (tab2 SKLw i j).w * (tab2 T (k - i) (l - j)).x =
        (tab2 SKLw k l).x) ∧
      (∑ i ∈ range (k + 1), ∑ j ∈ range (l + 1), (k.choose i : K) * (l.choose j : K) * (tab2 SKLw i j).w * (tab2 T (k - i) (l - j)).y =
        (tab2 SKLw k l).y) ∧
      (∑ i ∈ range (k + 1), ∑ j ∈ range (l + 1), (k.choose i : K) * (l.choose j : K) * (tab2 SKLw i j).w * (tab2 T (k - i) (l - j)).z =
        (tab2 SKLw k l).z) ∧ (tab2 T k l).w = 0 := by
  obtain ⟨S, e, hS⟩ := ratSurfaceDerivs_ok hd h hw
  refine ⟨_, e, fun k l hk hl => ?_⟩
  have cell : ∀ a b, a ≤ d → b ≤ d → tab2 ((List.range (d + 1)).map fun k => (List.range (d + 1)).map fun l => S k l) a b = S a b := by
    intro a b ha hb
    unfold tab2
    simp [List.getD_eq_getElem?_getD, Nat.lt_succ_of_le ha, Nat.lt_succ_of_le hb]
  have key : ∀ φ : Vec4 K → K, φ (S k l) = ratVal (tab2 SKLw) S φ k l →
      ∑ i ∈ range (k + 1), ∑ j ∈ range (l + 1), (k.choose i : K) * (l.choose j : K) * (tab2 SKLw i j).w *
        φ (tab2 ((List.range (d + 1)).map fun k => (List.range (d + 1)).map fun l => S k l) (k - i) (l - j)) = φ (tab2 SKLw k l) := by
    intro φ hφ
    rw [← ratVal_leibniz hw hφ]
    refine sum_congr rfl fun i hi => sum_congr rfl fun j hj => ?_
    rw [cell _ _ (by omega) (by omega)]
  have E := hS k l hk hl
  unfold EntryOk at E
  refine ⟨key Vec4.x (by rw [E]), key Vec4.y (by rw [E]), key Vec4.z (by rw [E]), ?_⟩
  rw [cell _ _ hk hl, E]

/-- C93. The quotient rule. `R` is any ring of functions with two derivations (the partial derivatives), `ev` is evaluation at the parameter, `W` the weight
function and `X`, `Y`, `Z` the coordinates of the surface. If the input table holds the derivatives of `W X`, `W Y`, `W Z` and `W` up to order
`d` in each direction and the weight is not zero, then the result holds the derivatives of `X`, `Y` and `Z`. -/
theorem C93_quotient_rule {R : Type} [CommRing R] (Du Dv : Derivation ℤ R R) (ev : R →+* K) (W X Y Z : R) (SKLw : List (List (Vec4 K))) (d : Nat)
    (hd : d ≤ 30) (hw : ev W ≠ 0)
    (h : ∀ k ≤ d, ∃ row, SKLw[k]? = some row ∧ ∀ l ≤ d, row[l]? = some (⟨ev (Du^[k] (Dv^[l] (W * X))), ev (Du^[k] (Dv^[l] (W * Y))),
      ev (Du^[k] (Dv^[l] (W * Z))), ev (Du^[k] (Dv^[l] W))⟩ : Vec4 K)) :
    ∃ T, ratSurfaceDerivs SKLw d = .ok T ∧ T.length = d + 1 ∧ ∀ k ≤ d, ∃ row, T[k]? = some row ∧ row.length = d + 1 ∧ ∀ l ≤ d,
      row[l]? = some (⟨ev (Du^[k] (Dv^[l] X)), ev (Du^[k] (Dv^[l] Y)), ev (Du^[k] (Dv^[l] Z)), 0⟩ : Vec4 K) := by
  have h' : ∀ k ≤ d, ∃ row, SKLw[k]? = some row ∧ d < row.length := by
    intro k hk
    obtain ⟨row, e, hr⟩ := h k hk
    obtain ⟨hh, -⟩ := List.getElem?_eq_some_iff.1 (hr d (le_refl _))
    exact ⟨row, e, hh⟩
  have cell : ∀ k l, k ≤ d → l ≤ d → tab2 SKLw k l = ⟨ev (Du^[k] (Dv^[l] (W * X))), ev (Du^[k] (Dv^[l] (W * Y))),
      ev (Du^[k] (Dv^[l] (W * Z))), ev (Du^[k] (Dv^[l] W))⟩ := by
    intro k l hk hl
    obtain ⟨row, e, hr⟩ := h k hk
    unfold tab2
    simp [List.getD_eq_getElem?_getD, e, hr l hl]
  have c0 : (tab2 SKLw 0 0).w = ev W := by rw [cell 0 0 (by omega) (by omega)]; rfl
  have hw' : (tab2 SKLw 0 0).w ≠ 0 := by rw [c0]; exact hw
  obtain ⟨S, e, hS⟩ := ratSurfaceDerivs_ok hd h' hw'
  have key : ∀ (φ : Vec4 K → K) (F : R), (∀ k l, k ≤ d → l ≤ d → φ (S k l) = ratVal (tab2 SKLw) S φ k l) →
      (∀ k l, k ≤ d → l ≤ d → φ (tab2 SKLw k l) = ev (Du^[k] (Dv^[l] (W * F)))) →
      ∀ k l, k ≤ d → l ≤ d → φ (S k l) = ev (Du^[k] (Dv^[l] F)) := by
    intro φ F h1 h2
    refine leibniz_unique (W := fun i j => (tab2 SKLw i j).w) (S := fun k l => φ (S k l)) (T := fun k l => ev (Du^[k] (Dv^[l] F))) hw' ?_
    intro k l hk hl
    rw [ratVal_leibniz hw' (h1 k l hk hl), h2 k l hk hl, derivation_iterate_two, map_sum]
    refine sum_congr rfl fun i hi => ?_
    rw [map_sum]
    refine sum_congr rfl fun j hj => ?_
    rw [mem_range] at hi hj
    rw [cell i j (by omega) (by omega)]
    simp only [map_mul, map_natCast]
    ring
  refine ⟨_, e, by simp, fun k hk => ⟨(List.range (d + 1)).map fun l => S k l, by simp [Nat.lt_succ_of_le hk], by simp, fun l hl => ?_⟩⟩
  have E := hS k l hk hl
  have hx := key Vec4.x X (fun k l hk hl => by have := hS k l hk hl; unfold EntryOk at this; rw [this]) (fun k l hk hl => by rw [cell k l hk hl]) k l hk hl
  have hy := key Vec4.y Y (fun k l hk hl => by have := hS k l hk hl; unfold EntryOk at this; rw [this]) (fun k l hk hl => by rw [cell k l hk hl]) k l hk hl
  have hz := key Vec4.z Z (fun k l hk hl => by have := hS k l hk hl; unfold EntryOk at this; rw [this]) (fun k l hk hl => by rw [cell k l hk hl]) k l hk hl
  have hw0 : (S k l).w = 0 := by unfold EntryOk at E; rw [E]
  have : S k l = ⟨ev (Du^[k] (Dv^[l] X)), ev (Du^[k] (Dv^[l] Y)), ev (Du^[k] (Dv^[l] Z)), 0⟩ := by
    rw [← hx, ← hy, ← hz, ← hw0]
  simp [Nat.lt_succ_of_le hl, this]

/-- The surface `(f, 1, 0)` with `f(u, v) = (u + v)²` and weight `u + v`, at `u + v = 1`: the hypotheses with `ℚ[X]` as the functions of `u + v`. -/
example : ∃ (Du Dv : Derivation ℤ (Polynomial ℚ) (Polynomial ℚ)) (ev : Polynomial ℚ →+* ℚ) (W X Y Z : Polynomial ℚ), ev W ≠ 0 ∧
    ∀ k ≤ 1, ∃ row, ([[⟨1, 1, 0, 1⟩, ⟨3, 1, 0, 1⟩], [⟨3, 1, 0, 1⟩, ⟨6, 0, 0, 0⟩]] : List (List (Vec4 ℚ)))[k]? = some row ∧ ∀ l ≤ 1,
      row[l]? = some (⟨ev (Du^[k] (Dv^[l] (W * X))), ev (Du^[k] (Dv^[l] (W * Y))), ev (Du^[k] (Dv^[l] (W * Z))), ev (Du^[k] (Dv^[l] W))⟩ : Vec4 ℚ) := by
  have e1 : ∀ f : Polynomial ℚ, (Polynomial.derivative'.restrictScalars ℤ : Derivation ℤ (Polynomial ℚ) (Polynomial ℚ)) f = f.derivative := fun _ => rfl
  refine ⟨Polynomial.derivative'.restrictScalars ℤ, Polynomial.derivative'.restrictScalars ℤ, Polynomial.evalRingHom 1, Polynomial.X, Polynomial.X ^ 2, 1, 0,
    by simp, fun k hk => ?_⟩
  obtain rfl | rfl : k = 0 ∨ k = 1 := by omega
  · refine ⟨_, rfl, fun l hl => ?_⟩
    obtain rfl | rfl : l = 0 ∨ l = 1 := by omega
    · simp [e1]
    · simp [e1]; norm_num
  · refine ⟨_, rfl, fun l hl => ?_⟩
    obtain rfl | rfl : l = 0 ∨ l = 1 := by omega
    · simp [e1]; norm_num
    · simp [e1]; norm_num

example : ratSurfaceDerivs ([[⟨1, 1, 0, 1⟩, ⟨3, 1, 0, 1⟩], [⟨3, 1, 0, 1⟩, ⟨6, 0, 0, 0⟩]] : List (List (Vec4 ℚ))) 1 =
    .ok [[⟨1, 1, 0, 0⟩, ⟨2, 0, 0, 0⟩], [⟨2, 0, 0, 0⟩, ⟨2, 0, 0, 0⟩]] := by decide +kernel

/-- C93. A zero weight, a table that is too small and orders from 31 on are undefined behaviour (the last because of the size of the binomial table). -/
theorem C93_undefined (SKLw : List (List (Vec4 K))) (d : Nat)
    (h : (tab2 SKLw 0 0).w = 0 ∨ 31 ≤ d ∨ SKLw.length ≤ d ∨ ∃ k ≤ d, ∃ row, SKLw[k]? = some row ∧ row.length ≤ d) :
    ratSurfaceDerivs SKLw d = .ub := by
  unfold ratSurfaceDerivs
  split
  · rfl
  next hs =>
  rw [not_or] at hs
  have cols : ∀ (count l : Nat) (S : Nat → Nat → Vec4 K), l ≤ 31 → (tab2 SKLw 0 0).w = 0 ∧ 0 < count ∨ 31 < l + count →
      ratCols (tab2 SKLw) 0 count l S = .ub := by
    intro count
    induction count with
    | zero => intro l S h1 h2; omega
    | succ n ih =>
      intro l S h1 h2
      rw [ratCols]
      by_cases h31 : l = 31
      · subst h31
        have : ratEntry (tab2 SKLw) S 0 31 = .ub := by
          rw [ratEntry, ratInner, show (Mono.binomD 31 1 : Res K) = .ub from rfl]
          rfl
        rw [this]; rfl
      · by_cases hw : (tab2 SKLw 0 0).w = 0
        · have : ratEntry (tab2 SKLw) S 0 l = .ub := by
            rw [ratEntry, ratInner_ok _ S (-1) l 0 0 (by omega) l 1 _ (by omega), Res.ok_bind, ratOuter, Res.ok_bind]
            simp only
            rw [if_pos hw]
          rw [this]; rfl
        · rw [ratEntry_ok _ S 0 l (by omega) (by omega) hw, Res.ok_bind]
          exact ih (l + 1) _ (by omega) (.inr (by rcases h2 with h2 | h2; exact absurd h2.1 hw; omega))
  rcases h with h | h | h | ⟨k, hk, row, e, hl⟩
  · rw [ratRows, cols (d + 1) 0 _ (by omega) (.inl ⟨h, by omega⟩)]; rfl
  · rw [ratRows, cols (d + 1) 0 _ (by omega) (.inr (by omega))]; rfl
  · exact absurd h hs.1
  · refine absurd ?_ hs.2
    refine List.any_eq_true.2 ⟨row, ?_, by simpa using hl⟩
    obtain ⟨hh, e'⟩ := List.getElem?_eq_some_iff.1 e
    rw [← e']
    exact List.mem_iff_getElem.2 ⟨k, by rw [List.length_take]; omega, by rw [List.getElem_take]⟩

end Cmm.Nurbs
