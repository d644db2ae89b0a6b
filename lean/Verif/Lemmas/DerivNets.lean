import Verif.Lemmas.CurvePoly
import Verif.Lemmas.Csx
import Verif.Lemmas.Surface
import Verif.Model.DerivNets
import Verif.Spec.DerivNets
import Mathlib.Algebra.MvPolynomial.Funext
/-! Lemmas about the control points of derivatives. -/
namespace Cmm.Nurbs
open Polynomial
variable {K : Type} [Field K] [LinearOrder K]

theorem derivRows_ok {p : Nat} {U : List K} {r1 r : Nat} : ∀ {count k : Nat} {prev : List (Vec4 K)} {rest : List (List (Vec4 K))},
    derivRows p U r1 r count k prev = .ok rest ↔
      rest.length = count ∧ ∀ m < count, derivRow p U r1 r (k + m) ((prev :: rest).getD m []) = .ok ((prev :: rest).getD (m + 1) []) := by
  intro count
  induction count with
  | zero =>
    intro k prev rest
    simp only [derivRows, Res.ok.injEq, Nat.not_lt_zero, false_implies, implies_true, and_true]
    exact ⟨fun h => by simp [← h], fun h => (List.eq_nil_of_length_eq_zero h).symm⟩
  | succ count ih =>
    intro k prev rest
    rw [derivRows]
    constructor
    · intro h
      obtain ⟨row, h1, h2⟩ := Csx.ok_of_bind h
      obtain ⟨rest', h3, h4⟩ := Csx.ok_of_bind h2
      simp only [Res.ok.injEq] at h4
      subst h4
      obtain ⟨a, b⟩ := ih.mp h3
      refine ⟨by simp [a], fun m hm => ?_⟩
      cases m with
      | zero => simpa using h1
      | succ m =>
        have := b m (by omega)
        rw [show k + (m + 1) = k + 1 + m by omega]
        simpa using this
    · rintro ⟨a, b⟩
      cases rest with
      | nil => simp at a
      | cons row rest =>
        have h0 := b 0 (by omega)
        simp only [Nat.add_zero, List.getD_cons_zero, List.getD_cons_succ, zero_add] at h0
        rw [h0, Res.ok_bind]
        have : derivRows p U r1 r count (k + 1) row = .ok rest := ih.mpr ⟨by simpa using a, fun m hm => by
          have := b (m + 1) (by omega)
          rw [show k + (m + 1) = k + 1 + m by omega] at this
          simpa using this⟩
        rw [this, Res.ok_bind]

theorem curveDerivCpts_ok {p : Nat} {U : List K} {P : List (Vec4 K)} {d r1 r2 : Nat} {PK : List (List (Vec4 K))} :
    curveDerivCpts p U P d r1 r2 = .ok PK ↔ r1 ≤ r2 ∧ r2 < P.length ∧ PK.length = d + 1 ∧
      PK.getD 0 [] = (List.range (r2 - r1 + 1)).map (fun i => ix P (r1 + i)) ∧
      ∀ m < d, derivRow p U r1 (r2 - r1) (m + 1) (PK.getD m []) = .ok (PK.getD (m + 1) []) := by
  unfold curveDerivCpts
  split
  next h => simp only [reduceCtorEq, false_iff]; omega
  next h =>
    constructor
    · intro h'
      obtain ⟨rest, h1, h2⟩ := Csx.ok_of_bind h'
      simp only [Res.ok.injEq] at h2
      subst h2
      obtain ⟨a, b⟩ := derivRows_ok.mp h1
      refine ⟨by omega, by omega, by simp [a], by simp, fun m hm => ?_⟩
      rw [Nat.add_comm m 1]
      have := b m hm
      rwa [Nat.add_comm m 1] at this
    · rintro ⟨-, -, c, e, f⟩
      cases PK with
      | nil => simp at c
      | cons row rest =>
        simp only [List.getD_cons_zero] at e
        subst e
        have : derivRows p U r1 (r2 - r1) d 1 ((List.range (r2 - r1 + 1)).map fun i => ix P (r1 + i)) = .ok rest :=
          derivRows_ok.mpr ⟨by simpa using c, fun m hm => by rw [Nat.add_comm 1 m]; exact f m hm⟩
        dsimp only
        rw [this, Res.ok_bind]

/-- The condition under which a row can be computed. -/
def RowDefined (p : Nat) (U : List K) (r1 r k : Nat) : Prop :=
  ∀ i, i + k ≤ r → r1 + i + p + 1 < U.length ∧ r1 + i + k < U.length ∧ ix U (r1 + i + p + 1) ≠ ix U (r1 + i + k)

theorem derivRow_cond {p : Nat} {U : List K} {r1 r k : Nat} :
    ((List.range (r + 1 - k)).all fun i => decide (r1 + i + p + 1 < U.length) && decide (r1 + i + k < U.length) &&
      decide (ix U (r1 + i + p + 1) - ix U (r1 + i + k) ≠ 0)) = true ↔ RowDefined p U r1 r k := by
  simp only [List.all_eq_true, List.mem_range, Bool.and_eq_true, decide_eq_true_eq, RowDefined, sub_ne_zero]
  exact ⟨fun h i hi => by obtain ⟨⟨a, b⟩, c⟩ := h i (by omega); exact ⟨a, b, c⟩,
    fun h i hi => by obtain ⟨a, b, c⟩ := h i (by omega); exact ⟨⟨a, b⟩, c⟩⟩

theorem derivRow_ok {p : Nat} {U : List K} {r1 r k : Nat} {prev row : List (Vec4 K)} (h : derivRow p U r1 r k prev = .ok row) :
    RowDefined p U r1 r k ∧ row.length = r + 1 ∧ (∀ j, r < j + k → ix row j = 0) ∧ ∀ j, j + k ≤ r →
      (ix row j).x = ((p : K) - k + 1) * ((ix prev (j + 1)).x - (ix prev j).x) / (ix U (r1 + j + p + 1) - ix U (r1 + j + k)) ∧
      (ix row j).y = ((p : K) - k + 1) * ((ix prev (j + 1)).y - (ix prev j).y) / (ix U (r1 + j + p + 1) - ix U (r1 + j + k)) ∧
      (ix row j).z = ((p : K) - k + 1) * ((ix prev (j + 1)).z - (ix prev j).z) / (ix U (r1 + j + p + 1) - ix U (r1 + j + k)) ∧
      (ix row j).w = ((p : K) - k + 1) * ((ix prev (j + 1)).w - (ix prev j).w) / (ix U (r1 + j + p + 1) - ix U (r1 + j + k)) := by
  unfold derivRow at h
  split at h
  next hc =>
    simp only [Res.ok.injEq] at h
    subst h
    refine ⟨derivRow_cond.mp hc, by simp, fun j hj => ?_, fun j hj => ?_⟩
    · by_cases hr : j < r + 1
      · simp [ix, List.getD_eq_getElem?_getD, List.getElem?_range hr, show ¬ j + k ≤ r by omega]
      · have : (List.range (r + 1))[j]? = none := by simp; omega
        simp [ix, List.getD_eq_getElem?_getD, this]
    · rw [ix, List.getD_eq_getElem?_getD, List.getElem?_map, List.getElem?_range (by omega)]
      simp [hj]
  next => simp at h

theorem derivRow_some {p : Nat} {U : List K} {r1 r k : Nat} (prev : List (Vec4 K)) (h : RowDefined p U r1 r k) :
    ∃ row, derivRow p U r1 r k prev = .ok row := by
  unfold derivRow
  rw [if_pos (derivRow_cond.mpr h)]
  exact ⟨_, rfl⟩

theorem derivRow_ub {p : Nat} {U : List K} {r1 r k : Nat} (prev : List (Vec4 K)) (h : ¬ RowDefined p U r1 r k) :
    derivRow p U r1 r k prev = .ub := by
  unfold derivRow
  rw [if_neg (fun hc => h (derivRow_cond.mp hc))]

theorem derivRows_defined {p : Nat} {U : List K} {r1 r : Nat} : ∀ (count k : Nat) (prev : List (Vec4 K)),
    ((∀ m < count, RowDefined p U r1 r (k + m)) → ∃ rest, derivRows p U r1 r count k prev = .ok rest) ∧
    ((¬ ∀ m < count, RowDefined p U r1 r (k + m)) → derivRows p U r1 r count k prev = .ub) := by
  intro count
  induction count with
  | zero => intro k prev; simp [derivRows]
  | succ count ih =>
    intro k prev
    rw [derivRows]
    by_cases h0 : RowDefined p U r1 r k
    · obtain ⟨row, hr⟩ := derivRow_some prev h0
      rw [hr, Res.ok_bind]
      obtain ⟨i1, i2⟩ := ih (k + 1) row
      have e : (∀ m < count + 1, RowDefined p U r1 r (k + m)) ↔ ∀ m < count, RowDefined p U r1 r (k + 1 + m) := by
        constructor
        · intro h m hm
          have := h (m + 1) (by omega)
          rwa [show k + (m + 1) = k + 1 + m by omega] at this
        · intro h m hm
          cases m with
          | zero => exact h0
          | succ m => have := h m (by omega); rwa [show k + (m + 1) = k + 1 + m by omega]
      rw [e]
      refine ⟨fun h => ?_, fun h => by rw [i2 h, Res.ub_bind]⟩
      obtain ⟨rest, e⟩ := i1 h
      exact ⟨row :: rest, by rw [e, Res.ok_bind]⟩
    · rw [derivRow_ub _ h0, Res.ub_bind]
      exact ⟨fun h => absurd (h 0 (by omega)) h0, fun _ => rfl⟩

variable [IsStrictOrderedRing K]

theorem dotL_seg (G g : Nat → K) (a k len : Nat) : dotL (seg G a len) g k = ∑ r ∈ Finset.range len, G (a + r) * g (k + r) := by
  induction len generalizing a k with
  | zero => simp [dotL]
  | succ len ih =>
    rw [seg_succ, dotL, ih, Finset.sum_range_succ']
    simp only [Nat.add_zero]
    rw [add_comm]
    congr 1
    exact Finset.sum_congr rfl fun r _ => by rw [show a + 1 + r = a + (r + 1) by omega, show k + 1 + r = k + (r + 1) by omega]

/-- On a span between the control points, the sum of all basis functions is the sum of the `p + 1` of them that the span knows. -/
theorem splineSum_eq {U : Nat → K} {N p a n i : Nat} (P : Nat → K) {t : K} (hs : ∀ a b, a ≤ b → b < N → U a ≤ U b) (h1 : U i ≤ t)
    (h2 : t < U (i + 1)) (ha : a + p ≤ i) (hn : i < a + n) (hN : a + n + p < N) (hi : i + 1 < N) :
    splineSum U p a n P t = splineVal U p (fun m => P (m - a)) i t := by
  rw [splineVal, basisFuns_eq_piece U i t p (by omega), dotL_seg]
  obtain ⟨e, rfl⟩ : ∃ e, n = (i - p - a) + ((p + 1) + e) := ⟨n - (i - p - a) - (p + 1), by omega⟩
  have hz : ∀ j, j < i - p - a + (p + 1 + e) → coxDeBoor U p (a + j) t = coxDeBoorPiece U i p (a + j) t := fun j h =>
    (piece_eq_cdb hs h1 h2 hi p _ (by omega)).symm
  rw [splineSum, Finset.sum_range_add, Finset.sum_range_add]
  have z1 : ∑ x ∈ Finset.range (i - p - a), coxDeBoor U p (a + x) t * P x = 0 := Finset.sum_eq_zero fun x hx => by
    have := Finset.mem_range.mp hx
    rw [hz _ (by omega), piece_zero _ _ _ _ _ (.inl (by omega)), zero_mul]
  have z2 : ∑ x ∈ Finset.range e, coxDeBoor U p (a + (i - p - a + (p + 1 + x))) t * P (i - p - a + (p + 1 + x)) = 0 :=
    Finset.sum_eq_zero fun x hx => by
      have := Finset.mem_range.mp hx
      rw [hz _ (by omega), piece_zero _ _ _ _ _ (.inr (by omega)), zero_mul]
  rw [z1, z2, zero_add, add_zero]
  refine Finset.sum_congr rfl fun x hx => ?_
  have := Finset.mem_range.mp hx
  rw [hz _ (by omega), show a + (i - p - a + x) = i - p + x by omega, Nat.zero_add, show i - p + x - a = i - p - a + x by omega]

theorem IsCoord.zero {φ : Vec4 K → K} (h : IsCoord φ) : φ 0 = 0 := by
  rcases h with rfl | rfl | rfl | rfl <;> rfl

/-- The entries of the table are the control points of the derivatives. -/
theorem tab_hodo {p : Nat} {U : List K} {P : List (Vec4 K)} {d r1 r2 : Nat} {PK : List (List (Vec4 K))}
    (h : curveDerivCpts p U P d r1 r2 = .ok PK) {φ : Vec4 K → K} (hφ : IsCoord φ) (k : Nat) (hk : k ≤ d) (hp : k ≤ p) :
    ∀ j, j + k ≤ r2 - r1 → φ (tab2 PK k j) = hodoIter (ix U) p (fun m => φ (ix P m)) k (r1 + k + j) := by
  obtain ⟨-, -, -, h0, hr⟩ := curveDerivCpts_ok.mp h
  induction k with
  | zero =>
    intro j hj
    rw [tab2, h0, List.getD_eq_getElem?_getD, List.getElem?_map, List.getElem?_range (by omega)]
    rfl
  | succ k ih =>
    intro j hj
    obtain ⟨-, -, -, e⟩ := derivRow_ok (hr k (by omega))
    have e := e j (by omega)
    have e' : φ (tab2 PK (k + 1) j) = ((p : K) - (k + 1 : Nat) + 1) * (φ (tab2 PK k (j + 1)) - φ (tab2 PK k j)) /
        (ix U (r1 + j + p + 1) - ix U (r1 + j + (k + 1))) := by
      rcases hφ with rfl | rfl | rfl | rfl
      · exact e.1
      · exact e.2.1
      · exact e.2.2.1
      · exact e.2.2.2
    rw [e', ih (by omega) (by omega) _ (by omega), ih (by omega) (by omega) _ (by omega), hodoIter, hodo]
    rw [show r1 + (k + 1) + j - 1 = r1 + k + j by omega, show r1 + (k + 1) + j = r1 + k + (j + 1) by omega,
      show r1 + k + (j + 1) + (p - k) = r1 + j + p + 1 by omega, show r1 + k + (j + 1) = r1 + j + (k + 1) by omega, Nat.cast_sub (by omega)]
    push_cast
    congr 2
    ring

theorem tab_zero {p : Nat} {U : List K} {P : List (Vec4 K)} {d r1 r2 : Nat} {PK : List (List (Vec4 K))}
    (h : curveDerivCpts p U P d r1 r2 = .ok PK) (k : Nat) (hk : k ≤ d) :
    (PK.getD k []).length = r2 - r1 + 1 ∧ ∀ j, r2 - r1 < j + k → tab2 PK k j = 0 := by
  obtain ⟨-, -, -, h0, hr⟩ := curveDerivCpts_ok.mp h
  cases k with
  | zero =>
    rw [h0]
    refine ⟨by simp, fun j hj => ?_⟩
    have : (List.range (r2 - r1 + 1))[j]? = none := by simp; omega
    rw [tab2, h0, List.getD_eq_getElem?_getD, List.getElem?_map, this]
    rfl
  | succ k =>
    obtain ⟨-, a, b, -⟩ := derivRow_ok (hr k (by omega))
    exact ⟨a, fun j hj => b j hj⟩

/-- Derivatives of a spline piece from the table. -/
theorem tab_derivative {p : Nat} {U : List K} {P : List (Vec4 K)} {d r1 r2 : Nat} {PK : List (List (Vec4 K))}
    (hs : SortedKnots U) (hl : P.length + p < U.length)
    (h : curveDerivCpts p U P d r1 r2 = .ok PK) {φ : Vec4 K → K} (hφ : IsCoord φ) {i : Nat} (h1 : r1 + p ≤ i) (h2 : i ≤ r2) {F : K[X]}
    (hF : PieceOn (ix U) i (splineSum (ix U) p r1 (r2 - r1 + 1) fun j => φ (ix P (r1 + j))) F) (k : Nat) (hk : k ≤ d) :
    PieceOn (ix U) i (splineSum (ix U) (p - k) (r1 + k) (r2 - r1 + 1 - k) fun j => φ (tab2 PK k j)) (derivative^[k] F) := by
  intro t t1 t2
  have hU : ix U i < ix U (i + 1) := lt_of_le_of_lt t1 t2
  have hm : ∀ a b, a ≤ b → b < U.length → ix U a ≤ ix U b := fun a b h h' => ix_mono hs h h'
  obtain ⟨c1, c2, -, -, hr⟩ := curveDerivCpts_ok.mp h
  have hg : GoodSpan (ix U) p i := goodSpan_of_sorted hm hU (by omega)
  obtain ⟨G, hG, dG⟩ := splineVal_natDegree (by omega) hg (fun m => φ (ix P m))
  have e0 : ∀ s, ix U i ≤ s → s < ix U (i + 1) → splineSum (ix U) p r1 (r2 - r1 + 1) (fun j => φ (ix P (r1 + j))) s =
      splineVal (ix U) p (fun m => φ (ix P m)) i s := by
    intro s s1 s2
    rw [splineSum_eq _ hm s1 s2 h1 (by omega) (by omega) (by omega), splineVal, splineVal]
    apply dotL_congr
    intro r hr
    rw [show r1 + (i - p + r - r1) = i - p + r by omega]
  have hFG : F = G := poly_eq_of_span hU fun s s1 s2 => by rw [← hF s s1 s2, hG, e0 s s1 s2]
  by_cases hp : k ≤ p
  · rw [hFG, splineVal_iterate (by omega) hg _ hG k hp t, splineSum_eq _ hm t1 t2 (by omega) (by omega) (by omega) (by omega), splineVal, splineVal]
    apply dotL_congr
    intro r hr
    rw [basisFuns_length] at hr
    rw [tab_hodo h hφ k hk hp _ (by omega), show r1 + k + (i - (p - k) + r - (r1 + k)) = i - (p - k) + r by omega]
  · have hr : r2 - r1 < p + 1 := by
      by_contra hc
      have := (derivRow_ok (hr p (by omega))).1 0 (by omega)
      exact this.2.2 rfl
    rw [show r2 - r1 + 1 - k = 0 by omega, hFG, Polynomial.iterate_derivative_eq_zero (by omega)]
    simp [splineSum]

theorem splineSum_restrict {U : Nat → K} {N p n r1 r2 i : Nat} (P : Nat → K) {t : K} (hs : ∀ a b, a ≤ b → b < N → U a ≤ U b) (t1 : U i ≤ t)
    (t2 : t < U (i + 1)) (h1 : r1 + p ≤ i) (h2 : i ≤ r2) (hr : r2 < n) (hN : n + p < N) :
    splineSum U p 0 n P t = splineSum U p r1 (r2 - r1 + 1) (fun j => P (r1 + j)) t := by
  rw [splineSum_eq _ hs t1 t2 h1 (by omega) (by omega) (by omega), splineSum_eq _ hs t1 t2 (by omega) (by omega) (by omega) (by omega),
    splineVal, splineVal]
  apply dotL_congr
  intro r hr
  rw [show r1 + (i - p + r - r1) = i - p + r by omega, Nat.sub_zero]

theorem piece_exists {U : Nat → K} {N p a n i : Nat} (P : Nat → K) (hs : ∀ a b, a ≤ b → b < N → U a ≤ U b) (hU : U i < U (i + 1))
    (ha : a + p ≤ i) (hn : i < a + n) (hN : a + n + p < N) : ∃ F : K[X], PieceOn U i (splineSum U p a n P) F := by
  have hg : GoodSpan U p i := goodSpan_of_sorted hs hU (by omega)
  obtain ⟨G, hG, -⟩ := splineVal_natDegree (by omega) hg (fun m => P (m - a))
  exact ⟨G, fun t t1 t2 => by rw [splineSum_eq _ hs t1 t2 ha hn hN (by omega), hG]⟩

theorem basis_exists {U : Nat → K} {N p a n i : Nat} (b : Nat) (hb : b < n) (hs : ∀ a b, a ≤ b → b < N → U a ≤ U b) (hU : U i < U (i + 1))
    (ha : a + p ≤ i) (hn : i < a + n) (hN : a + n + p < N) : ∃ F : K[X], PieceOn U i (coxDeBoor U p (a + b)) F := by
  obtain ⟨F, hF⟩ := piece_exists (fun m => if m = b then (1 : K) else 0) hs hU ha hn hN
  refine ⟨F, fun t t1 t2 => ?_⟩
  rw [← hF t t1 t2, splineSum]
  simp [hb]

theorem mapRes_range {B : Type} (dflt : B) {f : Nat → Res B} {n : Nat} {m : List B} (h : mapRes f (List.range n) = .ok m) :
    m.length = n ∧ ∀ k < n, f k = .ok (m.getD k dflt) := by
  have key : ∀ (l : List Nat) (m : List B), mapRes f l = .ok m → m.length = l.length ∧ ∀ k (hk : k < l.length), f l[k] = .ok (m.getD k dflt) := by
    intro l
    induction l with
    | nil =>
      intro m h
      simp only [mapRes, Res.ok.injEq] at h
      subst h
      simp
    | cons a l ih =>
      intro m h
      rw [mapRes] at h
      obtain ⟨b, h1, h2⟩ := Csx.ok_of_bind h
      obtain ⟨bs, h3, h4⟩ := Csx.ok_of_bind h2
      simp only [Res.ok.injEq] at h4
      subst h4
      obtain ⟨i1, i2⟩ := ih bs h3
      refine ⟨by simp [i1], fun k hk => ?_⟩
      cases k with
      | zero => simpa using h1
      | succ k => simpa using i2 k (by simpa using hk)
  obtain ⟨a, b⟩ := key _ _ h
  refine ⟨by simpa using a, fun k hk => ?_⟩
  have := b k (by simpa using hk)
  simpa using this

section tensor
open MvPolynomial in
theorem pderiv_tensor {ι : Type} (S : Finset ι) (A B : ι → K[X]) (k l : Nat) :
    (pderiv (0 : Fin 2))^[k] ((pderiv (1 : Fin 2))^[l] (∑ b ∈ S, Polynomial.aeval (MvPolynomial.X 0) (A b) * Polynomial.aeval (MvPolynomial.X 1) (B b) :
      MvPolynomial (Fin 2) K)) =
    ∑ b ∈ S, Polynomial.aeval (MvPolynomial.X 0) (derivative^[k] (A b)) * Polynomial.aeval (MvPolynomial.X 1) (derivative^[l] (B b)) := by
  have e1 : ∀ l, (pderiv (1 : Fin 2))^[l] (∑ b ∈ S, Polynomial.aeval (MvPolynomial.X 0) (A b) * Polynomial.aeval (MvPolynomial.X 1) (B b) :
      MvPolynomial (Fin 2) K) =
      ∑ b ∈ S, Polynomial.aeval (MvPolynomial.X 0) (A b) * Polynomial.aeval (MvPolynomial.X 1) (derivative^[l] (B b)) := by
    intro l
    induction l with
    | zero => rfl
    | succ l ih =>
      rw [Function.iterate_succ_apply', ih, map_sum]
      refine Finset.sum_congr rfl fun b _ => ?_
      rw [Derivation.leibniz, Derivation.map_aeval, Derivation.map_aeval, pderiv_X_self, pderiv_X_of_ne (by decide), Function.iterate_succ_apply']
      simp
  rw [e1]
  induction k with
  | zero => rfl
  | succ k ih =>
    rw [Function.iterate_succ_apply', ih, map_sum]
    refine Finset.sum_congr rfl fun b _ => ?_
    rw [Derivation.leibniz, Derivation.map_aeval, Derivation.map_aeval, pderiv_X_self, pderiv_X_of_ne (by decide), Function.iterate_succ_apply']
    simp [mul_comm]

theorem eval_tensor (A B : K[X]) (s t : K) :
    MvPolynomial.eval ![s, t] (Polynomial.aeval (MvPolynomial.X 0) A * Polynomial.aeval (MvPolynomial.X 1) B : MvPolynomial (Fin 2) K) =
      A.eval s * B.eval t := by
  have h : ∀ (i : Fin 2) (G : K[X]), MvPolynomial.eval ![s, t] (Polynomial.aeval (MvPolynomial.X i) G : MvPolynomial (Fin 2) K) = G.eval (![s, t] i) := by
    intro i G
    have := Polynomial.aeval_algHom_apply (MvPolynomial.aeval (R := K) ![s, t]) (MvPolynomial.X i) G
    rw [MvPolynomial.aeval_X] at this
    rw [← MvPolynomial.coe_aeval_eq_eval, RingHom.coe_coe, ← this, Polynomial.coe_aeval_eq_eval]
  rw [map_mul, h, h]
  rfl

end tensor

end Cmm.Nurbs
