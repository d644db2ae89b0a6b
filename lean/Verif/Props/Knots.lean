import Verif.Lemmas.Knots
import Mathlib.Algebra.Order.Field.Rat
import Mathlib.Data.List.Count
/-!
# Knot vectors: find_span, generation, insertion, distinct knots, periodicity (C22-C25, C34)
-/
namespace Cmm.Nurbs
variable {K : Type}

/-! ### C22 find_span -/

/-- C22: for a parameter not before the domain, `find_span` returns an index between the degree and `n` whose knot is
not above the parameter, and the next knot is above it unless the index is `n`. -/
theorem C22_find_span [LinearOrder K] [Zero K] (n p : Nat) (U : List K) (u : K) (hp : p ≤ n) (hu : ix U p ≤ u) :
    p ≤ findSpan n p u (ix U) ∧ findSpan n p u (ix U) ≤ n ∧ ix U (findSpan n p u (ix U)) ≤ u ∧
    (findSpan n p u (ix U) = n ∨ u < ix U (findSpan n p u (ix U) + 1)) := by
  have h1 := findSpan_ge n p u (ix U)
  have h2 := findSpan_le hp u (ix U)
  refine ⟨h1, h2, findSpan_knot_le u (ix U) hu h1 (le_refl _), ?_⟩
  rcases Nat.eq_or_lt_of_le h2 with h | h
  · exact .inl h
  · exact .inr (findSpan_lt u (ix U) h)

example : ix [(0 : ℚ), 0, 0, 1, 2, 2, 2] 2 ≤ 3 / 2 ∧ findSpan 3 2 (3 / 2) (ix [(0 : ℚ), 0, 0, 1, 2, 2, 2]) = 3 := by
  refine ⟨by decide +kernel, findSpan_eq (by omega) (by omega) ?_ (by omega)⟩
  intro j h1 h2
  obtain rfl : j = 3 := by omega
  decide +kernel

/-- C22: in a sorted knot vector that index is the only one with these properties. -/
theorem C22_find_span_unique [LinearOrder K] [Zero K] (n p i : Nat) (U : List K) (u : K) (hs : SortedKnots U)
    (hlen : n < U.length) (hpi : p ≤ i) (hin : i ≤ n) (hle : ix U i ≤ u) (hlt : i = n ∨ u < ix U (i + 1)) :
    findSpan n p u (ix U) = i := by
  refine findSpan_eq hpi hin (fun j _ hj => le_trans (ix_mono hs hj (by omega)) hle) (fun h => ?_)
  rcases hlt with hlt | hlt
  · omega
  · exact hlt

/-- C22: a parameter before the first interior knot (even outside the domain) gets the first span. -/
theorem C22_find_span_below [LinearOrder K] [Zero K] (n p : Nat) (U : List K) (u : K) (hu : u < ix U (p + 1)) :
    findSpan n p u (ix U) = p := by
  unfold findSpan scanSpan
  rw [if_neg (fun h => absurd h.2 (not_le.mpr hu))]
  rfl

example : (-1 : ℚ) < ix [(0 : ℚ), 0, 1, 1] (1 + 1) := by decide +kernel

/-! ### C23 generated knots -/

/-- C23: with more control points than the degree, `generate_knots` (curves and both surface directions) produces
`n + p + 1` non-decreasing knots with `p + 1` zeros at the start, `p + 1` times `n - p` at the end and strictly increasing
knots in between. -/
theorem C23_generated_clamped [Field K] [LinearOrder K] [IsStrictOrderedRing K] (n p : Nat) (h : p < n) :
    ∃ k : List K, generateKnots n p = .ok k ∧ k.length = n + p + 1 ∧ SortedKnots k ∧ (∀ i ≤ p, ix k i = 0) ∧
      (∀ i, n ≤ i → i ≤ n + p → ix k i = (n : K) - p) ∧ (∀ i, p ≤ i → i ≤ n → ix k i = (i : K) - p) := by
  have hval : ∀ i, i ≤ n + p → ix (List.replicate (p + 1) (0 : K) ++ (List.range (n - p)).map (fun i : Nat => (i : K) + 1)
      ++ List.replicate p ((n - p : Nat) : K)) i = ((min (i - p) (n - p) : Nat) : K) := by
    intro i hi
    by_cases h1 : i < p + 1
    · rw [ix_append_left (by simp; omega), ix_append_left (by simpa using h1), ix_replicate _ h1]
      have : min (i - p) (n - p) = 0 := by omega
      rw [this]; simp
    · by_cases h2 : i < n + 1
      · rw [ix_append_left (by simp; omega), ix_append_right (by simp; omega), ix_map_range _ (by simp; omega)]
        have : min (i - p) (n - p) = (i - (p + 1)) + 1 := by omega
        rw [this]; simp
      · rw [ix_append_right (by simp; omega), ix_replicate _ (by simp; omega)]
        have : min (i - p) (n - p) = n - p := by omega
        rw [this]
  refine ⟨_, by rw [generateKnots, if_neg (by omega)], by simp; omega, ?_, ?_, ?_, ?_⟩
  · unfold SortedKnots
    rw [List.pairwise_iff_getElem]
    intro i j hi hj hij
    have hlen : j < n + p + 1 := by simp at hj; omega
    rw [← ix_eq_getElem, ← ix_eq_getElem, hval i (by omega), hval j (by omega)]
    exact_mod_cast (by omega : min (i - p) (n - p) ≤ min (j - p) (n - p))
  · intro i hi
    rw [hval i (by omega)]
    have : min (i - p) (n - p) = 0 := by omega
    rw [this]; simp
  · intro i h1 h2
    rw [hval i h2]
    have : min (i - p) (n - p) = n - p := by omega
    rw [this, Nat.cast_sub (by omega)]
  · intro i h1 h2
    rw [hval i (by omega)]
    have : min (i - p) (n - p) = i - p := by omega
    rw [this, Nat.cast_sub (by omega)]

example : generateKnots 5 2 = .ok [(0 : ℚ), 0, 0, 1, 2, 3, 3, 3] := by decide +kernel

/-- C23: fewer control points than the degree make the call undefined. -/
theorem C23_generated_undefined [Field K] (n p : Nat) (h : n < p) : generateKnots (K := K) n p = .ub := by
  rw [generateKnots, if_pos h]

/-- C23: `generate_knots_periodic` gives `n + p + 1` knots with step one, zero at index `p`. -/
theorem C23_periodic_uniform [Field K] (n p : Nat) :
    (generateKnotsPeriodic (K := K) n p).length = n + p + 1 ∧
    ∀ i ≤ n + p, ix (generateKnotsPeriodic (K := K) n p) i = (i : K) - p := by
  refine ⟨by simp [generateKnotsPeriodic], fun i hi => ?_⟩
  rw [generateKnotsPeriodic, ix_map_range _ (by omega)]

/-- C23: the curve constructor for a non-periodic curve stores exactly these knots and the interval `[0, n - p]`. -/
theorem C23_constructor [Field K] [LinearOrder K] [IsStrictOrderedRing K] (cpts : List (Vec4 K)) (p : Nat)
    (h : p < cpts.length) :
    ∃ k, generateKnots cpts.length p = .ok k ∧
      Curve.make cpts p false = .ok ⟨cpts, p, k, false, 0, (cpts.length : K) - p⟩ := by
  obtain ⟨k, h1, h2, h3, h4, h5, h6⟩ := C23_generated_clamped (K := K) cpts.length p h
  refine ⟨k, h1, ?_⟩
  have hne : k ≠ [] := by intro hk; simp [hk] at h2
  obtain ⟨lo, a1, a2, a3⟩ := minElement_ok hne
  obtain ⟨hi, b1, b2, b3⟩ := maxElement_ok hne
  have hmem : ∀ x ∈ k, ∃ i, i ≤ cpts.length + p ∧ x = ix k i := by
    intro x hx
    obtain ⟨i, hi, rfl⟩ := List.getElem_of_mem hx
    exact ⟨i, by omega, (ix_eq_getElem hi).symm⟩
  have hin : ∀ i, i ≤ cpts.length + p → ix k i ∈ k := by
    intro i hi
    rw [ix_eq_getElem (by omega)]; exact List.getElem_mem _
  have e1 : lo = 0 := by
    apply le_antisymm
    · have := a3 _ (hin 0 (by omega)); rwa [h4 0 (by omega)] at this
    · obtain ⟨i, hi, e⟩ := hmem lo a2
      have := ix_mono h3 (Nat.zero_le i) (by omega)
      rw [h4 0 (by omega)] at this
      rw [e]; exact this
  have e2 : hi = (cpts.length : K) - p := by
    apply le_antisymm
    · obtain ⟨i, hi', e⟩ := hmem hi b2
      have := ix_mono h3 hi' (by omega)
      rw [h5 _ (by omega) (le_refl _)] at this
      rw [e]; exact this
    · have := b3 _ (hin (cpts.length + p) (by omega)); rwa [h5 _ (by omega) (le_refl _)] at this
  have hc : cpts.isEmpty = false := by cases cpts <;> simp_all
  simp [Curve.make, Curve.generateKnots, h1, Curve.updateInterval, a1, b1, hc, e1, e2]

example : (Curve.make [(⟨0, 0, 0, 1⟩ : Vec4 ℚ), ⟨1, 0, 0, 1⟩, ⟨1, 1, 0, 1⟩] 1 false) =
    .ok ⟨[⟨0, 0, 0, 1⟩, ⟨1, 0, 0, 1⟩, ⟨1, 1, 0, 1⟩], 1, [0, 0, 1, 2, 2], false, 0, 2⟩ := by decide +kernel

/-! ### C24 knot insertion on the knot vector -/

/-- C24: inserting `u` from the domain `r` times at the span found for it keeps the knots sorted, and the new knots are the
old ones plus `r` copies of `u`. -/
theorem C24_insertion_sorted [LinearOrder K] [Zero K] (n p r : Nat) (U : List K) (u : K) (hp : p ≤ n)
    (hlen : n + 1 < U.length) (hs : SortedKnots U) (hlo : ix U p ≤ u) (hhi : u ≤ ix U (n + 1)) :
    SortedKnots (knotInsertionKv U u (findSpan n p u (ix U)) r) ∧
    (knotInsertionKv U u (findSpan n p u (ix U)) r).Perm (List.replicate r u ++ U) ∧
    (knotInsertionKv U u (findSpan n p u (ix U)) r).length = U.length + r := by
  obtain ⟨h1, h2, h3, h4⟩ := C22_find_span n p U u hp hlo
  rw [knotInsertionKv_eq _ _ _ _ (by omega)]
  set i := findSpan n p u (ix U) with hi
  have htake : ∀ x ∈ U.take (i + 1), x ≤ u := by
    intro x hx
    obtain ⟨j, hj, rfl⟩ := List.getElem_of_mem hx
    simp at hj
    rw [List.getElem_take, ← ix_eq_getElem]
    exact le_trans (ix_mono hs (by omega : j ≤ i) (by omega)) h3
  have hdrop : ∀ x ∈ U.drop (i + 1), u ≤ x := by
    intro x hx
    obtain ⟨j, hj, rfl⟩ := List.getElem_of_mem hx
    simp at hj
    rw [List.getElem_drop, ← ix_eq_getElem]
    have hle : u ≤ ix U (i + 1) := by
      rcases h4 with h | h
      · rw [h]; exact hhi
      · exact le_of_lt h
    exact le_trans hle (ix_mono hs (by omega) (by omega))
  refine ⟨?_, ?_, by simp; omega⟩
  · unfold SortedKnots
    rw [List.pairwise_append, List.pairwise_append]
    refine ⟨hs.sublist (List.take_sublist ..), ⟨?_, hs.sublist (List.drop_sublist ..), ?_⟩, ?_⟩
    · simp
    · intro a ha b hb
      rw [(List.mem_replicate.mp ha).2]; exact hdrop b hb
    · intro a ha b hb
      rcases List.mem_append.mp hb with hb | hb
      · rw [(List.mem_replicate.mp hb).2]; exact htake a ha
      · exact le_trans (htake a ha) (hdrop b hb)
  · calc (U.take (i + 1) ++ (List.replicate r u ++ U.drop (i + 1))).Perm
          (List.replicate r u ++ (U.take (i + 1) ++ U.drop (i + 1))) := by
            rw [← List.append_assoc, ← List.append_assoc]
            exact List.Perm.append_right _ List.perm_append_comm
      _ = List.replicate r u ++ U := by rw [List.take_append_drop]

example : (1 : ℕ) ≤ 2 ∧ SortedKnots [(0 : ℚ), 0, 1, 2, 2] ∧ ix [(0 : ℚ), 0, 1, 2, 2] 1 ≤ 1 ∧
    1 ≤ ix [(0 : ℚ), 0, 1, 2, 2] (2 + 1) ∧ knotInsertionKv [(0 : ℚ), 0, 1, 2, 2] 1 2 2 = [0, 0, 1, 1, 1, 2, 2] := by
  unfold SortedKnots; decide +kernel

/-- C24: `find_multiplicity` counts the knots within 1e-12 of the value; the bound itself counts. -/
theorem C24_multiplicity_counts [Field K] [LinearOrder K] [IsStrictOrderedRing K] (u : K) (U : List K) :
    findMultiplicity u U = (U.filter fun k => decide (|u - k| ≤ 1 / 10 ^ 12)).length := by
  rw [findMultiplicity_eq_countP, List.countP_eq_length_filter]

/-- C24: if knots different from `u` are further than 1e-12 from it, that is the exact multiplicity, and inserting `u` `r`
times raises it by `r`. -/
theorem C24_multiplicity_exact [Field K] [LinearOrder K] [IsStrictOrderedRing K] (u : K) (U : List K) (span r : Nat)
    (hsep : ∀ k ∈ U, k ≠ u → 1 / 10 ^ 12 < |u - k|) (hspan : span < U.length) :
    findMultiplicity u U = U.count u ∧
    findMultiplicity u (knotInsertionKv U u span r) = findMultiplicity u U + r := by
  constructor
  · rw [findMultiplicity_eq_countP, List.count_eq_countP]
    apply List.countP_congr
    intro k hk
    by_cases h : k = u
    · subst h; simp
    · have := hsep k hk h
      simpa [h] using this
  · rw [knotInsertionKv_eq _ _ _ _ (by omega), findMultiplicity_eq_countP, findMultiplicity_eq_countP]
    rw [List.countP_append, List.countP_append]
    conv_rhs => rw [← List.take_append_drop (span + 1) U, List.countP_append]
    have : List.countP (fun k => decide (|u - k| ≤ 1 / 10 ^ 12)) (List.replicate r u) = r := by
      rw [List.countP_replicate]; simp
    rw [this]; omega

example : ∀ k ∈ [(0 : ℚ), 0, 1, 1, 2, 2], k ≠ 1 → 1 / 10 ^ 12 < |1 - k| := by decide +kernel

/-! ### C25 distinct knots, multiplicities, normalisation -/

/-- C25: `uniqueKnots` appends to its output the strictly increasing list of the distinct knots of a sorted vector. -/
theorem C25_unique_knots [LinearOrder K] (U out : List K) (hs : SortedKnots U) :
    ∃ ex, uniqueKnots U out = out ++ ex ∧ ex.Pairwise (· < ·) ∧ ∀ x, x ∈ ex ↔ x ∈ U := by
  obtain ⟨ex, h1, h2, h3, h4⟩ := uniqueKnotsLoop_spec U [] out
  refine ⟨ex, h1, ?_, fun x => by rw [h4]; simp⟩
  have h5 : ex.Pairwise (· ≤ ·) := hs.sublist h2
  exact (h5.and h3).imp fun ⟨a, b⟩ => lt_of_le_of_ne a b

example : uniqueKnots [(0 : ℚ), 0, 1, 1, 2] [] = [0, 1, 2] := by decide +kernel

/-- C25: the counts of `getKnotMultiplicities` are positive and add up to the number of knots, for every vector. -/
theorem C25_multiplicities_total [Field K] [LinearOrder K] (U : List K) :
    ((getKnotMultiplicities U).map Prod.snd).sum = U.length ∧ ∀ e ∈ getKnotMultiplicities U, 0 < e.2 := by
  cases U with
  | nil => simp [getKnotMultiplicities]
  | cons k ks =>
    refine ⟨?_, multLoop_pos ks k 1 (by omega)⟩
    rw [getKnotMultiplicities, multLoop_sum]; simp; omega

/-- C25: for a sorted vector the reported values are knots, in increasing order and at least 1e-8 apart. -/
theorem C25_multiplicities_sorted [Field K] [LinearOrder K] [IsStrictOrderedRing K] (U : List K) (hs : SortedKnots U) :
    ((getKnotMultiplicities U).map Prod.fst).Pairwise (fun a b => a + 1 / 10 ^ 8 ≤ b) ∧
    ∀ k ∈ (getKnotMultiplicities U).map Prod.fst, k ∈ U := by
  cases U with
  | nil => simp [getKnotMultiplicities]
  | cons k ks =>
    obtain ⟨h1, h2⟩ := multLoop_sorted ks k 1 hs
    refine ⟨h1, fun x hx => ?_⟩
    rcases h2 x hx with rfl | ⟨_, h⟩
    · simp
    · simp [h]

/-- C25: if different knots are at least 1e-8 apart, values and counts describe the vector completely: writing each value
as often as its count gives back the vector. -/
theorem C25_multiplicities_lossless [Field K] [LinearOrder K] [IsStrictOrderedRing K] (U : List K)
    (hsep : Separated (1 / 10 ^ 8) U) : expandRuns (getKnotMultiplicities U) = U := by
  cases U with
  | nil => rfl
  | cons k ks => rw [getKnotMultiplicities, multLoop_expand ks k 1 hsep]; simp

example : Separated (1 / 10 ^ 8) [(0 : ℚ), 0, 1, 1, 2] ∧
    getKnotMultiplicities [(0 : ℚ), 0, 1, 1, 2] = [(0, 2), (1, 2), (2, 1)] := by
  unfold Separated; decide +kernel

/-- C25: two knots closer than 1e-8 are merged, so the values reported are then not all the distinct knots. -/
theorem C25_close_knots_merged : getKnotMultiplicities [(0 : ℚ), 1 / 10 ^ 9] = [(0, 2)] := by decide +kernel

/-- C25: `normalize_knots` applies one increasing affine map that takes the smallest knot to 0 and the largest to 1; order
and multiplicities are therefore kept. -/
theorem C25_normalize [Field K] [LinearOrder K] [IsStrictOrderedRing K] (U : List K) (lo hi : K) (hlo : lo ∈ U)
    (hhi : hi ∈ U) (hmin : ∀ x ∈ U, lo ≤ x) (hmax : ∀ x ∈ U, x ≤ hi) (hlt : lo < hi) :
    ∃ g : K → K, normalizeKnots U = .ok (U.map g) ∧ (∀ x, g x = (x - lo) / (hi - lo)) ∧ g lo = 0 ∧ g hi = 1 ∧
      (∀ x y, g x < g y ↔ x < y) := by
  have hne : U ≠ [] := by intro h; simp [h] at hlo
  obtain ⟨m, a1, a2, a3⟩ := minElement_ok hne
  obtain ⟨M, b1, b2, b3⟩ := maxElement_ok hne
  have e1 : m = lo := le_antisymm (a3 _ hlo) (hmin _ a2)
  have e2 : M = hi := le_antisymm (hmax _ b2) (b3 _ hhi)
  subst e1 e2
  have hpos : 0 < M - m := by linarith
  refine ⟨fun k => (k - m) * (1 / (M - m)), ?_, ?_, ?_, ?_, ?_⟩
  · simp [normalizeKnots, a1, b1]
  · intro x; simp [div_eq_mul_inv]
  · simp
  · field_simp
  · intro x y
    have hp : 0 < 1 / (M - m) := by positivity
    rw [mul_lt_mul_iff_left₀ hp]
    constructor <;> intro h <;> linarith

example : normalizeKnots [(2 : ℚ), 2, 3, 6, 6] = .ok [0, 0, 1 / 4, 1, 1] := by decide +kernel

/-! ### C34 periodicity -/

variable [Field K] [LinearOrder K]

/-- C34: with at least `degree` control points, `is_periodic` answers whether the first `degree` control points equal the
last ones. -/
theorem C34_is_periodic_iff (c : Curve K) (h : c.degree ≤ c.cpts.length) :
    ∃ b, c.isPeriodic = .ok b ∧ (b = true ↔ c.cpts.take c.degree = c.cpts.drop (c.cpts.length - c.degree)) := by
  obtain ⟨b, h1, h2⟩ := isPeriodicFrom_spec c.cpts c.degree c.degree 0 h
  refine ⟨b, h1, h2.trans ?_⟩
  constructor
  · intro hh
    apply List.ext_getElem
    · simp; omega
    · intro i hi1 hi2
      simp at hi1 hi2
      rw [List.getElem_take, List.getElem_drop, ← ix_eq_getElem, ← ix_eq_getElem]
      exact hh i (by omega) (by omega)
  · intro hh k _ hk
    have := congrArg (fun l => ix l k) hh
    simp only [ix_drop] at this
    rw [ix_take (by omega)] at this
    exact this

/-- C34: with a positive degree above the number of control points the index wraps, which is undefined. -/
theorem C34_is_periodic_undefined (c : Curve K) (h : c.cpts.length < c.degree) : c.isPeriodic = .ub := by
  obtain ⟨d, hd⟩ : ∃ d, c.degree = d + 1 := ⟨c.degree - 1, by omega⟩
  rw [Curve.isPeriodic, hd, isPeriodicFrom, ← hd, if_pos h]

/-- C34: `make_periodic` succeeds, its result is periodic, a second call changes nothing, and the control points are either
unchanged (already periodic) or extended by copies of the first `degree` ones with uniform knots. -/
theorem C34_make_periodic (c : Curve K) (h : c.degree ≤ c.cpts.length) :
    ∃ c', c.makePeriodic = .ok c' ∧ c'.isPeriodic = .ok true ∧ c'.makePeriodic = .ok c' ∧
      ((c.isPeriodic = .ok true ∧ c' = c) ∨
       (c.isPeriodic = .ok false ∧ c'.cpts = c.cpts ++ c.cpts.take c.degree ∧ c'.periodic = true ∧
        c'.degree = c.degree ∧ c'.knots = generateKnotsPeriodic (c.cpts.length + c.degree) c.degree)) := by
  obtain ⟨b, hb, _⟩ := C34_is_periodic_iff c h
  cases b with
  | true =>
    refine ⟨c, by simp [Curve.makePeriodic, hb], hb, by simp [Curve.makePeriodic, hb], .inl ⟨hb, rfl⟩⟩
  | false =>
    have hk : generateKnotsPeriodic (K := K) (c.cpts ++ c.cpts.take c.degree).length c.degree ≠ [] := by
      simp [generateKnotsPeriodic]
    obtain ⟨m, a1, _⟩ := minElement_ok hk
    obtain ⟨M, b1, _⟩ := maxElement_ok hk
    obtain ⟨b', hb', hiff⟩ := C34_is_periodic_iff (⟨c.cpts ++ c.cpts.take c.degree, c.degree,
      generateKnotsPeriodic (c.cpts ++ c.cpts.take c.degree).length c.degree, true, m, M⟩ : Curve K) (by simp; omega)
    have hbt : b' = true := by
      rw [hiff]
      simp only
      rw [List.take_append_of_le_length h, List.drop_append]
      have e1 : (c.cpts ++ c.cpts.take c.degree).length - c.degree = c.cpts.length := by simp; omega
      rw [e1]; simp
    subst hbt
    have hmk : c.makePeriodic = .ok ⟨c.cpts ++ c.cpts.take c.degree, c.degree,
      generateKnotsPeriodic (c.cpts ++ c.cpts.take c.degree).length c.degree, true, m, M⟩ := by
      simp only [Curve.makePeriodic, hb, Res.ok_bind, Curve.generateKnotsPeriodic, Curve.updateInterval, a1, b1]
      simp
    refine ⟨_, hmk, hb', ?_, .inr ⟨hb, rfl, rfl, rfl, ?_⟩⟩
    · rw [Curve.makePeriodic, hb']; rfl
    · simp only [List.length_append, List.length_take]
      rw [Nat.min_eq_left h]

example : (⟨[⟨0, 0, 0, 1⟩, ⟨1, 0, 0, 1⟩, ⟨1, 1, 0, 1⟩], 2, [0, 0, 0, 1, 1, 1], false, 0, 1⟩ : Curve ℚ).isPeriodic =
    .ok false := by decide +kernel

end Cmm.Nurbs
