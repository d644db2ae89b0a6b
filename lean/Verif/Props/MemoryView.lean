import Verif.Lemmas.MVSerial
/-!
Properties C16-C21, C64, C65 of memoryview.h.
-/
namespace Cmm.MV

/-- Rewriting `access` on a view with as many strides as dimensions. -/
theorem access_ok {v : View} (hv : v.WF) {idx : List Nat} (h : ValidIdx v.shape idx) :
    v.access idx = .ok (wrap (v.offset + dot idx v.strides)) := by
  unfold View.access
  rw [if_neg (by simp [h.length]), accessLoop_ok h _ _ hv.len hv.off]

theorem access_ofShape {shape idx : List Nat} (hp : shape.prod < 2 ^ 64) (h : ValidIdx shape idx) :
    (View.ofShape shape).access idx = .ok (linear shape idx) := by
  rw [access_ok (ofShape_wf shape) (show ValidIdx (View.ofShape shape).shape idx from h)]
  simp only [View.ofShape]
  rw [dot_computeStrides h hp]
  have := linear_lt h
  rw [Nat.cast_zero, zero_add, wrap_nat (by omega)]

/-! ### C16 -/

/-- C16. For a view on a buffer with the number of elements its shape asks for: every valid index tuple addresses a
position below the total, different tuples address different positions in lexicographic order, and every position is
addressed. -/
theorem C16_row_major_bijection (shape : List Nat) (hp : shape.prod < 2 ^ 64) :
    (∀ idx, ValidIdx shape idx → ∃ a, (View.ofShape shape).access idx = .ok a ∧ a < shape.prod) ∧
    (∀ i j a b, ValidIdx shape i → ValidIdx shape j → (View.ofShape shape).access i = .ok a →
      (View.ofShape shape).access j = .ok b → (a = b ↔ i = j) ∧ (i < j → a < b)) ∧
    (∀ a, a < shape.prod → ∃ idx, ValidIdx shape idx ∧ (View.ofShape shape).access idx = .ok a) := by
  refine ⟨fun idx h => ⟨_, access_ofShape hp h, linear_lt h⟩, ?_, ?_⟩
  · intro i j a b hi hj ha hb
    rw [access_ofShape hp hi] at ha
    rw [access_ofShape hp hj] at hb
    injection ha with ha
    injection hb with hb
    subst ha hb
    exact ⟨⟨linear_inj hi hj, fun h => by rw [h]⟩, linear_mono hi hj⟩
  · intro a ha
    obtain ⟨idx, hv, hl⟩ := linear_surj shape a ha
    exact ⟨idx, hv, by rw [access_ofShape hp hv, hl]⟩

/-- C16. The element count the library computes is the number of valid index tuples, except for rank 0. -/
theorem C16_total_is_product (shape : List Nat) (hne : shape ≠ []) (hp : shape.prod < 2 ^ 64) :
    totalSize shape = shape.prod ∧ (rowMajor shape).length = shape.prod := by
  refine ⟨totalSize_of_lt hne hp, ?_⟩
  have := congrArg List.length (rowMajor_linear shape)
  simpa using this

/-- C16, boundary case: a rank-0 view counts zero elements but lets the empty index tuple read position 0. -/
theorem C16_rank_zero : totalSize [] = 0 ∧ (View.ofShape []).access [] = .ok 0 := ⟨rfl, rfl⟩

example : ([2, 3, 4] : List Nat).prod < 2 ^ 64 ∧ ValidIdx [2, 3, 4] [1, 2, 3] ∧
    (View.ofShape [2, 3, 4]).access [1, 2, 3] = .ok 23 ∧ (View.ofShape [2, 3, 4]).strides = [12, 4, 1] := by
  refine ⟨by decide, .cons (by omega) (.cons (by omega) (.cons (by omega) .nil)), by decide +kernel, by decide +kernel⟩

/-! ### C17 -/

/-- C17. Slicing: the result's valid index tuples are exactly those for which the slice selects something, and each
addresses the very position the selected element has in the sliced view. Dimensions below 2^31 (`int` arithmetic). -/
theorem C17_slice_selects (v w : View) (slices : List Slice) (hv : v.WF) (hd : ∀ d ∈ v.shape, d < 2 ^ 31)
    (h : v.slice slices = .ok w) :
    (∀ new, ValidIdx w.shape new ↔ ∃ old, Selects slices v.shape new old) ∧
    (∀ new old, Selects slices v.shape new old →
      w.access new = .ok (wrap (v.offset + dot old v.strides)) ∧
      (ValidIdx v.shape old → w.access new = v.access old)) := by
  obtain ⟨h1, _, h3, h4⟩ := sliceLoop_spec slices v.shape v.strides v.offset w hv.len hv.off hd h
  refine ⟨h3, fun new old hs => ?_⟩
  have e : w.access new = .ok (wrap (v.offset + dot old v.strides)) := by
    rw [access_ok h1 ((h3 new).mpr ⟨old, hs⟩), h4 new old hs]
  exact ⟨e, fun ho => by rw [e, access_ok hv ho]⟩

/-- C17. With positive steps a slice stays inside what the sliced view addresses: it reads only positions the view could
read, element by element. -/
theorem C17_positive_steps_in_bounds (v w : View) (slices : List Slice) (hv : v.WF) (hd : ∀ d ∈ v.shape, d < 2 ^ 31)
    (hpos : ∀ s ∈ slices, s.single = true ∨ 0 < s.step) (h : v.slice slices = .ok w) (new : List Nat)
    (hn : ValidIdx w.shape new) :
    ∃ old, ValidIdx v.shape old ∧ Selects slices v.shape new old ∧ w.access new = v.access old := by
  obtain ⟨h1, h2⟩ := C17_slice_selects v w slices hv hd h
  obtain ⟨old, ho⟩ := (h1 new).mp hn
  have hvo := selects_valid hpos ho
  exact ⟨old, hvo, ho, (h2 new old ho).2 hvo⟩

/-- C17. Slices compose: slicing twice selects through both selections, and sliced views can be sliced again. -/
theorem C17_slices_compose (v w u : View) (s1 s2 : List Slice) (hv : v.WF) (hd : ∀ d ∈ v.shape, d < 2 ^ 31)
    (h1 : v.slice s1 = .ok w) (h2 : w.slice s2 = .ok u) (new mid old : List Nat)
    (hm : Selects s2 w.shape new mid) (ho : Selects s1 v.shape mid old) (hold : ValidIdx v.shape old) :
    w.WF ∧ (∀ d ∈ w.shape, d < 2 ^ 31) ∧ u.access new = v.access old := by
  obtain ⟨a1, a2, a3, a4⟩ := sliceLoop_spec s1 v.shape v.strides v.offset w hv.len hv.off hd h1
  refine ⟨a1, a2, ?_⟩
  have hmid : ValidIdx w.shape mid := (a3 mid).mpr ⟨old, ho⟩
  rw [((C17_slice_selects w u s2 a1 a2 h2).2 new mid hm).2 hmid]
  exact ((C17_slice_selects v w s1 hv hd h1).2 mid old ho).2 hold

/-- C17. `slice` throws exactly when there are more slices than dimensions, an integer is out of range or a step is zero;
on arguments for which the `int` arithmetic fits it has no undefined behaviour. -/
theorem C17_slice_throws_iff (v : View) (slices : List Slice) (hv : v.WF)
    (hfit : ∀ p ∈ slices.zip v.shape, SliceFits p.2 p.1) :
    (v.slice slices = .throws ↔ v.shape.length < slices.length ∨ ∃ p ∈ slices.zip v.shape, BadSlice p.1 p.2) ∧
    v.slice slices ≠ .ub :=
  sliceLoop_throws slices v.shape v.strides v.offset hv.len hfit

/-- C17 (violated for negative steps): the slice `n : 0 : -1` of an array of length `n` has as its first element the one
past the end of the array. -/
theorem C17_negative_step_past_end (n : Nat) (h0 : 0 < n) (hn : n + 1 < 2 ^ 31) :
    ∃ w, (View.ofShape [n]).slice [.range n 0 (-1)] = .ok w ∧ ValidIdx w.shape [0] ∧ w.access [0] = .ok n := by
  have hfit : ∀ p ∈ ([Slice.range n 0 (-1)]).zip (View.ofShape [n]).shape, SliceFits p.2 p.1 := by
    intro p hp
    simp only [View.ofShape, List.zip_cons_cons, List.zip_nil_right, List.mem_singleton] at hp
    subst hp
    refine ⟨by simp [Slice.range], by simp only [Slice.range]; omega, by simp [Slice.range], ?_⟩
    simp only [Slice.range, abs_neg, abs_one]; omega
  obtain ⟨h1, h2⟩ := C17_slice_throws_iff (View.ofShape [n]) [.range n 0 (-1)] (ofShape_wf _) hfit
  have hsel : Selects [.range n 0 (-1)] [n] [0] [n] := by
    refine .range rfl ?_ (fun h => by simp [Slice.range] at h) (fun _ => ?_) (.rest .nil)
    · simp only [sliceStart, Slice.range, bound, if_true]; omega
    · simp only [sliceStop, Slice.range, bound, if_true]; omega
  cases hs : (View.ofShape [n]).slice [.range n 0 (-1)] with
  | ub => exact absurd hs h2
  | throws =>
    exfalso
    rcases h1.mp hs with h | ⟨p, hp, h⟩
    · simp [View.ofShape] at h
    · simp only [View.ofShape, List.zip_cons_cons, List.zip_nil_right, List.mem_singleton] at hp
      subst hp
      simp [BadSlice, Slice.range] at h
  | ok w =>
    obtain ⟨g1, g2⟩ := C17_slice_selects _ w _ (ofShape_wf _) (by simp [View.ofShape]; omega) hs
    refine ⟨w, rfl, (g1 _).mpr ⟨[n], hsel⟩, ?_⟩
    rw [(g2 _ _ hsel).1]
    simp only [View.ofShape, computeStrides, dot]
    exact congrArg Res.ok (by unfold wrap; omega)

/-- C17 (violated for negative steps): no slice with a negative step can reach position 0. -/
theorem C17_negative_step_misses_first (s : Slice) (ss : List Slice) (d : Nat) (ds new old : List Nat)
    (hs : s.single = false) (hneg : s.step < 0) (h : Selects (s :: ss) (d :: ds) new old) : old.head? ≠ some 0 := by
  cases h with
  | single hs' => rw [hs] at hs'; cases hs'
  | @range _ _ _ k i _ new old _ hi hup hdown ho =>
    have := hdown hneg.le
    have b2 : 0 ≤ sliceStop d s ∧ sliceStop d s ≤ d := bound_range d _
    intro h
    simp at h
    omega

/-- C17 (violated for large steps): the length computation overflows `int` for every step with `n + step ≥ 2^31`, for
instance `INT_MAX`, although such a slice has one element. -/
theorem C17_huge_step_overflows (n : Nat) (step : Int) (h1 : 0 < n) (hn : n < 2 ^ 31) (h0 : 0 < step)
    (hs : 2 ^ 31 ≤ n + step) : (View.ofShape [n]).slice [.range 0 n step] = .ub := by
  have e1 : clamp n (n : Int) = n := by unfold clamp; rw [castInt_small hn]; omega
  have e2 : clamp n 0 = 0 := by unfold clamp; rw [castInt_small hn]; omega
  have hL : sliceLength 0 n step = .ub := by
    unfold sliceLength
    rw [if_pos h0, if_pos (by omega), i32_of (by omega) (by omega)]
    simp only [Res.ok_bind]
    rw [i32_ub (by omega), Res.ub_bind]
  have e3 : normIndex n 0 = .ok 0 := by rw [normIndex_of hn (by omega), if_neg (lt_irrefl _)]
  have e4 : normIndex n (n : Int) = .ok n := by
    rw [normIndex_of hn (by omega), if_neg (by omega)]
  refine sliceLoop_ub (a := 0) (b := n) rfl e3 e4 (ne_of_gt h0) ?_
  rw [e1, e2]
  exact hL

/-- C17. Slicing with an integer is indexing: `v.slice({k})` is `v[k]`, and a negative `k` counts from the end. -/
theorem C17_integer_is_index (v : View) (d : Nat) (ds : List Nat) (hs : v.shape = d :: ds) (hd : d < 2 ^ 31) (k : Int)
    (h1 : -(d : Int) ≤ k) (h2 : k < d) : v.slice [.at k] = v.sub (if k < 0 then k + d else k).toNat := by
  obtain ⟨shape, strides, off⟩ := v
  simp only at hs
  subst hs
  have hn : normIndex d k = .ok (if k < 0 then k + d else k) := normIndex_of hd (by omega)
  have hr : 0 ≤ (if k < 0 then k + d else k) ∧ (if k < 0 then k + d else k) < d := by split <;> omega
  unfold View.slice View.sub
  simp only [Slice.at, sliceLoop, if_true]
  rw [hn, Res.ok_bind, castInt_small hd]
  revert hr
  generalize (if k < 0 then k + (d : Int) else k) = x
  intro hr
  rw [if_neg (by omega), if_neg (by omega)]
  cases strides with
  | nil => rfl
  | cons st sts =>
    simp only [sliceLoop]
    rw [Int.toNat_of_nonneg hr.1]

/-- C17. The slice without arguments takes everything: the result is the view itself. -/
theorem C17_full_slice (v : View) (hv : v.WF) (d : Nat) (ds : List Nat) (hs : v.shape = d :: ds) (hd : d + 1 < 2 ^ 31)
    (hst : ∀ x ∈ v.strides, x < 2 ^ 64) : v.slice [.all] = .ok v := by
  obtain ⟨shape, strides, off⟩ := v
  obtain ⟨hl, ho⟩ := hv
  simp only at hs hl ho hst
  subst hs
  have hd' : d < 2 ^ 31 := by omega
  have e0 : normIndex d 0 = .ok 0 := by rw [normIndex_of hd' (by omega), if_neg (lt_irrefl _)]
  have e1 : normIndex d (d : Int) = .ok d := by rw [normIndex_of hd' (by omega), if_neg (by omega)]
  have c0 : clamp d 0 = 0 := by unfold clamp; rw [castInt_small hd']; omega
  have c1 : clamp d (d : Int) = d := by unfold clamp; rw [castInt_small hd']; omega
  have hL : sliceLength 0 d 1 = .ok d := by
    unfold sliceLength
    rw [if_pos (by omega)]
    split
    · rw [i32_of (by omega) (by omega), Res.ok_bind, i32_of (by omega) (by omega), Res.ok_bind, i32_of (by omega) (by omega), Res.ok_bind]
      rw [Int.tdiv_one]
      exact congrArg Res.ok (by omega)
    · exact congrArg Res.ok (by omega)
  match strides, hl with
  | st :: sts, hl =>
    unfold View.slice
    simp only [Slice.all, sliceLoop, Bool.false_eq_true, if_false]
    rw [castInt_small hd', e0, Res.ok_bind, e1, Res.ok_bind, c0, c1]
    simp only [one_ne_zero, if_false]
    rw [hL, Res.ok_bind]
    simp only [Res.ok_bind, mul_one, zero_mul]
    have w0 : wrap 0 = 0 := rfl
    rw [w0, wrap_nat (n := d) (by omega), wrap_nat (n := st) (by simp at hst; exact hst.1)]
    simp only [Nat.cast_zero, add_zero]
    rw [wrap_nat ho]

/-- C17 (violated for huge arrays): the length of a dimension is cut to 32 bits, so the slice without arguments of an array of 2^32 + k
elements has only k. -/
theorem C17_huge_dimension_counterexample (k : Nat) (hk : k + 1 < 2 ^ 31) : (View.ofShape [2 ^ 32 + k]).slice [.all] = .ok ⟨[k], [1], 0⟩ := by
  have hc : castInt (2 ^ 32 + k) = k := by
    unfold castInt; rw [Int.bmod_def]; omega
  have := C17_full_slice ⟨[k], [1], 0⟩ ⟨rfl, by norm_num⟩ k [] rfl hk (by simp)
  rw [← this]
  unfold View.slice View.ofShape
  simp only [computeStrides, sliceLoop, Slice.all, Bool.false_eq_true, if_false, normIndex, clamp, hc, castInt_small (show k < 2 ^ 31 by omega)]

example : (View.ofShape [4, 5]).WF ∧ (∀ x ∈ (View.ofShape [4, 5]).strides, x < 2 ^ 64) ∧ (View.ofShape [4, 5]).sub 3 = .ok ⟨[5], [1], 15⟩ := by
  refine ⟨⟨rfl, by decide⟩, by decide +kernel, by decide +kernel⟩

/-- Example: rows 1 and 3 of a 4x5 array, last column, and a slice that is refused. -/
example : (View.ofShape [4, 5]).slice [.range 1 4 2, .at (-1)] = .ok ⟨[2], [10], 9⟩ ∧
    (View.ofShape [4, 5]).slice [.range 0 4 2, .at 5] = .throws ∧
    (∀ p ∈ ([Slice.range 1 4 2, Slice.at (-1)]).zip (View.ofShape [4, 5]).shape, SliceFits p.2 p.1) ∧
    Selects [.range 1 4 2, .at (-1)] [4, 5] [1] [3, 4] := by
  refine ⟨by decide +kernel, by decide +kernel, ?_, ?_⟩
  · intro p hp
    simp [View.ofShape] at hp
    rcases hp with rfl | rfl <;> constructor <;> simp [Slice.range, Slice.at]
  · refine .range rfl (by decide) (by decide) (by decide) (.single rfl (by decide) (by decide) (.rest .nil))

/-! ### C18 -/

/-- C18. `operator()` throws exactly when the tuple is not a valid index (wrong number of indices or one out of range);
otherwise it addresses `offset + Σ index·stride`. -/
theorem C18_access_throws_iff (v : View) (hv : v.WF) (idx : List Nat) :
    (v.access idx = .throws ↔ ¬ ValidIdx v.shape idx) ∧ v.access idx ≠ .ub ∧
    (ValidIdx v.shape idx → v.access idx = .ok (wrap (v.offset + dot idx v.strides))) := by
  by_cases h : ValidIdx v.shape idx
  · rw [access_ok hv h]
    exact ⟨by simp [h], by simp, fun _ => rfl⟩
  · have : v.access idx = .throws := by
      unfold View.access
      by_cases hl : idx.length = v.shape.length
      · rw [if_neg (by simp [hl]), accessLoop_throws h hl _ _ hv.len]
      · rw [if_pos hl]
    rw [this]
    exact ⟨by simp [h], by simp, fun h' => absurd h' h⟩

/-- C18. The validity of an index tuple in elementary terms. -/
theorem C18_valid_iff (shape idx : List Nat) :
    ValidIdx shape idx ↔ idx.length = shape.length ∧ ∀ k (h1 : k < idx.length) (h2 : k < shape.length), idx[k] < shape[k] := by
  induction shape generalizing idx with
  | nil =>
    constructor
    · intro h; cases h; simp
    · rintro ⟨h, _⟩; rw [List.length_eq_zero_iff.mp h]; exact .nil
  | cons d ds ih =>
    constructor
    · intro h
      refine ⟨h.length, ?_⟩
      cases h with
      | cons hi hv =>
        intro k h1 h2
        cases k with
        | zero => exact hi
        | succ k => exact ((ih _).mp hv).2 k (by simpa using h1) (by simpa using h2)
    · rintro ⟨hl, hk⟩
      cases idx with
      | nil => simp at hl
      | cons i is =>
        refine .cons (hk 0 (by simp) (by simp)) ((ih is).mpr ⟨by simpa using hl, fun k h1 h2 => ?_⟩)
        exact hk (k + 1) (by simpa using h1) (by simpa using h2)

/-- C18. `operator[]` throws exactly on rank 0 or an index out of range, and `v[i](rest)` is `v(i, rest)`. -/
theorem C18_subview (v : View) (hv : v.WF) (i : Nat) :
    (v.sub i = .throws ↔ v.shape = [] ∨ ∃ d ds, v.shape = d :: ds ∧ d ≤ i) ∧ v.sub i ≠ .ub ∧
    ∀ w, v.sub i = .ok w → w.WF ∧ ∀ rest, w.access rest = v.access (i :: rest) := by
  obtain ⟨hl, ho⟩ := hv
  obtain ⟨shape, strides, off⟩ := v
  cases shape with
  | nil => simp [View.sub]
  | cons d ds =>
    cases strides with
    | nil => simp at hl
    | cons s ss =>
      simp only [View.sub]
      by_cases h : i ≥ d
      · rw [if_pos h]; simp; omega
      · rw [if_neg h]
        refine ⟨by simp; omega, by simp, ?_⟩
        intro w hw
        injection hw with hw
        subst hw
        refine ⟨⟨by simpa using hl, by simp only; exact wrap_lt _⟩, fun rest => ?_⟩
        simp only [View.access, List.length_cons, ne_eq, Nat.add_right_cancel_iff]
        split
        · rfl
        · simp only [accessLoop]; rw [if_neg h]

example : (⟨[2, 3], [3, 1], 4⟩ : View).WF ∧ (⟨[2, 3], [3, 1], 4⟩ : View).access [1, 2] = .ok 9 ∧
    (⟨[2, 3], [3, 1], 4⟩ : View).access [2, 0] = .throws ∧ (⟨[2, 3], [3, 1], 4⟩ : View).access [1] = .throws :=
  ⟨⟨rfl, by decide⟩, by decide +kernel, by decide +kernel, by decide +kernel⟩

/-! ### C19, C65 -/

/-- A view whose elements lie consecutively from its offset on, inside the address space. -/
structure Contiguous (v : View) : Prop where
  strides : v.strides = computeStrides v.shape
  fits : v.offset + v.shape.prod < 2 ^ 64

/-- Row-major sequence of the positions a view addresses. -/
def addresses (v : View) : List (Res Nat) := (rowMajor v.shape).map v.access

theorem addresses_contiguous (v : View) (hc : Contiguous v) :
    addresses v = (List.range v.shape.prod).map fun k => .ok (v.offset + k) := by
  obtain ⟨shape, strides, off⟩ := v
  obtain ⟨hs, hf⟩ := hc
  simp only at hs hf
  subst hs
  unfold addresses
  simp only
  rw [← rowMajor_linear shape, List.map_map]
  apply List.map_congr_left
  intro idx hidx
  have hv := (rowMajor_mem shape idx).mp hidx
  have hlt := linear_lt hv
  rw [access_ok ⟨computeStrides_length shape, by simp only; omega⟩ hv]
  simp only [Function.comp]
  rw [dot_computeStrides hv (by omega), wrap_add_small (by omega)]

/-- C19. `reshape` throws exactly if the element count changes. -/
theorem C19_reshape_throws_iff (v : View) (s : List Nat) (hs : s ≠ []) (hv : v.shape ≠ []) (h1 : s.prod < 2 ^ 64)
    (h2 : v.shape.prod < 2 ^ 64) :
    (v.reshape s = .throws ↔ s.prod ≠ v.shape.prod) ∧
    (s.prod = v.shape.prod → ∃ w, v.reshape s = .ok w ∧ w.shape = s ∧ w.offset = v.offset) := by
  unfold View.reshape
  rw [totalSize_of_lt hs h1, totalSize_of_lt hv h2]
  by_cases h : s.prod = v.shape.prod <;> simp [h]

/-- C19. Reshaping a contiguous view keeps the row-major sequence of elements (and the result is contiguous again). -/
theorem C19_reshape_keeps_sequence (v w : View) (s : List Nat) (hs : s ≠ []) (hv : v.shape ≠ []) (hc : Contiguous v)
    (h1 : s.prod < 2 ^ 64) (h : v.reshape s = .ok w) : addresses w = addresses v ∧ Contiguous w := by
  unfold View.reshape at h
  have hf := hc.fits
  rw [totalSize_of_lt hs h1, totalSize_of_lt hv (by omega)] at h
  by_cases hp : s.prod = v.shape.prod
  · rw [if_neg (by simp [hp])] at h
    injection h with h
    have hw : Contiguous w := by subst h; exact ⟨rfl, by simp only [hp]; exact hf⟩
    refine ⟨?_, hw⟩
    rw [addresses_contiguous v hc, addresses_contiguous w hw]
    subst h
    simp only [hp]
  · rw [if_pos hp] at h; cases h

/-- C19 (violated for sliced views): reshaping every second element of an array of length 2n (to the same shape, even)
silently changes which elements the view shows. -/
theorem C19_reshape_of_slice_moves (n : Nat) (h2 : 2 ≤ n) (hn : n < 2 ^ 31) :
    ∃ w, (⟨[n], [2], 0⟩ : View).reshape [n] = .ok w ∧
      (⟨[n], [2], 0⟩ : View).access [1] = .ok 2 ∧ w.access [1] = .ok 1 := by
  refine ⟨⟨[n], [1], 0⟩, by simp [View.reshape, computeStrides], ?_, ?_⟩
  · rw [access_ok ⟨rfl, by simp⟩ (.cons (by omega) .nil)]; rfl
  · rw [access_ok ⟨rfl, by simp⟩ (.cons (by omega) .nil)]; rfl

/-- C65. Iterating from `begin()` to `end()` visits exactly the elements of a contiguous view in row-major order. -/
theorem C65_begin_end (v : View) (hc : Contiguous v) (hne : v.shape ≠ []) :
    v.begin ≤ v.end_ ∧ addresses v = (List.range (v.end_ - v.begin)).map fun k => .ok (v.begin + k) := by
  have hf := hc.fits
  unfold View.end_ View.begin
  rw [totalSize_of_lt hne (by omega), wrap_add_small hf]
  refine ⟨by omega, ?_⟩
  rw [addresses_contiguous v hc, Nat.add_sub_cancel_left]

/-- C65 (violated for sliced views): for every second element of an array, the iterators visit other elements. -/
theorem C65_begin_end_of_slice (n : Nat) (h2 : 2 ≤ n) (hn : n < 2 ^ 31) :
    (⟨[n], [2], 0⟩ : View).begin + 1 < (⟨[n], [2], 0⟩ : View).end_ ∧
    (⟨[n], [2], 0⟩ : View).access [1] ≠ .ok ((⟨[n], [2], 0⟩ : View).begin + 1) := by
  constructor
  · unfold View.begin View.end_
    rw [totalSize_of_lt (by simp) (by simp; omega)]
    simp only [List.prod_cons, List.prod_nil, mul_one]
    unfold wrap; omega
  · rw [access_ok ⟨rfl, by simp⟩ (.cons (by omega) .nil)]
    simp [dot, View.begin, wrap]

example : Contiguous (View.ofShape [2, 3]) ∧ (View.ofShape [2, 3]).reshape [6] = .ok ⟨[6], [1], 0⟩ ∧
    (View.ofShape [2, 3]).reshape [5] = .throws := by
  refine ⟨⟨rfl, by decide⟩, by decide +kernel, by decide +kernel⟩

/-! ### C20 -/

/-- C20 (violated by the code): whenever `size()` returns, it returns 1. -/
theorem C20_size_is_one (v : View) (fuel r : Nat) (h : v.size fuel = some r) : r = 1 := by
  unfold View.size at h
  generalize 0 = i at h
  induction fuel generalizing i with
  | zero => simp [sizeLoop] at h
  | succ f ih =>
    simp only [sizeLoop] at h
    split at h
    · injection h with h; exact h.symm
    · exact ih _ h

/-- C20 (violated by the code): with a zero second dimension `size()` never returns. -/
theorem C20_size_diverges (v : View) (h1 : v.shape[1]? = some 0) (fuel : Nat) : v.size fuel = none := by
  have key : ∀ fuel, sizeLoop v.shape fuel 1 = none := by
    intro fuel
    induction fuel with
    | zero => rfl
    | succ f ih => simp only [sizeLoop, h1]; exact ih
  unfold View.size
  cases fuel with
  | zero => rfl
  | succ f =>
    simp only [sizeLoop]
    have : ∃ d, v.shape[0]? = some d := by
      rw [List.getElem?_eq_some_iff] at h1
      obtain ⟨h, _⟩ := h1
      exact ⟨v.shape[0], List.getElem?_eq_getElem (by omega)⟩
    obtain ⟨d, hd⟩ := this
    rw [hd]
    simp only [Nat.cast_zero, zero_mul]
    exact key f

/-- C20. `size()` does return when all dimensions are positive (and not astronomically large). -/
theorem C20_size_terminates_partial (v : View) (h : ∀ d ∈ v.shape, 1 ≤ d ∧ v.shape.length * d + 1 < 2 ^ 64) :
    v.size (v.shape.length + 1) = some 1 := by
  have key : ∀ fuel i, v.shape.length < i + fuel → 0 < fuel → sizeLoop v.shape fuel i = some 1 := by
    intro fuel
    induction fuel with
    | zero => intro i _ h0; omega
    | succ f ih =>
      intro i hi _
      simp only [sizeLoop]
      by_cases hlt : i < v.shape.length
      · rw [List.getElem?_eq_getElem hlt]
        simp only
        obtain ⟨hd1, hd2⟩ := h v.shape[i] (List.getElem_mem hlt)
        have hle : i * v.shape[i] ≤ v.shape.length * v.shape[i] := Nat.mul_le_mul_right _ hlt.le
        have hge : i ≤ i * v.shape[i] := Nat.le_mul_of_pos_right _ hd1
        have hw : wrap (((wrap ((i : Int) * v.shape[i])) : Nat) + 1) = i * v.shape[i] + 1 := by
          rw [← Nat.cast_mul, wrap_nat (by omega)]
          exact wrap_add_small (a := i * v.shape[i]) (b := 1) (by omega)
        rw [hw]
        exact ih _ (by omega) (by omega)
      · rw [List.getElem?_eq_none (by omega)]
  exact key _ 0 (by omega) (by omega)

/-- C20 (violated by the code): a finished `copy()` owns one element only, so in the copy of a view with two or more
elements the last element cannot be read, although the original is fully in bounds. -/
theorem C20_copy_is_truncated {E : Type} (shape : List Nat) (mem : List E) (hne : shape ≠ []) (h2 : 2 ≤ shape.prod)
    (hp : shape.prod < 2 ^ 64) (hm : mem.length = shape.prod) (fuel : Nat) (m' : List E) (w : View)
    (h : (View.ofShape shape).copy mem fuel = some (.ok (m', w))) :
    m'.length = 1 ∧ ∃ idx, ValidIdx shape idx ∧ View.get m' w idx = .ub ∧
      View.get mem (View.ofShape shape) idx ≠ .ub := by
  unfold View.copy at h
  cases hs : (View.ofShape shape).size fuel with
  | none => rw [hs] at h; simp at h
  | some r =>
    have hr := C20_size_is_one _ _ _ hs
    subst hr
    rw [hs] at h
    simp only [Option.map_some, Option.some.injEq] at h
    rw [if_pos (by omega)] at h
    injection h with h
    injection h with h3 h4
    subst h3 h4
    have hl : (mem.take 1).length = 1 := by rw [List.length_take]; omega
    refine ⟨hl, ?_⟩
    obtain ⟨idx, hv, hlin⟩ := linear_surj shape (shape.prod - 1) (by omega)
    refine ⟨idx, hv, ?_, ?_⟩
    · unfold View.get
      rw [access_ofShape hp hv, hlin]
      simp only [Res.ok_bind]
      rw [List.getElem?_eq_none (by omega)]
    · unfold View.get
      rw [access_ofShape hp hv, hlin]
      simp only [Res.ok_bind]
      rw [List.getElem?_eq_getElem (by omega)]
      simp

/-- C20: a finished `copy()` never throws, keeps shape, strides and offset, and is undefined exactly if nothing is behind the view:
the code reads one element even if the view has none. -/
theorem C20_copy_outcome {E : Type} (mem : List E) (v : View) (fuel : Nat) (r : Res (List E × View)) (h : v.copy mem fuel = some r) :
    (mem = [] → r = .ub) ∧ (∀ a l, mem = a :: l → r = .ok ([a], v)) := by
  unfold View.copy at h
  cases hs : v.size fuel with
  | none => rw [hs] at h; simp at h
  | some n =>
    have hr := C20_size_is_one _ _ _ hs
    subst hr
    rw [hs] at h
    simp only [Option.map_some, Option.some.injEq] at h
    constructor
    · rintro rfl
      rw [← h]; rfl
    · rintro a l rfl
      rw [← h, if_pos (by simp)]
      simp

example : (View.ofShape [2, 3]).size 10 = some 1 ∧ (View.ofShape [2, 0]).shape[1]? = some 0 ∧
    (View.ofShape [2, 3]).copy [10, 11, 12, 13, 14, 15] 10 = some (.ok ([10], View.ofShape [2, 3])) := by decide +kernel

/-! ### C64 -/

/-- C64. The preview of a one-dimensional contiguous view prints its first elements. -/
theorem C64_preview_1d (n limit : Nat) (hn : n < 2 ^ 64) :
    (View.ofShape [n]).preview limit = List.range (min limit n) := by
  unfold View.preview
  simp only [View.ofShape, computeStrides, List.headD_cons]
  rw [totalSize_of_lt (by simp) (by simpa using hn)]
  simp only [List.prod_cons, List.prod_nil, mul_one]
  rw [List.map_congr_left (g := id), List.map_id]
  intro i hi
  have := List.mem_range.mp hi
  unfold wrap; simp; omega

/-- C64 (violated by the code): the preview of an r×c array with r, c ≥ 2 and limit above r reads position r·c, one past
the end of the buffer. -/
theorem C64_preview_out_of_bounds (r c limit : Nat) (hr : 2 ≤ r) (hc : 2 ≤ c) (hl : r < limit) (hp : r * c < 2 ^ 64) :
    r * c ∈ (View.ofShape [r, c]).preview limit := by
  unfold View.preview
  rw [List.mem_map]
  have hs : (View.ofShape [r, c]).strides.headD 0 = c := by
    simp only [View.ofShape, computeStrides, List.headD_cons]
    have : c < 2 ^ 64 := lt_of_le_of_lt (Nat.le_mul_of_pos_left c (by omega)) hp
    unfold wrap; simp; omega
  refine ⟨r, ?_, ?_⟩
  · rw [List.mem_range]
    have : totalSize (View.ofShape [r, c]).shape = r * c := by
      have := totalSize_of_lt (shape := [r, c]) (by simp) (by simpa using hp)
      simpa [View.ofShape] using this
    rw [this]
    have : r * 2 ≤ r * c := Nat.mul_le_mul_left r hc
    omega
  · rw [hs, ← Nat.cast_mul, wrap_nat hp]
    simp only [View.ofShape]
    rw [Nat.cast_zero, zero_add, wrap_nat hp]

example : (View.ofShape [2, 3]).preview 10 = [0, 3, 6, 9, 12, 15] := by decide +kernel

/-! ### C21 -/

/-- The bytes of the element at position `a`. -/
def elemBytes (esz : Nat) (mem : List Byte) (a : Nat) : List Byte := (mem.drop (a * esz)).take esz

/-- The numbers a view stores are `size_t` values, and its data fit the address space. -/
structure Storable (esz : Nat) (v : View) : Prop where
  wf : v.WF
  shape : ∀ d ∈ v.shape, d < 2 ^ 64
  strides : ∀ s ∈ v.strides, s < 2 ^ 64
  data : totalSize v.shape * esz < 2 ^ 63

/-- C21. Deserializing what `serialize` wrote (followed by any other bytes) gives the same shape and strides, offset 0,
and the bytes from the view's offset on. -/
theorem C21_roundtrip (typeName : List Byte) (esz : Nat) (mem b extra : List Byte) (v : View) (hs : Storable esz v)
    (hb : (b ++ extra).length < 2 ^ 63) (h : v.serialize typeName esz mem = .ok b) :
    deserialize typeName esz (b ++ extra) =
      .ok ((mem.drop (v.offset * esz)).take (totalSize v.shape * esz), ⟨v.shape, v.strides, 0⟩) ∧
    b.length = consumed typeName esz v.shape := by
  unfold View.serialize at h
  have e6 : wrap ((totalSize v.shape : Int) * esz) = totalSize v.shape * esz := by
    rw [← Nat.cast_mul, wrap_nat (by have := hs.data; omega)]
  simp only [e6] at h
  split at h
  swap
  · cases h
  rename_i hm
  injection h with h
  have hdl : ((mem.drop (v.offset * esz)).take (totalSize v.shape * esz)).length = totalSize v.shape * esz := by
    rw [List.length_take, List.length_drop]; omega
  refine ⟨?_, ?_⟩
  · refine deserialize_encoded typeName esz v.shape v.strides v.offset _ extra _ ?_ hb hs.wf.len hs.wf.off hs.shape
      hs.strides hdl
    rw [← h]
    simp only [List.append_assoc]
  · rw [← h]
    simp only [List.length_append, encSize_length, flatMap_encSize_length, hdl, consumed, hs.wf.len]
    omega

/-- C21. For contiguous views the round trip preserves every element. -/
theorem C21_roundtrip_elements (typeName : List Byte) (esz : Nat) (mem b : List Byte) (v : View) (hs : Storable esz v)
    (hc : Contiguous v) (hne : v.shape ≠ []) (hb : b.length < 2 ^ 63) (h : v.serialize typeName esz mem = .ok b) :
    ∃ mem' w, deserialize typeName esz b = .ok (mem', w) ∧ w.shape = v.shape ∧ w.strides = v.strides ∧
      mem'.length = v.shape.prod * esz ∧
      ∀ idx, ValidIdx v.shape idx → ∃ a a', v.access idx = .ok a ∧ w.access idx = .ok a' ∧
        (a' + 1) * esz ≤ mem'.length ∧ elemBytes esz mem' a' = elemBytes esz mem a := by
  have hrt := C21_roundtrip typeName esz mem b [] v hs (by simpa using hb) h
  rw [List.append_nil] at hrt
  have hf := hc.fits
  have htot : totalSize v.shape = v.shape.prod := totalSize_of_lt hne (by omega)
  have hm : v.offset * esz + v.shape.prod * esz ≤ mem.length := by
    unfold View.serialize at h
    have e6 : wrap ((totalSize v.shape : Int) * esz) = totalSize v.shape * esz := by
      rw [← Nat.cast_mul, wrap_nat (by have := hs.data; omega)]
    simp only [e6] at h
    split at h
    · rename_i hm; rwa [htot] at hm
    · cases h
  have hml : ((mem.drop (v.offset * esz)).take (totalSize v.shape * esz)).length = v.shape.prod * esz := by
    rw [List.length_take, List.length_drop, htot]; omega
  refine ⟨_, _, hrt.1, rfl, rfl, hml, ?_⟩
  intro idx hv
  have hlt := linear_lt hv
  refine ⟨v.offset + linear v.shape idx, linear v.shape idx, ?_, ?_, ?_, ?_⟩
  · rw [access_ok hs.wf hv, hc.strides, dot_computeStrides hv (by omega), wrap_add_small (by omega)]
  · rw [access_ok (v := ⟨v.shape, v.strides, 0⟩) ⟨hs.wf.len, by simp⟩ hv]
    simp only
    rw [hc.strides, dot_computeStrides hv (by omega), Nat.cast_zero, zero_add, wrap_nat (by omega)]
  · rw [hml]; exact Nat.mul_le_mul_right _ hlt
  · unfold elemBytes
    have h1 : (linear v.shape idx + 1) * esz ≤ v.shape.prod * esz := Nat.mul_le_mul_right _ hlt
    rw [add_mul, one_mul] at h1
    rw [List.drop_take, List.take_take, List.drop_drop, htot, min_eq_left (by omega), ← add_mul]

/-- C21. No buffer whatsoever makes `deserialize` read outside it. -/
theorem C21_never_out_of_bounds (typeName : List Byte) (esz : Nat) (buf : List Byte) (hb : buf.length < 2 ^ 63) :
    deserialize typeName esz buf ≠ .ub := by
  rcases deserialize_cases typeName esz buf hb with h | ⟨_, _, _, _, h⟩
  · rw [h]; simp
  · rw [h.2.2.2.2.2.2.2.2.2.2.2.2.2]; simp

/-- C21. A buffer written for another element type is rejected with an exception. -/
theorem C21_type_mismatch (typeName other : List Byte) (esz esz' : Nat) (mem b : List Byte) (v : View)
    (hs : Storable esz v) (hb : b.length < 2 ^ 63) (h : v.serialize typeName esz mem = .ok b) (hne : typeName ≠ other) :
    deserialize other esz' b = .throws := by
  rcases deserialize_cases other esz' b hb with h' | ⟨_, _, _, _, h1, _, h3, h4, _⟩
  · exact h'
  exfalso
  have hb' := h
  unfold View.serialize at h
  simp only at h
  split at h
  swap
  · cases h
  injection h with h
  have hlen : typeName.length ≤ b.length := by rw [← h]; simp; omega
  have hr : readSize b 0 = .ok typeName.length :=
    readSize_at (pre := []) (by rw [List.nil_append]; exact h.symm) rfl hb (by omega)
  rw [hr] at h1
  injection h1 with h1
  rw [← h1] at h4
  apply hne
  rw [← h4, ← h]
  rw [List.drop_left' (encSize_length _), List.take_left]

/-- C21. Truncation: whatever buffer is accepted, cutting it anywhere before the end of what was read makes
`deserialize` throw (cutting after it changes nothing). -/
theorem C21_truncated_rejected (typeName : List Byte) (esz : Nat) (buf data : List Byte) (w : View)
    (hb : buf.length < 2 ^ 63) (h : deserialize typeName esz buf = .ok (data, w)) (k : Nat) :
    (k < consumed typeName esz w.shape → deserialize typeName esz (buf.take k) = .throws) ∧
    (consumed typeName esz w.shape ≤ k → deserialize typeName esz (buf.take k) = .ok (data, w)) := by
  rcases deserialize_cases typeName esz buf hb with h' | ⟨ndim, shape, strides, off, h1, h2, h3, h4, h5, h6, h7, h8, h9,
    h10, h11, h12, h13, h14⟩
  · rw [h] at h'; cases h'
  rw [h] at h14
  injection h14 with h14
  injection h14 with hdata hw
  subst hw
  have hcons : consumed typeName esz shape = 8 + typeName.length + 8 + 8 * ndim + 8 * ndim + 8 + totalSize shape * esz := by
    unfold consumed; rw [h7]
  simp only
  have hl : (buf.take k).length = min k buf.length := List.length_take
  have hb' : (buf.take k).length < 2 ^ 63 := by omega
  constructor
  · intro hk
    rcases deserialize_cases typeName esz (buf.take k) hb' with h' | ⟨ndim', shape', strides', off', g1, g2, g3, g4, g5, g6,
      g7, g8, g9, g10, g11, g12, g13, g14⟩
    · exact h'
    exfalso
    rw [readSize_take hb (by omega) h5 (by omega)] at g5
    split at g5
    swap
    · cases g5
    injection g5 with g5
    subst g5
    rw [readSizes_take hb (by omega) h6 (by omega)] at g6
    split at g6
    swap
    · cases g6
    injection g6 with g6
    subst g6
    omega
  · intro hk
    unfold deserialize
    rw [readSize_take hb (by omega) h1 (by omega), if_pos (by omega)]
    simp only [Res.ok_bind]
    have e0 : wrap (8 + (typeName.length : Int)) = 8 + typeName.length := by
      have := wrap_add_small (a := 8) (b := typeName.length) (by omega); exact this
    rw [e0, if_neg (by omega), if_neg (by omega), slice8_take (by omega)]
    have hs : slice8 buf 8 typeName.length = .ok ((buf.drop 8).take typeName.length) := by
      unfold slice8; rw [if_pos (by omega)]
    rw [hs]
    simp only [Res.ok_bind]
    rw [if_neg (by simp [h4]), readSize_take hb (by omega) h5 (by omega), if_pos (by omega)]
    simp only [Res.ok_bind]
    rw [readSizes_take hb (by omega) h6 (by omega), if_pos (by omega)]
    simp only [Res.ok_bind]
    rw [readSizes_take hb (by omega) h9 (by omega), if_pos (by omega)]
    simp only [Res.ok_bind]
    rw [readSize_take hb (by omega) h11 (by omega), if_pos (by omega)]
    simp only [Res.ok_bind]
    have e6 : wrap ((totalSize shape : Int) * esz) = totalSize shape * esz := by
      rw [← Nat.cast_mul, wrap_nat (by omega)]
    rw [e6, wrap_add_small (by omega), if_neg (by omega), if_neg (by omega), slice8_take (by omega)]
    unfold slice8
    rw [if_pos (by omega)]
    simp only [Res.ok_bind, hdata]

/-- C21. In particular every proper prefix of an encoding is rejected with an exception. -/
theorem C21_prefix_rejected (typeName : List Byte) (esz : Nat) (mem b : List Byte) (v : View) (hs : Storable esz v)
    (hb : b.length < 2 ^ 63) (h : v.serialize typeName esz mem = .ok b) (k : Nat) (hk : k < b.length) :
    deserialize typeName esz (b.take k) = .throws := by
  obtain ⟨h1, h2⟩ := C21_roundtrip typeName esz mem b [] v hs (by simpa using hb) h
  rw [List.append_nil] at h1
  exact (C21_truncated_rejected typeName esz b _ _ hb h1 k).1 (by rw [← h2]; exact hk)

/-- C21 (violated for sliced views): the round trip of every `s`-th element of a buffer (n ≥ 2 elements, s ≥ 2) succeeds
but the result addresses positions outside its own data. -/
theorem C21_slice_roundtrip_out_of_bounds (typeName mem b : List Byte) (esz n s : Nat) (h2 : 2 ≤ n) (hs : 2 ≤ s)
    (hns : n * s < 2 ^ 63) (he : n * esz < 2 ^ 63) (hb : b.length < 2 ^ 63)
    (h : (⟨[n], [s], 0⟩ : View).serialize typeName esz mem = .ok b) :
    ∃ mem' w, deserialize typeName esz b = .ok (mem', w) ∧ mem'.length = n * esz ∧
      w.access [n - 1] = .ok ((n - 1) * s) ∧ n ≤ (n - 1) * s := by
  have h1 : n ≤ n * s := Nat.le_mul_of_pos_right n (by omega)
  have h3 : s ≤ n * s := Nat.le_mul_of_pos_left s (by omega)
  have htot : totalSize [n] = n := by
    rw [totalSize_of_lt (by simp) (by simp; omega)]; simp
  have hst : Storable esz ⟨[n], [s], 0⟩ := ⟨⟨rfl, by simp⟩, by simp; omega, by simp; omega, by simp only [htot]; exact he⟩
  obtain ⟨hr, hl⟩ := C21_roundtrip typeName esz mem b [] _ hst (by simpa using hb) h
  rw [List.append_nil] at hr
  refine ⟨_, _, hr, ?_, ?_, ?_⟩
  · simp only [htot]
    unfold View.serialize at h
    have e6 : wrap ((n : Int) * esz) = n * esz := by
      rw [← Nat.cast_mul, wrap_nat (by omega)]
    simp only [htot, e6] at h
    split at h
    · rw [List.length_take, List.length_drop]; omega
    · cases h
  · rw [access_ok ⟨rfl, by simp⟩ (.cons (by omega) .nil)]
    simp only [dot, add_zero, Nat.cast_zero, zero_add]
    have : (n - 1) * s ≤ n * s := Nat.mul_le_mul_right s (by omega)
    rw [← Nat.cast_mul, wrap_nat (by omega)]
  · calc n ≤ (n - 1) * 2 := by omega
      _ ≤ (n - 1) * s := Nat.mul_le_mul_left _ hs

/-- Example: a 2×2 array of two-byte elements with type name "i" in a buffer with offset 1. -/
example : ∃ b, (⟨[2, 2], [2, 1], 1⟩ : View).serialize [105#8] 2 [0#8, 1#8, 2#8, 3#8, 4#8, 5#8, 6#8, 7#8, 8#8, 9#8] = .ok b ∧
    Storable 2 ⟨[2, 2], [2, 1], 1⟩ ∧ Contiguous ⟨[2, 2], [2, 1], 1⟩ ∧ b.length = 65 := by
  refine ⟨_, rfl, ⟨⟨rfl, by decide⟩, by decide, by decide, by decide +kernel⟩, ⟨by decide +kernel, by decide⟩, ?_⟩
  decide +kernel

end Cmm.MV
