import Verif.Spec.MemoryView
import Mathlib.Tactic.Linarith
import Mathlib.Tactic.Ring
import Mathlib.Data.List.Lex
import Mathlib.Algebra.BigOperators.Group.List.Basic
import Mathlib.Algebra.Order.BigOperators.GroupWithZero.List
namespace Cmm.MV

theorem wrap_lt (x : Int) : wrap x < 2 ^ 64 := by unfold wrap; omega
theorem wrap_cast (x : Int) : ((wrap x : Nat) : Int) = x % 2 ^ 64 := by unfold wrap; omega
theorem wrap_nat {n : Nat} (h : n < 2 ^ 64) : wrap (n : Int) = n := by unfold wrap; omega
theorem wrap_small {x : Int} (h0 : 0 ≤ x) (h : x < 2 ^ 64) : ((wrap x : Nat) : Int) = x := by unfold wrap; omega
theorem wrap_add_wrap (a b : Int) : wrap (a + wrap b) = wrap (a + b) := by unfold wrap; omega
theorem wrap_wrap_add (a b : Int) : wrap (wrap a + b) = wrap (a + b) := by unfold wrap; omega
theorem wrap_mul_wrap (a b : Int) : wrap (a * wrap b) = wrap (a * b) := by
  unfold wrap
  have h : (((b % 2 ^ 64).toNat : Nat) : Int) = b % 2 ^ 64 := by omega
  rw [h, Int.mul_emod, Int.emod_emod_of_dvd _ (dvd_refl _), ← Int.mul_emod]
theorem wrap_add_mul_wrap (c a b : Int) : wrap (c + a * wrap b) = wrap (c + a * b) := by
  rw [← wrap_add_wrap c, wrap_mul_wrap, wrap_add_wrap]

theorem castInt_small {d : Nat} (h : d < 2 ^ 31) : castInt d = d := by
  unfold castInt; rw [Int.bmod_def]; omega

theorem i32_ok {x y : Int} (h : i32 x = .ok y) : y = x := by
  unfold i32 at h; split at h
  · injection h with h; exact h.symm
  · cases h

theorem i32_of {x : Int} (h1 : -(2 ^ 31 : Int) ≤ x) (h2 : x < 2 ^ 31) : i32 x = .ok x := by
  unfold i32; rw [if_pos ⟨h1, h2⟩]

theorem i32_ub {x : Int} (h : (2 ^ 31 : Int) ≤ x) : i32 x = .ub := by
  unfold i32; rw [if_neg (by omega)]

/-- Inner product of indices and strides. -/
def dot : List Nat → List Nat → Int
  | i :: is, s :: ss => (i : Int) * s + dot is ss
  | _, _ => 0

theorem ValidIdx.length {shape idx : List Nat} (h : ValidIdx shape idx) : idx.length = shape.length := by
  induction h with
  | nil => rfl
  | cons _ _ ih => simp [ih]

theorem accessLoop_ok {shape idx : List Nat} (h : ValidIdx shape idx) (strides : List Nat) (off : Nat)
    (hl : strides.length = shape.length) (ho : off < 2 ^ 64) :
    accessLoop off idx shape strides = .ok (wrap (off + dot idx strides)) := by
  induction h generalizing strides off with
  | nil => simp [accessLoop, dot, wrap_nat ho]
  | @cons d i ds is hid _ ih =>
    cases strides with
    | nil => simp at hl
    | cons s ss =>
      simp only [accessLoop]
      rw [if_neg (by omega), ih ss _ (by simpa using hl) (wrap_lt _)]
      simp only [dot]
      rw [wrap_wrap_add, wrap_add_wrap' , add_assoc]
where
  wrap_add_wrap' : ∀ {a b c : Int}, wrap (a + (wrap b : Nat) + c) = wrap (a + b + c) := by
    intro a b c; unfold wrap; omega

theorem accessLoop_throws {shape idx : List Nat} (h : ¬ ValidIdx shape idx) (hlen : idx.length = shape.length)
    (strides : List Nat) (off : Nat) (hl : strides.length = shape.length) :
    accessLoop off idx shape strides = .throws := by
  induction idx generalizing shape strides off with
  | nil =>
    cases shape with
    | nil => exact absurd .nil h
    | cons _ _ => simp at hlen
  | cons i is ih =>
    cases shape with
    | nil => simp at hlen
    | cons d ds =>
      cases strides with
      | nil => simp at hl
      | cons s ss =>
        simp only [accessLoop]
        by_cases hid : i ≥ d
        · rw [if_pos hid]
        · rw [if_neg hid]
          exact ih (fun hv => h (.cons (by omega) hv)) (by simpa using hlen) _ _ (by simpa using hl)

/-! row-major strides -/

theorem computeStrides_length (shape : List Nat) : (computeStrides shape).length = shape.length := by
  induction shape with
  | nil => rfl
  | cons a t ih =>
    cases t with
    | nil => rfl
    | cons b rest =>
      simp only [computeStrides]
      cases h : computeStrides (b :: rest) with
      | nil => rw [h] at ih; simp at ih
      | cons s ss => rw [h] at ih; simpa using ih

theorem ofShape_wf (shape : List Nat) : (View.ofShape shape).WF := ⟨computeStrides_length shape, by simp [View.ofShape]⟩

theorem computeStrides_cons (a b : Nat) (rest : List Nat) :
    ∃ s ss, computeStrides (b :: rest) = s :: ss ∧ computeStrides (a :: b :: rest) = wrap (s * b) :: s :: ss := by
  cases h : computeStrides (b :: rest) with
  | nil => have := computeStrides_length (b :: rest); rw [h] at this; simp at this
  | cons s ss => exact ⟨s, ss, rfl, by simp [computeStrides, h]⟩

theorem computeStrides_head (a : Nat) (rest : List Nat) (hp : rest.prod < 2 ^ 64) (hpos : ∀ d ∈ rest, 0 < d) :
    ∃ ss, computeStrides (a :: rest) = rest.prod :: ss := by
  induction rest generalizing a with
  | nil => exact ⟨[], rfl⟩
  | cons b rest ih =>
    have hpr : rest.prod ≤ (b :: rest).prod := by
      rw [List.prod_cons]; exact Nat.le_mul_of_pos_left _ (hpos b (by simp))
    obtain ⟨ss, hs⟩ := ih b (lt_of_le_of_lt hpr hp) (fun d hd => hpos d (by simp [hd]))
    obtain ⟨s, ss', h1, h2⟩ := computeStrides_cons a b rest
    rw [h1] at hs
    injection hs with hs1 hs2
    refine ⟨s :: ss', ?_⟩
    rw [h2, hs1, List.prod_cons]
    congr 1
    rw [← Nat.cast_mul, Nat.mul_comm, wrap_nat (by simpa using hp)]

theorem computeStrides_tail (a : Nat) (rest : List Nat) : (computeStrides (a :: rest)).tail = computeStrides rest := by
  cases rest with
  | nil => rfl
  | cons b rest =>
    obtain ⟨s, ss, h1, h2⟩ := computeStrides_cons a b rest
    rw [h1, h2]; rfl

/-- Mixed-radix value of an index tuple. -/
def linear : List Nat → List Nat → Nat
  | _ :: ds, i :: is => i * ds.prod + linear ds is
  | _, _ => 0

theorem ValidIdx.pos {shape idx : List Nat} (h : ValidIdx shape idx) : ∀ d ∈ shape, 0 < d := by
  induction h with
  | nil => simp
  | cons hid _ ih =>
    intro e he
    simp only [List.mem_cons] at he
    rcases he with rfl | he
    · omega
    · exact ih e he

theorem prod_tail_le {d : Nat} {ds : List Nat} (h : 0 < d) : ds.prod ≤ (d :: ds).prod := by
  rw [List.prod_cons]; exact Nat.le_mul_of_pos_left _ h

theorem linear_lt {shape idx : List Nat} (h : ValidIdx shape idx) : linear shape idx < shape.prod := by
  induction h with
  | nil => simp [linear]
  | @cons d i ds is hid _ ih =>
    simp only [linear, List.prod_cons]
    calc i * ds.prod + linear ds is < i * ds.prod + ds.prod := by omega
      _ = (i + 1) * ds.prod := by ring
      _ ≤ d * ds.prod := Nat.mul_le_mul_right _ hid

theorem dot_computeStrides {shape idx : List Nat} (h : ValidIdx shape idx) (hp : shape.prod < 2 ^ 64) :
    dot idx (computeStrides shape) = linear shape idx := by
  induction h with
  | nil => simp [dot, linear]
  | @cons d i ds is hid hv ih =>
    have hle := prod_tail_le (ds := ds) (show 0 < d by omega)
    obtain ⟨ss, hs⟩ := computeStrides_head d ds (by omega) hv.pos
    have ht := computeStrides_tail d ds
    rw [hs] at ht ⊢
    simp only [List.tail_cons] at ht
    subst ht
    simp only [dot, linear]
    rw [ih (by omega)]
    push_cast
    ring

theorem linear_mono {shape a b : List Nat} (ha : ValidIdx shape a) (hb : ValidIdx shape b) (h : a < b) :
    linear shape a < linear shape b := by
  induction ha generalizing b with
  | nil => cases hb; exact absurd h (by simp)
  | @cons d i ds is hid hv ih =>
    cases hb with
    | @cons _ j _ js hjd hv' =>
      simp only [linear]
      rw [List.cons_lt_cons_iff] at h
      have h1 := linear_lt hv
      rcases h with h | ⟨rfl, h⟩
      · calc i * ds.prod + linear ds is < (i + 1) * ds.prod := by rw [Nat.add_mul]; omega
          _ ≤ j * ds.prod := Nat.mul_le_mul_right _ h
          _ ≤ _ := Nat.le_add_right _ _
      · have := ih hv' h
        omega

theorem linear_inj {shape a b : List Nat} (ha : ValidIdx shape a) (hb : ValidIdx shape b)
    (h : linear shape a = linear shape b) : a = b := by
  rcases lt_trichotomy a b with hl | he | hg
  · exact absurd h (by have := linear_mono ha hb hl; omega)
  · exact he
  · exact absurd h (by have := linear_mono hb ha hg; omega)

theorem linear_surj (shape : List Nat) (k : Nat) (hk : k < shape.prod) :
    ∃ idx, ValidIdx shape idx ∧ linear shape idx = k := by
  induction shape generalizing k with
  | nil => exact ⟨[], .nil, by simp at hk; simp [linear, hk]⟩
  | cons d ds ih =>
    rw [List.prod_cons] at hk
    have hpos : 0 < ds.prod := by
      rcases Nat.eq_zero_or_pos ds.prod with h | h
      · rw [h] at hk; omega
      · exact h
    obtain ⟨is, hv, hl⟩ := ih (k % ds.prod) (Nat.mod_lt _ hpos)
    refine ⟨k / ds.prod :: is, .cons ((Nat.div_lt_iff_lt_mul hpos).mpr hk) hv, ?_⟩
    simp only [linear, hl]
    exact Nat.div_add_mod' k ds.prod

theorem foldl_wrap (shape : List Nat) (a : Nat) :
    shape.foldl (fun (a d : Nat) => wrap (a * d)) a = (if shape.isEmpty then a else wrap (a * shape.prod : Nat)) := by
  induction shape generalizing a with
  | nil => rfl
  | cons d ds ih =>
    simp only [List.foldl_cons, ih]
    simp only [List.isEmpty_cons, Bool.false_eq_true, if_false, List.prod_cons]
    split
    · rename_i h; rw [List.isEmpty_iff.mp h]; simp
    · push_cast
      rw [mul_comm, wrap_mul_wrap]
      congr 1; ring

theorem totalSize_eq (shape : List Nat) (hne : shape ≠ []) : totalSize shape = wrap (shape.prod : Nat) := by
  unfold totalSize
  have : shape.isEmpty = false := by simpa using hne
  rw [this, if_neg (by simp), foldl_wrap, this]
  simp

theorem totalSize_of_lt {shape : List Nat} (hne : shape ≠ []) (h : shape.prod < 2 ^ 64) : totalSize shape = shape.prod := by
  rw [totalSize_eq shape hne, wrap_nat h]

theorem rowMajor_mem (shape idx : List Nat) : idx ∈ rowMajor shape ↔ ValidIdx shape idx := by
  induction shape generalizing idx with
  | nil =>
    simp only [rowMajor, List.mem_singleton]
    constructor
    · rintro rfl; exact .nil
    · intro h; cases h; rfl
  | cons d ds ih =>
    simp only [rowMajor, List.mem_flatMap, List.mem_range, List.mem_map]
    constructor
    · rintro ⟨i, hi, t, ht, rfl⟩; exact .cons hi ((ih t).mp ht)
    · intro h; cases h with
      | cons hi hv => exact ⟨_, hi, _, (ih _).mpr hv, rfl⟩

theorem rowMajor_linear (shape : List Nat) : (rowMajor shape).map (linear shape) = List.range shape.prod := by
  induction shape with
  | nil => rfl
  | cons d ds ih =>
    simp only [rowMajor, List.map_flatMap, List.map_map, List.prod_cons]
    have h : ∀ i, (rowMajor ds).map (linear (d :: ds) ∘ (i :: ·)) = (List.range ds.prod).map (i * ds.prod + ·) := by
      intro i
      rw [← ih, List.map_map]
      rfl
    simp only [h]
    clear h ih
    induction d with
    | zero => simp
    | succ d ih =>
      rw [List.range_succ, List.flatMap_append, ih, Nat.succ_mul, List.range_add]
      simp

/-! slices -/

theorem normIndex_ok {d : Nat} {x y : Int} (hd : d < 2 ^ 31) (h : normIndex d x = .ok y) :
    y = if x < 0 then x + d else x := by
  unfold normIndex at h
  rw [castInt_small hd] at h
  split at h
  · rename_i hx; rw [if_pos hx]; exact i32_ok h
  · rename_i hx; rw [if_neg hx]; injection h with h; exact h.symm

theorem normIndex_of {d : Nat} {x : Int} (hd : d < 2 ^ 31) (hx : -(2 ^ 31 : Int) ≤ x) :
    normIndex d x = .ok (if x < 0 then x + d else x) := by
  unfold normIndex
  rw [castInt_small hd]
  split
  · rw [i32_of] <;> omega
  · rfl

theorem clamp_eq {d : Nat} {x y : Int} (hd : d < 2 ^ 31) (h : y = if x < 0 then x + d else x) : clamp d y = bound d x := by
  unfold clamp bound
  rw [castInt_small hd, h]

theorem bound_range (d : Nat) (x : Int) : 0 ≤ bound d x ∧ bound d x ≤ d := by
  unfold bound; constructor
  · exact le_max_left _ _
  · apply max_le (by omega) (min_le_right _ _)

theorem i32_bind_ok {α : Type} {x : Int} {f : Int → Res α} {r : α} (h : (i32 x >>= f) = .ok r) :
    f x = .ok r ∧ -(2 ^ 31 : Int) ≤ x ∧ x < 2 ^ 31 := by
  unfold i32 at h
  split at h
  · rename_i hx; exact ⟨h, hx⟩
  · cases h

theorem sliceLength_ok {start stop step L : Int} (hs : 0 ≤ start) (ht : 0 ≤ stop) (hs' : start < 2 ^ 31)
    (ht' : stop < 2 ^ 31) (hne : step ≠ 0)
    (h : sliceLength start stop step = .ok L) : 0 ≤ L ∧ L < 2 ^ 31 ∧
    ∀ k : Nat, (k : Int) < L ↔ (0 < step → start + k * step < stop) ∧ (step ≤ 0 → stop < start + k * step) := by
  unfold sliceLength at h
  by_cases hp : step > 0
  · rw [if_pos hp] at h
    have hk : ∀ k : Nat, ((0 < step → start + k * step < stop) ∧ (step ≤ 0 → stop < start + k * step)) ↔
        start + k * step < stop := fun k => ⟨fun h => h.1 hp, fun h => ⟨fun _ => h, fun h' => by omega⟩⟩
    simp only [hk]
    by_cases hlt : start < stop
    · rw [if_pos hlt] at h
      obtain ⟨h, _⟩ := i32_bind_ok h
      obtain ⟨h, _⟩ := i32_bind_ok h
      obtain ⟨h, _, h2⟩ := i32_bind_ok h
      injection h with h
      have hnum : 0 ≤ stop - start + step - 1 := by omega
      rw [Int.tdiv_eq_ediv_of_nonneg hnum] at h
      have h0 : 0 ≤ (stop - start + step - 1) / step := Int.ediv_nonneg hnum hp.le
      rw [max_eq_left h0] at h
      subst h
      refine ⟨h0, lt_of_le_of_lt (Int.ediv_le_self _ hnum) h2, fun k => ?_⟩
      rw [Int.lt_iff_add_one_le, Int.le_ediv_iff_mul_le hp, add_mul]
      omega
    · rw [if_neg hlt] at h
      injection h with h
      subst h
      refine ⟨le_refl _, by norm_num, fun k => ?_⟩
      have : 0 ≤ (k : Int) * step := mul_nonneg (by omega) hp.le
      omega
  · rw [if_neg hp] at h
    have hk : ∀ k : Nat, ((0 < step → start + k * step < stop) ∧ (step ≤ 0 → stop < start + k * step)) ↔
        stop < start + k * step := fun k => ⟨fun h => h.2 (by omega), fun h => ⟨fun h' => by omega, fun _ => h⟩⟩
    simp only [hk]
    have hm : 0 < -step := by omega
    by_cases hlt : start > stop
    · rw [if_pos hlt] at h
      obtain ⟨h, _⟩ := i32_bind_ok h
      obtain ⟨h, _⟩ := i32_bind_ok h
      obtain ⟨h, _, h2⟩ := i32_bind_ok h
      obtain ⟨h, _⟩ := i32_bind_ok h
      injection h with h
      have hnum : 0 ≤ start - stop - step - 1 := by omega
      rw [Int.tdiv_eq_ediv_of_nonneg hnum] at h
      have h0 : 0 ≤ (start - stop - step - 1) / (-step) := Int.ediv_nonneg hnum hm.le
      rw [max_eq_left h0] at h
      subst h
      refine ⟨h0, lt_of_le_of_lt (Int.ediv_le_self _ hnum) h2, fun k => ?_⟩
      rw [Int.lt_iff_add_one_le, Int.le_ediv_iff_mul_le hm, add_mul, mul_neg]
      omega
    · rw [if_neg hlt] at h
      injection h with h
      subst h
      refine ⟨le_refl _, by norm_num, fun k => ?_⟩
      have : 0 ≤ (k : Int) * -step := mul_nonneg (by omega) hm.le
      rw [mul_neg] at this
      omega

theorem sliceLength_of {start stop step : Int} {d : Nat} (hs : 0 ≤ start) (ht : 0 ≤ stop) (hs' : start ≤ d)
    (ht' : stop ≤ d) (hd : (d : Int) + |step| < 2 ^ 31) : ∃ L, sliceLength start stop step = .ok L := by
  unfold sliceLength
  by_cases hp : step > 0
  · rw [if_pos hp]
    rw [abs_of_pos hp] at hd
    by_cases h : start < stop
    · rw [if_pos h, i32_of (by omega) (by omega)]
      simp only [Res.ok_bind]
      rw [i32_of (by omega) (by omega)]
      simp only [Res.ok_bind]
      rw [i32_of (by omega) (by omega)]
      exact ⟨_, rfl⟩
    · rw [if_neg h]; exact ⟨_, rfl⟩
  · rw [if_neg hp]
    rw [abs_of_nonpos (by omega)] at hd
    by_cases h : start > stop
    · rw [if_pos h, i32_of (by omega) (by omega)]
      simp only [Res.ok_bind]
      rw [i32_of (by omega) (by omega)]
      simp only [Res.ok_bind]
      rw [i32_of (by omega) (by omega)]
      simp only [Res.ok_bind]
      rw [i32_of (by omega) (by omega)]
      exact ⟨_, rfl⟩
    · rw [if_neg h]; exact ⟨_, rfl⟩

theorem normIndex_bind_ok {α : Type} {d : Nat} {x : Int} {f : Int → Res α} {r : α} (hd : d < 2 ^ 31)
    (h : (normIndex d x >>= f) = .ok r) : f (if x < 0 then x + d else x) = .ok r := by
  cases hn : normIndex d x with
  | ok y => rw [hn] at h; rw [← normIndex_ok hd hn]; exact h
  | throws => rw [hn] at h; cases h
  | ub => rw [hn] at h; cases h

theorem bind_ok {α β : Type} {m : Res α} {f : α → Res β} {r : β} (h : (m >>= f) = .ok r) :
    ∃ a, m = .ok a ∧ f a = .ok r := by
  cases m with
  | ok a => exact ⟨a, rfl, h⟩
  | throws => cases h
  | ub => cases h

theorem sliceLoop_spec (ss : List Slice) (shape strides : List Nat) (off : Nat) (w : View)
    (hlen : strides.length = shape.length) (hoff : off < 2 ^ 64) (hd : ∀ d ∈ shape, d < 2 ^ 31)
    (h : sliceLoop ss shape strides off = .ok w) :
    w.WF ∧ (∀ d ∈ w.shape, d < 2 ^ 31) ∧ (∀ new, ValidIdx w.shape new ↔ ∃ old, Selects ss shape new old) ∧
    ∀ new old, Selects ss shape new old → wrap (w.offset + dot new w.strides) = wrap (off + dot old strides) := by
  induction ss generalizing shape strides off w with
  | nil =>
    simp only [sliceLoop] at h
    injection h with h
    subst h
    refine ⟨⟨hlen, hoff⟩, hd, fun new => ⟨fun hv => ⟨new, .rest hv⟩, ?_⟩, ?_⟩
    · rintro ⟨old, ho⟩; cases ho; assumption
    · intro new old ho; cases ho; rfl
  | cons s ss ih =>
    cases shape with
    | nil => simp [sliceLoop] at h
    | cons d ds =>
      have hd' : d < 2 ^ 31 := hd d (by simp)
      have hds : ∀ d ∈ ds, d < 2 ^ 31 := fun e he => hd e (by simp [he])
      cases strides with
      | nil => simp at hlen
      | cons st sts =>
        have hlen' : sts.length = ds.length := by simpa using hlen
        simp only [sliceLoop] at h
        by_cases hs : s.single = true
        · rw [if_pos hs] at h
          replace h := normIndex_bind_ok hd' h
          generalize hidx : (if s.index < 0 then s.index + (d : Int) else s.index) = idx at h
          simp only [castInt_small hd'] at h
          by_cases hc : idx < 0 ∨ idx ≥ (d : Int)
          · rw [if_pos hc] at h; cases h
          · rw [if_neg hc] at h
            obtain ⟨h1, h2, h3, h4⟩ := ih ds sts _ w hlen' (wrap_lt _) hds h
            refine ⟨h1, h2, fun new => ?_, ?_⟩
            · rw [h3]
              constructor
              · rintro ⟨old, ho⟩
                exact ⟨idx.toNat :: old, .single hs (by rw [hidx]; omega) (by omega) ho⟩
              · rintro ⟨old, ho⟩
                cases ho with
                | single _ _ _ ho => exact ⟨_, ho⟩
                | range hs' => rw [hs] at hs'; cases hs'
            · intro new old ho
              cases ho with
              | @single _ _ _ i _ _ old _ hi _ ho =>
                rw [h4 _ _ ho, wrap_wrap_add]
                simp only [dot]
                rw [hi, hidx]
                unfold wrap; omega
              | range hs' => rw [hs] at hs'; cases hs'
        · have hs0 : s.single = false := by simpa using hs
          rw [if_neg hs] at h
          replace h := normIndex_bind_ok hd' h
          replace h := normIndex_bind_ok hd' h
          have e1 : clamp d (if (if s.hasStart then s.start else 0) < 0 then (if s.hasStart then s.start else 0) + (d : Int)
              else (if s.hasStart then s.start else 0)) = sliceStart d s := clamp_eq hd' rfl
          have e2 : clamp d (if (if s.hasStop then s.stop else castInt d) < 0 then
              (if s.hasStop then s.stop else castInt d) + (d : Int)
              else (if s.hasStop then s.stop else castInt d)) = sliceStop d s := by
            rw [castInt_small hd']; exact clamp_eq hd' rfl
          simp only [e1, e2] at h
          by_cases hst : s.step = 0
          · rw [if_pos hst] at h; cases h
          rw [if_neg hst] at h
          obtain ⟨L, hL, h⟩ := bind_ok h
          obtain ⟨w', hw', h⟩ := bind_ok h
          injection h with h
          subst h
          have b1 : 0 ≤ sliceStart d s ∧ sliceStart d s ≤ d := bound_range d _
          have b2 : 0 ≤ sliceStop d s ∧ sliceStop d s ≤ d := bound_range d _
          obtain ⟨l1, l2, l3⟩ := sliceLength_ok b1.1 b2.1 (by omega) (by omega) hst hL
          obtain ⟨h1, h2, h3, h4⟩ := ih ds sts _ w' hlen' (wrap_lt _) hds hw'
          have hwl : (wrap L : Int) = L := wrap_small l1 (by omega)
          refine ⟨⟨by simpa using h1.len, h1.off⟩, ?_, fun new => ?_, ?_⟩
          · intro e he
            simp only [List.mem_cons] at he
            rcases he with rfl | he
            · omega
            · exact h2 e he
          · constructor
            · intro hv
              cases hv with
              | @cons _ k _ new hk hv =>
                obtain ⟨old, ho⟩ := (h3 new).mp hv
                obtain ⟨hup, hdown⟩ := (l3 k).mp (by omega)
                have hnn : 0 ≤ sliceStart d s + k * s.step := by
                  rcases lt_or_ge 0 s.step with hp | hp
                  · have : 0 ≤ (k : Int) * s.step := mul_nonneg (by omega) hp.le
                    omega
                  · have := hdown hp; omega
                have hi : (((sliceStart d s + k * s.step).toNat : Nat) : Int) = sliceStart d s + k * s.step :=
                  Int.toNat_of_nonneg hnn
                exact ⟨(sliceStart d s + k * s.step).toNat :: old, .range hs0 hi (by rw [hi]; exact hup)
                  (by rw [hi]; exact hdown) ho⟩
            · rintro ⟨old, ho⟩
              cases ho with
              | single hs' => rw [hs0] at hs'; cases hs'
              | @range _ _ _ k i _ new old _ hi hup hdown ho =>
                refine .cons ?_ ((h3 new).mpr ⟨old, ho⟩)
                have := (l3 k).mpr ⟨by rw [← hi]; exact hup, by rw [← hi]; exact hdown⟩
                omega
          · intro new old ho
            cases ho with
            | single hs' => rw [hs0] at hs'; cases hs'
            | @range _ _ _ k i _ new old _ hi hup hdown ho =>
              simp only [dot]
              have e : (wrap (w'.offset + ((k : Int) * (wrap (st * s.step) : Nat) + dot new w'.strides)))
                  = wrap (w'.offset + dot new w'.strides + (k : Int) * (st * s.step)) := by
                rw [← wrap_add_mul_wrap]; exact congrArg wrap (by ring)
              rw [e, ← wrap_wrap_add, h4 new old ho, wrap_wrap_add]
              have e2 : wrap ((wrap (off + (wrap (sliceStart d s * st) : Nat)) : Nat) + dot old sts + k * (st * s.step))
                  = wrap (off + sliceStart d s * st + dot old sts + k * (st * s.step)) := by
                unfold wrap; omega
              rw [e2, hi]
              exact congrArg wrap (by ring)

theorem selects_valid {ss : List Slice} {shape new old : List Nat} (hpos : ∀ s ∈ ss, s.single = true ∨ 0 < s.step)
    (h : Selects ss shape new old) : ValidIdx shape old := by
  induction h with
  | rest hv => exact hv
  | single _ _ hid _ ih => exact .cons hid (ih fun s hs => hpos s (by simp [hs]))
  | @range s ss d k i ds new old hs hi hup _ _ ih =>
    refine .cons ?_ (ih fun s hs => hpos s (by simp [hs]))
    rcases hpos s (by simp) with h | h
    · rw [hs] at h; cases h
    · have b2 : 0 ≤ sliceStop d s ∧ sliceStop d s ≤ d := bound_range d _
      have := hup h
      omega

theorem sliceLoop_ub {s : Slice} {ss : List Slice} {d : Nat} {ds strides : List Nat} {off : Nat} {a b : Int}
    (h1 : s.single = false) (h2 : normIndex d (if s.hasStart then s.start else 0) = .ok a)
    (h3 : normIndex d (if s.hasStop then s.stop else castInt d) = .ok b) (h4 : s.step ≠ 0)
    (h5 : sliceLength (clamp d a) (clamp d b) s.step = .ub) : sliceLoop (s :: ss) (d :: ds) strides off = .ub := by
  rw [sliceLoop, if_neg (by simp [h1]), h2, Res.ok_bind, h3, Res.ok_bind, if_neg h4, h5, Res.ub_bind]

theorem sliceLoop_throws (ss : List Slice) (shape strides : List Nat) (off : Nat)
    (hlen : strides.length = shape.length) (hfit : ∀ p ∈ ss.zip shape, SliceFits p.2 p.1) :
    (sliceLoop ss shape strides off = .throws ↔
      shape.length < ss.length ∨ ∃ p ∈ ss.zip shape, BadSlice p.1 p.2) ∧
    sliceLoop ss shape strides off ≠ .ub := by
  induction ss generalizing shape strides off with
  | nil => simp [sliceLoop]
  | cons s ss ih =>
    cases shape with
    | nil => simp [sliceLoop]
    | cons d ds =>
      cases strides with
      | nil => simp at hlen
      | cons st sts =>
        have hlen' : sts.length = ds.length := by simpa using hlen
        have hf : SliceFits d s := hfit (s, d) (by simp)
        have hd' : d < 2 ^ 31 := by have := hf.step; have := abs_nonneg s.step; omega
        have ih' := fun off => ih ds sts off hlen' (fun p hp => hfit p (by simp [hp]))
        simp only [List.zip_cons_cons, List.mem_cons, exists_eq_or_imp, List.length_cons, Nat.add_lt_add_iff_right]
        simp only [sliceLoop]
        by_cases hs : s.single = true
        · rw [if_pos hs, normIndex_of hd' hf.index]
          simp only [Res.ok_bind, castInt_small hd']
          generalize hidx : (if s.index < 0 then s.index + (d : Int) else s.index) = idx
          by_cases hc : idx < 0 ∨ idx ≥ (d : Int)
          · rw [if_pos hc]
            simp only [BadSlice, hidx, hs]
            simp [hc]
          · rw [if_neg hc]
            refine ⟨(ih' _).1.trans ?_, (ih' _).2⟩
            have : ¬ BadSlice s d := by
              simp only [BadSlice, hidx, hs, true_and, ge_iff_le] at hc ⊢
              simp [hc]
            simp [this]
        · have hs0 : s.single = false := by simpa using hs
          rw [if_neg hs, normIndex_of hd' (by split; exact hf.start; omega)]
          simp only [Res.ok_bind]
          rw [normIndex_of hd' (by rw [castInt_small hd']; split; exact hf.stop; omega)]
          simp only [Res.ok_bind]
          have e1 : clamp d (if (if s.hasStart then s.start else 0) < 0 then (if s.hasStart then s.start else 0) + (d : Int)
              else (if s.hasStart then s.start else 0)) = sliceStart d s := clamp_eq hd' rfl
          have e2 : clamp d (if (if s.hasStop then s.stop else castInt d) < 0 then
              (if s.hasStop then s.stop else castInt d) + (d : Int)
              else (if s.hasStop then s.stop else castInt d)) = sliceStop d s := by
            rw [castInt_small hd']; exact clamp_eq hd' rfl
          simp only [e1, e2]
          by_cases hst : s.step = 0
          · rw [if_pos hst]; simp [BadSlice, hs0, hst]
          · rw [if_neg hst]
            have b1 : 0 ≤ sliceStart d s ∧ sliceStart d s ≤ d := bound_range d _
            have b2 : 0 ≤ sliceStop d s ∧ sliceStop d s ≤ d := bound_range d _
            obtain ⟨L, hL⟩ := sliceLength_of b1.1 b2.1 b1.2 b2.2 hf.step
            rw [hL]
            simp only [Res.ok_bind]
            have : ¬ BadSlice s d := by simp [BadSlice, hs0, hst]
            obtain ⟨i1, i2⟩ := ih' (wrap (off + (wrap (sliceStart d s * st) : Nat)))
            cases hw : sliceLoop ss ds sts (wrap (off + (wrap (sliceStart d s * st) : Nat))) with
            | ok w =>
              rw [hw] at i1
              refine ⟨⟨fun h => by simp at h, ?_⟩, fun h => by simp at h⟩
              rintro (h | h | h)
              · cases i1.mpr (Or.inl h)
              · exact absurd h this
              · cases i1.mpr (Or.inr h)
            | throws =>
              rw [hw] at i1
              refine ⟨⟨fun _ => ?_, fun _ => rfl⟩, fun h => by simp at h⟩
              rcases i1.mp rfl with h | h
              · exact Or.inl h
              · exact Or.inr (Or.inr h)
            | ub => exact absurd hw i2

end Cmm.MV
