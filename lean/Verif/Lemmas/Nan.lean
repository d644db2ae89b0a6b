import Verif.Model.Nan
import Verif.Lemmas.BVH
/-! Lemmas on doubles with NaN. -/
namespace Cmm
variable {K : Type}

namespace Dbl

@[simp] theorem num_lt [LT K] (a b : K) : (num a < num b) ↔ a < b := Iff.rfl
@[simp] theorem num_le [LE K] (a b : K) : (num a ≤ num b) ↔ a ≤ b := Iff.rfl
@[simp] theorem not_nan_lt [LT K] (a : Dbl K) : ¬ nan < a := by cases a <;> exact id
@[simp] theorem not_lt_nan [LT K] (a : Dbl K) : ¬ a < nan := by cases a <;> exact id
@[simp] theorem not_nan_le [LE K] (a : Dbl K) : ¬ nan ≤ a := by cases a <;> exact id
@[simp] theorem not_le_nan [LE K] (a : Dbl K) : ¬ a ≤ nan := by cases a <;> exact id

theorem min_def' [LT K] [DecidableLT K] (a b : Dbl K) : Min.min a b = if b < a then b else a := rfl
theorem max_def' [LT K] [DecidableLT K] (a b : Dbl K) : Max.max a b = if a < b then b else a := rfl

theorem le_trans' [LinearOrder K] {a b c : Dbl K} (h1 : a ≤ b) (h2 : b ≤ c) : a ≤ c := by
  cases a <;> cases b <;> cases c <;> simp_all
  exact h1.trans h2

/-- The minimum is a number when the first operand is, and then below both operands that are numbers. -/
theorem min_num [LinearOrder K] (a : K) (b : Dbl K) : ∃ m, Min.min (num a) b = num m ∧ m ≤ a ∧ ∀ y, b = num y → m ≤ y := by
  cases b with
  | nan => exact ⟨a, by simp [min_def'], le_refl _, by simp⟩
  | num y =>
    by_cases h : y < a
    · exact ⟨y, by simp [min_def', h], h.le, by simp⟩
    · exact ⟨a, by simp [min_def', h], le_refl _, by simpa using not_lt.mp h⟩

theorem max_num [LinearOrder K] (a : K) (b : Dbl K) : ∃ m, Max.max (num a) b = num m ∧ a ≤ m ∧ ∀ y, b = num y → y ≤ m := by
  cases b with
  | nan => exact ⟨a, by simp [max_def'], le_refl _, by simp⟩
  | num y =>
    by_cases h : a < y
    · exact ⟨y, by simp [max_def', h], h.le, by simp⟩
    · exact ⟨a, by simp [max_def', h], le_refl _, by simpa using not_lt.mp h⟩

end Dbl

open Dbl

/-- A box without NaN merged with any box: no NaN, covers the first, and the second if that has no NaN. -/
theorem dbl_merge [LinearOrder K] (a : AABB K) (b : AABB (Dbl K)) :
    ∃ m : AABB K, a.dbl.merge b = m.dbl ∧ BoxLe a m ∧ ∀ c : AABB K, b = c.dbl → BoxLe c m := by
  obtain ⟨m1, e1, l1, k1⟩ := min_num a.min.x b.min.x
  obtain ⟨m2, e2, l2, k2⟩ := min_num a.min.y b.min.y
  obtain ⟨m3, e3, l3, k3⟩ := min_num a.min.z b.min.z
  obtain ⟨M1, E1, L1, J1⟩ := max_num a.max.x b.max.x
  obtain ⟨M2, E2, L2, J2⟩ := max_num a.max.y b.max.y
  obtain ⟨M3, E3, L3, J3⟩ := max_num a.max.z b.max.z
  refine ⟨⟨⟨m1, m2, m3⟩, ⟨M1, M2, M3⟩⟩, ?_, ?_, ?_⟩
  · simp only [AABB.merge, AABB.dbl, Vec3.dbl] at *
    rw [e1, e2, e3, E1, E2, E3]
  · exact ⟨l1, L1, l2, L2, l3, L3⟩
  · rintro c rfl
    exact ⟨k1 _ rfl, J1 _ rfl, k2 _ rfl, J2 _ rfl, k3 _ rfl, J3 _ rfl⟩

theorem dbl_merge_fold [LinearOrder K] {α : Type} (f : α → AABB (Dbl K)) (os : List α) (a : AABB K) :
    ∃ m : AABB K, os.foldl (fun b o => b.merge (f o)) a.dbl = m.dbl ∧ BoxLe a m ∧ ∀ o ∈ os, ∀ c : AABB K, f o = c.dbl → BoxLe c m := by
  induction os generalizing a with
  | nil => exact ⟨a, rfl, BoxLe.refl a, by simp⟩
  | cons o os ih =>
    obtain ⟨m1, e1, h1, h2⟩ := dbl_merge a (f o)
    obtain ⟨m, e, g1, g2⟩ := ih m1
    refine ⟨m, by rw [List.foldl_cons, e1, e], h1.trans g1, ?_⟩
    intro o' ho' c hc
    rcases List.mem_cons.mp ho' with rfl | ho'
    · exact (h2 c hc).trans g1
    · exact g2 o' ho' c hc

theorem init_dbl (big low : K) : AABB.init (num big) (num low) = (AABB.init big low).dbl := rfl

/-- Boxes that meet have no NaN. -/
theorem intersects_dbl [LinearOrder K] {a b : AABB (Dbl K)} (h : a.intersects b = true) : ∃ a' b' : AABB K, a = a'.dbl ∧ b = b'.dbl := by
  simp only [AABB.intersects, Bool.and_eq_true, decide_eq_true_eq] at h
  obtain ⟨⟨⟨⟨⟨h1, h2⟩, h3⟩, h4⟩, h5⟩, h6⟩ := h
  obtain ⟨⟨a1, a2, a3⟩, ⟨a4, a5, a6⟩⟩ := a
  obtain ⟨⟨b1, b2, b3⟩, ⟨b4, b5, b6⟩⟩ := b
  cases a1 <;> cases b4 <;> simp_all
  cases a2 <;> cases b5 <;> simp_all
  cases a3 <;> cases b6 <;> simp_all
  cases b1 <;> cases a4 <;> simp_all
  cases b2 <;> cases a5 <;> simp_all
  cases b3 <;> cases a6 <;> simp_all
  exact ⟨⟨⟨⟨_, _, _⟩, ⟨_, _, _⟩⟩, rfl⟩, ⟨⟨⟨_, _, _⟩, ⟨_, _, _⟩⟩, rfl⟩⟩

theorem intersects_num [LinearOrder K] (a b : AABB K) : a.dbl.intersects b.dbl = a.intersects b := rfl

namespace BVH

/-- A tree in which the box of an inner node has no NaN and covers every object box without NaN below it. -/
inductive Covers [LE K] : Tree (Dbl K) → Prop where
  | leaf (o : Obj (Dbl K)) : Covers (.node o.bb (some o) .nil .nil)
  | inner (m : AABB K) (l r : Tree (Dbl K)) : Covers l → Covers r → (∀ o ∈ l.objs ++ r.objs, ∀ c : AABB K, o.bb = c.dbl → BoxLe c m) →
      Covers (.node m.dbl none l r)

theorem Covers.root [LinearOrder K] {b : AABB (Dbl K)} {o : Option (Obj (Dbl K))} {l r : Tree (Dbl K)} (h : Covers (.node b o l r)) :
    ∀ x ∈ (Tree.node b o l r).objs, ∀ c : AABB K, x.bb = c.dbl → ∃ m : AABB K, b = m.dbl ∧ BoxLe c m := by
  cases h with
  | leaf o =>
    intro x hx c hc
    simp only [Tree.objs, Option.toList, List.append_nil, List.mem_singleton] at hx
    subst hx
    exact ⟨c, hc, BoxLe.refl c⟩
  | inner m l r _ _ h3 =>
    intro x hx c hc
    exact ⟨m, rfl, h3 x (by simpa [Tree.objs] using hx) c hc⟩

theorem traverse_covers [LinearOrder K] (q : AABB (Dbl K)) {t : Tree (Dbl K)} (h : Covers t) (acc : List (Obj (Dbl K))) :
    traverse q t acc = acc ++ t.objs.filter fun o => o.bb.intersects q := by
  induction h generalizing acc with
  | leaf o =>
    simp only [traverse, Tree.objs, Option.toList, List.append_nil]
    by_cases hc : o.bb.intersects q = true <;> simp [hc]
  | inner m l r _ _ h3 ih1 ih2 =>
    simp only [traverse, Tree.objs, Option.toList, List.nil_append]
    by_cases hc : m.dbl.intersects q = true
    · rw [if_pos hc, ih1, ih2, List.filter_append, List.append_assoc]
    · rw [if_neg hc]
      have : (l.objs ++ r.objs).filter (fun o => o.bb.intersects q) = [] := by
        rw [List.filter_eq_nil_iff]
        intro o ho hi
        obtain ⟨c, q', e1, e2⟩ := intersects_dbl hi
        have hle := h3 o ho c e1
        apply hc
        rw [e1, e2, intersects_num, intersects_iff] at hi
        rw [e2, intersects_num, intersects_iff]
        obtain ⟨i1, i2, i3, i4, i5, i6⟩ := hi
        obtain ⟨l1, l2, l3, l4, l5, l6⟩ := hle
        exact ⟨l1.trans i1, i2.trans l2, l3.trans i3, i4.trans l4, l5.trans i5, i6.trans l6⟩
      rw [this, List.append_nil]

theorem buildTopDown_covers [Arith K] [LinearOrder K] (lib : Lib (Dbl K)) (big low : K) (objects : List (Obj (Dbl K))) :
    (buildTopDown lib (num big) (num low) objects).objs.Perm objects ∧
    (objects ≠ [] → Covers (buildTopDown lib (num big) (num low) objects)) := by
  induction objects using buildTopDown.induct lib (num big) (num low) with
  | case1 => simp [buildTopDown, Tree.objs]
  | case2 o =>
    rw [buildTopDown]
    exact ⟨by simp [Tree.objs], fun _ => Covers.leaf o⟩
  | case3 o o' rest lr h =>
    exfalso
    have hne := splitObjects_ne lib (num big) (num low) (o :: o' :: rest) (by simp)
    have hp := (splitObjects_perm lib (num big) (num low) (o :: o' :: rest)).length_eq
    have h1 := List.length_pos_iff.mpr hne.1
    have h2 := List.length_pos_iff.mpr hne.2
    simp only [List.length_append] at hp
    simp only [lr] at h
    omega
  | case4 o o' rest lr h ih1 ih2 =>
    have hne := splitObjects_ne lib (num big) (num low) (o :: o' :: rest) (by simp)
    have hp := splitObjects_perm lib (num big) (num low) (o :: o' :: rest)
    obtain ⟨l1, l2⟩ := ih1
    obtain ⟨r1, r2⟩ := ih2
    have wl := l2 hne.1
    have wr := r2 hne.2
    rw [buildTopDown]
    simp only [lr] at h
    rw [dif_neg h]
    refine ⟨?_, fun _ => ?_⟩
    · simp only [Tree.objs, Option.toList, List.nil_append]
      exact (l1.append r1).trans hp
    · change Covers (.node (mergeChild (mergeChild (AABB.init (num big) (num low)) (buildTopDown lib (num big) (num low) lr.1))
        (buildTopDown lib (num big) (num low) lr.2)) none (buildTopDown lib (num big) (num low) lr.1) (buildTopDown lib (num big) (num low) lr.2))
      cases hL : buildTopDown lib (num big) (num low) lr.1 with
      | nil => rw [hL] at wl; cases wl
      | node bl ol ll rl =>
        cases hR : buildTopDown lib (num big) (num low) lr.2 with
        | nil => rw [hR] at wr; cases wr
        | node br or lr' rr =>
          rw [hL] at wl
          rw [hR] at wr
          simp only [mergeChild, init_dbl]
          obtain ⟨m1, e1, _, k1⟩ := dbl_merge (AABB.init big low) bl
          obtain ⟨m2, e2, g2, k2⟩ := dbl_merge m1 br
          rw [e1, e2]
          refine Covers.inner m2 _ _ wl wr ?_
          intro x hx c hc
          rcases List.mem_append.mp hx with hx | hx
          · obtain ⟨m, em, hm⟩ := wl.root x hx c hc
            exact hm.trans ((k1 m em).trans g2)
          · obtain ⟨m, em, hm⟩ := wr.root x hx c hc
            exact hm.trans (k2 m em)

end BVH

end Cmm
