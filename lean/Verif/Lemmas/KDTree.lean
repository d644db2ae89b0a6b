import Verif.Model.KDTree
import Verif.Lemmas.Rounding
import Mathlib.Tactic.Linarith
import Mathlib.Tactic.Ring
import Mathlib.Data.List.Perm.Basic
namespace Cmm.KD

variable {K : Type}

/-- All points of a tree (in-order). -/
def Tree.points : Tree K → List (Vec3 K)
  | .nil => []
  | .node p _ l r => l.points ++ p :: r.points

/-- The search-tree invariant: axes are 0, 1, 2; points on the left are not above, points on the right not below. -/
def Tree.Inv [LE K] : Tree K → Prop
  | .nil => True
  | .node p axis l r => axis < 3 ∧ (∀ q ∈ l.points, q.coord axis ≤ p.coord axis) ∧
      (∀ q ∈ r.points, p.coord axis ≤ q.coord axis) ∧ l.Inv ∧ r.Inv

theorem axisLt_iff [LT K] (axis : Nat) (a b : Vec3 K) : axisLt axis a b ↔ a.coord axis < b.coord axis := by
  unfold axisLt
  rcases axis with _ | _ | n <;> simp [Vec3.coord]

theorem test_iff (R : K → K → Prop) (axis : Nat) (h : axis < 3) (a b : Vec3 K) :
    ((axis = 0 ∧ R a.x b.x) ∨ (axis = 1 ∧ R a.y b.y) ∨ (axis = 2 ∧ R a.z b.z)) ↔
      R (a.coord axis) (b.coord axis) := by
  rcases axis with _ | _ | _ | n
  · simp [Vec3.coord]
  · simp [Vec3.coord]
  · simp [Vec3.coord]
  · omega

theorem buildRec_points [LT K] (nth : NthElement K) (l : List (Vec3 K)) (depth : Nat) :
    (buildRec nth l depth).1.points.Perm l ∧ (buildRec nth l depth).2 = (buildRec nth l depth).1.points := by
  induction l, depth using buildRec.induct nth with
  | case1 depth => rw [buildRec]; simp [Tree.points]
  | case2 l depth h axis k l' hlen hk ih1 ih2 =>
    rw [buildRec]
    simp only [h, dif_neg, not_false_iff]
    refine ⟨?_, ?_⟩
    · simp only [Tree.points]
      have h1 := ih1.1
      have h2 := ih2.1
      have h3 : l' = l'.take k ++ l'[k] :: l'.drop (k + 1) := by
        rw [← List.drop_eq_getElem_cons hk, List.take_append_drop]
      have h4 : (l'.take k ++ l'[k] :: l'.drop (k + 1)).Perm l := h3 ▸ nth.perm axis k l
      exact (List.Perm.append h1 (List.Perm.cons _ h2)).trans h4
    · simp only [Tree.points]
      rw [ih1.2, ih2.2]

theorem buildRec_inv [LinearOrder K] (nth : NthElement K) (l : List (Vec3 K)) (depth : Nat) :
    (buildRec nth l depth).1.Inv := by
  induction l, depth using buildRec.induct nth with
  | case1 depth => rw [buildRec]; simp [Tree.Inv]
  | case2 l depth h axis k l' hlen hk ih1 ih2 =>
    rw [buildRec]
    simp only [h, dif_neg, not_false_iff, Tree.Inv]
    refine ⟨Nat.mod_lt _ (by decide), ?_, ?_, ih1, ih2⟩
    · intro q hq
      have := nth.before axis k l hk q ((buildRec_points nth (l'.take k) (depth + 1)).1.mem_iff.mp hq)
      rw [axisLt_iff] at this
      exact not_lt.mp this
    · intro q hq
      have := nth.after axis k l hk q ((buildRec_points nth (l'.drop (k + 1)) (depth + 1)).1.mem_iff.mp hq)
      rw [axisLt_iff] at this
      exact not_lt.mp this

theorem insertRec_spec [LinearOrder K] (t : Tree K) (pt : Vec3 K) (depth size : Nat) (h : t.Inv) :
    (insertRec t pt depth size).1.Inv ∧ (insertRec t pt depth size).1.points.Perm (pt :: t.points) ∧
      (insertRec t pt depth size).2 = size + 1 := by
  induction t generalizing depth with
  | nil =>
    simp only [insertRec, Tree.Inv, Tree.points]
    exact ⟨⟨Nat.mod_lt _ (by decide), by simp, by simp, trivial, trivial⟩, by simp, trivial⟩
  | node p axis l r ihl ihr =>
    obtain ⟨h0, h1, h2, h3, h4⟩ := h
    obtain ⟨il1, il2, il3⟩ := ihl (depth + 1) h3
    obtain ⟨ir1, ir2, ir3⟩ := ihr (depth + 1) h4
    unfold insertRec
    simp only [test_iff (fun a b => a < b) axis h0]
    by_cases hc : pt.coord axis < p.coord axis
    · simp only [hc, if_true]
      refine ⟨⟨h0, ?_, h2, il1, h4⟩, ?_, il3⟩
      · intro q hq
        rcases List.mem_cons.mp (il2.mem_iff.mp hq) with rfl | hq
        · exact le_of_lt hc
        · exact h1 q hq
      · simp only [Tree.points]
        exact (List.Perm.append_right (p :: r.points) il2).trans (by simp)
    · simp only [hc, if_false]
      refine ⟨⟨h0, h1, ?_, h3, ir1⟩, ?_, ir3⟩
      · intro q hq
        rcases List.mem_cons.mp (ir2.mem_iff.mp hq) with rfl | hq
        · exact not_lt.mp hc
        · exact h2 q hq
      · simp only [Tree.points]
        have : (l.points ++ p :: (insertRec r pt (depth + 1) size).1.points).Perm (l.points ++ p :: pt :: r.points) :=
          List.Perm.append_left _ (List.Perm.cons _ ir2)
        refine this.trans ?_
        have h5 : (l.points ++ p :: pt :: r.points).Perm (l.points ++ pt :: p :: r.points) :=
          List.Perm.append_left _ (List.Perm.swap _ _ _)
        exact h5.trans List.perm_middle

/-- Membership in the closed box, as a decidable test. -/
def inBox [LE K] [DecidableLE K] (lower upper p : Vec3 K) : Bool :=
  decide (lower.x ≤ p.x ∧ p.x ≤ upper.x ∧ lower.y ≤ p.y ∧ p.y ≤ upper.y ∧ lower.z ≤ p.z ∧ p.z ≤ upper.z)

theorem inBox_coord [LE K] [DecidableLE K] {lower upper p : Vec3 K} (h : inBox lower upper p = true) (axis : Nat) :
    lower.coord axis ≤ p.coord axis ∧ p.coord axis ≤ upper.coord axis := by
  simp [inBox] at h
  obtain ⟨h1, h2, h3, h4, h5, h6⟩ := h
  rcases axis with _ | _ | n <;> simp [Vec3.coord, *]

theorem rangeSearchRec_spec [LinearOrder K] (lower upper : Vec3 K) (t : Tree K) (acc : List (Vec3 K)) (h : t.Inv) :
    (rangeSearchRec lower upper t acc).Perm (acc ++ t.points.filter (inBox lower upper)) := by
  induction t generalizing acc with
  | nil => simp [rangeSearchRec, Tree.points]
  | node p axis l r ihl ihr =>
    obtain ⟨h0, h1, h2, h3, h4⟩ := h
    unfold rangeSearchRec
    simp only [test_iff (fun a b => a ≤ b) axis h0]
    set acc1 := (if lower.x ≤ p.x ∧ p.x ≤ upper.x ∧ lower.y ≤ p.y ∧ p.y ≤ upper.y ∧ lower.z ≤ p.z ∧ p.z ≤ upper.z
      then acc ++ [p] else acc) with hacc1
    have e1 : acc1 = acc ++ [p].filter (inBox lower upper) := by
      rw [hacc1]
      by_cases hb : inBox lower upper p = true
      · have := hb
        simp only [inBox, decide_eq_true_eq] at this
        rw [if_pos this]; simp [hb]
      · have := hb
        simp only [inBox, decide_eq_true_eq] at this
        rw [if_neg this]; simp [hb]
    set acc2 := (if lower.coord axis ≤ p.coord axis then rangeSearchRec lower upper l acc1 else acc1) with hacc2
    have e2 : acc2.Perm (acc1 ++ l.points.filter (inBox lower upper)) := by
      rw [hacc2]
      by_cases hc : lower.coord axis ≤ p.coord axis
      · rw [if_pos hc]; exact ihl acc1 h3
      · rw [if_neg hc]
        have : l.points.filter (inBox lower upper) = [] := by
          rw [List.filter_eq_nil_iff]
          intro q hq hb
          exact hc (le_trans (inBox_coord hb axis).1 (h1 q hq))
        rw [this]; simp
    have e3 : (if p.coord axis ≤ upper.coord axis then rangeSearchRec lower upper r acc2 else acc2).Perm
        (acc2 ++ r.points.filter (inBox lower upper)) := by
      by_cases hc : p.coord axis ≤ upper.coord axis
      · rw [if_pos hc]; exact ihr acc2 h4
      · rw [if_neg hc]
        have : r.points.filter (inBox lower upper) = [] := by
          rw [List.filter_eq_nil_iff]
          intro q hq hb
          exact hc (le_trans (h2 q hq) (inBox_coord hb axis).2)
        rw [this]; simp
    refine e3.trans ((List.Perm.append_right _ e2).trans ?_)
    rw [e1]
    simp only [Tree.points, List.filter_append, List.append_assoc]
    apply List.Perm.append_left
    have : List.filter (inBox lower upper) (p :: r.points) =
        List.filter (inBox lower upper) [p] ++ List.filter (inBox lower upper) r.points := by
      rw [← List.filter_append]; rfl
    rw [this, ← List.append_assoc, ← List.append_assoc]
    exact List.Perm.append_right _ List.perm_append_comm

section nearest
variable [LinearOrder K] [Arith K] [MonoArith K]

theorem diff_nonneg {a b : K} (h : a ≤ b) : 0 ≤ b - a := by
  rw [← MonoArith.sub_self a]; exact MonoArith.sub_mono _ _ _ _ h le_rfl

theorem diff_nonpos {a b : K} (h : b ≤ a) : b - a ≤ 0 := by
  rw [← MonoArith.sub_self a]; exact MonoArith.sub_mono _ _ _ _ h le_rfl

theorem square_nonneg (a : K) : 0 ≤ a * a := by
  rcases le_total 0 a with h | h
  · have := MonoArith.mul_mono (0 : K) a 0 a le_rfl h le_rfl h
    rwa [MonoArith.mul_zero] at this
  · have := MonoArith.mul_mono_neg (0 : K) a 0 a h le_rfl h le_rfl
    rwa [MonoArith.mul_zero] at this

theorem le_add_left {a b : K} (h : 0 ≤ b) : a ≤ b + a := by
  have := MonoArith.add_mono 0 b a a h le_rfl
  rwa [MonoArith.zero_add] at this

theorem le_add_right {a b : K} (h : 0 ≤ b) : a ≤ a + b := by
  have := MonoArith.add_mono a a 0 b le_rfl h
  rwa [MonoArith.add_zero] at this

/-- Going further away makes the square of the difference no smaller. -/
theorem square_right {t p q : K} (h1 : t ≤ p) (h2 : p ≤ q) : (t - p) * (t - p) ≤ (t - q) * (t - q) :=
  MonoArith.mul_mono_neg _ _ _ _ (MonoArith.sub_mono _ _ _ _ le_rfl h2) (diff_nonpos h1) (MonoArith.sub_mono _ _ _ _ le_rfl h2) (diff_nonpos h1)

theorem square_left {t p q : K} (h1 : p ≤ t) (h2 : q ≤ p) : (t - p) * (t - p) ≤ (t - q) * (t - q) :=
  MonoArith.mul_mono _ _ _ _ (diff_nonneg h1) (MonoArith.sub_mono _ _ _ _ le_rfl h2) (diff_nonneg h1) (MonoArith.sub_mono _ _ _ _ le_rfl h2)

theorem distSq_ge_coord (a b : Vec3 K) (axis : Nat) :
    (a.coord axis - b.coord axis) * (a.coord axis - b.coord axis) ≤ a.distanceSq b := by
  have hx := square_nonneg (a.x - b.x)
  have hy := square_nonneg (a.y - b.y)
  have hz := square_nonneg (a.z - b.z)
  unfold Vec3.distanceSq Vec3.sqLength
  rcases axis with _ | _ | n <;> simp only [Vec3.coord, Vec3.sub_x, Vec3.sub_y, Vec3.sub_z]
  · exact (le_add_right hy).trans (le_add_right hz)
  · exact (le_add_left hx).trans (le_add_right hz)
  · exact le_add_left (hx.trans (le_add_right hy))

/-- A state of the search: the distance belongs to the point. -/
def Good (target : Vec3 K) (s : Vec3 K × K) : Prop := s.2 = target.distanceSq s.1

theorem nearestRec_spec (target : Vec3 K) (t : Tree K) (h : t.Inv) (s : Vec3 K × K) (hs : Good target s) :
    Good target (nearestRec target t s) ∧ (nearestRec target t s).2 ≤ s.2 ∧
    (∀ q ∈ t.points, (nearestRec target t s).2 ≤ target.distanceSq q) ∧
    ((nearestRec target t s).1 = s.1 ∨ (nearestRec target t s).1 ∈ t.points) := by
  induction t generalizing s with
  | nil => simp [nearestRec, Tree.points, hs]
  | node p axis l r ihl ihr =>
    obtain ⟨h0, h1, h2, h3, h4⟩ := h
    unfold nearestRec
    simp only [test_iff (fun a b => a < b) axis h0]
    have hdiff : (if axis = 0 then target.x - p.x else if axis = 1 then target.y - p.y else target.z - p.z) =
        target.coord axis - p.coord axis := by
      rcases axis with _ | _ | _ | n <;> first | rfl | omega
    rw [hdiff]
    set s1 := (if target.distanceSq p < s.2 then (p, target.distanceSq p) else s) with hs1
    have g1 : Good target s1 ∧ s1.2 ≤ s.2 ∧ s1.2 ≤ target.distanceSq p ∧ (s1.1 = s.1 ∨ s1.1 = p) := by
      rw [hs1]
      by_cases hc : target.distanceSq p < s.2
      · simp only [hc, if_true]; exact ⟨rfl, le_of_lt hc, le_refl _, Or.inr trivial⟩
      · simp only [hc, if_false]; exact ⟨hs, le_refl _, not_lt.mp hc, Or.inl trivial⟩
    obtain ⟨g1a, g1b, g1c, g1d⟩ := g1
    -- both orders are instances of one argument
    have key : ∀ near far : Tree K,
        (∀ s, Good target s → Good target (nearestRec target near s) ∧ (nearestRec target near s).2 ≤ s.2 ∧
          (∀ q ∈ near.points, (nearestRec target near s).2 ≤ target.distanceSq q) ∧
          ((nearestRec target near s).1 = s.1 ∨ (nearestRec target near s).1 ∈ near.points)) →
        (∀ s, Good target s → Good target (nearestRec target far s) ∧ (nearestRec target far s).2 ≤ s.2 ∧
          (∀ q ∈ far.points, (nearestRec target far s).2 ≤ target.distanceSq q) ∧
          ((nearestRec target far s).1 = s.1 ∨ (nearestRec target far s).1 ∈ far.points)) →
        (∀ q ∈ far.points, (target.coord axis - p.coord axis) * (target.coord axis - p.coord axis)
          ≤ target.distanceSq q) →
        ∀ out, out = (if (target.coord axis - p.coord axis) * (target.coord axis - p.coord axis) <
            (nearestRec target near s1).2 then nearestRec target far (nearestRec target near s1)
            else nearestRec target near s1) →
        Good target out ∧ out.2 ≤ s.2 ∧ out.2 ≤ target.distanceSq p ∧
        (∀ q ∈ near.points, out.2 ≤ target.distanceSq q) ∧ (∀ q ∈ far.points, out.2 ≤ target.distanceSq q) ∧
        (out.1 = s.1 ∨ out.1 = p ∨ out.1 ∈ near.points ∨ out.1 ∈ far.points) := by
      intro near far hn hf hfar out hout
      obtain ⟨n1, n2, n3, n4⟩ := hn s1 g1a
      have m1 : (nearestRec target near s1).1 = s.1 ∨ (nearestRec target near s1).1 = p ∨
          (nearestRec target near s1).1 ∈ near.points ∨ (nearestRec target near s1).1 ∈ far.points := by
        rcases n4 with n4 | n4
        · rw [n4]; rcases g1d with e | e
          · exact Or.inl e
          · exact Or.inr (Or.inl e)
        · exact Or.inr (Or.inr (Or.inl n4))
      by_cases hc : (target.coord axis - p.coord axis) * (target.coord axis - p.coord axis) <
            (nearestRec target near s1).2
      · rw [if_pos hc] at hout
        obtain ⟨f1, f2, f3, f4⟩ := hf (nearestRec target near s1) n1
        subst hout
        refine ⟨f1, f2.trans (n2.trans g1b), f2.trans (n2.trans g1c), fun q hq => le_trans f2 (n3 q hq), f3, ?_⟩
        rcases f4 with f4 | f4
        · rw [f4]; exact m1
        · exact Or.inr (Or.inr (Or.inr f4))
      · rw [if_neg hc] at hout
        subst hout
        exact ⟨n1, n2.trans g1b, n2.trans g1c, n3, fun q hq => le_trans (not_lt.mp hc) (hfar q hq), m1⟩
    by_cases hg : target.coord axis < p.coord axis
    · simp only [hg, if_true]
      obtain ⟨k1, k2, k3, k4, k5, k6⟩ := key l r (fun s hs => ihl h3 s hs) (fun s hs => ihr h4 s hs) (by
        intro q hq
        have hq2 := h2 q hq
        exact (square_right hg.le hq2).trans (distSq_ge_coord target q axis)) _ rfl
      refine ⟨k1, k2, ?_, ?_⟩
      · intro q hq
        simp only [Tree.points, List.mem_append, List.mem_cons] at hq
        rcases hq with hq | rfl | hq
        · exact k4 q hq
        · exact k3
        · exact k5 q hq
      · simp only [Tree.points, List.mem_append, List.mem_cons]
        tauto
    · simp only [hg, if_false]
      obtain ⟨k1, k2, k3, k4, k5, k6⟩ := key r l (fun s hs => ihr h4 s hs) (fun s hs => ihl h3 s hs) (by
        intro q hq
        have hq2 := h1 q hq
        have hg := not_lt.mp hg
        exact (square_left hg hq2).trans (distSq_ge_coord target q axis)) _ rfl
      refine ⟨k1, k2, ?_, ?_⟩
      · intro q hq
        simp only [Tree.points, List.mem_append, List.mem_cons] at hq
        rcases hq with hq | rfl | hq
        · exact k5 q hq
        · exact k3
        · exact k4 q hq
      · simp only [Tree.points, List.mem_append, List.mem_cons]
        tauto

end nearest

end Cmm.KD
