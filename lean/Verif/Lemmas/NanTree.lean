import Verif.Lemmas.Nan
import Verif.Lemmas.KDTree
import Verif.Spec.Nan
/-! Lemmas on kd-trees of points that may have NaN coordinates. -/
namespace Cmm.KD
open Dbl
variable {K : Type}

theorem defined_iff (p : Vec3 (Dbl K)) : p.Defined ↔ ∃ q : Vec3 K, p = q.dbl := by
  constructor
  · obtain ⟨x, y, z⟩ := p
    rintro ⟨h1, h2, h3⟩
    cases x <;> cases y <;> cases z <;> simp_all
    exact ⟨⟨_, _, _⟩, rfl⟩
  · rintro ⟨q, rfl⟩
    exact ⟨nofun, nofun, nofun⟩

@[simp] theorem dbl_coord (p : Vec3 K) (axis : Nat) : p.dbl.coord axis = num (p.coord axis) := by
  rcases axis with _ | _ | n <;> rfl

theorem coord_ne_nan {p : Vec3 (Dbl K)} (h : p.Defined) (axis : Nat) : p.coord axis ≠ nan := by
  obtain ⟨q, rfl⟩ := (defined_iff p).mp h
  simp

theorem dbl_distanceSq [Arith K] (a b : Vec3 K) : a.dbl.distanceSq b.dbl = num (a.distanceSq b) := rfl

theorem distanceSq_nan [Arith K] (a b : Vec3 (Dbl K)) (h : ¬ b.Defined) : a.distanceSq b = nan := by
  obtain ⟨x, y, z⟩ := a
  obtain ⟨x', y', z'⟩ := b
  cases x <;> cases y <;> cases z <;> cases x' <;> cases y' <;> cases z' <;> first | rfl | exact absurd ⟨nofun, nofun, nofun⟩ h

/-- What insertion keeps, NaN or not: left of a node lies what compares less, right what does not. -/
def Tree.Placed [LT K] : Tree (Dbl K) → Prop
  | .nil => True
  | .node p axis l r => axis < 3 ∧ (∀ q ∈ l.points, q.coord axis < p.coord axis) ∧
      (∀ q ∈ r.points, ¬ q.coord axis < p.coord axis) ∧ l.Placed ∧ r.Placed

theorem insertRec_placed [LinearOrder K] (t : Tree (Dbl K)) (pt : Vec3 (Dbl K)) (depth size : Nat) (h : t.Placed) :
    (insertRec t pt depth size).1.Placed ∧ (insertRec t pt depth size).1.points.Perm (pt :: t.points) ∧
      (insertRec t pt depth size).2 = size + 1 := by
  induction t generalizing depth with
  | nil =>
    simp only [insertRec, Tree.Placed, Tree.points]
    exact ⟨⟨Nat.mod_lt _ (by decide), by simp, by simp, trivial, trivial⟩, by simp, trivial⟩
  | node p axis l r ihl ihr =>
    obtain ⟨h0, h1, h2, h3, h4⟩ := h
    obtain ⟨il1, il2, il3⟩ := ihl (depth + 1) h3
    obtain ⟨ir1, ir2, ir3⟩ := ihr (depth + 1) h4
    unfold insertRec
    simp only [test_iff (fun a b => a < b) axis h0]
    by_cases hc : pt.coord axis < p.coord axis
    · simp only [hc, if_true]
      refine ⟨⟨h0, ?_, h2, il1, h4⟩, ?_, il3⟩
      · intro q hq
        rcases List.mem_cons.mp (il2.mem_iff.mp hq) with rfl | hq
        · exact hc
        · exact h1 q hq
      · simp only [Tree.points]
        exact (List.Perm.append_right (p :: r.points) il2).trans (by simp)
    · simp only [hc, if_false]
      refine ⟨⟨h0, h1, ?_, h3, ir1⟩, ?_, ir3⟩
      · intro q hq
        rcases List.mem_cons.mp (ir2.mem_iff.mp hq) with rfl | hq
        · exact hc
        · exact h2 q hq
      · simp only [Tree.points]
        have : (l.points ++ p :: (insertRec r pt (depth + 1) size).1.points).Perm (l.points ++ p :: pt :: r.points) :=
          List.Perm.append_left _ (List.Perm.cons _ ir2)
        refine this.trans ?_
        have h5 : (l.points ++ p :: pt :: r.points).Perm (l.points ++ pt :: p :: r.points) :=
          List.Perm.append_left _ (List.Perm.swap _ _ _)
        exact h5.trans List.perm_middle

theorem foldl_insert_placed [LinearOrder K] (pts : List (Vec3 (Dbl K))) (t : KDTree (Dbl K)) (h : t.root.Placed) :
    (pts.foldl KDTree.insert t).root.Placed ∧ (pts.foldl KDTree.insert t).root.points.Perm (pts ++ t.root.points) ∧
      (pts.foldl KDTree.insert t).size_ = t.size_ + pts.length := by
  induction pts generalizing t with
  | nil => simp [h]
  | cons p ps ih =>
    obtain ⟨a1, a2, a3⟩ := insertRec_placed t.root p 0 t.size_ h
    obtain ⟨b1, b2, b3⟩ := ih (t.insert p) a1
    refine ⟨b1, ?_, ?_⟩
    · refine b2.trans ?_
      exact (List.Perm.append_left ps a2).trans List.perm_middle
    · rw [List.foldl_cons, b3]
      simp only [KDTree.insert, a3, List.length_cons]; omega

theorem insertAll_placed [LinearOrder K] (pts : List (Vec3 (Dbl K))) :
    (insertAll pts).root.Placed ∧ (insertAll pts).root.points.Perm pts ∧ (insertAll pts).size_ = pts.length := by
  have := foldl_insert_placed pts KDTree.empty0 (by simp [KDTree.empty0, Tree.Placed])
  simpa [insertAll, KDTree.empty0, Tree.points] using this

/-! ### The root stays -/

theorem insertRec_root [LT K] [DecidableLT K] (p : Vec3 (Dbl K)) (axis : Nat) (l r : Tree (Dbl K)) (pt : Vec3 (Dbl K)) (depth size : Nat) :
    ∃ l' r', (insertRec (.node p axis l r) pt depth size).1 = .node p axis l' r' := by
  unfold insertRec
  split
  · exact ⟨_, _, rfl⟩
  · exact ⟨_, _, rfl⟩

theorem insertAll_root [LT K] [DecidableLT K] (p : Vec3 (Dbl K)) (ps : List (Vec3 (Dbl K))) :
    ∃ l r, (insertAll (p :: ps)).root = .node p 0 l r := by
  have key : ∀ (ps : List (Vec3 (Dbl K))) (t : KDTree (Dbl K)), (∃ l r, t.root = .node p 0 l r) →
      ∃ l r, (ps.foldl KDTree.insert t).root = .node p 0 l r := by
    intro ps
    induction ps with
    | nil => exact fun _ h => h
    | cons q qs ih =>
      rintro t ⟨l, r, e⟩
      apply ih
      simp only [KDTree.insert, e]
      exact insertRec_root p 0 l r q 0 t.size_
  exact key ps _ ⟨.nil, .nil, rfl⟩

/-! ### Range search -/

/-- For range search: among the points without NaN below a node, the usual order holds (so below a node with NaN at its axis there are none). -/
def Tree.Sorted [LE K] : Tree (Dbl K) → Prop
  | .nil => True
  | .node p axis l r => axis < 3 ∧ (∀ q ∈ l.points, q.Defined → q.coord axis ≤ p.coord axis) ∧
      (∀ q ∈ r.points, q.Defined → p.coord axis ≤ q.coord axis) ∧ l.Sorted ∧ r.Sorted

/-- Inserting keeps the order if the new point has a NaN, or if no point of the tree has one. -/
theorem insertRec_sorted [LinearOrder K] (t : Tree (Dbl K)) (pt : Vec3 (Dbl K)) (depth size : Nat) (h : t.Sorted)
    (hd : ¬ pt.Defined ∨ ∀ q ∈ t.points, q.Defined) : (insertRec t pt depth size).1.Sorted := by
  induction t generalizing depth with
  | nil =>
    simp only [insertRec, Tree.Sorted, Tree.points]
    exact ⟨Nat.mod_lt _ (by decide), by simp, by simp, trivial, trivial⟩
  | node p axis l r ihl ihr =>
    obtain ⟨h0, h1, h2, h3, h4⟩ := h
    have hdl : ¬ pt.Defined ∨ ∀ q ∈ l.points, q.Defined := hd.imp id fun h q hq => h q (by simp [Tree.points, hq])
    have hdr : ¬ pt.Defined ∨ ∀ q ∈ r.points, q.Defined := hd.imp id fun h q hq => h q (by simp [Tree.points, hq])
    have il1 := ihl (depth + 1) h3 hdl
    have ir1 := ihr (depth + 1) h4 hdr
    have pts : ∀ (t : Tree (Dbl K)) (d : Nat), ∀ q ∈ (insertRec t pt d size).1.points, q = pt ∨ q ∈ t.points := by
      intro t
      induction t with
      | nil => intro d q hq; simpa [insertRec, Tree.points] using hq
      | node p' a' l' r' i1 i2 =>
        intro d q hq
        unfold insertRec at hq
        split at hq
        · simp only [Tree.points, List.mem_append, List.mem_cons] at hq ⊢
          rcases hq with hq | hq | hq
          · rcases i1 _ q hq with h | h
            · exact .inl h
            · exact .inr (.inl h)
          · exact .inr (.inr (.inl hq))
          · exact .inr (.inr (.inr hq))
        · simp only [Tree.points, List.mem_append, List.mem_cons] at hq ⊢
          rcases hq with hq | hq | hq
          · exact .inr (.inl hq)
          · exact .inr (.inr (.inl hq))
          · rcases i2 _ q hq with h | h
            · exact .inl h
            · exact .inr (.inr (.inr h))
    unfold insertRec
    simp only [test_iff (fun a b => a < b) axis h0]
    by_cases hc : pt.coord axis < p.coord axis
    · simp only [hc, if_true]
      refine ⟨h0, ?_, h2, il1, h4⟩
      intro q hq hqd
      rcases pts l _ q hq with rfl | hq
      · cases hq : q.coord axis <;> cases hp : p.coord axis <;> simp_all
        exact hc.le
      · exact h1 q hq hqd
    · simp only [hc, if_false]
      refine ⟨h0, h1, ?_, h3, ir1⟩
      intro q hq hqd
      rcases pts r _ q hq with rfl | hq
      · rcases hd with hd | hd
        · exact absurd hqd hd
        · have e1 := coord_ne_nan hqd axis
          have e2 := coord_ne_nan (hd p (by simp [Tree.points])) axis
          cases hq : q.coord axis <;> cases hp : p.coord axis <;> simp_all
      · exact h2 q hq hqd

theorem inBox_defined [LinearOrder K] {lower upper p : Vec3 (Dbl K)} (h : inBox lower upper p = true) : p.Defined := by
  simp only [inBox, decide_eq_true_eq] at h
  obtain ⟨h1, _, h3, _, h5, _⟩ := h
  refine ⟨?_, ?_, ?_⟩ <;> intro e
  · rw [e] at h1; exact not_le_nan _ h1
  · rw [e] at h3; exact not_le_nan _ h3
  · rw [e] at h5; exact not_le_nan _ h5

theorem rangeSearchRec_sorted [LinearOrder K] (lower upper : Vec3 (Dbl K)) (t : Tree (Dbl K)) (acc : List (Vec3 (Dbl K))) (h : t.Sorted) :
    (rangeSearchRec lower upper t acc).Perm (acc ++ t.points.filter (inBox lower upper)) := by
  induction t generalizing acc with
  | nil => simp [rangeSearchRec, Tree.points]
  | node p axis l r ihl ihr =>
    obtain ⟨h0, h1, h2, h3, h4⟩ := h
    unfold rangeSearchRec
    simp only [test_iff (fun a b => a ≤ b) axis h0]
    set acc1 := (if lower.x ≤ p.x ∧ p.x ≤ upper.x ∧ lower.y ≤ p.y ∧ p.y ≤ upper.y ∧ lower.z ≤ p.z ∧ p.z ≤ upper.z
      then acc ++ [p] else acc) with hacc1
    have e1 : acc1 = acc ++ [p].filter (inBox lower upper) := by
      rw [hacc1]
      by_cases hb : inBox lower upper p = true
      · have := hb
        simp only [inBox, decide_eq_true_eq] at this
        rw [if_pos this]; simp [hb]
      · have := hb
        simp only [inBox, decide_eq_true_eq] at this
        rw [if_neg this]; simp [hb]
    set acc2 := (if lower.coord axis ≤ p.coord axis then rangeSearchRec lower upper l acc1 else acc1) with hacc2
    have e2 : acc2.Perm (acc1 ++ l.points.filter (inBox lower upper)) := by
      rw [hacc2]
      by_cases hc : lower.coord axis ≤ p.coord axis
      · rw [if_pos hc]; exact ihl acc1 h3
      · rw [if_neg hc]
        have : l.points.filter (inBox lower upper) = [] := by
          rw [List.filter_eq_nil_iff]
          intro q hq hb
          exact hc (le_trans' (inBox_coord hb axis).1 (h1 q hq (inBox_defined hb)))
        rw [this]; simp
    have e3 : (if p.coord axis ≤ upper.coord axis then rangeSearchRec lower upper r acc2 else acc2).Perm
        (acc2 ++ r.points.filter (inBox lower upper)) := by
      by_cases hc : p.coord axis ≤ upper.coord axis
      · rw [if_pos hc]; exact ihr acc2 h4
      · rw [if_neg hc]
        have : r.points.filter (inBox lower upper) = [] := by
          rw [List.filter_eq_nil_iff]
          intro q hq hb
          exact hc (le_trans' (h2 q hq (inBox_defined hb)) (inBox_coord hb axis).2)
        rw [this]; simp
    refine e3.trans ((List.Perm.append_right _ e2).trans ?_)
    rw [e1]
    simp only [Tree.points, List.filter_append, List.append_assoc]
    apply List.Perm.append_left
    have : List.filter (inBox lower upper) (p :: r.points) =
        List.filter (inBox lower upper) [p] ++ List.filter (inBox lower upper) r.points := by
      rw [← List.filter_append]; rfl
    rw [this, ← List.append_assoc, ← List.append_assoc]
    exact List.Perm.append_right _ List.perm_append_comm

/-- Whatever the tree is, the result holds only stored points in the box. -/
theorem rangeSearchRec_sound [LinearOrder K] (lower upper : Vec3 (Dbl K)) (t : Tree (Dbl K)) (acc : List (Vec3 (Dbl K))) :
    ∀ q ∈ rangeSearchRec lower upper t acc, q ∈ acc ∨ (q ∈ t.points ∧ inBox lower upper q = true) := by
  induction t generalizing acc with
  | nil => intro q hq; exact .inl (by simpa [rangeSearchRec] using hq)
  | node p axis l r ihl ihr =>
    intro q hq
    unfold rangeSearchRec at hq
    set acc1 := (if lower.x ≤ p.x ∧ p.x ≤ upper.x ∧ lower.y ≤ p.y ∧ p.y ≤ upper.y ∧ lower.z ≤ p.z ∧ p.z ≤ upper.z
      then acc ++ [p] else acc) with hacc1
    have e1 : ∀ q ∈ acc1, q ∈ acc ∨ (q ∈ (Tree.node p axis l r).points ∧ inBox lower upper q = true) := by
      intro q hq
      rw [hacc1] at hq
      split at hq
      · rename_i hb
        rcases List.mem_append.mp hq with hq | hq
        · exact .inl hq
        · simp only [List.mem_singleton] at hq
          subst hq
          exact .inr ⟨by simp [Tree.points], by simpa [inBox] using hb⟩
      · exact .inl hq
    have e2 : ∀ c : Prop, [Decidable c] → ∀ q ∈ (if c then rangeSearchRec lower upper l acc1 else acc1),
        q ∈ acc ∨ (q ∈ (Tree.node p axis l r).points ∧ inBox lower upper q = true) := by
      intro c _ q hq
      split at hq
      · rcases ihl acc1 q hq with h | h
        · exact e1 q h
        · exact .inr ⟨by simp [Tree.points, h.1], h.2⟩
      · exact e1 q hq
    simp only at hq
    split at hq
    · rcases ihr _ q hq with h | h
      · exact e2 _ q h
      · exact .inr ⟨by simp [Tree.points, h.1], h.2⟩
    · exact e2 _ q hq

/-! ### Nearest neighbour -/

/-- A state of the search: a point without NaN and its distance. -/
def GoodN [Arith K] (target : Vec3 K) (s : Vec3 (Dbl K) × Dbl K) : Prop := ∃ q : Vec3 K, s = (q.dbl, num (target.distanceSq q))

theorem nearestRec_placed [LinearOrder K] [Arith K] [MonoArith K] (target : Vec3 K) (t : Tree (Dbl K)) (h : t.Placed) (s : Vec3 (Dbl K) × Dbl K)
    (hs : GoodN target s) :
    GoodN target (nearestRec target.dbl t s) ∧ (nearestRec target.dbl t s).2 ≤ s.2 ∧
    (∀ q : Vec3 K, q.dbl ∈ t.points → (nearestRec target.dbl t s).2 ≤ num (target.distanceSq q)) ∧
    ((nearestRec target.dbl t s).1 = s.1 ∨ (nearestRec target.dbl t s).1 ∈ t.points) := by
  induction t generalizing s with
  | nil =>
    obtain ⟨q, rfl⟩ := hs
    refine ⟨⟨q, rfl⟩, ?_, by simp [Tree.points], .inl rfl⟩
    simp [nearestRec]
  | node p axis l r ihl ihr =>
    obtain ⟨h0, h1, h2, h3, h4⟩ := h
    unfold nearestRec
    simp only [test_iff (fun a b => a < b) axis h0]
    have hdiff : (if axis = 0 then target.dbl.x - p.x else if axis = 1 then target.dbl.y - p.y else target.dbl.z - p.z) =
        target.dbl.coord axis - p.coord axis := by
      rcases axis with _ | _ | _ | n <;> rfl
    rw [hdiff]
    set s1 := (if target.dbl.distanceSq p < s.2 then (p, target.dbl.distanceSq p) else s) with hs1
    have g1 : GoodN target s1 ∧ s1.2 ≤ s.2 ∧ (∀ q : Vec3 K, p = q.dbl → s1.2 ≤ num (target.distanceSq q)) ∧ (s1.1 = s.1 ∨ s1.1 = p) := by
      obtain ⟨b, rfl⟩ := hs
      rw [hs1]
      by_cases hp : p.Defined
      · obtain ⟨q, rfl⟩ := (defined_iff p).mp hp
        rw [dbl_distanceSq]
        by_cases hc : target.distanceSq q < target.distanceSq b
        · rw [if_pos (by simpa using hc)]
          refine ⟨⟨q, rfl⟩, by simpa using hc.le, ?_, .inr rfl⟩
          intro q' e
          have : q = q' := by
            cases q; cases q'; simpa [Vec3.dbl] using e
          subst this; simp
        · rw [if_neg (by simpa using hc)]
          refine ⟨⟨b, rfl⟩, by simp, ?_, .inl rfl⟩
          intro q' e
          have : q = q' := by
            cases q; cases q'; simpa [Vec3.dbl] using e
          subst this; simpa using not_lt.mp hc
      · rw [distanceSq_nan _ _ hp, if_neg (by simp)]
        refine ⟨⟨b, rfl⟩, by simp, ?_, .inl rfl⟩
        rintro q rfl
        exact absurd ((defined_iff _).mpr ⟨q, rfl⟩) hp
    obtain ⟨g1a, g1b, g1c, g1d⟩ := g1
    have key : ∀ near far : Tree (Dbl K),
        (∀ s, GoodN target s → GoodN target (nearestRec target.dbl near s) ∧ (nearestRec target.dbl near s).2 ≤ s.2 ∧
          (∀ q : Vec3 K, q.dbl ∈ near.points → (nearestRec target.dbl near s).2 ≤ num (target.distanceSq q)) ∧
          ((nearestRec target.dbl near s).1 = s.1 ∨ (nearestRec target.dbl near s).1 ∈ near.points)) →
        (∀ s, GoodN target s → GoodN target (nearestRec target.dbl far s) ∧ (nearestRec target.dbl far s).2 ≤ s.2 ∧
          (∀ q : Vec3 K, q.dbl ∈ far.points → (nearestRec target.dbl far s).2 ≤ num (target.distanceSq q)) ∧
          ((nearestRec target.dbl far s).1 = s.1 ∨ (nearestRec target.dbl far s).1 ∈ far.points)) →
        (∀ q : Vec3 K, q.dbl ∈ far.points → (target.dbl.coord axis - p.coord axis) * (target.dbl.coord axis - p.coord axis)
          ≤ num (target.distanceSq q)) →
        ∀ out, out = (if (target.dbl.coord axis - p.coord axis) * (target.dbl.coord axis - p.coord axis) <
            (nearestRec target.dbl near s1).2 then nearestRec target.dbl far (nearestRec target.dbl near s1)
            else nearestRec target.dbl near s1) →
        GoodN target out ∧ out.2 ≤ s.2 ∧ (∀ q : Vec3 K, p = q.dbl → out.2 ≤ num (target.distanceSq q)) ∧
        (∀ q : Vec3 K, q.dbl ∈ near.points → out.2 ≤ num (target.distanceSq q)) ∧
        (∀ q : Vec3 K, q.dbl ∈ far.points → out.2 ≤ num (target.distanceSq q)) ∧
        (out.1 = s.1 ∨ out.1 = p ∨ out.1 ∈ near.points ∨ out.1 ∈ far.points) := by
      intro near far hn hf hfar out hout
      obtain ⟨n1, n2, n3, n4⟩ := hn s1 g1a
      have m1 : (nearestRec target.dbl near s1).1 = s.1 ∨ (nearestRec target.dbl near s1).1 = p ∨
          (nearestRec target.dbl near s1).1 ∈ near.points ∨ (nearestRec target.dbl near s1).1 ∈ far.points := by
        rcases n4 with n4 | n4
        · rw [n4]; rcases g1d with e | e
          · exact Or.inl e
          · exact Or.inr (Or.inl e)
        · exact Or.inr (Or.inr (Or.inl n4))
      by_cases hc : (target.dbl.coord axis - p.coord axis) * (target.dbl.coord axis - p.coord axis) <
            (nearestRec target.dbl near s1).2
      · rw [if_pos hc] at hout
        obtain ⟨f1, f2, f3, f4⟩ := hf (nearestRec target.dbl near s1) n1
        subst hout
        refine ⟨f1, le_trans' f2 (le_trans' n2 g1b), fun q e => le_trans' f2 (le_trans' n2 (g1c q e)), fun q hq => le_trans' f2 (n3 q hq), f3, ?_⟩
        rcases f4 with f4 | f4
        · rw [f4]; exact m1
        · exact Or.inr (Or.inr (Or.inr f4))
      · rw [if_neg hc] at hout
        subst hout
        refine ⟨n1, le_trans' n2 g1b, fun q e => le_trans' n2 (g1c q e), n3, fun q hq => ?_, m1⟩
        obtain ⟨b, hb⟩ := n1
        have hd := hfar q hq
        rw [hb] at hc ⊢
        cases hx : (target.dbl.coord axis - p.coord axis) * (target.dbl.coord axis - p.coord axis) with
        | nan => rw [hx] at hd; exact absurd hd (not_nan_le _)
        | num x =>
          rw [hx] at hd hc
          simp only [num_lt, not_lt, num_le] at hc hd ⊢
          exact hc.trans hd
    by_cases hg : target.dbl.coord axis < p.coord axis
    · simp only [hg, if_true]
      obtain ⟨k1, k2, k3, k4, k5, k6⟩ := key l r (fun s hs => ihl h3 s hs) (fun s hs => ihr h4 s hs) (by
        intro q hq
        have hq2 := h2 _ hq
        rw [dbl_coord] at hq2 hg ⊢
        cases hp : p.coord axis with
        | nan => rw [hp] at hg; exact absurd hg (not_lt_nan _)
        | num c =>
          rw [hp] at hq2 hg
          simp only [num_lt, not_lt] at hq2 hg
          exact (square_right hg.le hq2).trans (distSq_ge_coord target q axis)) _ rfl
      refine ⟨k1, k2, ?_, ?_⟩
      · intro q hq
        simp only [Tree.points, List.mem_append, List.mem_cons] at hq
        rcases hq with hq | hq | hq
        · exact k4 q hq
        · exact k3 q hq.symm
        · exact k5 q hq
      · simp only [Tree.points, List.mem_append, List.mem_cons]
        tauto
    · simp only [hg, if_false]
      obtain ⟨k1, k2, k3, k4, k5, k6⟩ := key r l (fun s hs => ihr h4 s hs) (fun s hs => ihl h3 s hs) (by
        intro q hq
        have hq2 := h1 _ hq
        rw [dbl_coord] at hq2 hg ⊢
        cases hp : p.coord axis with
        | nan => rw [hp] at hq2; exact absurd hq2 (not_lt_nan _)
        | num c =>
          rw [hp] at hq2 hg
          simp only [num_lt, not_lt] at hq2 hg
          exact (square_left hg hq2.le).trans (distSq_ge_coord target q axis)) _ rfl
      refine ⟨k1, k2, ?_, ?_⟩
      · intro q hq
        simp only [Tree.points, List.mem_append, List.mem_cons] at hq
        rcases hq with hq | hq | hq
        · exact k5 q hq
        · exact k3 q hq.symm
        · exact k4 q hq
      · simp only [Tree.points, List.mem_append, List.mem_cons]
        tauto

end Cmm.KD
