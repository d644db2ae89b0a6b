import Verif.Spec.BVHSplit
import Verif.Lemmas.BVH
import Verif.Props.BVH
import Mathlib.Logic.Relation
/-! C105: how the builders of cmmcore/bvh.hpp divide and join the objects. -/
namespace Cmm.BVH
variable {K : Type} [Field K] [LinearOrder K]

omit [Field K] in
theorem TightBox.unique {b c : AABB K} {os : List (Obj K)} (hb : TightBox b os) (hc : TightBox c os) : b = c := by
  obtain ⟨h1, h2, h3, h4, h5, h6⟩ := (hb c).mpr ((hc c).mp (BoxLe.refl c))
  obtain ⟨g1, g2, g3, g4, g5, g6⟩ := (hc b).mpr ((hb b).mp (BoxLe.refl b))
  ext
  · exact le_antisymm g1 h1
  · exact le_antisymm g3 h3
  · exact le_antisymm g5 h5
  · exact le_antisymm h2 g2
  · exact le_antisymm h4 g4
  · exact le_antisymm h6 g6

omit [Field K] in
theorem TightBox.perm {b : AABB K} {os ps : List (Obj K)} (h : TightBox b os) (hp : os.Perm ps) : TightBox b ps := fun c => by
  rw [h c]; exact ⟨fun g o ho => g o (hp.mem_iff.mpr ho), fun g o ho => g o (hp.mem_iff.mp ho)⟩

theorem tight_fold {big low : K} {os : List (Obj K)} (hne : os ≠ []) (hr : ∀ o ∈ os, InRange big low o.bb) :
    TightBox (os.foldl (fun b o => b.merge o.bb) (AABB.init big low)) os := fun c => by
  rw [tight_mergeFold big low]
  refine ⟨fun h => h.2, fun h => ⟨?_, h⟩⟩
  obtain ⟨o, ho⟩ := List.exists_mem_of_ne_nil os hne
  obtain ⟨h1, h2, h3, h4, h5, h6⟩ := hr o ho
  obtain ⟨g1, g2, g3, g4, g5, g6⟩ := h o ho
  exact ⟨g1.trans h1, h4.trans g2, g3.trans h2, h5.trans g4, g5.trans h3, h6.trans g6⟩

omit [Field K] in
theorem BoxLe.min_coord {b c : AABB K} (h : BoxLe b c) (a : Nat) : c.min.coord a ≤ b.min.coord a := by
  obtain ⟨h1, _, h3, _, h5, _⟩ := h
  match a with
  | 0 => exact h1
  | 1 => exact h3
  | _ + 2 => exact h5

theorem extents_coord (b : AABB K) (a : Nat) : (computeExtents b).coord a = side b a := by
  match a with
  | 0 => rfl
  | 1 => rfl
  | _ + 2 => rfl

theorem Separates.perm {b : AABB K} {os ps : List (Obj K)} {a : Nat} (h : Separates b os a) (hp : os.Perm ps) : Separates b ps a := by
  obtain ⟨⟨o, ho, h1⟩, p, hq, h2⟩ := h
  exact ⟨⟨o, hp.mem_iff.mp ho, h1⟩, p, hp.mem_iff.mp hq, h2⟩

variable [IsStrictOrderedRing K]

theorem side_pos {b : AABB K} {os : List (Obj K)} {a : Nat} (hb : ∀ o ∈ os, BoxLe o.bb b) (h : Separates b os a) : 0 < side b a := by
  obtain ⟨⟨o, ho, h1⟩, _⟩ := h
  have := BoxLe.min_coord (hb o ho) a
  unfold mid at h1
  unfold side
  linarith

theorem splitAxes_mid (lib : Lib K) (b : AABB K) (axes : List Nat) (l : List (Obj K)) (hb : ∀ o ∈ l, BoxLe o.bb b)
    (hs : axes.Pairwise fun x y => side b y ≤ side b x) :
    (∀ pr, splitAxes lib (computeExtents b) b axes l = .inl pr → ∃ a ∈ axes, (∀ o ∈ pr.1, o.bb.min.coord a < mid b a) ∧
      (∀ o ∈ pr.2, mid b a ≤ o.bb.min.coord a) ∧ ∀ x ∈ axes, Separates b l x → side b x ≤ side b a) ∧
    (∀ l', splitAxes lib (computeExtents b) b axes l = .inr l' → ∀ x ∈ axes, ¬ Separates b l x) := by
  induction axes generalizing l with
  | nil => exact ⟨fun pr h => by simp [splitAxes] at h, fun l' _ x hx => by simp at hx⟩
  | cons a as ih =>
    obtain ⟨hs1, hs2⟩ := List.pairwise_cons.mp hs
    have em : (b.min.coord a + b.max.coord a) * (1 / 2) = mid b a := by unfold mid; ring
    simp only [splitAxes, em, extents_coord]
    by_cases h0 : 0 < side b a
    · rw [if_pos h0]
      have hp := lib.partition_perm (fun o => decide (o.bb.min.coord a < mid b a)) l
      have hl := lib.partition_left (fun o => decide (o.bb.min.coord a < mid b a)) l
      have hr := lib.partition_right (fun o => decide (o.bb.min.coord a < mid b a)) l
      generalize lib.partition (fun o => decide (o.bb.min.coord a < mid b a)) l = q at hp hl hr
      by_cases hc : (!q.1.isEmpty && !q.2.isEmpty) = true
      · rw [if_pos hc]
        refine ⟨fun pr h => ?_, fun l' h => by simp at h⟩
        cases h
        refine ⟨a, by simp, fun o ho => by simpa using hl o ho, fun o ho => by simpa using hr o ho, fun x hx _ => ?_⟩
        rcases List.mem_cons.mp hx with rfl | hx
        · exact le_refl _
        · exact hs1 x hx
      · rw [if_neg hc]
        obtain ⟨i1, i2⟩ := ih (q.1 ++ q.2) (fun o ho => hb o (hp.mem_iff.mp ho)) hs2
        have hns : ¬ Separates b l a := by
          rintro ⟨⟨o, ho, h1⟩, p, hq, h2⟩
          have ho := hp.mem_iff.mpr ho
          have hq := hp.mem_iff.mpr hq
          simp only [Bool.and_eq_true, Bool.not_eq_true', List.isEmpty_eq_false_iff, not_and, not_not] at hc
          by_cases e : q.1 = []
          · rw [e, List.nil_append] at ho
            exact absurd h1 (by simpa using hr o ho)
          · rw [hc e, List.append_nil] at hq
            exact absurd h2 (not_le.2 (by simpa using hl p hq))
        refine ⟨fun pr h => ?_, fun l' h x hx hx' => ?_⟩
        · obtain ⟨y, hy, j1, j2, j3⟩ := i1 pr h
          refine ⟨y, by simp [hy], j1, j2, fun x hx hx' => ?_⟩
          rcases List.mem_cons.mp hx with rfl | hx
          · exact absurd hx' hns
          · exact j3 x hx (hx'.perm hp.symm)
        · rcases List.mem_cons.mp hx with rfl | hx
          · exact hns hx'
          · exact i2 l' h x hx (hx'.perm hp.symm)
    · rw [if_neg h0]
      obtain ⟨i1, i2⟩ := ih l hb hs2
      have hns : ¬ Separates b l a := fun h => h0 (side_pos hb h)
      refine ⟨fun pr h => ?_, fun l' h x hx hx' => ?_⟩
      · obtain ⟨y, hy, j1, j2, j3⟩ := i1 pr h
        refine ⟨y, by simp [hy], j1, j2, fun x hx hx' => ?_⟩
        rcases List.mem_cons.mp hx with rfl | hx
        · exact absurd hx' hns
        · exact j3 x hx hx'
      · rcases List.mem_cons.mp hx with rfl | hx
        · exact hns hx'
        · exact i2 l' h x hx hx'

theorem splitObjects_mid (lib : Lib K) (big low : K) (l : List (Obj K)) (hl : 2 ≤ l.length) (hr : ∀ o ∈ l, InRange big low o.bb)
    {b : AABB K} (hb : TightBox b l) : SplitOk b (splitObjects lib big low l).1 (splitObjects lib big low l).2 := by
  have hne : l ≠ [] := by rintro rfl; simp at hl
  have hperm := splitObjects_perm lib big low l
  obtain ⟨hn1, hn2⟩ := splitObjects_ne lib big low l hl
  have et := (tight_fold hne hr).unique hb
  have hle : ∀ o ∈ l, BoxLe o.bb b := fun o ho => hb.ge ho
  have half : ∀ m : List (Obj K), (m.take (m.length / 2)).length = ((m.take (m.length / 2)).length + (m.drop (m.length / 2)).length) / 2 := by
    intro m; simp only [List.length_take, List.length_drop]; omega
  have key : ∀ p : List (Obj K) × List (Obj K), splitObjects lib big low l = p → SplitOk b p.1 p.2 := by
    intro p hp
    rw [hp] at hperm hn1 hn2
    rw [splitObjects, if_neg (by omega)] at hp
    simp only [et] at hp
    split at hp
    · rename_i h0
      subst hp
      refine Or.inr ⟨fun a ha hs => ?_, half l⟩
      have := side_pos hle (hs.perm hperm)
      rw [← extents_coord] at this
      match a, ha with
      | 0, _ => exact absurd this (by rw [show (computeExtents b).coord 0 = 0 from h0.1]; exact lt_irrefl _)
      | 1, _ => exact absurd this (by rw [show (computeExtents b).coord 1 = 0 from h0.2.1]; exact lt_irrefl _)
      | 2, _ => exact absurd this (by rw [show (computeExtents b).coord 2 = 0 from h0.2.2]; exact lt_irrefl _)
    · have hax := lib.sortAxes_perm fun i => (computeExtents b).coord i
      have has := lib.sortAxes_sorted (fun i => (computeExtents b).coord i) fun _ => le_refl _
      simp only [extents_coord] at hax has
      simp only [extents_coord] at hp
      have mem : ∀ a, a ∈ lib.sortAxes (fun i => side b i) ↔ a < 3 := fun a => by
        rw [hax.mem_iff]; simp; omega
      obtain ⟨i1, i2⟩ := splitAxes_mid lib b _ l hle has
      split at hp
      · rename_i pr heq
        subst hp
        obtain ⟨a, ha, j1, j2, j3⟩ := i1 pr heq
        exact Or.inl ⟨a, (mem a).1 ha, j1, j2, hn1, hn2, fun x hx hs => j3 x ((mem x).2 hx) (hs.perm hperm)⟩
      · rename_i l' heq
        subst hp
        exact Or.inr ⟨fun a ha hs => i2 l' heq a ((mem a).2 ha) (hs.perm hperm), half l'⟩
  exact key _ rfl

theorem SplitOk.perm {b : AABB K} {l r l' r' : List (Obj K)} (h : SplitOk b l r) (hl : l.Perm l') (hr : r.Perm r') : SplitOk b l' r' := by
  have hs : ∀ a, Separates b (l' ++ r') a → Separates b (l ++ r) a := fun a g => g.perm (hl.append hr).symm
  rcases h with ⟨a, ha, h1, h2, h3, h4, h5⟩ | ⟨h1, h2⟩
  · refine Or.inl ⟨a, ha, fun o ho => h1 o (hl.mem_iff.mpr ho), fun o ho => h2 o (hr.mem_iff.mpr ho), ?_, ?_, fun x hx g => h5 x hx (hs x g)⟩
    · rintro rfl; exact h3 hl.eq_nil
    · rintro rfl; exact h4 hr.eq_nil
  · exact Or.inr ⟨fun a ha g => h1 a ha (hs a g), by rw [← hl.length_eq, ← hr.length_eq]; exact h2⟩

/-- **C105**: every inner node of a tree built top-down divides its objects by the middle plane of its own box, across the longest axis for
which objects lie on both sides of that plane; only if there is no such axis are they divided into two halves. -/
theorem C105_top_down_split (lib : Lib K) (big low : K) (objects : List (Obj K)) (hr : ∀ o ∈ objects, InRange big low o.bb) :
    MidSplit (build lib big low objects false) := by
  unfold build
  simp only [Bool.false_eq_true, if_false]
  induction objects using buildTopDown.induct lib big low with
  | case1 => rw [buildTopDown]; exact .nil
  | case2 o => rw [buildTopDown]; exact .leaf _ _
  | case3 o o' rest lr h =>
    exfalso
    have hne := splitObjects_ne lib big low (o :: o' :: rest) (by simp)
    have hp := (splitObjects_perm lib big low (o :: o' :: rest)).length_eq
    have h1 := List.length_pos_iff.mpr hne.1
    have h2 := List.length_pos_iff.mpr hne.2
    simp only [List.length_append] at hp
    simp only [lr] at h
    omega
  | case4 o o' rest lr h ih1 ih2 =>
    have hp := splitObjects_perm lib big low (o :: o' :: rest)
    have hr1 : ∀ x ∈ lr.1, InRange big low x.bb := fun x hx => hr x (hp.mem_iff.mp (by simp [lr] at hx; simp [hx]))
    have hr2 : ∀ x ∈ lr.2, InRange big low x.bb := fun x hx => hr x (hp.mem_iff.mp (by simp [lr] at hx; simp [hx]))
    have hw := buildTopDown_spec lib big low (o :: o' :: rest) hr
    have p1 := (buildTopDown_spec lib big low lr.1 hr1).1
    have p2 := (buildTopDown_spec lib big low lr.2 hr2).1
    simp only [lr] at h
    obtain ⟨w1, w2, _⟩ := hw
    have w2 := w2 (by simp)
    rw [buildTopDown, dif_neg h] at w1 w2 ⊢
    exact .inner _ _ _ (ih1 hr1) (ih2 hr2) ((splitObjects_mid lib big low _ (by simp) hr (w2.tight.perm w1)).perm p1.symm p2.symm)

omit [IsStrictOrderedRing K] in
theorem bestAxis_longest (big low : K) (ls : List (Leaf K)) : findBestAxis big low ls < 3 ∧
    ∀ a < 3, side (ls.foldl (fun b l => b.merge l.bbox) (AABB.init big low)) a ≤
      side (ls.foldl (fun b l => b.merge l.bbox) (AABB.init big low)) (findBestAxis big low ls) := by
  unfold findBestAxis
  dsimp only
  generalize ls.foldl (fun b l => b.merge l.bbox) (AABB.init big low) = b
  have e0 : (computeExtents b).x = side b 0 := rfl
  have e1 : (computeExtents b).y = side b 1 := rfl
  have e2 : (computeExtents b).z = side b 2 := rfl
  rw [e0, e1, e2]
  have all : ∀ v : K, side b 0 ≤ v → side b 1 ≤ v → side b 2 ≤ v → ∀ a < 3, side b a ≤ v := by
    intro v h0 h1 h2 a ha
    match a, ha with
    | 0, _ => exact h0
    | 1, _ => exact h1
    | 2, _ => exact h2
  split
  · rename_i h
    exact ⟨by omega, all _ (le_refl _) h.1.le h.2.le⟩
  · rename_i h
    rw [not_and_or, not_lt, not_lt] at h
    split
    · rename_i g
      refine ⟨by omega, all _ ?_ (le_refl _) g.le⟩
      rcases h with h | h
      · exact h
      · exact h.trans g.le
    · rename_i g
      rw [not_lt] at g
      refine ⟨by omega, all _ ?_ g (le_refl _)⟩
      rcases h with h | h
      · exact h.trans g
      · exact h

omit [IsStrictOrderedRing K] in
theorem tight_leaves {big low : K} {ls : List (Leaf K)} (hne : ls ≠ []) (h : ∀ l ∈ ls, LeafOk l)
    (hr : ∀ l ∈ ls, ∀ o ∈ l.node.objs, InRange big low o.bb) :
    TightBox (ls.foldl (fun b l => b.merge l.bbox) (AABB.init big low)) ((ls.map Leaf.node).flatMap Tree.objs) := fun c => by
  have g : ∀ (ls : List (Leaf K)) b, BoxLe (ls.foldl (fun b l => b.merge l.bbox) b) c ↔ BoxLe b c ∧ ∀ l ∈ ls, BoxLe l.bbox c := by
    intro ls
    induction ls with
    | nil => intro b; simp
    | cons l ls ih =>
      intro b
      simp only [List.foldl_cons, ih, List.mem_cons, forall_eq_or_imp]
      exact ⟨fun ⟨h1, h2⟩ => ⟨(le_merge_left b _).trans h1, (le_merge_right b _).trans h1, h2⟩, fun ⟨h1, h2, h3⟩ => ⟨merge_le h1 h2, h3⟩⟩
  rw [g]
  simp only [List.mem_flatMap, List.mem_map]
  constructor
  · rintro ⟨_, h2⟩ o ⟨t, ⟨l, hl, rfl⟩, ho⟩
    exact ((h l hl).tight c).mp (h2 l hl) o ho
  · intro h2
    have h3' : ∀ l ∈ ls, BoxLe l.bbox c := fun l hl => ((h l hl).tight c).mpr fun o ho => h2 o ⟨_, ⟨l, hl, rfl⟩, ho⟩
    refine ⟨?_, h3'⟩
    obtain ⟨l, hl⟩ := List.exists_mem_of_ne_nil ls hne
    obtain ⟨h1, h2, h3, h4, h5, h6⟩ := InRange_of_tight (h l hl).tight (h l hl).1.objs_ne (hr l hl)
    obtain ⟨g1, g2, g3, g4, g5, g6⟩ := h3' l hl
    exact ⟨g1.trans h1, h4.trans g2, g3.trans h2, h5.trans g4, g5.trans h3, h6.trans g6⟩

omit [IsStrictOrderedRing K] in
theorem LeafOk.node_eq {l : Leaf K} (h : LeafOk l) : ∃ o x y, l.node = .node l.bbox o x y := by
  obtain ⟨_, h2⟩ := h
  cases hn : l.node with
  | nil => rw [hn] at h2; simp [Tree.box?] at h2
  | node b o x y => rw [hn] at h2; simp [Tree.box?] at h2; exact ⟨o, x, y, by rw [h2]⟩

omit [IsStrictOrderedRing K] in
theorem joined_pairUp (ls : List (Leaf K)) (h : ∀ l ∈ ls, LeafOk l) : Joined (ls.map Leaf.node) ((pairUp ls).map Leaf.node) := by
  induction ls using pairUp.induct with
  | case1 a b rest ih =>
    obtain ⟨o, x, y, ea⟩ := (h a (by simp)).node_eq
    obtain ⟨p, u, v, eb⟩ := (h b (by simp)).node_eq
    simp only [pairUp, List.map_cons, ea, eb]
    exact .two _ _ _ _ _ _ _ _ _ _ _ (fun e => ⟨fun g => ⟨(le_merge_left _ _).trans g, (le_merge_right _ _).trans g⟩, fun g => merge_le g.1 g.2⟩)
      (ih fun l hl => h l (by simp [hl]))
  | case2 a => exact .one _
  | case3 => exact .nil

omit [IsStrictOrderedRing K] in
theorem mergeLoop_rounds (lib : Lib K) (big low : K) (ls : List (Leaf K)) (h : ∀ l ∈ ls, LeafOk l)
    (hr : ∀ l ∈ ls, ∀ o ∈ l.node.objs, InRange big low o.bb) :
    Relation.ReflTransGen Round (ls.map Leaf.node) ((mergeLoop lib big low ls).map Leaf.node) := by
  induction ls using mergeLoop.induct lib big low with
  | case1 ls hl ih =>
    have hp := lib.sortLeaves_perm (findBestAxis big low ls) ls
    have hso := lib.sortLeaves_sorted (findBestAxis big low ls) ls fun _ _ => le_refl _
    have hok : ∀ l ∈ lib.sortLeaves (findBestAxis big low ls) ls, LeafOk l := fun l hl => h l (hp.mem_iff.mp hl)
    obtain ⟨p1, p2⟩ := pairUp_spec _ hok
    rw [mergeLoop, dif_pos hl]
    refine Relation.ReflTransGen.head ?_ (ih p1 ?_)
    · obtain ⟨b1, b2⟩ := bestAxis_longest big low ls
      refine ⟨by rw [List.length_map]; omega, _, b1, _, tight_leaves (by rintro rfl; simp at hl) h hr, b2, _, hp.map _, ?_, joined_pairUp _ hok⟩
      rw [List.pairwise_map]
      refine hso.imp_of_mem fun {a b} ha hb hab => ?_
      obtain ⟨_, _, _, ea⟩ := (hok a ha).node_eq
      obtain ⟨_, _, _, eb⟩ := (hok b hb).node_eq
      rw [ea, eb]
      exact hab
    · intro l hl o ho
      have : o ∈ (pairUp (lib.sortLeaves (findBestAxis big low ls) ls)).flatMap fun l => l.node.objs := List.mem_flatMap.mpr ⟨l, hl, ho⟩
      rw [p2, (hp.flatMap_right fun l => l.node.objs).mem_iff] at this
      obtain ⟨l', hl', ho'⟩ := List.mem_flatMap.mp this
      exact hr l' hl' o ho'
  | case2 ls hl =>
    rw [mergeLoop, dif_neg hl]

omit [IsStrictOrderedRing K] in
/-- **C105**: the tree built bottom-up arises from the single objects in rounds; in each, the trees are ordered by where they begin along
an axis on which everything together is longest, and neighbours are joined. -/
theorem C105_bottom_up_rounds (lib : Lib K) (big low : K) (objects : List (Obj K)) (hne : objects ≠ []) (hr : ∀ o ∈ objects, InRange big low o.bb) :
    Relation.ReflTransGen Round (objects.map fun o => .node o.bb (some o) .nil .nil) [build lib big low objects true] := by
  have h0 : ∀ l ∈ objects.map (fun o => (⟨o.bb, .node o.bb (some o) .nil .nil⟩ : Leaf K)), LeafOk l := by
    intro l hl
    simp only [List.mem_map] at hl
    obtain ⟨o, _, rfl⟩ := hl
    exact ⟨WellBuilt.leaf o, rfl⟩
  have hm := mergeLoop_rounds lib big low _ h0 (by
    intro l hl
    simp only [List.mem_map] at hl
    obtain ⟨o, ho, rfl⟩ := hl
    simpa [Tree.objs] using hr o ho)
  obtain ⟨_, _, m3, m4⟩ := mergeLoop_spec lib big low _ h0
  have m4 := m4 (by simpa using hne)
  rw [List.map_map] at hm
  have e : build lib big low objects true = buildBottomUp lib big low objects := rfl
  rw [e, buildBottomUp]
  revert hm m3 m4
  generalize mergeLoop lib big low (objects.map fun o => (⟨o.bb, .node o.bb (some o) .nil .nil⟩ : Leaf K)) = r
  intro hm m3 m4
  match r with
  | [] => exact absurd rfl m4
  | [l] => exact hm
  | _ :: _ :: _ => simp at m3

/-- The three objects of C11 satisfy the hypotheses; the long axis is the first one. -/
example : sampleObjs ≠ [] ∧ (∀ o ∈ sampleObjs, InRange (100 : ℚ) (-100) o.bb) :=
  ⟨by decide +kernel, by simp [sampleObjs, InRange]; norm_num⟩
example : Separates (K := ℚ) ⟨⟨0, 0, 0⟩, ⟨3, 1, 1⟩⟩ sampleObjs 0 ∧ ¬ Separates (K := ℚ) ⟨⟨0, 0, 0⟩, ⟨3, 1, 1⟩⟩ sampleObjs 1 := by
  unfold Separates
  decide +kernel

end Cmm.BVH
