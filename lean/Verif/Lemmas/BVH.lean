import Verif.Spec.BVH
import Verif.Lemmas.AABB
import Mathlib.Tactic.Ring
namespace Cmm.BVH
variable {K : Type}

theorem WellBuilt.objs_ne [LE K] {t : Tree K} (h : WellBuilt t) : t.objs ≠ [] := by
  induction h with
  | leaf o => simp [Tree.objs]
  | inner b l r _ _ _ ih1 ih2 => simp [Tree.objs, ih1]

theorem WellBuilt.tight [LinearOrder K] {b : AABB K} {o : Option (Obj K)} {l r : Tree K}
    (h : WellBuilt (.node b o l r)) : TightBox b (Tree.node b o l r).objs := by
  cases h with
  | leaf o => intro c; simp [Tree.objs]
  | inner b l r _ _ h3 => simpa [Tree.objs] using h3

theorem WellBuilt.isNil [LE K] {t : Tree K} (h : WellBuilt t) : t.isNil = false := by
  cases h <;> rfl

theorem TightBox.ge [LinearOrder K] {b : AABB K} {os : List (Obj K)} (h : TightBox b os) {o : Obj K} (ho : o ∈ os) :
    BoxLe o.bb b := (h b).mp (BoxLe.refl b) o ho

section split
variable [Arith K] [LE K] [LT K] [DecidableLT K] [Min K] [Max K] [DecidableEq K]

omit [Min K] [Max K] [DecidableEq K] in
theorem splitAxes_ne (lib : Lib K) (e : Vec3 K) (t : AABB K) (axes : List Nat) (l : List (Obj K))
    (pr : List (Obj K) × List (Obj K)) (h : splitAxes lib e t axes l = .inl pr) : pr.1 ≠ [] ∧ pr.2 ≠ [] := by
  induction axes generalizing l with
  | nil => simp [splitAxes] at h
  | cons a as ih =>
    simp only [splitAxes] at h
    split at h
    · split at h
      · rename_i hc
        cases h
        simpa using hc
      · exact ih _ h
    · exact ih _ h

/-- With at least two objects both halves are non-empty. -/
theorem splitObjects_ne (lib : Lib K) (big low : K) (l : List (Obj K)) (hl : 2 ≤ l.length) :
    (splitObjects lib big low l).1 ≠ [] ∧ (splitObjects lib big low l).2 ≠ [] := by
  have half : ∀ l : List (Obj K), 2 ≤ l.length → l.take (l.length / 2) ≠ [] ∧ l.drop (l.length / 2) ≠ [] := by
    intro l hl
    constructor
    · intro h
      have := congrArg List.length h
      simp only [List.length_take, List.length_nil] at this; omega
    · intro h
      have := congrArg List.length h
      simp only [List.length_drop, List.length_nil] at this; omega
  unfold splitObjects
  have h : ¬ l.length ≤ 1 := by omega
  simp only [h, if_false]
  split
  · exact half l hl
  · have := splitAxes_perm lib (computeExtents (l.foldl (fun b o => b.merge o.bb) (AABB.init big low)))
      (l.foldl (fun b o => b.merge o.bb) (AABB.init big low))
      (lib.sortAxes fun i => (computeExtents (l.foldl (fun b o => b.merge o.bb) (AABB.init big low))).coord i) l
    split
    · rename_i pr heq; exact splitAxes_ne _ _ _ _ _ pr heq
    · rename_i l' heq
      rw [heq] at this
      exact half l' (by rw [this.length_eq]; exact hl)

end split

/-! builders -/
section build
variable [Arith K] [LinearOrder K]

theorem tight_mergeFold (big low : K) (os : List (Obj K)) (b c : AABB K) :
    BoxLe (os.foldl (fun b o => b.merge o.bb) b) c ↔ BoxLe b c ∧ ∀ o ∈ os, BoxLe o.bb c := by
  induction os generalizing b with
  | nil => simp
  | cons o os ih =>
    simp only [List.foldl_cons, ih, List.mem_cons, forall_eq_or_imp]
    constructor
    · rintro ⟨h1, h2⟩
      exact ⟨(le_merge_left b _).trans h1, (le_merge_right b _).trans h1, h2⟩
    · rintro ⟨h1, h2, h3⟩
      exact ⟨merge_le h1 h2, h3⟩

theorem InRange_of_tight {big low : K} {b : AABB K} {os : List (Obj K)} (h : TightBox b os) (hne : os ≠ [])
    (hr : ∀ o ∈ os, InRange big low o.bb) : InRange big low b := by
  obtain ⟨o, os', rfl⟩ := List.exists_cons_of_ne_nil hne
  obtain ⟨h1, h2, h3, h4, h5, h6⟩ := hr o (by simp)
  obtain ⟨g1, g2, g3, g4, g5, g6⟩ := h.ge (o := o) (by simp)
  exact ⟨g1.trans h1, g3.trans h2, g5.trans h3, h4.trans g2, h5.trans g4, h6.trans g6⟩

theorem tight_merge {a b : AABB K} {os ps : List (Obj K)} (ha : TightBox a os) (hb : TightBox b ps) :
    TightBox (a.merge b) (os ++ ps) := by
  intro c
  constructor
  · intro h o ho
    rcases List.mem_append.mp ho with ho | ho
    · exact (ha c).mp ((le_merge_left a b).trans h) o ho
    · exact (hb c).mp ((le_merge_right a b).trans h) o ho
  · intro h
    exact merge_le ((ha c).mpr fun o ho => h o (by simp [ho])) ((hb c).mpr fun o ho => h o (by simp [ho]))

theorem buildTopDown_spec (lib : Lib K) (big low : K) (objects : List (Obj K))
    (hr : ∀ o ∈ objects, InRange big low o.bb) :
    (buildTopDown lib big low objects).objs.Perm objects ∧
    (objects ≠ [] → WellBuilt (buildTopDown lib big low objects)) ∧
    (objects = [] → buildTopDown lib big low objects = .nil) := by
  induction objects using buildTopDown.induct lib big low with
  | case1 => simp [buildTopDown, Tree.objs]
  | case2 o =>
    rw [buildTopDown]
    exact ⟨by simp [Tree.objs], fun _ => WellBuilt.leaf o, by simp⟩
  | case3 o o' rest lr h =>
    exfalso
    have hne := splitObjects_ne lib big low (o :: o' :: rest) (by simp)
    have hp := (splitObjects_perm lib big low (o :: o' :: rest)).length_eq
    have h1 := List.length_pos_iff.mpr hne.1
    have h2 := List.length_pos_iff.mpr hne.2
    simp only [List.length_append] at hp
    simp only [lr] at h
    omega
  | case4 o o' rest lr h ih1 ih2 =>
    have hne := splitObjects_ne lib big low (o :: o' :: rest) (by simp)
    have hp := splitObjects_perm lib big low (o :: o' :: rest)
    have hr1 : ∀ x ∈ lr.1, InRange big low x.bb := fun x hx => hr x (hp.mem_iff.mp (by simp [lr] at hx; simp [hx]))
    have hr2 : ∀ x ∈ lr.2, InRange big low x.bb := fun x hx => hr x (hp.mem_iff.mp (by simp [lr] at hx; simp [hx]))
    obtain ⟨l1, l2, _⟩ := ih1 hr1
    obtain ⟨r1, r2, _⟩ := ih2 hr2
    have wl := l2 hne.1
    have wr := r2 hne.2
    rw [buildTopDown]
    simp only [lr] at h
    rw [dif_neg h]
    refine ⟨?_, fun _ => ?_, by simp⟩
    · simp only [Tree.objs, Option.toList, List.nil_append]
      exact (l1.append r1).trans hp
    · apply WellBuilt.inner _ _ _ wl wr
      change TightBox (mergeChild (mergeChild (AABB.init big low) (buildTopDown lib big low lr.1))
        (buildTopDown lib big low lr.2)) ((buildTopDown lib big low lr.1).objs ++ (buildTopDown lib big low lr.2).objs)
      cases hL : buildTopDown lib big low lr.1 with
      | nil => rw [hL] at wl; cases wl
      | node bl ol ll rl =>
        cases hR : buildTopDown lib big low lr.2 with
        | nil => rw [hR] at wr; cases wr
        | node br or lr' rr =>
          rw [hL] at wl l1
          rw [hR] at wr r1
          have tl := wl.tight
          have tr := wr.tight
          have hin : InRange big low bl := InRange_of_tight tl wl.objs_ne fun x hx => hr1 x (l1.mem_iff.mp hx)
          simp only [mergeChild, init_merge big low bl hin]
          exact tight_merge tl tr

/-- A leaf entry of the bottom-up construction: its box is its node's box and the node is well built. -/
def LeafOk (l : Leaf K) : Prop := WellBuilt l.node ∧ l.node.box? = some l.bbox

theorem LeafOk.tight {l : Leaf K} (h : LeafOk l) : TightBox l.bbox l.node.objs := by
  obtain ⟨h1, h2⟩ := h
  cases hn : l.node with
  | nil => rw [hn] at h1; cases h1
  | node b o x y =>
    rw [hn] at h1 h2
    simp [Tree.box?] at h2
    subst h2
    exact h1.tight

theorem pairUp_spec (ls : List (Leaf K)) (h : ∀ l ∈ ls, LeafOk l) :
    (∀ l ∈ pairUp ls, LeafOk l) ∧ (pairUp ls).flatMap (fun l => l.node.objs) = ls.flatMap (fun l => l.node.objs) := by
  induction ls using pairUp.induct with
  | case1 a b rest ih =>
    obtain ⟨i1, i2⟩ := ih fun l hl => h l (by simp [hl])
    have ha := h a (by simp)
    have hb := h b (by simp)
    constructor
    · intro l hl
      simp only [pairUp, List.mem_cons] at hl
      rcases hl with rfl | hl
      · exact ⟨WellBuilt.inner _ _ _ ha.1 hb.1 (tight_merge ha.tight hb.tight), rfl⟩
      · exact i1 l hl
    · simp [pairUp, i2, Tree.objs]
  | case2 a => simp only [pairUp]; exact ⟨h, trivial⟩
  | case3 => simp only [pairUp]; exact ⟨h, trivial⟩

theorem mergeLoop_spec (lib : Lib K) (big low : K) (ls : List (Leaf K)) (h : ∀ l ∈ ls, LeafOk l) :
    (∀ l ∈ mergeLoop lib big low ls, LeafOk l) ∧
    ((mergeLoop lib big low ls).flatMap (fun l => l.node.objs)).Perm (ls.flatMap (fun l => l.node.objs)) ∧
    (mergeLoop lib big low ls).length ≤ 1 ∧ (ls ≠ [] → mergeLoop lib big low ls ≠ []) := by
  induction ls using mergeLoop.induct lib big low with
  | case1 ls hl ih =>
    have hp := lib.sortLeaves_perm (findBestAxis big low ls) ls
    obtain ⟨p1, p2⟩ := pairUp_spec (lib.sortLeaves (findBestAxis big low ls) ls) fun l hl => h l (hp.mem_iff.mp hl)
    obtain ⟨i1, i2, i3, i4⟩ := ih p1
    rw [mergeLoop, dif_pos hl]
    refine ⟨i1, i2.trans ?_, i3, fun _ => i4 ?_⟩
    · rw [p2]; exact hp.flatMap_right _
    · intro he
      have := congrArg List.length he
      rw [length_pairUp, hp.length_eq] at this
      simp at this; omega
  | case2 ls hl =>
    rw [mergeLoop, dif_neg hl]
    exact ⟨h, List.Perm.refl _, by omega, id⟩

theorem buildBottomUp_spec (lib : Lib K) (big low : K) (objects : List (Obj K)) :
    (buildBottomUp lib big low objects).objs.Perm objects ∧
    (objects ≠ [] → WellBuilt (buildBottomUp lib big low objects)) ∧
    (objects = [] → buildBottomUp lib big low objects = .nil) := by
  unfold buildBottomUp
  have h0 : ∀ l ∈ objects.map (fun o => (⟨o.bb, .node o.bb (some o) .nil .nil⟩ : Leaf K)), LeafOk l := by
    intro l hl
    simp only [List.mem_map] at hl
    obtain ⟨o, _, rfl⟩ := hl
    exact ⟨WellBuilt.leaf o, rfl⟩
  have hobj : (objects.map (fun o => (⟨o.bb, .node o.bb (some o) .nil .nil⟩ : Leaf K))).flatMap (fun l => l.node.objs)
      = objects := by
    induction objects with
    | nil => rfl
    | cons o os ih =>
      simp only [List.map_cons, List.flatMap_cons]
      rw [ih (fun l hl => h0 l (by simp only [List.map_cons, List.mem_cons]; exact Or.inr hl))]
      simp [Tree.objs]
  obtain ⟨m1, m2, m3, m4⟩ := mergeLoop_spec lib big low _ h0
  rw [hobj] at m2
  cases hm : mergeLoop lib big low (objects.map (fun o => (⟨o.bb, .node o.bb (some o) .nil .nil⟩ : Leaf K))) with
  | nil =>
    rw [hm] at m2 m4
    have : objects = [] := by simpa using m2.symm.eq_nil
    subst this
    simp [Tree.objs]
  | cons l ls =>
    rw [hm] at m1 m2 m3
    have : ls = [] := by
      rw [← List.length_eq_zero_iff]; simp at m3; exact List.length_eq_zero_iff.mpr m3
    subst this
    simp only [List.flatMap_cons, List.flatMap_nil, List.append_nil] at m2
    refine ⟨m2, fun _ => (m1 l (by simp)).1, ?_⟩
    rintro rfl
    have := (m1 l (by simp)).1.objs_ne
    exact absurd m2.eq_nil this

end build

/-! queries -/

theorem traverse_spec [LinearOrder K] (q : AABB K) {t : Tree K} (h : WellBuilt t) (acc : List (Obj K)) :
    traverse q t acc = acc ++ t.objs.filter (fun o => o.bb.intersects q) := by
  induction h generalizing acc with
  | leaf o =>
    by_cases hi : o.bb.intersects q = true
    · simp [traverse, Tree.objs, hi]
    · simp [traverse, Tree.objs, hi]
  | inner b l r h1 h2 h3 ih1 ih2 =>
    simp only [traverse, Tree.objs, Option.toList, List.nil_append]
    by_cases hi : b.intersects q = true
    · rw [if_pos hi, ih1, ih2]
      simp [List.filter_append]
    · rw [if_neg hi]
      have : (l.objs ++ r.objs).filter (fun o => o.bb.intersects q) = [] := by
        rw [List.filter_eq_nil_iff]
        intro o ho hc
        exact hi (intersects_mono (h3.ge ho) (BoxLe.refl q) hc)
      rw [this]; simp

/-- The pairs that have to be reported. -/
def hits (P : AABB K → AABB K → Bool) (a b : List (Obj K)) : List (Obj K × Obj K) :=
  (allPairs a b).filter fun p => P p.1.bb p.2.bb

theorem hits_append_left (P : AABB K → AABB K → Bool) (a a' b : List (Obj K)) :
    hits P (a ++ a') b = hits P a b ++ hits P a' b := by
  simp [hits, allPairs, List.flatMap_append, List.filter_append]

theorem hits_append_right (P : AABB K → AABB K → Bool) (a b b' : List (Obj K)) :
    (hits P a (b ++ b')).Perm (hits P a b ++ hits P a b') := by
  induction a with
  | nil => simp [hits, allPairs]
  | cons x a ih =>
    have e : ∀ c : List (Obj K), hits P (x :: a) c = hits P [x] c ++ hits P a c := by
      intro c; rw [← hits_append_left]; rfl
    rw [e, e, e]
    have e1 : hits P [x] (b ++ b') = hits P [x] b ++ hits P [x] b' := by simp [hits, allPairs]
    rw [e1]
    refine (List.Perm.append_left _ ih).trans ?_
    simp only [List.append_assoc]
    apply List.Perm.append_left
    rw [← List.append_assoc, ← List.append_assoc]
    exact List.Perm.append_right _ List.perm_append_comm

theorem hits_nil_of (P : AABB K → AABB K → Bool) (a b : List (Obj K))
    (h : ∀ x ∈ a, ∀ y ∈ b, P x.bb y.bb = false) : hits P a b = [] := by
  unfold hits
  rw [List.filter_eq_nil_iff]
  rintro ⟨x, y⟩ hxy
  simp only [allPairs, List.mem_flatMap, List.mem_map, Prod.mk.injEq] at hxy
  obtain ⟨x', hx, y', hy, rfl, rfl⟩ := hxy
  simp [h _ hx _ hy]

theorem hits_nil_left (P : AABB K → AABB K → Bool) (b : List (Obj K)) : hits P [] b = [] := by simp [hits, allPairs]
theorem hits_nil_right (P : AABB K → AABB K → Bool) (a : List (Obj K)) : hits P a [] = [] := by simp [hits, allPairs]

/-- A pointer passed to a query: null or a well-built tree. -/
def Ok [LE K] (t : Tree K) : Prop := t = .nil ∨ WellBuilt t

theorem hits_four (P : AABB K → AABB K → Bool) (l1 r1 l2 r2 : List (Obj K)) :
    (hits P l1 l2 ++ (hits P l1 r2 ++ (hits P r1 l2 ++ hits P r1 r2))).Perm (hits P (l1 ++ r1) (l2 ++ r2)) := by
  rw [hits_append_left]
  have h1 := (hits_append_right P l1 l2 r2).symm
  have h2 := (hits_append_right P r1 l2 r2).symm
  have := h1.append h2
  simpa [List.append_assoc] using this

@[simp] theorem isNil_nil : (Tree.nil : Tree K).isNil = true := rfl

/-- The pairs a stack still has to report. -/
def stackHits (P : AABB K → AABB K → Bool) (s : List (Tree K × Tree K)) : List (Obj K × Obj K) :=
  s.flatMap fun p => hits P p.1.objs p.2.objs

theorem stackHits_cons (P : AABB K → AABB K → Bool) (p : Tree K × Tree K) (s : List (Tree K × Tree K)) :
    stackHits P (p :: s) = hits P p.1.objs p.2.objs ++ stackHits P s := by simp [stackHits]

theorem intersectIter_spec [LinearOrder K] (stack : List (Tree K × Tree K)) (out : List (Obj K × Obj K))
    (h : ∀ p ∈ stack, Ok p.1 ∧ Ok p.2) :
    (intersectIter stack out).Perm (out ++ stackHits AABB.intersects stack) := by
  induction stack, out using intersectIter.induct with
  | case1 out => rw [intersectIter]; simp [stackHits]
  | case2 out t rest ih =>
    rw [intersectIter, stackHits_cons]
    simpa [Tree.objs, hits_nil_left] using ih fun p hp => h p (by simp [hp])
  | case3 out b o l r rest ih =>
    rw [intersectIter, stackHits_cons]
    simpa [Tree.objs, hits_nil_right] using ih fun p hp => h p (by simp [hp])
  | case4 out b1 l1 r1 b2 l2 r2 rest hi x y ih =>
    rw [intersectIter]
    simp only [hi, if_true]
    refine (ih fun p hp => h p (by simp [hp])).trans ?_
    have hw := h (Tree.node b1 (some x) l1 r1, Tree.node b2 (some y) l2 r2) (by simp)
    obtain ⟨h1, h2⟩ := hw
    have w1 : WellBuilt (Tree.node b1 (some x) l1 r1) := by rcases h1 with h1 | h1; cases h1; exact h1
    have w2 : WellBuilt (Tree.node b2 (some y) l2 r2) := by rcases h2 with h2 | h2; cases h2; exact h2
    cases w1; cases w2
    rw [stackHits_cons]
    simp [Tree.objs, hits, allPairs, hi]
  | case5 out b1 o1 l1 r1 b2 o2 l2 r2 rest hi n1 hA hno ih =>
    have hw := h (Tree.node b1 o1 l1 r1, Tree.node b2 o2 l2 r2) (by simp)
    obtain ⟨h1, h2⟩ := hw
    have w1 : WellBuilt (Tree.node b1 o1 l1 r1) := by rcases h1 with h1 | h1; cases h1; exact h1
    have w2 : WellBuilt (Tree.node b2 o2 l2 r2) := by rcases h2 with h2 | h2; cases h2; exact h2
    cases w1 with
    | inner _ _ _ hl hr _ => simp [hl.isNil] at hA
    | leaf x =>
      cases w2 with
      | leaf y => exact absurd rfl (fun e => hno _ _ rfl e)
      | inner _ _ _ hl hr _ =>
        unfold intersectIter
        simp only [hi, if_true, isNil_nil, Bool.and_self]
        have w1' : WellBuilt (Tree.node x.bb (some x) .nil .nil) := WellBuilt.leaf x
        simp only [n1, hl.isNil, hr.isNil, Bool.not_false, pushIf, if_true] at ih ⊢
        refine (ih ?_).trans ?_
        · intro p hp
          simp only [List.mem_cons] at hp
          rcases hp with rfl | rfl | hp
          · exact ⟨Or.inr w1', Or.inr hr⟩
          · exact ⟨Or.inr w1', Or.inr hl⟩
          · exact h p (by simp [hp])
        · simp only [stackHits_cons]
          apply List.Perm.append_left
          rw [← List.append_assoc]
          apply List.Perm.append_right
          refine List.perm_append_comm.trans ?_
          simp only [Tree.objs, Option.toList, List.nil_append]
          exact (hits_append_right _ _ _ _).symm
  | case6 out b1 o1 l1 r1 b2 o2 l2 r2 rest hi n2 hA hB hno ih =>
    have hw := h (Tree.node b1 o1 l1 r1, Tree.node b2 o2 l2 r2) (by simp)
    obtain ⟨h1, h2⟩ := hw
    have w1 : WellBuilt (Tree.node b1 o1 l1 r1) := by rcases h1 with h1 | h1; cases h1; exact h1
    have w2 : WellBuilt (Tree.node b2 o2 l2 r2) := by rcases h2 with h2 | h2; cases h2; exact h2
    cases w2 with
    | inner _ _ _ hl hr _ => simp [hl.isNil] at hB
    | leaf y =>
      cases w1 with
      | leaf x => simp at hA
      | inner _ _ _ hl hr _ =>
        unfold intersectIter
        simp only [hi, if_true, hl.isNil, hr.isNil, isNil_nil, Bool.and_self, Bool.false_eq_true, if_false]
        have w2' : WellBuilt (Tree.node y.bb (some y) .nil .nil) := WellBuilt.leaf y
        simp only [n2, hl.isNil, hr.isNil, Bool.not_false, pushIf, if_true] at ih ⊢
        refine (ih ?_).trans ?_
        · intro p hp
          simp only [List.mem_cons] at hp
          rcases hp with rfl | rfl | hp
          · exact ⟨Or.inr hr, Or.inr w2'⟩
          · exact ⟨Or.inr hl, Or.inr w2'⟩
          · exact h p (by simp [hp])
        · simp only [stackHits_cons]
          apply List.Perm.append_left
          rw [← List.append_assoc]
          apply List.Perm.append_right
          refine List.perm_append_comm.trans ?_
          simp only [Tree.objs, Option.toList, List.nil_append]
          rw [hits_append_left]
  | case7 out b1 o1 l1 r1 b2 o2 l2 r2 rest hi hA hB hno ih =>
    have hw := h (Tree.node b1 o1 l1 r1, Tree.node b2 o2 l2 r2) (by simp)
    obtain ⟨h1, h2⟩ := hw
    have w1 : WellBuilt (Tree.node b1 o1 l1 r1) := by rcases h1 with h1 | h1; cases h1; exact h1
    have w2 : WellBuilt (Tree.node b2 o2 l2 r2) := by rcases h2 with h2 | h2; cases h2; exact h2
    cases w1 with
    | leaf x => simp at hA
    | inner _ _ _ hl hr _ =>
      cases w2 with
      | leaf x => simp at hB
      | inner _ _ _ hl' hr' _ =>
        unfold intersectIter
        simp only [hi, if_true, hl.isNil, hr.isNil, hl'.isNil, hr'.isNil, Bool.and_self, Bool.false_eq_true, if_false,
          Bool.not_false, pushIf] at ih ⊢
        refine (ih ?_).trans ?_
        · intro p hp
          simp only [List.mem_cons] at hp
          rcases hp with rfl | rfl | rfl | rfl | hp
          · exact ⟨Or.inr hr, Or.inr hr'⟩
          · exact ⟨Or.inr hr, Or.inr hl'⟩
          · exact ⟨Or.inr hl, Or.inr hr'⟩
          · exact ⟨Or.inr hl, Or.inr hl'⟩
          · exact h p (by simp [hp])
        · simp only [stackHits_cons]
          apply List.Perm.append_left
          simp only [← List.append_assoc]
          apply List.Perm.append_right
          simp only [Tree.objs, Option.toList, List.nil_append]
          refine List.Perm.trans ?_ (hits_four _ _ _ _ _)
          simp only [List.append_assoc]
          generalize hits AABB.intersects r1.objs r2.objs = D
          generalize hits AABB.intersects r1.objs l2.objs = C
          generalize hits AABB.intersects l1.objs r2.objs = B
          generalize hits AABB.intersects l1.objs l2.objs = A
          rw [← List.reverse_perm']
          simp only [List.reverse_append, List.append_assoc]
          have := (List.reverse_perm A).append ((List.reverse_perm B).append ((List.reverse_perm C).append
            (List.reverse_perm D)))
          simpa [List.append_assoc] using this
  | case8 out b1 o1 l1 r1 b2 o2 l2 r2 rest hi ih =>
    unfold intersectIter
    simp only [hi]
    refine (ih fun p hp => h p (by simp [hp])).trans ?_
    rw [stackHits_cons]
    apply List.Perm.append_left
    have hw := h (Tree.node b1 o1 l1 r1, Tree.node b2 o2 l2 r2) (by simp)
    obtain ⟨h1, h2⟩ := hw
    have w1 : WellBuilt (Tree.node b1 o1 l1 r1) := by rcases h1 with h1 | h1; cases h1; exact h1
    have w2 : WellBuilt (Tree.node b2 o2 l2 r2) := by rcases h2 with h2 | h2; cases h2; exact h2
    rw [hits_nil_of]
    · simp
    · intro x hx y hy
      by_contra hc
      exact hi (intersects_mono (w1.tight.ge hx) (w2.tight.ge hy) (by simpa using hc))

/-! recursive intersection with the volume threshold -/

/-- The test of bvh.hpp 450-455 as a relation on boxes. -/
def bigOverlap [Arith K] [LinearOrder K] (eps : K) (a b : AABB K) : Bool :=
  a.intersects b && decide (eps ≤ (a.intersection b (AABB.init 0 0)).2.volume)

theorem valid_of_tight [LinearOrder K] {b : AABB K} {os : List (Obj K)} (h : TightBox b os) (hne : os ≠ [])
    (hv : ∀ o ∈ os, ValidBox o.bb) : ValidBox b := by
  obtain ⟨o, os', rfl⟩ := List.exists_cons_of_ne_nil hne
  obtain ⟨v1, v2, v3⟩ := hv o (by simp)
  obtain ⟨g1, g2, g3, g4, g5, g6⟩ := h.ge (o := o) (by simp)
  exact ⟨g1.trans (v1.trans g2), g3.trans (v2.trans g4), g5.trans (v3.trans g6)⟩

theorem intersection_mono [LinearOrder K] {a a' b b' : AABB K} (r : AABB K) (ha : BoxLe a a') (hb : BoxLe b b')
    (h : a.intersects b = true) : BoxLe (a.intersection b r).2 (a'.intersection b' r).2 := by
  rw [intersection_snd_true r h, intersection_snd_true r (intersects_mono ha hb h)]
  obtain ⟨a1, a2, a3, a4, a5, a6⟩ := ha
  obtain ⟨b1, b2, b3, b4, b5, b6⟩ := hb
  exact ⟨max_le_max a1 b1, min_le_min a2 b2, max_le_max a3 b3, min_le_min a4 b4, max_le_max a5 b5, min_le_min a6 b6⟩

theorem bigOverlap_mono [Arith K] [LinearOrder K] [MonoArith K] {eps : K} {a a' b b' : AABB K}
    (ha : BoxLe a a') (hb : BoxLe b b') (va : ValidBox a) (vb : ValidBox b)
    (h : bigOverlap eps a b = true) : bigOverlap eps a' b' = true := by
  simp only [bigOverlap, Bool.and_eq_true, decide_eq_true_eq] at h ⊢
  refine ⟨intersects_mono ha hb h.1, h.2.trans ?_⟩
  exact volume_mono (intersection_valid _ va vb h.1) (intersection_mono _ ha hb h.1)

theorem intersectRec_spec [Arith K] [LinearOrder K] [MonoArith K] (eps : K) (t1 t2 : Tree K)
    (out : List (Obj K × Obj K)) (h1 : Ok t1) (h2 : Ok t2)
    (v1 : ∀ o ∈ t1.objs, ValidBox o.bb) (v2 : ∀ o ∈ t2.objs, ValidBox o.bb) :
    (intersectRec eps t1 t2 out).Perm (out ++ hits (bigOverlap eps) t1.objs t2.objs) := by
  induction hn : t1.size + t2.size using Nat.strong_induction_on generalizing t1 t2 out with
  | _ n ih =>
  cases t1 with
  | nil => unfold intersectRec; simp [Tree.objs, hits_nil_left]
  | node b1 o1 l1 r1 =>
  cases t2 with
  | nil => unfold intersectRec; simp [Tree.objs, hits_nil_right]
  | node b2 o2 l2 r2 =>
  have w1 : WellBuilt (Tree.node b1 o1 l1 r1) := by rcases h1 with h1 | h1; cases h1; exact h1
  have w2 : WellBuilt (Tree.node b2 o2 l2 r2) := by rcases h2 with h2 | h2; cases h2; exact h2
  have hskip : bigOverlap eps b1 b2 = false →
      hits (bigOverlap eps) (Tree.node b1 o1 l1 r1).objs (Tree.node b2 o2 l2 r2).objs = [] := by
    intro hf
    apply hits_nil_of
    intro x hx y hy
    by_contra hc
    have := bigOverlap_mono (w1.tight.ge hx) (w2.tight.ge hy) (v1 x hx) (v2 y hy) (by simpa using hc)
    rw [hf] at this; cases this
  unfold intersectRec
  simp only [intersection_fst]
  by_cases hi : b1.intersects b2 = true
  swap
  · have hi' : b1.intersects b2 = false := by simpa using hi
    rw [if_pos hi', hskip (by simp [bigOverlap, hi'])]; simp
  rw [if_neg (by simp [hi])]
  by_cases hv : (b1.intersection b2 (AABB.init 0 0)).2.volume < eps
  · rw [if_pos hv, hskip (by simp [bigOverlap, hv])]; simp
  rw [if_neg hv]
  have hbig : bigOverlap eps b1 b2 = true := by simp [bigOverlap, hi, not_lt.mp hv]
  have sz1 : (Tree.node b1 o1 l1 r1).size = 1 + l1.size + r1.size := rfl
  have sz2 : (Tree.node b2 o2 l2 r2).size = 1 + l2.size + r2.size := rfl
  cases w1 with
  | leaf x =>
    cases w2 with
    | leaf y => simp [Tree.objs, hits, allPairs, hbig]
    | inner _ _ _ hl hr _ =>
      simp only [isNil_nil, Bool.and_self, if_true]
      have vl : ∀ o ∈ l2.objs, ValidBox o.bb := fun o ho => v2 o (by simp [Tree.objs, ho])
      have vr : ∀ o ∈ r2.objs, ValidBox o.bb := fun o ho => v2 o (by simp [Tree.objs, ho])
      refine (ih _ (by omega) _ _ _ h1 (Or.inr hr) v1 vr rfl).trans ?_
      refine ((ih _ (by omega) _ _ out h1 (Or.inr hl) v1 vl rfl).append_right _).trans ?_
      rw [List.append_assoc]
      apply List.Perm.append_left
      simp only [Tree.objs, Option.toList, List.nil_append]
      exact (hits_append_right _ _ _ _).symm
  | inner _ _ _ hl1 hr1 _ =>
    have vl1 : ∀ o ∈ l1.objs, ValidBox o.bb := fun o ho => v1 o (by simp [Tree.objs, ho])
    have vr1 : ∀ o ∈ r1.objs, ValidBox o.bb := fun o ho => v1 o (by simp [Tree.objs, ho])
    cases w2 with
    | leaf y =>
      simp only [hl1.isNil, hr1.isNil, isNil_nil, Bool.and_self, Bool.false_eq_true, if_false, if_true]
      refine (ih _ (by omega) _ _ _ (Or.inr hr1) h2 vr1 v2 rfl).trans ?_
      refine ((ih _ (by omega) _ _ out (Or.inr hl1) h2 vl1 v2 rfl).append_right _).trans ?_
      rw [List.append_assoc]
      apply List.Perm.append_left
      simp only [Tree.objs, Option.toList, List.nil_append]
      rw [hits_append_left]
    | inner _ _ _ hl2 hr2 _ =>
      have vl2 : ∀ o ∈ l2.objs, ValidBox o.bb := fun o ho => v2 o (by simp [Tree.objs, ho])
      have vr2 : ∀ o ∈ r2.objs, ValidBox o.bb := fun o ho => v2 o (by simp [Tree.objs, ho])
      simp only [hl1.isNil, hr1.isNil, hl2.isNil, hr2.isNil, Bool.and_self, Bool.false_eq_true, if_false]
      refine (ih _ (by omega) _ _ _ (Or.inr hr1) (Or.inr hr2) vr1 vr2 rfl).trans ?_
      refine ((ih _ (by omega) _ _ _ (Or.inr hr1) (Or.inr hl2) vr1 vl2 rfl).append_right _).trans ?_
      refine (((ih _ (by omega) _ _ _ (Or.inr hl1) (Or.inr hr2) vl1 vr2 rfl).append_right _).append_right _).trans ?_
      refine ((((ih _ (by omega) _ _ out (Or.inr hl1) (Or.inr hl2) vl1 vl2 rfl).append_right _).append_right
        _).append_right _).trans ?_
      simp only [List.append_assoc]
      apply List.Perm.append_left
      simp only [Tree.objs, Option.toList, List.nil_append]
      exact hits_four _ _ _ _ _

theorem copy_objs (t : Tree K) : (copy t).objs = [] := by
  induction t with
  | nil => rfl
  | node b o l r ih1 ih2 => simp [copy, Tree.objs, ih1, ih2]

theorem traverse_mem [LE K] [DecidableLE K] (q : AABB K) (t : Tree K) (acc : List (Obj K)) :
    ∀ o ∈ traverse q t acc, o ∈ acc ∨ o ∈ t.objs := by
  induction t generalizing acc with
  | nil => intro o ho; exact Or.inl ho
  | node b ob l r ih1 ih2 =>
    intro o ho
    simp only [traverse] at ho
    split at ho
    · cases ob with
      | some x =>
        simp at ho
        rcases ho with ho | rfl
        · exact Or.inl ho
        · exact Or.inr (by simp [Tree.objs])
      | none =>
        rcases ih2 _ o ho with ho | ho
        · rcases ih1 _ o ho with ho | ho
          · exact Or.inl ho
          · exact Or.inr (by simp [Tree.objs, ho])
        · exact Or.inr (by simp [Tree.objs, ho])
    · exact Or.inl ho

/-! height of bottom-up trees -/

theorem height_node_le (b : AABB K) (o : Option (Obj K)) (l r : Tree K) :
    (Tree.node b o l r).height ≤ 1 + max l.height r.height := by
  cases l <;> cases r <;> simp [Tree.height]

theorem pairUp_height [LinearOrder K] (ls : List (Leaf K)) (h : Nat) (hh : ∀ l ∈ ls, l.node.height ≤ h) :
    ∀ l ∈ pairUp ls, l.node.height ≤ h + 1 := by
  induction ls using pairUp.induct with
  | case1 a b rest ih =>
    intro l hl
    simp only [pairUp, List.mem_cons] at hl
    rcases hl with rfl | hl
    · have h1 := hh a (by simp)
      have h2 := hh b (by simp)
      refine (height_node_le _ _ _ _).trans ?_
      omega
    · exact ih (fun l hl => hh l (by simp [hl])) l hl
  | case2 a =>
    intro l hl
    simp only [pairUp] at hl
    exact (hh l hl).trans (by omega)
  | case3 => intro l hl; simp [pairUp] at hl

theorem mergeLoop_height [Arith K] [LinearOrder K] (lib : Lib K) (big low : K) (k : Nat) (ls : List (Leaf K)) (h : Nat)
    (hh : ∀ l ∈ ls, l.node.height ≤ h) (hk : ls.length ≤ 2 ^ k) :
    ∀ l ∈ mergeLoop lib big low ls, l.node.height ≤ h + k := by
  induction k generalizing ls h with
  | zero =>
    rw [mergeLoop, dif_neg (by simp at hk; omega)]
    exact hh
  | succ k ih =>
    by_cases hl : ls.length > 1
    · rw [mergeLoop, dif_pos hl]
      have hp := lib.sortLeaves_perm (findBestAxis big low ls) ls
      have h1 := pairUp_height _ h fun l hl => hh l (hp.mem_iff.mp hl)
      have h2 : (pairUp (lib.sortLeaves (findBestAxis big low ls) ls)).length ≤ 2 ^ k := by
        rw [length_pairUp, hp.length_eq]
        rw [pow_succ] at hk
        omega
      have := ih _ (h + 1) h1 h2
      intro l hl'
      have := this l hl'
      omega
    · rw [mergeLoop, dif_neg hl]
      intro l hl'
      exact (hh l hl').trans (by omega)

end Cmm.BVH
