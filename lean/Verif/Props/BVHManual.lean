import Verif.Spec.BVHSplit
import Verif.Lemmas.BVH
import Verif.Props.BVH
/-! C106: queries of cmmcore/bvh.hpp on trees that were put together by hand. -/
namespace Cmm.BVH
variable {K : Type} [Arith K] [LinearOrder K]

theorem Covering.le {b : AABB K} {o : Option (Obj K)} {l r : Tree K} (h : Covering (.node b o l r)) :
    ∀ x ∈ (Tree.node b o l r).objs, BoxLe x.bb b := by
  cases h with
  | leaf o => intro x hx; simp [Tree.objs] at hx; subst hx; exact BoxLe.refl _
  | inner _ _ _ _ _ h3 => simpa [Tree.objs] using h3

theorem Covering.left {b : AABB K} {o : Option (Obj K)} {l r : Tree K} (h : Covering (.node b o l r)) : Covering l := by
  cases h with
  | leaf => exact .nil
  | inner _ _ _ h1 _ _ => exact h1

theorem Covering.right {b : AABB K} {o : Option (Obj K)} {l r : Tree K} (h : Covering (.node b o l r)) : Covering r := by
  cases h with
  | leaf => exact .nil
  | inner _ _ _ _ h2 _ => exact h2

theorem Covering.objs {b : AABB K} {o : Option (Obj K)} {l r : Tree K} (h : Covering (.node b o l r)) (hn : (l.isNil && r.isNil) = false) :
    o = none ∧ (Tree.node b o l r).objs = l.objs ++ r.objs := by
  cases h with
  | leaf => simp at hn
  | inner => exact ⟨rfl, by simp [Tree.objs]⟩

theorem nil_of_isNil {t : Tree K} (h : t.isNil = true) : t = .nil := by
  cases t with
  | nil => rfl
  | node => simp [Tree.isNil] at h

/-- When the first tree has no children and not both have objects, the pairs are those with the children of the second. -/
theorem hits_childless (P : AABB K → AABB K → Bool) {b1 b2 : AABB K} {o1 o2 : Option (Obj K)} {l1 r1 l2 r2 : Tree K}
    (h2 : Covering (.node b2 o2 l2 r2)) (hA : (l1.isNil && r1.isNil) = true) (hno : ∀ x y, o1 = some x → o2 = some y → False) :
    (hits P (Tree.node b1 o1 l1 r1).objs l2.objs ++ hits P (Tree.node b1 o1 l1 r1).objs r2.objs).Perm
      (hits P (Tree.node b1 o1 l1 r1).objs (Tree.node b2 o2 l2 r2).objs) := by
  cases h2 with
  | inner _ _ _ _ _ _ =>
    have := (hits_append_right P (Tree.node b1 o1 l1 r1).objs l2.objs r2.objs).symm
    simpa [Tree.objs] using this
  | leaf y =>
    simp only [Bool.and_eq_true] at hA
    rw [nil_of_isNil hA.1, nil_of_isNil hA.2]
    cases o1 with
    | none => simp [Tree.objs, hits_nil_left]
    | some x => exact (hno x y rfl rfl).elim

theorem stackHits_pushIf (P : AABB K → AABB K → Bool) (c : Bool) (p : Tree K × Tree K) (s : List (Tree K × Tree K))
    (h : c = true ∨ p.1.isNil = true ∨ p.2.isNil = true) : stackHits P (pushIf c p s) = hits P p.1.objs p.2.objs ++ stackHits P s := by
  cases c with
  | true => simp [pushIf, stackHits_cons]
  | false =>
    simp only [pushIf, Bool.false_eq_true, if_false]
    rcases h with h | h | h
    · simp at h
    · rw [nil_of_isNil h, Tree.objs, hits_nil_left, List.nil_append]
    · rw [nil_of_isNil h, Tree.objs, hits_nil_right, List.nil_append]

theorem mem_pushIf {c : Bool} {p q : Tree K × Tree K} {s : List (Tree K × Tree K)} (h : q ∈ pushIf c p s) : q = p ∨ q ∈ s := by
  cases c
  · exact Or.inr h
  · simpa [pushIf] using h

theorem intersectIter_cover (stack : List (Tree K × Tree K)) (out : List (Obj K × Obj K)) (h : ∀ p ∈ stack, Covering p.1 ∧ Covering p.2) :
    (intersectIter stack out).Perm (out ++ stackHits AABB.intersects stack) := by
  induction stack, out using intersectIter.induct with
  | case1 out => rw [intersectIter]; simp [stackHits]
  | case2 out t rest ih =>
    rw [intersectIter, stackHits_cons]
    simpa [Tree.objs, hits_nil_left] using ih fun p hp => h p (by simp [hp])
  | case3 out b o l r rest ih =>
    rw [intersectIter, stackHits_cons]
    simpa [Tree.objs, hits_nil_right] using ih fun p hp => h p (by simp [hp])
  | case4 out b1 l1 r1 b2 l2 r2 rest hi x y ih =>
    rw [intersectIter]
    simp only [hi, if_true]
    refine (ih fun p hp => h p (by simp [hp])).trans ?_
    obtain ⟨w1, w2⟩ := h (Tree.node b1 (some x) l1 r1, Tree.node b2 (some y) l2 r2) (by simp)
    cases w1; cases w2
    rw [stackHits_cons]
    simp [Tree.objs, hits, allPairs, hi]
  | case5 out b1 o1 l1 r1 b2 o2 l2 r2 rest hi n1 hA hno ih =>
    obtain ⟨w1, w2⟩ := h (Tree.node b1 o1 l1 r1, Tree.node b2 o2 l2 r2) (by simp)
    unfold intersectIter
    simp only [hi, if_true, hA]
    refine (ih ?_).trans ?_
    · intro p hp
      rcases mem_pushIf hp with rfl | hp
      · exact ⟨w1, w2.right⟩
      rcases mem_pushIf hp with rfl | hp
      · exact ⟨w1, w2.left⟩
      exact h p (by simp [hp])
    · rw [stackHits_pushIf _ _ _ _ (by cases r2 <;> simp [Tree.isNil]), stackHits_pushIf _ _ _ _ (by cases l2 <;> simp [Tree.isNil]), stackHits_cons]
      apply List.Perm.append_left
      rw [← List.append_assoc]
      apply List.Perm.append_right
      exact List.perm_append_comm.trans (hits_childless _ w2 hA fun x y e1 e2 => hno x y e1 e2)
  | case6 out b1 o1 l1 r1 b2 o2 l2 r2 rest hi n2 hA hB hno ih =>
    obtain ⟨w1, w2⟩ := h (Tree.node b1 o1 l1 r1, Tree.node b2 o2 l2 r2) (by simp)
    obtain ⟨e1, e2⟩ := w1.objs (by simpa using hA)
    unfold intersectIter
    simp only [hi, if_true, hA, hB, Bool.false_eq_true, if_false]
    refine (ih ?_).trans ?_
    · intro p hp
      rcases mem_pushIf hp with rfl | hp
      · exact ⟨w1.right, w2⟩
      rcases mem_pushIf hp with rfl | hp
      · exact ⟨w1.left, w2⟩
      exact h p (by simp [hp])
    · rw [stackHits_pushIf _ _ _ _ (by cases r1 <;> simp [Tree.isNil]), stackHits_pushIf _ _ _ _ (by cases l1 <;> simp [Tree.isNil]), stackHits_cons]
      apply List.Perm.append_left
      rw [← List.append_assoc]
      apply List.Perm.append_right
      refine List.perm_append_comm.trans ?_
      dsimp only
      rw [e2, hits_append_left]
  | case7 out b1 o1 l1 r1 b2 o2 l2 r2 rest hi hA hB hno ih =>
    obtain ⟨w1, w2⟩ := h (Tree.node b1 o1 l1 r1, Tree.node b2 o2 l2 r2) (by simp)
    obtain ⟨_, e1⟩ := w1.objs (by simpa using hA)
    obtain ⟨_, e2⟩ := w2.objs (by simpa using hB)
    unfold intersectIter
    simp only [hi, if_true, hA, hB, Bool.false_eq_true, if_false]
    refine (ih ?_).trans ?_
    · intro p hp
      rcases mem_pushIf hp with rfl | hp
      · exact ⟨w1.right, w2.right⟩
      rcases mem_pushIf hp with rfl | hp
      · exact ⟨w1.right, w2.left⟩
      rcases mem_pushIf hp with rfl | hp
      · exact ⟨w1.left, w2.right⟩
      rcases mem_pushIf hp with rfl | hp
      · exact ⟨w1.left, w2.left⟩
      exact h p (by simp [hp])
    · have hc : ∀ a b : Tree K, (!a.isNil && !b.isNil) = true ∨ a.isNil = true ∨ b.isNil = true := by
        intro a b; cases a <;> cases b <;> simp [Tree.isNil]
      rw [stackHits_pushIf _ _ (r1, r2) _ (hc r1 r2), stackHits_pushIf _ _ (r1, l2) _ (hc r1 l2), stackHits_pushIf _ _ (l1, r2) _ (hc l1 r2),
        stackHits_pushIf _ _ (l1, l2) _ (hc l1 l2), stackHits_cons]
      apply List.Perm.append_left
      simp only [← List.append_assoc]
      apply List.Perm.append_right
      rw [e1, e2]
      refine List.Perm.trans ?_ (hits_four _ _ _ _ _)
      simp only [List.append_assoc]
      generalize hits AABB.intersects r1.objs r2.objs = D
      generalize hits AABB.intersects r1.objs l2.objs = C
      generalize hits AABB.intersects l1.objs r2.objs = B
      generalize hits AABB.intersects l1.objs l2.objs = A
      rw [← List.reverse_perm']
      simp only [List.reverse_append, List.append_assoc]
      have := (List.reverse_perm A).append ((List.reverse_perm B).append ((List.reverse_perm C).append (List.reverse_perm D)))
      simpa [List.append_assoc] using this
  | case8 out b1 o1 l1 r1 b2 o2 l2 r2 rest hi ih =>
    obtain ⟨w1, w2⟩ := h (Tree.node b1 o1 l1 r1, Tree.node b2 o2 l2 r2) (by simp)
    unfold intersectIter
    simp only [hi]
    refine (ih fun p hp => h p (by simp [hp])).trans ?_
    rw [stackHits_cons]
    apply List.Perm.append_left
    rw [hits_nil_of]
    · simp
    · intro x hx y hy
      by_contra hc
      exact hi (intersects_mono (w1.le x hx) (w2.le y hy) (by simpa using hc))

theorem intersectRec_cover [MonoArith K] (eps : K) (t1 t2 : Tree K) (out : List (Obj K × Obj K)) (w1 : Covering t1) (w2 : Covering t2)
    (v1 : ∀ o ∈ t1.objs, ValidBox o.bb) (v2 : ∀ o ∈ t2.objs, ValidBox o.bb) :
    (intersectRec eps t1 t2 out).Perm (out ++ hits (bigOverlap eps) t1.objs t2.objs) := by
  induction hn : t1.size + t2.size using Nat.strong_induction_on generalizing t1 t2 out with
  | _ n ih =>
  cases t1 with
  | nil => unfold intersectRec; simp [Tree.objs, hits_nil_left]
  | node b1 o1 l1 r1 =>
  cases t2 with
  | nil => unfold intersectRec; simp [Tree.objs, hits_nil_right]
  | node b2 o2 l2 r2 =>
  have hskip : bigOverlap eps b1 b2 = false →
      hits (bigOverlap eps) (Tree.node b1 o1 l1 r1).objs (Tree.node b2 o2 l2 r2).objs = [] := by
    intro hf
    apply hits_nil_of
    intro x hx y hy
    by_contra hc
    have := bigOverlap_mono (w1.le x hx) (w2.le y hy) (v1 x hx) (v2 y hy) (by simpa using hc)
    rw [hf] at this; cases this
  unfold intersectRec
  simp only [intersection_fst]
  by_cases hi : b1.intersects b2 = true
  swap
  · have hi' : b1.intersects b2 = false := by simpa using hi
    rw [if_pos hi', hskip (by simp [bigOverlap, hi'])]; simp
  rw [if_neg (by simp [hi])]
  by_cases hv : (b1.intersection b2 (AABB.init 0 0)).2.volume < eps
  · rw [if_pos hv, hskip (by simp [bigOverlap, hv])]; simp
  rw [if_neg hv]
  have hbig : bigOverlap eps b1 b2 = true := by simp [bigOverlap, hi, not_lt.mp hv]
  have sz1 : (Tree.node b1 o1 l1 r1).size = 1 + l1.size + r1.size := rfl
  have sz2 : (Tree.node b2 o2 l2 r2).size = 1 + l2.size + r2.size := rfl
  have vl1 : ∀ o ∈ l1.objs, ValidBox o.bb := fun o ho => v1 o (by simp [Tree.objs, ho])
  have vr1 : ∀ o ∈ r1.objs, ValidBox o.bb := fun o ho => v1 o (by simp [Tree.objs, ho])
  have vl2 : ∀ o ∈ l2.objs, ValidBox o.bb := fun o ho => v2 o (by simp [Tree.objs, ho])
  have vr2 : ∀ o ∈ r2.objs, ValidBox o.bb := fun o ho => v2 o (by simp [Tree.objs, ho])
  have main : (∀ x y, o1 = some x → o2 = some y → False) →
      (if l1.isNil && r1.isNil then
          intersectRec eps (Tree.node b1 o1 l1 r1) r2 (intersectRec eps (Tree.node b1 o1 l1 r1) l2 out)
        else if l2.isNil && r2.isNil then
          intersectRec eps r1 (Tree.node b2 o2 l2 r2) (intersectRec eps l1 (Tree.node b2 o2 l2 r2) out)
        else intersectRec eps r1 r2 (intersectRec eps r1 l2 (intersectRec eps l1 r2 (intersectRec eps l1 l2 out)))).Perm
      (out ++ hits (bigOverlap eps) (Tree.node b1 o1 l1 r1).objs (Tree.node b2 o2 l2 r2).objs) := by
    intro hno
    by_cases hA : (l1.isNil && r1.isNil) = true
    · rw [if_pos hA]
      refine (ih _ (by omega) _ _ _ w1 w2.right v1 vr2 rfl).trans ?_
      refine ((ih _ (by omega) _ _ out w1 w2.left v1 vl2 rfl).append_right _).trans ?_
      rw [List.append_assoc]
      exact List.Perm.append_left _ (hits_childless _ w2 hA hno)
    · rw [if_neg hA]
      obtain ⟨_, e1⟩ := w1.objs (by simpa using hA)
      by_cases hB : (l2.isNil && r2.isNil) = true
      · rw [if_pos hB]
        refine (ih _ (by omega) _ _ _ w1.right w2 vr1 v2 rfl).trans ?_
        refine ((ih _ (by omega) _ _ out w1.left w2 vl1 v2 rfl).append_right _).trans ?_
        rw [List.append_assoc, e1, hits_append_left]
      · rw [if_neg hB]
        obtain ⟨_, e2⟩ := w2.objs (by simpa using hB)
        refine (ih _ (by omega) _ _ _ w1.right w2.right vr1 vr2 rfl).trans ?_
        refine ((ih _ (by omega) _ _ _ w1.right w2.left vr1 vl2 rfl).append_right _).trans ?_
        refine (((ih _ (by omega) _ _ _ w1.left w2.right vl1 vr2 rfl).append_right _).append_right _).trans ?_
        refine ((((ih _ (by omega) _ _ out w1.left w2.left vl1 vl2 rfl).append_right _).append_right _).append_right _).trans ?_
        simp only [List.append_assoc]
        apply List.Perm.append_left
        rw [e1, e2]
        exact hits_four _ _ _ _ _
  cases o1 with
  | none => exact main (by simp)
  | some x =>
    cases o2 with
    | none => exact main (by simp)
    | some y =>
      cases w1; cases w2
      simp [Tree.objs, hits, allPairs, hbig]

/-- **C106**: a box query on a tree put together by hand appends to the results exactly the objects whose box meets the query box. -/
theorem C106_traverse {t : Tree K} (h : Covering t) (q : AABB K) (results : List (Obj K)) :
    traverse q t results = results ++ t.objs.filter fun o => o.bb.intersects q := by
  induction h generalizing results with
  | nil => simp [traverse, Tree.objs]
  | leaf o =>
    by_cases hi : o.bb.intersects q = true
    · simp [traverse, Tree.objs, hi]
    · simp [traverse, Tree.objs, hi]
  | inner b l r h1 h2 h3 ih1 ih2 =>
    simp only [traverse, Tree.objs, Option.toList, List.nil_append]
    by_cases hi : b.intersects q = true
    · rw [if_pos hi, ih1, ih2]
      simp [List.filter_append]
    · rw [if_neg hi]
      have : (l.objs ++ r.objs).filter (fun o => o.bb.intersects q) = [] := by
        rw [List.filter_eq_nil_iff]
        intro o ho hc
        exact hi (intersects_mono (h3 o ho) (BoxLe.refl q) hc)
      rw [this]; simp

/-- **C106**: so do the two tree-tree queries: the iterative one appends exactly the pairs with intersecting boxes, the recursive one
those whose boxes have at least `eps` (1e-6 in the code) of volume in common. -/
theorem C106_pairs [MonoArith K] {t1 t2 : Tree K} (h1 : Covering t1) (h2 : Covering t2) (out : List (Obj K × Obj K)) :
    (intersectIterative t1 t2 out).Perm (out ++ (allPairs t1.objs t2.objs).filter fun p => p.1.bb.intersects p.2.bb) ∧
    ∀ eps : K, (∀ o ∈ t1.objs, ValidBox o.bb) → (∀ o ∈ t2.objs, ValidBox o.bb) →
      (intersectRec eps t1 t2 out).Perm (out ++ (allPairs t1.objs t2.objs).filter fun p => p.1.bb.intersects p.2.bb &&
        decide (eps ≤ (p.1.bb.intersection p.2.bb (AABB.init 0 0)).2.volume)) := by
  constructor
  · have := intersectIter_cover [(t1, t2)] out (by simpa using ⟨h1, h2⟩)
    simpa [intersectIterative, stackHits, hits] using this
  · intro eps v1 v2
    exact intersectRec_cover eps t1 t2 out h1 h2 v1 v2

/-- C106: trees from either builder are of this kind. -/
theorem C106_built (lib : Lib K) (big low : K) (m : Bool) (objects : List (Obj K)) (hr : ∀ o ∈ objects, InRange big low o.bb) :
    Covering (build lib big low objects m) := by
  have hw : ∀ t : Tree K, WellBuilt t → Covering t := by
    intro t h
    induction h with
    | leaf o => exact .leaf o
    | inner b l r _ _ h3 i1 i2 => exact .inner b l r i1 i2 fun o ho => TightBox.ge h3 ho
  obtain ⟨h1, h2, _⟩ := C11_build_correct lib big low m objects hr
  by_cases hne : objects = []
  · rw [h1.mpr hne]; exact .nil
  · exact hw _ (h2 hne)

/-- C106 fails without the condition: an object in a node that also has children hides the children from a box query, and is itself missed
by both tree-tree queries once the other tree has to be descended. -/
theorem C106_inner_object_counterexample : ∃ (t u : Tree ℚ) (x y : Obj ℚ), x ∈ t.objs ∧ y ∈ t.objs ∧ x.bb.intersects x.bb = true ∧
    traverse x.bb t [] = [y] ∧ x ≠ y ∧ (y, x) ∈ allPairs t.objs u.objs ∧ y.bb.intersects x.bb = true ∧
    (y, x) ∉ intersectIterative t u [] ∧ (y, x) ∉ intersectRec (1 / 10 ^ 6) t u [] := by
  refine ⟨.node ⟨⟨0, 0, 0⟩, ⟨1, 1, 1⟩⟩ (some ⟨⟨⟨0, 0, 0⟩, ⟨1, 1, 1⟩⟩, 2⟩) (.node ⟨⟨0, 0, 0⟩, ⟨1, 1, 1⟩⟩ (some ⟨⟨⟨0, 0, 0⟩, ⟨1, 1, 1⟩⟩, 1⟩) .nil .nil) .nil,
    .node ⟨⟨0, 0, 0⟩, ⟨1, 1, 1⟩⟩ none (.node ⟨⟨0, 0, 0⟩, ⟨1, 1, 1⟩⟩ (some ⟨⟨⟨0, 0, 0⟩, ⟨1, 1, 1⟩⟩, 1⟩) .nil .nil) .nil,
    ⟨⟨⟨0, 0, 0⟩, ⟨1, 1, 1⟩⟩, 1⟩, ⟨⟨⟨0, 0, 0⟩, ⟨1, 1, 1⟩⟩, 2⟩, ?_⟩
  decide +kernel

/-- A node with a loose box and one child. -/
example : Covering (.node ⟨⟨-5, -5, -5⟩, ⟨5, 5, 5⟩⟩ none (.node (⟨⟨0, 0, 0⟩, ⟨1, 1, 1⟩⟩ : AABB ℚ) (some ⟨⟨⟨0, 0, 0⟩, ⟨1, 1, 1⟩⟩, 1⟩) .nil .nil) .nil) := by
  refine .inner _ _ _ (.leaf ⟨⟨⟨0, 0, 0⟩, ⟨1, 1, 1⟩⟩, 1⟩) .nil fun o ho => ?_
  simp [Tree.objs] at ho
  subst ho
  unfold BoxLe
  decide +kernel

end Cmm.BVH
