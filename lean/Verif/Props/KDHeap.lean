import Verif.Spec.KDHeap
import Verif.Lemmas.KDHeap
import Verif.Props.KDTree
/-!
Property C123: the node memory of `KDTree` objects.
-/
namespace Cmm.KDHeap
open Cmm.KD
variable {K : Type}

section
variable [LinearOrder K]

/-- One object and its expected contents: the root shows a search tree with these points. -/
def Slot (h : Heap K) : Option Obj → Option (List (Vec3 K)) → List Nat → Prop
  | none, none, f => f = []
  | some o, some l, f => ∃ t : KD.Tree K, Shows h o.root t f ∧ t.Inv ∧ t.points.Perm l ∧ o.size_ = l.length
  | _, _, _ => False

/-- All objects; the last argument are all their nodes. -/
inductive Own (h : Heap K) : List (Option Obj) → Contents K → List Nat → Prop
  | nil : Own h [] [] []
  | cons {o os l ls f g} (s : Slot h o l f) (r : Own h os ls g) : Own h (o :: os) (l :: ls) (f ++ g)

theorem Slot.frame {h h' : Heap K} {o : Option Obj} {l : Option (List (Vec3 K))} {f : List Nat} (s : Slot h o l f)
    (hf : ∀ b ∈ f, get h' b = get h b) : Slot h' o l f := by
  cases o <;> cases l <;> simp only [Slot] at s ⊢
  · exact s
  · obtain ⟨t, a, b⟩ := s
    exact ⟨t, a.frame hf, b⟩

theorem Own.frame {h h' : Heap K} {os : List (Option Obj)} {ls : Contents K} {g : List Nat} (w : Own h os ls g)
    (hf : ∀ b ∈ g, get h' b = get h b) : Own h' os ls g := by
  induction w with
  | nil => exact .nil
  | cons s r ih => exact .cons (s.frame fun b hb => hf b (by simp [hb])) (ih fun b hb => hf b (by simp [hb]))

theorem Own.append {h : Heap K} {os : List (Option Obj)} {ls : Contents K} {g : List Nat} (w : Own h os ls g) :
    Own h (os ++ [some ⟨none, 0⟩]) (ls ++ [some []]) g := by
  induction w with
  | nil => exact .cons (f := []) (g := []) ⟨.nil, ⟨rfl, rfl⟩, trivial, by simp [Tree.points], rfl⟩ .nil
  | cons s r ih => exact .cons s ih

theorem Own.split {h : Heap K} {os : List (Option Obj)} {ls : Contents K} {g : List Nat} (w : Own h os ls g) {i : Nat}
    {l : Option (List (Vec3 K))} (hi : ls[i]? = some l) :
    ∃ o f rest, os[i]? = some o ∧ Slot h o l f ∧ g.Perm (f ++ rest) ∧
      ∀ h' o' l' f', (∀ b ∈ rest, get h' b = get h b) → Slot h' o' l' f' →
        ∃ g', Own h' (os.set i o') (ls.set i l') g' ∧ g'.Perm (f' ++ rest) := by
  induction w generalizing i with
  | nil => simp at hi
  | @cons o os l0 ls f g s r ih =>
    cases i with
    | zero =>
      simp only [List.getElem?_cons_zero, Option.some.injEq] at hi
      subst hi
      refine ⟨o, f, g, by simp, s, .refl _, fun h' o' l' f' hf s' => ⟨f' ++ g, ?_, .refl _⟩⟩
      exact .cons s' (r.frame hf)
    | succ i =>
      rw [List.getElem?_cons_succ] at hi
      obtain ⟨o1, f1, rest, e1, s1, p1, k1⟩ := ih hi
      refine ⟨o1, f1, f ++ rest, by simpa using e1, s1, ?_, fun h' o' l' f' hf s' => ?_⟩
      · refine (p1.append_left f).trans ?_
        rw [List.perm_iff_count]; intro b; simp only [List.count_append]; omega
      · obtain ⟨g', w', p'⟩ := k1 h' o' l' f' (fun b hb => hf b (by simp [hb])) s'
        refine ⟨f ++ g', .cons (s.frame fun b hb => hf b (by simp [hb])) w', ?_⟩
        refine (p'.append_left f).trans ?_
        rw [List.perm_iff_count]; intro b; simp only [List.count_append]; omega

/-- The invariant: the live nodes are exactly those of the objects, each in one place. -/
def Good (s : State K) (cs : Contents K) : Prop := ∃ g, Own s.heap s.objs cs g ∧ g.Perm (addrs s.heap) ∧ (addrs s.heap).Nodup

theorem Own.total {h : Heap K} {os : List (Option Obj)} {ls : Contents K} {g : List Nat} (w : Own h os ls g) : g.length = total ls := by
  induction w with
  | nil => rfl
  | @cons o os l ls f g s r ih =>
    have : f.length = (l.getD []).length := by
      cases o <;> cases l <;> simp only [Slot] at s
      · simp [s]
      · obtain ⟨t, a, -, b, -⟩ := s
        rw [a.length, b.length_eq]; rfl
    simp only [KDHeap.total, List.length_append, List.map_cons, List.sum_cons] at ih ⊢
    omega

theorem Good.length {s : State K} {cs : Contents K} (G : Good s cs) : s.heap.length = total cs := by
  obtain ⟨g, w, p, -⟩ := G
  have := p.length_eq
  rw [w.total] at this
  rw [this]; simp [addrs]

/-- What the invariant says of a living object. -/
theorem Good.obj {s : State K} {cs : Contents K} (G : Good s cs) {i : Nat} {l : List (Vec3 K)} (hi : cs[i]?.join = some l) :
    ∃ o t f rest, s.obj i = some o ∧ s.objs[i]? = some (some o) ∧ Shows s.heap o.root t f ∧ t.Inv ∧ t.points.Perm l ∧ o.size_ = l.length ∧ f.Nodup ∧
      f.length ≤ s.heap.length ∧ (f ++ rest).Perm (addrs s.heap) ∧ (f ++ rest).Nodup ∧
      ∀ h' o' l' f', (∀ b ∈ rest, get h' b = get s.heap b) → Slot h' o' l' f' → (f' ++ rest).Perm (addrs h') → (addrs h').Nodup →
        Good ⟨h', s.objs.set i o'⟩ (cs.set i l') := by
  obtain ⟨g, w, p, n⟩ := G
  have hi' : cs[i]? = some (some l) := by
    cases hc : cs[i]? with
    | none => simp [hc] at hi
    | some x => rw [hc] at hi; simpa using hi
  obtain ⟨oo, f, rest, e, sl, pp, k⟩ := w.split hi'
  cases oo with
  | none => simp [Slot] at sl
  | some o =>
    obtain ⟨t, a, b, c, d⟩ := sl
    have pa : (f ++ rest).Perm (addrs s.heap) := pp.symm.trans p
    have nn : (f ++ rest).Nodup := pa.nodup_iff.mpr n
    refine ⟨o, t, f, rest, by simp [State.obj, e], e, a, b, c, d, (List.nodup_append.mp nn).1, ?_, pa, nn, ?_⟩
    · have := pa.length_eq
      simp only [List.length_append, addrs, List.length_map] at this
      omega
    · intro h' o' l' f' hf s' p' n'
      obtain ⟨g', w', q'⟩ := k h' o' l' f' hf s'
      exact ⟨g', w', q'.trans p', n'⟩

theorem without_rest {h : Heap K} {f rest : List Nat} (p : (f ++ rest).Perm (addrs h)) (n : (f ++ rest).Nodup) :
    rest.Perm (addrs (without h f)) ∧ (addrs (without h f)).Nodup ∧ ∀ b ∈ rest, get (without h f) b = get h b := by
  rw [List.nodup_append] at n
  have hr : rest.filter (fun a => decide (a ∉ f)) = rest := by
    rw [List.filter_eq_self]
    intro b hb
    simp only [decide_eq_true_eq]
    exact fun hb' => n.2.2 b hb' b hb rfl
  have hf : f.filter (fun a => decide (a ∉ f)) = [] := by
    rw [List.filter_eq_nil_iff]
    intro b hb
    simp [hb]
  have key : rest.Perm (addrs (without h f)) := by
    have := p.filter (fun a => decide (a ∉ f))
    rw [List.filter_append, hr, hf, List.nil_append, ← addrs_without] at this
    exact this
  refine ⟨key, key.nodup_iff.mp n.2.1, fun b hb => ?_⟩
  rw [get_without, if_neg]
  exact fun hb' => n.2.2 b hb' b hb rfl

theorem step_good (nth : NthElement K) {A : Allocator} (hA : A.Total) {s : State K} {cs cs' : Contents K} (G : Good s cs) (op : Op K)
    (h1 : ∀ i, op ≠ .copy i) (h2 : ∀ i j, op ≠ .assign i j) (he : expectedStep cs op = some cs') :
    ∃ s', s.step nth A op = .ok () s' ∧ Good s' cs' := by
  cases op with
  | copy i => exact absurd rfl (h1 i)
  | assign i j => exact absurd rfl (h2 i j)
  | construct =>
    obtain ⟨g, w, p, n⟩ := G
    simp only [expectedStep, Option.some.injEq] at he
    subst he
    exact ⟨_, rfl, g, w.append, p, n⟩
  | destroy i =>
    simp only [expectedStep, Option.map_eq_some_iff] at he
    obtain ⟨l, hl, rfl⟩ := he
    obtain ⟨o, t, f, rest, e, -, sh, -, -, -, nf, lf, pa, nn, k⟩ := G.obj hl
    obtain ⟨q1, q2, q3⟩ := without_rest pa nn
    refine ⟨⟨without s.heap f, s.objs.set i none⟩, by simp only [State.step, State.destroy, e, deleteRec_shows sh nf _ lf], ?_⟩
    exact k _ none none [] q3 rfl q1 q2
  | build i points =>
    simp only [expectedStep, Option.map_eq_some_iff] at he
    obtain ⟨l, hl, rfl⟩ := he
    obtain ⟨o, t, f, rest, e, -, sh, -, -, -, nf, lf, pa, nn, k⟩ := G.obj hl
    obtain ⟨q1, q2, q3⟩ := without_rest pa nn
    obtain ⟨p', f', h', e', sh', k', pa', n'⟩ := buildRec_shows nth hA points 0 (without s.heap f) q2
    refine ⟨⟨h', s.objs.set i (some ⟨p', points.length⟩)⟩, by simp only [State.step, State.build, e, deleteRec_shows sh nf _ lf, e'], ?_⟩
    refine k h' (some ⟨p', points.length⟩) (some points) f' ?_ ⟨_, sh', buildRec_inv nth points 0, (buildRec_points nth points 0).1, rfl⟩ ?_ n'
    · intro b hb
      rw [k' b (q1.mem_iff.mp hb), q3 b hb]
    · exact ((q1.append_left f').trans pa'.symm)
  | insert i x =>
    simp only [expectedStep, Option.map_eq_some_iff] at he
    obtain ⟨l, hl, rfl⟩ := he
    obtain ⟨o, t, f, rest, e, -, sh, it, pt, st, nf, lf, pa, nn, k⟩ := G.obj hl
    obtain ⟨p', f', h', a, e', sh', k', hfr, pf, ad⟩ := insertRec_shows hA x sh nf _ lf 0 o.size_
    obtain ⟨i1, i2, i3⟩ := KD.insertRec_spec t x 0 o.size_ it
    have nadd : (addrs s.heap).Nodup := pa.nodup_iff.mp nn
    refine ⟨⟨h', s.objs.set i (some ⟨p', (KD.insertRec t x 0 o.size_).2⟩)⟩, by simp only [State.step, State.insert, e, e'], ?_⟩
    refine k h' (some ⟨p', (KD.insertRec t x 0 o.size_).2⟩) (some (x :: l)) f' ?_ ⟨_, sh', i1, i2.trans (pt.cons _), ?_⟩ ?_ ?_
    · intro b hb
      refine k' b (pa.mem_iff.mp (by simp [hb])) fun hb' => ?_
      exact (List.nodup_append.mp nn).2.2 b hb' b hb rfl
    · rw [i3, List.length_cons, st]
    · rw [ad]
      exact (pf.append_right rest).trans (pa.cons a)
    · rw [ad, List.nodup_cons]
      exact ⟨hfr, nadd⟩

theorem run_good (nth : NthElement K) {A : Allocator} (hA : A.Total) (ops : List (Op K)) (hc : NoCopies ops) (s : State K)
    (cs cs' : Contents K) (G : Good s cs) (he : expected cs ops = some cs') :
    ∃ s', s.run nth A ops = some s' ∧ Good s' cs' := by
  induction ops generalizing s cs with
  | nil =>
    simp only [expected, Option.some.injEq] at he
    subst he
    exact ⟨s, rfl, G⟩
  | cons op ops ih =>
    simp only [expected, Option.bind_eq_some_iff] at he
    obtain ⟨c1, e1, e2⟩ := he
    obtain ⟨s1, r1, G1⟩ := step_good nth hA G op (fun i e => hc.1 i (by simp [e])) (fun i j e => hc.2 i j (by simp [e])) e1
    obtain ⟨s2, r2, G2⟩ := ih ⟨fun i hi => hc.1 i (by simp [hi]), fun i j hi => hc.2 i j (by simp [hi])⟩ s1 c1 G1 e2
    exact ⟨s2, by simp only [State.run, r1, r2], G2⟩

theorem init_good : Good (State.init : State K) [] := ⟨[], .nil, .refl _, by simp [addrs, State.init]⟩

/-- **C123** (without copies and with enough memory): after any history of constructing, building, inserting into and destroying any
number of trees, nothing was undefined, there are exactly as many live nodes as the living trees hold points, and each living tree
holds its own points: `size` and `rangeSearch` answer accordingly. The case of copies is false, see `C123_copy_counterexample`. -/
theorem C123_history_partial (nth : NthElement K) (A : Allocator) (hA : A.Total) (ops : List (Op K)) (hc : NoCopies ops)
    (cs : Contents K) (he : expected [] ops = some cs) :
    ∃ s, State.init.run nth A ops = some s ∧ s.heap.length = total cs ∧
      ∀ i l, cs[i]? = some (some l) → s.size i = .ok l.length ∧
        ∀ lower upper, ∃ r, s.rangeSearch i lower upper = .ok r ∧ r.Perm (l.filter fun p => InClosedBox lower upper p) := by
  obtain ⟨s, r, G⟩ := run_good nth hA ops hc _ _ cs init_good he
  refine ⟨s, r, G.length, fun i l hi => ?_⟩
  obtain ⟨o, t, f, rest, e, -, sh, it, pt, st, nf, lf, -, -, -⟩ := G.obj (i := i) (l := l) (by simp [hi])
  refine ⟨by simp [State.size, e, st], fun lower upper => ⟨KD.rangeSearchRec lower upper t [], ?_, ?_⟩⟩
  · simp only [State.rangeSearch, e]
    exact rangeSearchRec_shows lower upper sh _ lf []
  · have := rangeSearchRec_spec lower upper _ [] it
    rw [List.nil_append] at this
    exact this.trans (pt.filter _)

/-- **C123** (no leak): if all trees of such a history are destroyed in the end, no node is left. -/
theorem C123_no_leak_partial (nth : NthElement K) (A : Allocator) (hA : A.Total) (ops : List (Op K)) (hc : NoCopies ops)
    (cs : Contents K) (he : expected [] ops = some cs) (hd : ∀ l ∈ cs, l = none) :
    ∃ s, State.init.run nth A ops = some s ∧ s.heap = [] := by
  obtain ⟨s, r, h, -⟩ := C123_history_partial nth A hA ops hc cs he
  refine ⟨s, r, List.eq_nil_of_length_eq_zero ?_⟩
  rw [h]
  have : cs = List.replicate cs.length none := List.eq_replicate_iff.mpr ⟨rfl, hd⟩
  rw [this]
  simp [total]

/-- **C123** (nearest point): in such a history `nearestNeighbor` returns a stored point of this tree that is nearest to the target, and
throws exactly if the tree is empty. -/
theorem C123_nearest_partial [Arith K] [MonoArith K] (nth : NthElement K) (A : Allocator)
    (hA : A.Total) (ops : List (Op K)) (hc : NoCopies ops) (cs : Contents K) (he : expected [] ops = some cs) :
    ∃ s, State.init.run nth A ops = some s ∧ ∀ i l, cs[i]? = some (some l) → ∀ q,
      (l = [] → s.nearestNeighbor i q = .throws) ∧
      (l ≠ [] → ∃ p ∈ l, s.nearestNeighbor i q = .ok p ∧ ∀ p' ∈ l, q.distanceSq p ≤ q.distanceSq p') := by
  obtain ⟨s, r, G⟩ := run_good nth hA ops hc _ _ cs init_good he
  refine ⟨s, r, fun i l hi q => ?_⟩
  obtain ⟨o, t, f, rest, e, -, sh, it, pt, st, nf, lf, -, -, -⟩ := G.obj (i := i) (l := l) (by simp [hi])
  cases t with
  | nil =>
    have hl : l = [] := by simpa [Tree.points] using pt
    refine ⟨fun _ => ?_, fun h => absurd hl h⟩
    simp [State.nearestNeighbor, e, sh.1]
  | node y ax tl tr =>
    refine ⟨fun h => ?_, fun _ => ?_⟩
    · subst h
      have := pt.length_eq
      simp [Tree.points] at this
    · obtain ⟨a, lp, rp, fl, fr, h1, hg, -⟩ := id sh
      have hs : KD.Good q (y, q.distanceSq y) := rfl
      obtain ⟨g1, -, g3, g4⟩ := nearestRec_spec q (.node y ax tl tr) it (y, q.distanceSq y) hs
      refine ⟨(KD.nearestRec q (.node y ax tl tr) (y, q.distanceSq y)).1, ?_, ?_, ?_⟩
      · apply pt.mem_iff.mp
        rcases g4 with g4 | g4
        · rw [g4]; simp [Tree.points]
        · exact g4
      · have := nearestRec_shows q sh _ lf (y, q.distanceSq y)
        rw [h1] at this
        simp only [State.nearestNeighbor, e, h1, hg, this]
        rfl
      · intro p' hp'
        have := g3 p' (pt.mem_iff.mpr hp')
        rw [g1] at this
        exact this

theorem run_append (nth : NthElement K) (A : Allocator) (s : State K) (a b : List (Op K)) :
    s.run nth A (a ++ b) = (s.run nth A a).bind fun s => s.run nth A b := by
  induction a generalizing s with
  | nil => rfl
  | cons op a ih =>
    simp only [List.cons_append, State.run]
    cases s.step nth A op with
    | ok _ s => exact ih s
    | throws s => exact ih s
    | ub => rfl

theorem Own.lengths {h : Heap K} {os : List (Option Obj)} {ls : Contents K} {g : List Nat} (w : Own h os ls g) : os.length = ls.length := by
  induction w with
  | nil => rfl
  | cons s r ih => simp [ih]

/-- **C123** is false for copies, whatever tree with at least one point is copied: after the original is destroyed, a search in the
copy is undefined, and so is destroying the copy. -/
theorem C123_copy_counterexample (nth : NthElement K) (A : Allocator) (hA : A.Total) (ops : List (Op K)) (hc : NoCopies ops)
    (cs : Contents K) (he : expected [] ops = some cs) (i : Nat) (l : List (Vec3 K)) (hi : cs[i]? = some (some l)) (hl : l ≠ []) :
    (∃ s, State.init.run nth A (ops ++ [.copy i, .destroy i]) = some s ∧ ∀ lower upper, s.rangeSearch cs.length lower upper = .ub) ∧
      State.init.run nth A (ops ++ [.copy i, .destroy i, .destroy cs.length]) = none := by
  obtain ⟨s, r, G⟩ := run_good nth hA ops hc _ _ cs init_good he
  have hlen : s.objs.length = cs.length := by obtain ⟨g, w, -, -⟩ := G; exact w.lengths
  obtain ⟨o, t, f, rest, e, e2, sh, it, pt, st, nf, lf, -, -, -⟩ := G.obj (i := i) (l := l) (by simp [hi])
  have hi1 : i < s.objs.length := (List.getElem?_eq_some_iff.mp e2).1
  have s1 : s.step nth A (.copy i) = .ok () ⟨s.heap, s.objs ++ [some o]⟩ := by simp [State.step, State.copy, e]
  have e3 : (⟨s.heap, s.objs ++ [some o]⟩ : State K).obj i = some o := by
    simp only [State.obj, List.getElem?_append_left hi1, e2, Option.join_some]
  have s2 : (⟨s.heap, s.objs ++ [some o]⟩ : State K).step nth A (.destroy i) =
      .ok () ⟨without s.heap f, (s.objs ++ [some o]).set i none⟩ := by
    simp only [State.step, State.destroy, e3, deleteRec_shows sh nf _ lf]
  have e4 : (⟨without s.heap f, (s.objs ++ [some o]).set i none⟩ : State K).obj cs.length = some o := by
    rw [← hlen]
    simp only [State.obj]
    rw [List.getElem?_set_ne (by omega), List.getElem?_append_right (le_refl _)]
    simp
  obtain ⟨a, ha, hga⟩ : ∃ a, o.root = some a ∧ get (without s.heap f) a = none := by
    cases t with
    | nil =>
      have : l = [] := by simpa [Tree.points] using pt
      exact absurd this hl
    | node y ax tl tr =>
      obtain ⟨a, lp, rp, fl, fr, h1, -, -, -, rfl⟩ := sh
      exact ⟨a, h1, by rw [get_without, if_pos (by simp)]⟩
  refine ⟨⟨⟨without s.heap f, (s.objs ++ [some o]).set i none⟩, ?_, fun lower upper => ?_⟩, ?_⟩
  · rw [run_append, r]
    simp only [Option.bind_some, State.run, s1, s2]
  · simp only [State.rangeSearch, e4, ha]
    cases hh : (without s.heap f).length <;> simp [rangeSearchRec, hga]
  · rw [run_append, r]
    simp only [Option.bind_some, State.run, s1, s2]
    have : (⟨without s.heap f, (s.objs ++ [some o]).set i none⟩ : State K).step nth A (.destroy cs.length) = .ub := by
      simp only [State.step, State.destroy, e4, ha]
      cases hh : (without s.heap f).length <;> simp [deleteRec, hga]
    rw [this]

/-- **C123** is false for assignments: assigning an empty tree over another one and destroying that one leaves all its nodes allocated, and
no object knows them any more. -/
theorem C123_assign_counterexample (nth : NthElement K) (A : Allocator) (hA : A.Total) (ops : List (Op K)) (hc : NoCopies ops)
    (cs : Contents K) (he : expected [] ops = some cs) (i j : Nat) (l : List (Vec3 K)) (hi : cs[i]? = some (some l))
    (hj : cs[j]? = some (some [])) :
    ∃ s cs', expected [] (ops ++ [.assign i j, .destroy i]) = some cs' ∧ State.init.run nth A (ops ++ [.assign i j, .destroy i]) = some s ∧
      s.heap.length = total cs' + l.length := by
  obtain ⟨s, r, G⟩ := run_good nth hA ops hc _ _ cs init_good he
  obtain ⟨o, -, -, -, e, e2, -⟩ := G.obj (i := i) (l := l) (by simp [hi])
  obtain ⟨o', t', f', -, e', -, sh', -, pt', -⟩ := G.obj (i := j) (l := []) (by simp [hj])
  have hi1 : i < s.objs.length := (List.getElem?_eq_some_iff.mp e2).1
  have hi2 : i < cs.length := (List.getElem?_eq_some_iff.mp hi).1
  have hroot : o'.root = none := by
    cases t' with
    | nil => exact sh'.1
    | node y ax tl tr => have := pt'.length_eq; simp [Tree.points] at this
  have s1 : s.step nth A (.assign i j) = .ok () ⟨s.heap, s.objs.set i (some o')⟩ := by simp [State.step, State.assign, e, e']
  have e3 : (⟨s.heap, s.objs.set i (some o')⟩ : State K).obj i = some o' := by simp [State.obj, hi1]
  have s2 : (⟨s.heap, s.objs.set i (some o')⟩ : State K).step nth A (.destroy i) = .ok () ⟨s.heap, s.objs.set i none⟩ := by
    simp only [State.step, State.destroy, e3, hroot]
    cases s.heap.length <;> simp [deleteRec]
  have ex : ∀ (a b : List (Op K)) (c : Contents K), expected c (a ++ b) = (expected c a).bind fun c => expected c b := by
    intro a b
    induction a with
    | nil => intro c; rfl
    | cons op a ih =>
      intro c
      simp only [List.cons_append, expected]
      cases expectedStep c op with
      | none => rfl
      | some c1 => exact ih c1
  refine ⟨⟨s.heap, s.objs.set i none⟩, cs.set i none, ?_, ?_, ?_⟩
  · have a1 : expectedStep cs (.assign i j) = some (cs.set i (some [])) := by
      simp only [expectedStep, hi, hj, Option.join_some, Option.bind_some, Option.map_some]
    have a2 : expectedStep (cs.set i (some [])) (.destroy i) = some (cs.set i none) := by
      simp only [expectedStep, List.getElem?_set_self hi2, Option.join_some, Option.map_some, List.set_set]
    rw [ex, he]
    simp only [Option.bind_some, expected, a1, a2]
  · rw [run_append, r]
    simp only [Option.bind_some, State.run, s1, s2]
  · rw [G.length]
    have : ∀ (c : Contents K) (i : Nat), c[i]? = some (some l) → total c = total (c.set i none) + l.length := by
      intro c
      induction c with
      | nil => intro i hi; simp at hi
      | cons x c ih =>
        intro i hi
        cases i with
        | zero =>
          simp only [List.getElem?_cons_zero, Option.some.injEq] at hi
          subst hi
          simp [total]
          omega
        | succ i =>
          have := ih i (by simpa using hi)
          simp only [total, List.set_cons_succ, List.map_cons, List.sum_cons] at this ⊢
          omega
    exact this cs i hi
end

/-- Every call that fails for lack of memory while inserting leaves the tree as it was, but `size()` then counts a point that is not
there. -/
theorem C123_insert_failure_counterexample [LT K] [DecidableLT K] (A : Allocator) (s s' : State K) (i : Nat) (x : Vec3 K)
    (h : s.insert A i x = .throws s') :
    ∃ o, s.obj i = some o ∧ s' = ⟨s.heap, s.objs.set i (some ⟨o.root, o.size_ + 1⟩)⟩ := by
  have key : ∀ fuel p depth hp size (t : Heap K × Nat), insertRec A x fuel p depth (hp, size) = .throws t → t = (hp, size + 1) := by
    intro fuel p depth hp size t
    induction fuel generalizing p depth with
    | zero =>
      cases p with
      | none =>
        simp only [insertRec, newNode]
        cases A.pick (addrs hp) <;> simp [eq_comm]
      | some a => simp [insertRec]
    | succ fuel ih =>
      cases p with
      | none =>
        simp only [insertRec, newNode]
        cases A.pick (addrs hp) <;> simp [eq_comm]
      | some a =>
        simp only [insertRec]
        cases hg : get hp a with
        | none => simp
        | some c =>
          simp only
          split
          · cases hr : insertRec A x fuel c.left (depth + 1) (hp, size) with
            | ok p' t' => simp only [Out.bind, setLeft]; cases get t'.1 a <;> simp
            | throws t' =>
              simp only [Out.bind, Out.throws.injEq]
              rintro rfl
              exact ih _ _ hr
            | ub => simp [Out.bind]
          · cases hr : insertRec A x fuel c.right (depth + 1) (hp, size) with
            | ok p' t' => simp only [Out.bind, setRight]; cases get t'.1 a <;> simp
            | throws t' =>
              simp only [Out.bind, Out.throws.injEq]
              rintro rfl
              exact ih _ _ hr
            | ub => simp [Out.bind]
  simp only [State.insert] at h
  cases ho : s.obj i with
  | none => simp [ho] at h
  | some o =>
    simp only [ho] at h
    cases hr : insertRec A x s.heap.length o.root 0 (s.heap, o.size_) with
    | ok p t => simp [hr] at h
    | ub => simp [hr] at h
    | throws t =>
      simp only [hr, Out.throws.injEq] at h
      rw [key _ _ _ _ _ _ hr] at h
      exact ⟨o, rfl, h.symm⟩

/-- An allocator that never fails: one above all addresses in use. -/
def bump : Allocator where
  pick used := some (used.foldr max 0 + 1)
  fresh used a h := by
    simp only [Option.some.injEq] at h
    subst h
    have : ∀ (l : List Nat) b, b ∈ l → b ≤ l.foldr max 0 := by
      intro l
      induction l with
      | nil => simp
      | cons x l ih =>
        intro b hb
        rcases List.mem_cons.mp hb with rfl | hb
        · simp
        · exact le_trans (ih b hb) (by simp)
    intro hm
    have := this used _ hm
    omega

theorem bump_total : bump.Total := fun _ => by simp [bump]

/-- The same allocator, but out of memory once the only node in use is at address 3. -/
def failing : Allocator where
  pick used := if used = [3] then none else bump.pick used
  fresh used a h := by
    by_cases h3 : used = [3]
    · simp [h3] at h
    · rw [if_neg h3] at h; exact bump.fresh used a h

/-- Three trees with one point each; the first is destroyed, the second rebuilt. -/
def rebuild : List (Op ℚ) :=
  [.construct, .construct, .construct, .insert 0 ⟨1, 2, 3⟩, .insert 1 ⟨4, 5, 6⟩, .insert 2 ⟨7, 8, 9⟩, .destroy 0] ++ [.build 1 [⟨1, 1, 1⟩]]

/-- **C123** is false if memory runs out during `build`: the exception leaves the object with a pointer to its deleted old tree, so that
destroying it is undefined. -/
theorem C123_build_failure_counterexample : ∃ (A : Allocator) (ops : List (Op ℚ)) (i : Nat) (cs : Contents ℚ), NoCopies (ops ++ [.destroy i]) ∧
    expected [] (ops ++ [.destroy i]) = some cs ∧
    ∀ nth, (∃ s, State.init.run nth A ops = some s) ∧ State.init.run nth A (ops ++ [.destroy i]) = none := by
  have key : ∀ nth, State.init.run nth failing rebuild =
      some ⟨[(3, ⟨⟨7, 8, 9⟩, 0, none, none⟩)], [none, some ⟨some 2, 1⟩, some ⟨some 3, 1⟩]⟩ := by
    intro nth
    have b : buildRec nth failing [(⟨1, 1, 1⟩ : Vec3 ℚ)] 0 [(3, ⟨⟨7, 8, 9⟩, 0, none, none⟩)] =
        .throws [(3, ⟨⟨7, 8, 9⟩, 0, none, none⟩)] := by
      rw [buildRec, dif_neg (by simp)]
      simp [newNode, addrs, failing, Out.bind]
    have r1 : (State.init : State ℚ).run nth failing [.construct, .construct, .construct, .insert 0 ⟨1, 2, 3⟩, .insert 1 ⟨4, 5, 6⟩,
        .insert 2 ⟨7, 8, 9⟩, .destroy 0] =
        some ⟨[(3, ⟨⟨7, 8, 9⟩, 0, none, none⟩), (2, ⟨⟨4, 5, 6⟩, 0, none, none⟩)], [none, some ⟨some 2, 1⟩, some ⟨some 3, 1⟩]⟩ := rfl
    have d : deleteRec 2 (some 2) [(3, (⟨⟨7, 8, 9⟩, 0, none, none⟩ : Cell ℚ)), (2, ⟨⟨4, 5, 6⟩, 0, none, none⟩)] =
        .ok () [(3, ⟨⟨7, 8, 9⟩, 0, none, none⟩)] := rfl
    rw [rebuild, run_append, r1]
    simp only [Option.bind_some, State.run, State.step, State.build, State.obj, List.length_cons, List.length_nil,
      List.getElem?_cons_succ, List.getElem?_cons_zero, Option.join_some, d, b, List.set_cons_succ, List.set_cons_zero]
  refine ⟨failing, rebuild, 1, [none, none, some [⟨7, 8, 9⟩]], ?_, ?_, fun nth => ⟨?_, ?_⟩⟩
  · simp [NoCopies, rebuild]
  · decide +kernel
  · exact ⟨_, key nth⟩
  · rw [run_append, key nth]
    rfl

/-- A history of the kind the theorems speak of: two trees, rebuilt, extended, one destroyed. -/
example : NoCopies ([.construct, .construct, .build 0 [⟨1, 2, 3⟩, ⟨4, 5, 6⟩], .insert 0 ⟨1, 2, 3⟩, .build 1 [⟨0, 0, 0⟩],
      .build 0 [⟨1, 1, 1⟩, ⟨2, 2, 2⟩, ⟨3, 3, 3⟩], .insert 1 ⟨5, 5, 5⟩, .destroy 0] : List (Op ℚ)) ∧
    expected [] ([.construct, .construct, .build 0 [⟨1, 2, 3⟩, ⟨4, 5, 6⟩], .insert 0 ⟨1, 2, 3⟩, .build 1 [⟨0, 0, 0⟩],
      .build 0 [⟨1, 1, 1⟩, ⟨2, 2, 2⟩, ⟨3, 3, 3⟩], .insert 1 ⟨5, 5, 5⟩, .destroy 0] : List (Op ℚ)) =
        some [none, some [⟨5, 5, 5⟩, ⟨0, 0, 0⟩]] ∧ bump.Total :=
  ⟨by simp [NoCopies], by decide +kernel, bump_total⟩

/-- Inserting can fail in the way `C123_insert_failure_counterexample` speaks of. -/
example : (⟨[(3, ⟨⟨7, 8, 9⟩, 0, none, none⟩)], [some ⟨some 3, 1⟩]⟩ : State ℚ).insert failing 0 ⟨1, 1, 1⟩ =
    .throws ⟨[(3, ⟨⟨7, 8, 9⟩, 0, none, none⟩)], [some ⟨some 3, 2⟩]⟩ := rfl

/-- C123: queries on an object that has been destroyed, and queries that start at a freed node (which a copied object does after the original is destroyed, see
`C123_copy_counterexample`), are undefined behaviour; the object without points answers with an exception or with no points. -/
theorem C123_dead_queries [LinearOrder K] [Add K] [Sub K] [Mul K] (s : State K) (i : Nat) (lower upper target : Vec3 K) :
    (s.obj i = none → s.rangeSearch i lower upper = .ub ∧ s.nearestNeighbor i target = .ub ∧ s.size i = .ub) ∧
    (∀ o a, s.obj i = some o → o.root = some a → get s.heap a = none → s.nearestNeighbor i target = .ub) ∧
    (∀ o, s.obj i = some o → o.root = none → s.nearestNeighbor i target = .throws ∧ s.size i = .ok o.size_) := by
  refine ⟨fun h => ?_, fun o a h1 h2 h3 => ?_, fun o h1 h2 => ?_⟩
  · simp [State.rangeSearch, State.nearestNeighbor, State.size, h]
  · simp [State.nearestNeighbor, h1, h2, h3]
  · simp [State.nearestNeighbor, State.size, h1, h2]

/-- A destroyed object, an object whose node is gone, and an object without points. -/
example : let s : State ℚ := ⟨[], [none, some ⟨some 3, 1⟩, some ⟨none, 0⟩]⟩
    s.obj 0 = none ∧ s.obj 1 = some ⟨some 3, 1⟩ ∧ get s.heap 3 = none ∧ s.obj 2 = some ⟨none, 0⟩ := ⟨rfl, rfl, rfl, rfl⟩

end Cmm.KDHeap
