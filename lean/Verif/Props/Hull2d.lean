import Verif.Lemmas.Hull2d
/-!
Properties of cmmcore/_convexhull/convexhull2d.h: C50.
-/
namespace Cmm.Hull2d
open Cmm.Geom
variable {K : Type} [Field K] [LinearOrder K] [IsStrictOrderedRing K]

/-! A sort that meets the contract: insertion. -/

/-- Insertion into a sorted list. -/
def insertBy {α : Type} (cmp : α → α → Bool) (a : α) : List α → List α
  | [] => [a]
  | b :: l => if cmp b a = true then b :: insertBy cmp a l else a :: b :: l

theorem insertBy_perm {α : Type} (cmp : α → α → Bool) (a : α) : ∀ l, (insertBy cmp a l).Perm (a :: l)
  | [] => by simp [insertBy]
  | b :: l => by
    unfold insertBy
    split
    · exact ((insertBy_perm cmp a l).cons b).trans (List.Perm.swap a b l)
    · exact List.Perm.refl _

theorem StrictWeak.le_trans {α : Type} {cmp : α → α → Bool} {l : List α} (h : StrictWeak cmp l) {a b c : α} (ha : a ∈ l) (hb : b ∈ l)
    (hc : c ∈ l) (h1 : cmp b a = false) (h2 : cmp c b = false) : cmp c a = false := by
  by_contra h3
  rw [Bool.not_eq_false] at h3
  cases hab : cmp a b with
  | true => rw [h.trans c hc a ha b hb h3 hab] at h2; cases h2
  | false =>
    cases hbc : cmp b c with
    | true => rw [h.trans b hb c hc a ha hbc h3] at h1; cases h1
    | false => rw [(h.incomp a ha b hb c hc hab h1 hbc h2).2] at h3; cases h3

theorem insertBy_sorted {α : Type} {cmp : α → α → Bool} {L : List α} (h : StrictWeak cmp L) {a : α} (ha : a ∈ L) :
    ∀ l, (∀ x ∈ l, x ∈ L) → l.Pairwise (fun a b => cmp b a = false) → (insertBy cmp a l).Pairwise (fun a b => cmp b a = false)
  | [], _, _ => by simp [insertBy]
  | b :: l, hl, hp => by
    rw [List.pairwise_cons] at hp
    have hb := hl b List.mem_cons_self
    unfold insertBy
    split
    · rename_i hba
      refine List.pairwise_cons.2 ⟨fun x hx => ?_, insertBy_sorted h ha l (fun x hx => hl x (List.mem_cons_of_mem _ hx)) hp.2⟩
      rcases List.mem_cons.1 ((insertBy_perm cmp a l).subset hx) with rfl | hx
      · by_contra h'
        rw [Bool.not_eq_false] at h'
        have := h.trans b hb x ha b hb hba h'
        rw [h.irrefl b hb] at this
        cases this
      · exact hp.1 x hx
    · rename_i hba
      rw [Bool.not_eq_true] at hba
      refine List.pairwise_cons.2 ⟨fun x hx => ?_, List.pairwise_cons.2 hp⟩
      rcases List.mem_cons.1 hx with rfl | hx
      · exact hba
      · exact h.le_trans ha hb (hl x (List.mem_cons_of_mem _ hx)) hba (hp.1 x hx)

/-- Insertion sort. -/
def insertSort {α : Type} (cmp : α → α → Bool) : List α → List α
  | [] => []
  | a :: l => insertBy cmp a (insertSort cmp l)

theorem insertSort_perm {α : Type} (cmp : α → α → Bool) : ∀ l, (insertSort cmp l).Perm l
  | [] => List.Perm.refl _
  | a :: l => (insertBy_perm cmp a _).trans ((insertSort_perm cmp l).cons a)

theorem insertSort_sorted {α : Type} {cmp : α → α → Bool} {L : List α} (h : StrictWeak cmp L) :
    ∀ l, (∀ x ∈ l, x ∈ L) → (insertSort cmp l).Pairwise (fun a b => cmp b a = false)
  | [], _ => List.Pairwise.nil
  | a :: l, hl => insertBy_sorted h (hl a List.mem_cons_self) _
      (fun x hx => hl x (List.mem_cons_of_mem _ ((insertSort_perm cmp l).subset hx)))
      (insertSort_sorted h l (fun x hx => hl x (List.mem_cons_of_mem _ hx)))

/-- A concrete sort. -/
def insertionSort (α : Type) : StdSort α where
  run := insertSort
  perm cmp l _ := insertSort_perm cmp l
  sorted _ l h := insertSort_sorted h l (fun _ hx => hx)

/-! ### The whole function -/

/-- The loop finds the lowest point, of several the leftmost. -/
theorem lowestGo_spec (pts : List (Vec2 K)) : ∀ (rest : List (Vec2 K)) (i best : Nat) (b : Vec2 K), pts.drop i = rest → pts[best]? = some b →
    (∀ q ∈ rest, ∀ r, r ∈ rest ∨ r = b → q.y = r.y ∨ eps ≤ |q.y - r.y|) →
    ∃ v, pts[lowestGo rest i best b]? = some v ∧ Above v b ∧ ∀ q ∈ rest, Above v q
  | [], _, best, b, _, hb, _ => ⟨b, hb, Or.inr ⟨rfl, le_rfl⟩, by simp⟩
  | p :: rest, i, best, b, hd, hb, hr => by
    have hp : pts[i]? = some p := by
      have : (pts.drop i)[0]? = some p := by rw [hd]; rfl
      simpa using this
    have hd' : pts.drop (i + 1) = rest := by rw [← List.tail_drop, hd]; rfl
    have he := eps_pos (K := K)
    have hpb := hr p List.mem_cons_self b (Or.inr rfl)
    have htr : ∀ {u v w : Vec2 K}, Above u v → Above v w → Above u w := by
      rintro u v w (h | ⟨h, h'⟩) (g | ⟨g, g'⟩)
      · exact Or.inl (h.trans g)
      · exact Or.inl (g ▸ h)
      · exact Or.inl (h ▸ g)
      · exact Or.inr ⟨h.trans g, h'.trans g'⟩
    unfold lowestGo
    rw [absA_abs]
    split
    · rename_i hc
      obtain ⟨v, h1, h2, h3⟩ := lowestGo_spec pts rest (i + 1) i p hd' hp (fun q hq r hr' => hr q (List.mem_cons_of_mem _ hq) r (by
        rcases hr' with h | rfl
        · exact Or.inl (List.mem_cons_of_mem _ h)
        · exact Or.inl List.mem_cons_self))
      refine ⟨v, h1, htr h2 ?_, fun q hq => ?_⟩
      · rcases hc with hc | ⟨hc, hx⟩
        · exact Or.inl hc
        · rcases hpb with h | h
          · exact Or.inr ⟨h, hx.le⟩
          · exact absurd hc (not_lt.2 h)
      · rcases List.mem_cons.1 hq with rfl | hq
        · exact h2
        · exact h3 q hq
    · rename_i hc
      push Not at hc
      obtain ⟨v, h1, h2, h3⟩ := lowestGo_spec pts rest (i + 1) best b hd' hb (fun q hq r hr' => hr q (List.mem_cons_of_mem _ hq) r (by
        rcases hr' with h | h
        · exact Or.inl (List.mem_cons_of_mem _ h)
        · exact Or.inr h))
      refine ⟨v, h1, h2, fun q hq => ?_⟩
      rcases List.mem_cons.1 hq with rfl | hq
      · apply htr h2
        rcases hc.1.lt_or_eq with h | h
        · exact Or.inl h
        · exact Or.inr ⟨h, hc.2 (by rw [h, sub_self, abs_zero]; exact he)⟩
      · exact h3 q hq

/-- What is done after the lowest point is in front. -/
theorem hullFrom_spec (sort : StdSort (Vec2 K)) (o : Vec2 K) (tail : List (Vec2 K)) (ha : ∀ q ∈ tail, Above o q)
    (hr : ∀ a ∈ o :: tail, ∀ b ∈ o :: tail, ∀ c ∈ o :: tail, turn a b c = 0 ∨ eps ≤ |turn a b c|) :
    (hullFrom sort o tail = [] ∧ AllCollinear (o :: tail)) ∨
    (3 ≤ (hullFrom sort o tail).length ∧ (hullFrom sort o tail).head? = some o ∧ (∀ p ∈ hullFrom sort o tail, p ∈ o :: tail) ∧
      ConvexCCW (hullFrom sort o tail) ∧ ∀ p ∈ o :: tail, InHull2 (hullFrom sort o tail) p) := by
  have sw : StrictWeak (comparator o) tail := comparator_strictWeak ha
    (fun a h1 b h2 => hr o List.mem_cons_self a (List.mem_cons_of_mem _ h1) b (List.mem_cons_of_mem _ h2))
  have hperm := sort.perm _ _ sw
  have hsort := sort.sorted _ _ sw
  have ha' : ∀ q ∈ sort.run (comparator o) tail, Above o q := fun q hq => ha q (hperm.subset hq)
  have hr' : ∀ a ∈ sort.run (comparator o) tail, ∀ b ∈ sort.run (comparator o) tail, turn o a b = 0 ∨ eps ≤ |turn o a b| :=
    fun a h1 b h2 => hr o List.mem_cons_self a (List.mem_cons_of_mem _ (hperm.subset h1)) b (List.mem_cons_of_mem _ (hperm.subset h2))
  have hS : Sorted o (sort.run (comparator o) tail) := by
    refine List.Pairwise.imp_of_mem ?_ hsort
    intro a b h1 h2 h
    rw [← Bool.not_eq_true, comparator_iff (hr' b h2 a h1), turn_anti o a b] at h
    push Not at h
    exact ⟨by linarith [h.1], fun h0 => h.2 (by rw [h0, neg_zero])⟩
  obtain ⟨f1, f2, f3⟩ := farthest_spec _ ha' hr' hS
  unfold hullFrom
  have hcol : ∀ d : Vec2 K, (∀ p ∈ tail, InHull2 [o, o, d] p) → AllCollinear (o :: tail) := by
    intro d hd
    have key : ∀ p ∈ o :: tail, ∃ t, p.x = o.x + t * (d.x - o.x) ∧ p.y = o.y + t * (d.y - o.y) := by
      intro p hp
      rcases List.mem_cons.1 hp with rfl | hp
      · exact ⟨0, by ring, by ring⟩
      · obtain ⟨w, hl, _, hs, hx, hy⟩ := hd p hp
        match w, hl with
        | [u, v, t], _ =>
          simp only [List.zipWith_cons_cons, List.zipWith_nil_right, List.sum_cons, List.sum_nil, add_zero] at hs hx hy
          exact ⟨t, by rw [hx]; linear_combination o.x * hs, by rw [hy]; linear_combination o.y * hs⟩
    intro a h1 b h2 c h3
    obtain ⟨t1, x1, y1⟩ := key a h1
    obtain ⟨t2, x2, y2⟩ := key b h2
    obtain ⟨t3, x3, y3⟩ := key c h3
    unfold turn
    rw [x1, y1, x2, y2, x3, y3]; ring
  match hD : farthest o (sort.run (comparator o) tail) with
  | [] =>
    left
    refine ⟨rfl, hcol o (fun p hp => ?_)⟩
    obtain ⟨d, hd, _⟩ := f3 p (hperm.symm.subset hp)
    rw [hD] at hd
    simp at hd
  | [d] =>
    left
    refine ⟨rfl, hcol d (fun p hp => ?_)⟩
    obtain ⟨d', hd, h⟩ := f3 p (hperm.symm.subset hp)
    rw [hD] at hd
    simp only [List.mem_cons, List.not_mem_nil, or_false] at hd
    subst hd
    exact h
  | q1 :: q2 :: rest =>
    right
    rw [hD] at f1 f2 f3
    rw [List.pairwise_cons, List.pairwise_cons] at f2
    obtain ⟨g1, g2, g3⟩ := f2
    have hmem : ∀ d ∈ q1 :: q2 :: rest, d ∈ tail := fun d hd => hperm.subset (f1 d hd)
    have hm2 : ∀ x ∈ [q2, q1] ++ o :: rest, x ∈ o :: tail := by
      intro x hx
      simp only [List.cons_append, List.nil_append, List.mem_cons] at hx
      rcases hx with rfl | rfl | rfl | h
      · exact List.mem_cons_of_mem _ (hmem _ (by simp))
      · exact List.mem_cons_of_mem _ (hmem _ (by simp))
      · exact List.mem_cons_self
      · exact List.mem_cons_of_mem _ (hmem _ (by simp [h]))
    obtain ⟨T', n1, e1, c1, m1, i1, l1⟩ := scan_spec (o := o) rest [q2, q1] (by simp) (by
        intro a b c hs
        have e := List.Sublist.eq_of_length hs rfl
        simp only [List.cons_append, List.nil_append, List.cons.injEq, and_true] at e
        obtain ⟨rfl, rfl, rfl⟩ := e
        exact g1 _ List.mem_cons_self) g3 (by
        intro v hv q hq
        simp only [List.mem_cons, List.not_mem_nil, or_false] at hv
        rcases hv with rfl | rfl
        · exact g2 q hq
        · exact g1 q (List.mem_cons_of_mem _ hq))
      (fun a ha b hb c hc => hr a (hm2 a ha) b (hm2 b hb) c (hm2 c hc))
    have e1' : scan rest [q2, q1, o] = T' ++ [o] := e1
    have hl := l1 (Or.inl (by simp))
    dsimp only
    rw [e1']
    refine ⟨by simp; omega, by simp, ?_, ?_, ?_⟩
    · intro p hp
      simp only [List.mem_reverse, List.mem_append, List.mem_cons, List.not_mem_nil, or_false] at hp
      rcases hp with hp | rfl
      · rcases m1 p hp with h | h
        · simp only [List.mem_cons, List.not_mem_nil, or_false] at h
          rcases h with rfl | rfl <;> exact List.mem_cons_of_mem _ (hmem _ (by simp))
        · exact List.mem_cons_of_mem _ (hmem _ (by simp [h]))
      · exact List.mem_cons_self
    · intro a b c hs
      exact c1 a b c (by simpa using List.reverse_sublist.2 hs)
    · intro p hp
      have hrev : ∀ v ∈ T' ++ [o], InHull2 (T' ++ [o]).reverse v := fun v hv => hull2_mem (List.mem_reverse.2 hv)
      apply hull2_mono hrev
      rcases List.mem_cons.1 hp with rfl | hp
      · exact i1 p (Or.inl (by simp))
      · obtain ⟨d, hd, h⟩ := f3 p (hperm.symm.subset hp)
        refine hull2_mono (fun u hu => ?_) h
        simp only [List.mem_cons, List.not_mem_nil, or_false] at hu
        have ho : InHull2 (T' ++ [o]) o := i1 o (Or.inl (by simp))
        rcases hu with rfl | rfl | rfl
        · exact ho
        · exact ho
        · apply i1
          simp only [List.mem_cons] at hd
          rcases hd with rfl | rfl | h
          · left; simp
          · left; simp
          · right; exact h

/-- The swap brings the lowest point to the front. -/
theorem front_cases (p q r : Vec2 K) (rest : List (Vec2 K)) (hr : Resolved eps (p :: q :: r :: rest)) {k : Nat} (hk : lowestGo (q :: r :: rest) 1 0 p = k) :
    ∃ o tail, ((p :: q :: r :: rest).set 0 ((p :: q :: r :: rest).getD k p)).set k p = o :: tail ∧ (o :: tail).Perm (p :: q :: r :: rest) ∧
      ∀ x ∈ p :: q :: r :: rest, Above o x := by
  obtain ⟨v, hv, h1, h2⟩ := lowestGo_spec (p :: q :: r :: rest) (q :: r :: rest) 1 0 p rfl rfl
    (fun x hx y hy => hr.2 x (List.mem_cons_of_mem _ hx) y (by
      rcases hy with h | rfl
      · exact List.mem_cons_of_mem _ h
      · exact List.mem_cons_self))
  rw [hk] at hv
  obtain ⟨hlt, hget⟩ := List.getElem?_eq_some_iff.1 hv
  have hpk : (p :: q :: r :: rest).getD k p = v := by
    rw [List.getD_eq_getElem?_getD, hv]; rfl
  rw [hpk]
  have hperm : (((p :: q :: r :: rest).set 0 v).set k p).Perm (p :: q :: r :: rest) := by
    have := List.set_set_perm (as := p :: q :: r :: rest) (i := 0) (j := k) (by simp) hlt
    rw [hget] at this
    exact this
  have hne : ∃ o tail, ((p :: q :: r :: rest).set 0 v).set k p = o :: tail ∧ o = v := by
    cases k with
    | zero =>
      refine ⟨p, q :: r :: rest, rfl, ?_⟩
      simpa using hv
    | succ k => exact ⟨v, (q :: r :: rest).set k p, rfl, rfl⟩
  obtain ⟨o, tail, e, rfl⟩ := hne
  rw [e] at hperm ⊢
  refine ⟨o, tail, rfl, hperm, ?_⟩
  intro x hx
  rcases List.mem_cons.1 hx with rfl | hx
  · exact h1
  · exact h2 x hx

theorem hull_cases (sort : StdSort (Vec2 K)) (points : List (Vec2 K)) (hn : 3 ≤ points.length) (hr : Resolved eps points) :
    ∃ o tail, (o :: tail).Perm points ∧ (∀ q ∈ points, Above o q) ∧ convexHull2d sort points = hullFrom sort o tail := by
  match points, hn with
  | p :: q :: r :: rest, _ =>
    obtain ⟨o, tail, e, hp, ha⟩ := front_cases p q r rest hr rfl
    refine ⟨o, tail, hp, ha, ?_⟩
    unfold convexHull2d
    dsimp only
    rw [e]

theorem c50_points_partial_aux (sort : StdSort (Vec2 K)) (points : List (Vec2 K)) (hr : Resolved eps points) :
    ∀ p ∈ convexHull2d sort points, p ∈ points := by
  by_cases hn : 3 ≤ points.length
  · obtain ⟨o, tail, hp, ha, e⟩ := hull_cases sort points hn hr
    rw [e]
    rcases hullFrom_spec sort o tail (fun q hq => ha q (hp.subset (List.mem_cons_of_mem _ hq)))
      (fun a h1 b h2 c h3 => hr.1 a (hp.subset h1) b (hp.subset h2) c (hp.subset h3)) with ⟨h, _⟩ | ⟨_, _, h, _⟩
    · rw [h]; simp
    · exact fun p hp' => hp.subset (h p hp')
  · match points, hn with
    | [], _ => simp [convexHull2d]
    | [_], _ => simp [convexHull2d]
    | [_, _], _ => simp [convexHull2d]
    | _ :: _ :: _ :: _, h => simp at h

/-- **C50** (partial: for points the tolerance can resolve, see C50_tolerance_counterexample): the points returned are points of the input. -/
theorem C50_points_partial (sort : StdSort (Vec2 K)) (points : List (Vec2 K)) (hr : Resolved (1 / 10 ^ 9 : K) points) :
    ∀ p ∈ convexHull2d sort points, p ∈ points := by
  rw [← eps_eq] at hr
  apply c50_points_partial_aux <;> assumption

theorem c50_hull_partial_aux (sort : StdSort (Vec2 K)) (points : List (Vec2 K)) (hr : Resolved eps points) (hc : ¬ AllCollinear points) :
    ConvexCCW (convexHull2d sort points) ∧ (∀ p ∈ points, InHull2 (convexHull2d sort points) p) ∧ 3 ≤ (convexHull2d sort points).length ∧
      ∃ o, (convexHull2d sort points).head? = some o ∧ ∀ q ∈ points, o.y < q.y ∨ (o.y = q.y ∧ o.x ≤ q.x) := by
  have hn : 3 ≤ points.length := by
    by_contra hn
    apply hc
    have t1 : ∀ a b : Vec2 K, turn a a b = 0 := fun a b => by unfold turn; ring
    have t2 : ∀ a b : Vec2 K, turn a b a = 0 := fun a b => by unfold turn; ring
    match points, hn with
    | [], _ => intro a ha; simp at ha
    | [x], _ =>
      intro a ha b hb c hc
      simp only [List.mem_cons, List.not_mem_nil, or_false] at ha hb hc
      subst ha hb hc; exact t1 _ _
    | [x, y], _ =>
      intro a ha b hb c hc
      simp only [List.mem_cons, List.not_mem_nil, or_false] at ha hb hc
      rcases ha with rfl | rfl <;> rcases hb with rfl | rfl <;> rcases hc with rfl | rfl <;>
        first | exact t1 _ _ | exact t2 _ _ | exact turn_self _ _
    | _ :: _ :: _ :: _, h => simp at h
  obtain ⟨o, tail, hp, ha, e⟩ := hull_cases sort points hn hr
  rw [e]
  rcases hullFrom_spec sort o tail (fun q hq => ha q (hp.subset (List.mem_cons_of_mem _ hq)))
    (fun a h1 b h2 c h3 => hr.1 a (hp.subset h1) b (hp.subset h2) c (hp.subset h3)) with ⟨_, h⟩ | ⟨h1, h2, _, h3, h4⟩
  · exact absurd (fun a h1 b h2 c h3 => h a (hp.symm.subset h1) b (hp.symm.subset h2) c (hp.symm.subset h3)) hc
  · exact ⟨h3, fun p hp' => h4 p (hp.symm.subset hp'), h1, o, h2, ha⟩

/-- **C50** (partial: for points the tolerance can resolve): if the points are not all on one line, the result is a strictly convex polygon in
counterclockwise order which contains every input point, starting at the lowest one (the leftmost of these). -/
theorem C50_hull_partial (sort : StdSort (Vec2 K)) (points : List (Vec2 K)) (hr : Resolved (1 / 10 ^ 9 : K) points) (hc : ¬ AllCollinear points) :
    ConvexCCW (convexHull2d sort points) ∧ (∀ p ∈ points, InHull2 (convexHull2d sort points) p) ∧ 3 ≤ (convexHull2d sort points).length ∧
      ∃ o, (convexHull2d sort points).head? = some o ∧ ∀ q ∈ points, o.y < q.y ∨ (o.y = q.y ∧ o.x ≤ q.x) := by
  rw [← eps_eq] at hr
  apply c50_hull_partial_aux <;> assumption

example : Resolved (eps : ℚ) [⟨0, 0⟩, ⟨2, 0⟩, ⟨1, 1⟩, ⟨2, 2⟩, ⟨0, 2⟩] ∧ ¬ AllCollinear [(⟨0, 0⟩ : Vec2 ℚ), ⟨2, 0⟩, ⟨1, 1⟩, ⟨2, 2⟩, ⟨0, 2⟩] := by
  unfold Resolved AllCollinear turn eps; decide +kernel

example : convexHull2d (insertionSort (Vec2 ℚ)) [⟨1, 1⟩, ⟨2, 2⟩, ⟨2, 0⟩, ⟨0, 0⟩, ⟨1, 0⟩, ⟨0, 2⟩] = [⟨0, 0⟩, ⟨2, 0⟩, ⟨2, 2⟩, ⟨0, 2⟩] := by
  decide +kernel

theorem c50_degenerate_aux (sort : StdSort (Vec2 K)) (points : List (Vec2 K)) :
    (points.length < 3 → convexHull2d sort points = points) ∧
      (3 ≤ points.length → Resolved eps points → (convexHull2d sort points = [] ↔ AllCollinear points)) := by
  constructor
  · intro h
    match points, h with
    | [], _ => rfl
    | [_], _ => rfl
    | [_, _], _ => rfl
    | _ :: _ :: _ :: _, h => simp at h; omega
  · intro hn hr
    obtain ⟨o, tail, hp, ha, e⟩ := hull_cases sort points hn hr
    rw [e]
    rcases hullFrom_spec sort o tail (fun q hq => ha q (hp.subset (List.mem_cons_of_mem _ hq)))
      (fun a h1 b h2 c h3 => hr.1 a (hp.subset h1) b (hp.subset h2) c (hp.subset h3)) with ⟨h, h'⟩ | ⟨h1, h2, hm, h3, h4⟩
    · exact ⟨fun _ a h1 b h2 c h3 => h' a (hp.symm.subset h1) b (hp.symm.subset h2) c (hp.symm.subset h3), fun _ => h⟩
    · constructor
      · intro h; rw [h] at h1; simp at h1
      · intro hc
        exfalso
        generalize hullFrom sort o tail = H at *
        match H, h1 with
        | a :: b :: c :: l, _ =>
          have := h3 a b c (by simp)
          rw [hc a (hp.subset (hm a (by simp))) b (hp.subset (hm b (by simp))) c (hp.subset (hm c (by simp)))] at this
          exact lt_irrefl _ this

/-- C50: for fewer than three points the input is returned; for more points on one line nothing is returned, although a hull exists. -/
theorem C50_degenerate (sort : StdSort (Vec2 K)) (points : List (Vec2 K)) :
    (points.length < 3 → convexHull2d sort points = points) ∧
      (3 ≤ points.length → Resolved (1 / 10 ^ 9 : K) points → (convexHull2d sort points = [] ↔ AllCollinear points)) := by
  rw [← eps_eq]
  exact c50_degenerate_aux sort points

/-- C50: with the tolerance 1e-9 a triangle of size 1e-5 has no hull. -/
theorem C50_tolerance_counterexample :
    ∃ points : List (Vec2 ℚ), ¬ AllCollinear points ∧ convexHull2d (insertionSort (Vec2 ℚ)) points = [] :=
  ⟨[⟨0, 0⟩, ⟨1 / 10 ^ 5, 0⟩, ⟨0, 1 / 10 ^ 5⟩], by unfold AllCollinear turn; decide +kernel, by decide +kernel⟩

/-- C50: because of the tolerance the comparator can be cyclic, which `std::sort` does not allow. -/
theorem C50_comparator_counterexample :
    ∃ o a b c : Vec2 ℚ, Above o a ∧ Above o b ∧ Above o c ∧ comparator o a c = true ∧ comparator o c b = true ∧ comparator o b a = true ∧
      ¬ StrictWeak (comparator o) [a, b, c] := by
  refine ⟨⟨0, 0⟩, ⟨1, 0⟩, ⟨9 / 10, 8 / 10 ^ 10⟩, ⟨8 / 10, 11 / 10 ^ 10⟩, by unfold Above; decide +kernel, by unfold Above; decide +kernel,
    by unfold Above; decide +kernel, by decide +kernel, by decide +kernel, by decide +kernel, fun h => ?_⟩
  have h1 := h.trans ⟨8 / 10, 11 / 10 ^ 10⟩ (by simp) ⟨9 / 10, 8 / 10 ^ 10⟩ (by simp) ⟨1, 0⟩ (by simp) (by decide +kernel) (by decide +kernel)
  have h2 : comparator (⟨0, 0⟩ : Vec2 ℚ) ⟨8 / 10, 11 / 10 ^ 10⟩ ⟨1, 0⟩ = false := by decide +kernel
  rw [h2] at h1
  cases h1

/-- C50: on points that the tolerance resolves it is a strict weak ordering, so the call of `std::sort` is allowed. -/
theorem C50_comparator_partial (points : List (Vec2 K)) (o : Vec2 K) (ho : o ∈ points)
    (hl : ∀ q ∈ points, o.y < q.y ∨ (o.y = q.y ∧ o.x ≤ q.x)) (hr : Resolved (1 / 10 ^ 9 : K) points) : StrictWeak (comparator o) points :=
  comparator_strictWeak hl (fun a h1 b h2 => by rw [eps_eq]; exact hr.1 o ho a h1 b h2)

end Cmm.Hull2d
