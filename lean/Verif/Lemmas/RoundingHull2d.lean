import Verif.Props.Hull2d
import Verif.Spec.RoundingHull2d
import Verif.Lemmas.RoundingIntegrate
import Verif.Lemmas.RoundingMinimize
/-!
For C149: if the tests of `convex_hull2d` come out on rounded numbers as they do on the exact values, the whole function does; and they do so for points that are coarse enough.
-/
namespace Cmm.Hull2d
open Cmm.Geom Cmm.Num
open Cmm.Nurbs (absA)

section sim
variable {A B : Type} [Arith A] [LinearOrder A] [Arith B] [LinearOrder B] {f : Vec2 A → Vec2 B} {l : List (Vec2 A)}

/-- The tests on the points of the list come out on the images as they do on the points. -/
structure Sim (f : Vec2 A → Vec2 B) (l : List (Vec2 A)) : Prop where
  orient : ∀ a ∈ l, ∀ b ∈ l, ∀ c ∈ l, orientation (f a) (f b) (f c) = orientation a b c
  low : ∀ p ∈ l, ∀ b ∈ l, ((f p).y < (f b).y ∨ (absA ((f p).y - (f b).y) < eps ∧ (f p).x < (f b).x)) ↔
    (p.y < b.y ∨ (absA (p.y - b.y) < eps ∧ p.x < b.x))

theorem farthest_map (h : Sim f l) {o : Vec2 A} (ho : o ∈ l) : ∀ m : List (Vec2 A), (∀ x ∈ m, x ∈ l) → farthest (f o) (m.map f) = (farthest o m).map f
  | [], _ => rfl
  | [_], _ => rfl
  | a :: b :: rest, hm => by
    have ih := farthest_map h ho (b :: rest) (fun x hx => hm x (List.mem_cons_of_mem _ hx))
    rw [List.map_cons] at ih
    rw [List.map_cons, List.map_cons]
    unfold farthest
    rw [h.orient o ho a (hm a (by simp)) b (hm b (by simp)), ih]
    split <;> rfl

theorem farthest_mem {o : Vec2 A} : ∀ m : List (Vec2 A), ∀ x ∈ farthest o m, x ∈ m
  | [], _, hx => hx
  | [_], _, hx => hx
  | a :: b :: rest, x, hx => by
    unfold farthest at hx
    split at hx
    · exact List.mem_cons_of_mem _ (farthest_mem (b :: rest) x hx)
    · rcases List.mem_cons.1 hx with rfl | hx
      · simp
      · exact List.mem_cons_of_mem _ (farthest_mem (b :: rest) x hx)

theorem popWhile_map (h : Sim f l) {q : Vec2 A} (hq : q ∈ l) : ∀ s : List (Vec2 A), (∀ x ∈ s, x ∈ l) → popWhile (f q) (s.map f) = (popWhile q s).map f
  | [], _ => rfl
  | [_], _ => rfl
  | t :: n :: rest, hm => by
    have ih := popWhile_map h hq (n :: rest) (fun x hx => hm x (List.mem_cons_of_mem _ hx))
    rw [List.map_cons] at ih
    rw [List.map_cons, List.map_cons]
    unfold popWhile
    rw [h.orient n (hm n (by simp)) t (hm t (by simp)) q hq, ih]
    split <;> rfl

theorem popWhile_mem {q : Vec2 A} : ∀ s : List (Vec2 A), ∀ x ∈ popWhile q s, x ∈ s
  | [], _, hx => hx
  | [_], _, hx => hx
  | t :: n :: rest, x, hx => by
    unfold popWhile at hx
    split at hx
    · exact List.mem_cons_of_mem _ (popWhile_mem (n :: rest) x hx)
    · exact hx

theorem scan_map (h : Sim f l) : ∀ (m s : List (Vec2 A)), (∀ x ∈ m, x ∈ l) → (∀ x ∈ s, x ∈ l) → scan (m.map f) (s.map f) = (scan m s).map f ∧ ∀ x ∈ scan m s, x ∈ l
  | [], _, _, hs => ⟨rfl, hs⟩
  | q :: rest, s, hm, hs => by
    have := scan_map h rest (q :: popWhile q s) (fun x hx => hm x (List.mem_cons_of_mem _ hx)) (fun x hx => by
      rcases List.mem_cons.1 hx with rfl | hx
      · exact hm _ (by simp)
      · exact hs x (popWhile_mem s x hx))
    refine ⟨?_, this.2⟩
    rw [List.map_cons]
    unfold scan
    rw [popWhile_map h (hm q (by simp)) s hs, ← List.map_cons]
    exact this.1

theorem lowestGo_map (h : Sim f l) : ∀ (m : List (Vec2 A)) (i best : Nat) (b : Vec2 A), b ∈ l → (∀ x ∈ m, x ∈ l) →
    lowestGo (m.map f) i best (f b) = lowestGo m i best b
  | [], _, _, _, _, _ => rfl
  | p :: rest, i, best, b, hb, hm => by
    have hp := hm p (by simp)
    have hr : ∀ x ∈ rest, x ∈ l := fun x hx => hm x (List.mem_cons_of_mem _ hx)
    rw [List.map_cons]
    unfold lowestGo
    rw [lowestGo_map h rest (i + 1) i p hp hr, lowestGo_map h rest (i + 1) best b hb hr]
    exact if_congr (h.low p hp b hb) rfl rfl

theorem strictWeak_of_map {α β : Type} {f : α → β} {cA : α → α → Bool} {cB : β → β → Bool} {tail : List α}
    (h : ∀ a ∈ tail, ∀ b ∈ tail, cB (f a) (f b) = cA a b) (w : StrictWeak cB (tail.map f)) : StrictWeak cA tail := by
  have m : ∀ a ∈ tail, f a ∈ tail.map f := fun a ha => List.mem_map_of_mem ha
  refine ⟨fun a ha => ?_, fun a ha b hb c hc h1 h2 => ?_, fun a ha b hb c hc h1 h2 h3 h4 => ?_⟩
  · rw [← h a ha a ha]; exact w.irrefl _ (m a ha)
  · rw [← h a ha b hb] at h1
    rw [← h b hb c hc] at h2
    rw [← h a ha c hc]
    exact w.trans _ (m a ha) _ (m b hb) _ (m c hc) h1 h2
  · rw [← h a ha b hb] at h1
    rw [← h b hb a ha] at h2
    rw [← h b hb c hc] at h3
    rw [← h c hc b hb] at h4
    rw [← h a ha c hc, ← h c hc a ha]
    exact w.incomp _ (m a ha) _ (m b hb) _ (m c hc) h1 h2 h3 h4

/-- A sorting algorithm that does on the images what the given one does on the elements. -/
theorem exists_sort {α β : Type} (f : α → β) (sort : StdSort α) (ins : StdSort β) (cA : α → α → Bool) (cB : β → β → Bool) (tail : List α)
    (h : ∀ a ∈ tail, ∀ b ∈ tail, cB (f a) (f b) = cA a b) : ∃ s : StdSort β, s.run cB (tail.map f) = (sort.run cA tail).map f := by
  classical
  have tr := strictWeak_of_map h
  refine ⟨⟨fun c l => if c = cB ∧ l = tail.map f then (sort.run cA tail).map f else ins.run c l, fun c l w => ?_, fun c l w => ?_⟩, if_pos ⟨rfl, rfl⟩⟩
  · split
    case isTrue e =>
      obtain ⟨rfl, rfl⟩ := e
      exact (sort.perm cA tail (tr w)).map f
    case isFalse => exact ins.perm c l w
  · split
    case isTrue e =>
      obtain ⟨rfl, rfl⟩ := e
      have p := sort.perm cA tail (tr w)
      refine List.pairwise_map.2 (List.Pairwise.imp_of_mem (fun {a b} ha hb hab => ?_) (sort.sorted cA tail (tr w)))
      rw [h b (p.subset hb) a (p.subset ha)]
      exact hab
    case isFalse => exact ins.sorted c l w

theorem front_mem {α : Type} {p o : α} {l tail : List α} {k : Nat} (e0 : ((p :: l).set 0 ((p :: l).getD k p)).set k p = o :: tail) :
    ∀ x ∈ o :: tail, x ∈ p :: l := fun x hx => by
  rw [← e0] at hx
  rcases List.mem_or_eq_of_mem_set hx with hx | rfl
  · rcases List.mem_or_eq_of_mem_set hx with hx | rfl
    · exact hx
    · rw [List.getD_eq_getElem?_getD]
      cases hh : (p :: l)[k]? with
      | none => simp
      | some y => exact List.mem_of_getElem? hh
  · simp

/-- If every three points are taken to be on a line, nothing is returned. -/
theorem hull_flat (sort : StdSort (Vec2 A)) {L : List (Vec2 A)} (hn : 3 ≤ L.length) (h : ∀ a ∈ L, ∀ b ∈ L, ∀ c ∈ L, orientation a b c = 0) :
    convexHull2d sort L = [] := by
  match L, hn with
  | p :: q :: r :: rest, _ =>
    generalize hk : lowestGo (q :: r :: rest) 1 0 p = k
    have e : convexHull2d sort (p :: q :: r :: rest) =
        match ((p :: q :: r :: rest).set 0 ((p :: q :: r :: rest).getD k p)).set k p with
        | [] => []
        | p0 :: tail => hullFrom sort p0 tail := by rw [← hk]; rfl
    rw [e]
    cases e0 : ((p :: q :: r :: rest).set 0 ((p :: q :: r :: rest).getD k p)).set k p with
    | nil => rfl
    | cons o tail =>
      have hm := front_mem e0
      have ho := hm o (by simp)
      have ht : ∀ x ∈ tail, x ∈ p :: q :: r :: rest := fun x hx => hm x (List.mem_cons_of_mem _ hx)
      have hc : ∀ a ∈ tail, ∀ b ∈ tail, comparator o a b = decide (distSq o a < distSq o b) := fun a ha b hb => by
        unfold comparator
        dsimp only
        rw [if_pos (h o ho a (ht a ha) b (ht b hb))]
      have hw : StrictWeak (comparator o) tail := by
        refine ⟨fun a ha => ?_, fun a ha b hb c hc' h1 h2 => ?_, fun a ha b hb c hc' h1 h2 h3 h4 => ?_⟩
        · rw [hc a ha a ha]; simp
        · rw [hc a ha b hb, decide_eq_true_iff] at h1
          rw [hc b hb c hc', decide_eq_true_iff] at h2
          rw [hc a ha c hc', decide_eq_true_iff]
          exact h1.trans h2
        · rw [hc a ha b hb, decide_eq_false_iff_not, not_lt] at h1
          rw [hc b hb a ha, decide_eq_false_iff_not, not_lt] at h2
          rw [hc b hb c hc', decide_eq_false_iff_not, not_lt] at h3
          rw [hc c hc' b hb, decide_eq_false_iff_not, not_lt] at h4
          rw [hc a ha c hc', hc c hc' a ha, decide_eq_false_iff_not, decide_eq_false_iff_not, not_lt, not_lt]
          exact ⟨h3.trans h1, h2.trans h4⟩
      have hp := sort.perm _ _ hw
      have fl : ∀ m : List (Vec2 A), (∀ x ∈ m, x ∈ p :: q :: r :: rest) → (farthest o m).length ≤ 1 := by
        intro m
        induction m with
        | nil => intro _; simp [farthest]
        | cons a m ih =>
          intro hm
          cases m with
          | nil => simp [farthest]
          | cons b m =>
            unfold farthest
            rw [if_pos (h o ho a (hm a (by simp)) b (hm b (by simp)))]
            exact ih (fun x hx => hm x (List.mem_cons_of_mem _ hx))
      have := fl (sort.run (comparator o) tail) (fun x hx => ht x (hp.subset hx))
      show hullFrom sort o tail = []
      unfold hullFrom
      generalize farthest o (sort.run (comparator o) tail) = m at this
      match m, this with
      | [], _ => rfl
      | [_], _ => rfl
      | _ :: _ :: _, h => simp at h

end sim

variable {K : Type} [Field K] [LinearOrder K] [IsStrictOrderedRing K]

section map
variable {A : Type} [Arith A] [LinearOrder A] {f : Vec2 A → Vec2 K}

omit [IsStrictOrderedRing K] in
theorem comparator_map {o a b : Vec2 A} (h : orientation (f o) (f a) (f b) = orientation o a b)
    (hd : orientation o a b = 0 → (distSq (f o) (f a) < distSq (f o) (f b) ↔ distSq o a < distSq o b)) : comparator (f o) (f a) (f b) = comparator o a b := by
  unfold comparator
  dsimp only
  rw [h]
  split
  case isTrue e => exact decide_eq_decide.2 (hd e)
  case isFalse => rfl

/-- If the tests come out the same, so does the hull, for some sorting algorithm. -/
theorem hull_map (sort : StdSort (Vec2 A)) {L : List (Vec2 A)} (hn : 3 ≤ L.length) (h : Sim f L) (hr : Resolved eps (L.map f))
    (hd : ∀ o ∈ L, ∀ a ∈ L, ∀ b ∈ L, Above (f o) (f a) → Above (f o) (f b) → turn (f o) (f a) (f b) = 0 →
      (distSq (f o) (f a) < distSq (f o) (f b) ↔ distSq o a < distSq o b)) :
    (∃ s : StdSort (Vec2 K), convexHull2d s (L.map f) = (convexHull2d sort L).map f) ∧ ∀ p ∈ convexHull2d sort L, p ∈ L := by
  match L, hn with
  | p :: q :: r :: rest, _ =>
    have hk := lowestGo_map h (q :: r :: rest) 1 0 p (by simp) (fun x hx => List.mem_cons_of_mem _ hx)
    obtain ⟨o', tail', e, hp, ha⟩ := front_cases (f p) (f q) (f r) (rest.map f) hr hk
    generalize hkk : lowestGo (q :: r :: rest) 1 0 p = k at hk e
    have em : ((f p :: f q :: f r :: rest.map f).set 0 ((f p :: f q :: f r :: rest.map f).getD k (f p))).set k (f p) =
        (((p :: q :: r :: rest).set 0 ((p :: q :: r :: rest).getD k p)).set k p).map f := by
      have eg : (f p :: f q :: f r :: rest.map f).getD k (f p) = f ((p :: q :: r :: rest).getD k p) := by
        rw [List.getD_eq_getElem?_getD, List.getD_eq_getElem?_getD, show f p :: f q :: f r :: rest.map f = (p :: q :: r :: rest).map f from rfl,
          List.getElem?_map]
        cases (p :: q :: r :: rest)[k]? <;> rfl
      rw [List.map_set, List.map_set, eg]
      rfl
    rw [em] at e
    obtain ⟨o, tail, e0⟩ : ∃ o tail, ((p :: q :: r :: rest).set 0 ((p :: q :: r :: rest).getD k p)).set k p = o :: tail := by
      cases hh : ((p :: q :: r :: rest).set 0 ((p :: q :: r :: rest).getD k p)).set k p with
      | nil => rw [hh] at e; simp at e
      | cons o tail => exact ⟨o, tail, rfl⟩
    have hmem : ∀ x ∈ o :: tail, x ∈ p :: q :: r :: rest := front_mem e0
    rw [e0, List.map_cons] at e
    obtain ⟨rfl, rfl⟩ := List.cons.inj e
    have ho := hmem o (by simp)
    have ht : ∀ x ∈ tail, x ∈ p :: q :: r :: rest := fun x hx => hmem x (List.mem_cons_of_mem _ hx)
    have mf : ∀ x ∈ p :: q :: r :: rest, f x ∈ (p :: q :: r :: rest).map f := fun x hx => List.mem_map_of_mem hx
    have hcmp : ∀ a ∈ tail, ∀ b ∈ tail, comparator (f o) (f a) (f b) = comparator o a b := fun a h1 b h2 =>
      comparator_map (h.orient o ho a (ht a h1) b (ht b h2)) (fun hz => hd o ho a (ht a h1) b (ht b h2) (ha _ (mf a (ht a h1))) (ha _ (mf b (ht b h2))) (by
        rw [← h.orient o ho a (ht a h1) b (ht b h2)] at hz
        exact (orientation_iff (hr.1 _ (mf o ho) _ (mf a (ht a h1)) _ (mf b (ht b h2)))).1.1 hz))
    have hw : StrictWeak (comparator (f o)) (tail.map f) := by
      have mt : ∀ x ∈ tail.map f, x ∈ (p :: q :: r :: rest).map f := fun x hx => by
        obtain ⟨y, hy, rfl⟩ := List.mem_map.1 hx
        exact mf y (ht y hy)
      exact comparator_strictWeak (fun x hx => ha x (mt x hx)) (fun a h1 b h2 => hr.1 _ (mf o ho) a (mt a h1) b (mt b h2))
    have hsub : ∀ x ∈ sort.run (comparator o) tail, x ∈ p :: q :: r :: rest := fun x hx => ht x ((sort.perm _ _ (strictWeak_of_map hcmp hw)).subset hx)
    obtain ⟨s, hs⟩ := exists_sort f sort (insertionSort _) (comparator o) (comparator (f o)) tail hcmp
    have e1 : convexHull2d sort (p :: q :: r :: rest) = hullFrom sort o tail := by
      unfold convexHull2d
      dsimp only
      rw [hkk, e0]
    have e2 : convexHull2d s ((p :: q :: r :: rest).map f) = hullFrom s (f o) (tail.map f) := by
      rw [List.map_cons, List.map_cons, List.map_cons]
      unfold convexHull2d
      dsimp only
      rw [show lowestGo (f q :: f r :: rest.map f) 1 0 (f p) = k from hk, em, e0, List.map_cons]
    have hf := farthest_map h ho _ hsub
    have hfm : ∀ x ∈ farthest o (sort.run (comparator o) tail), x ∈ p :: q :: r :: rest := fun x hx => hsub x (farthest_mem _ x hx)
    rw [e1]
    suffices hh : hullFrom s (f o) (tail.map f) = (hullFrom sort o tail).map f ∧ ∀ x ∈ hullFrom sort o tail, x ∈ p :: q :: r :: rest from
      ⟨⟨s, by rw [e2]; exact hh.1⟩, hh.2⟩
    unfold hullFrom
    rw [hs, hf]
    generalize farthest o (sort.run (comparator o) tail) = m at hfm
    match m, hfm with
    | [], _ => exact ⟨rfl, by simp⟩
    | [_], _ => exact ⟨rfl, by simp⟩
    | q1 :: q2 :: rs, hfm =>
      have := scan_map h rs [q2, q1, o] (fun x hx => hfm x (by simp [hx])) (fun x hx => by
        simp only [List.mem_cons, List.not_mem_nil, or_false] at hx
        rcases hx with rfl | rfl | rfl
        · exact hfm _ (by simp)
        · exact hfm _ (by simp)
        · exact ho)
      refine ⟨?_, fun x hx => this.2 x (List.mem_reverse.1 hx)⟩
      show (scan (rs.map f) ([q2, q1, o].map f)).reverse = _
      rw [this.1, List.map_reverse]

end map

section gap

omit [LinearOrder K] [IsStrictOrderedRing K] in
theorem parallel_trans {v r s : Vec2 K} (hv : v.x ≠ 0 ∨ v.y ≠ 0) (h1 : r.x * v.y = r.y * v.x) (h2 : s.x * v.y = s.y * v.x) : r.x * s.y = r.y * s.x := by
  rcases hv with hv | hv
  · apply mul_left_cancel₀ hv
    linear_combination s.x * h1 - r.x * h2
  · apply mul_left_cancel₀ hv
    linear_combination s.y * h1 - r.y * h2

omit [IsStrictOrderedRing K] in
/-- If not all points are on a line, some point is off the line of two different ones. -/
theorem exists_off {L : List (Vec2 K)} (hc : ¬ AllCollinear L) {a b : Vec2 K} (hab : a ≠ b) : ∃ c ∈ L, turn a b c ≠ 0 := by
  by_contra hh
  push Not at hh
  apply hc
  intro c h1 d h2 e h3
  have hv : b.x - a.x ≠ 0 ∨ b.y - a.y ≠ 0 := by
    by_contra hv
    push Not at hv
    exact hab (Vec2.ext (by linear_combination -hv.1) (by linear_combination -hv.2))
  have t1 := hh c h1
  have t2 := hh d h2
  have t3 := hh e h3
  unfold turn at *
  have := parallel_trans (v := ⟨b.x - a.x, b.y - a.y⟩) (r := ⟨d.x - c.x, d.y - c.y⟩) (s := ⟨e.x - c.x, e.y - c.y⟩) hv
    (by dsimp only; linear_combination t1 - t2) (by dsimp only; linear_combination t1 - t3)
  dsimp only at this
  linear_combination this

theorem dot_nonneg {p1 p2 q1 q2 : K} (hp : 0 < p2 ∨ (p2 = 0 ∧ 0 ≤ p1)) (hq : 0 < q2 ∨ (q2 = 0 ∧ 0 ≤ q1)) (h : p1 * q2 = p2 * q1) : 0 ≤ p1 * q1 + p2 * q2 := by
  rcases hp with hp | ⟨rfl, hp⟩
  · rcases hq with hq | ⟨rfl, hq⟩
    · have : 0 ≤ p1 * q1 := by
        have e : p2 * (p1 * q1) = p1 * p1 * q2 := by linear_combination -p1 * h
        have : 0 ≤ p2 * (p1 * q1) := by rw [e]; exact mul_nonneg (mul_self_nonneg _) hq.le
        exact nonneg_of_mul_nonneg_right this hp
      have := mul_pos hp hq
      linarith
    · have : q1 = 0 := by
        rw [mul_zero] at h
        rcases mul_eq_zero.1 h.symm with h | h
        · exact absurd h hp.ne'
        · exact h
      rw [this]; simp
  · rcases hq with hq | ⟨rfl, hq⟩
    · have : p1 = 0 := by
        rw [zero_mul] at h
        rcases mul_eq_zero.1 h with h | h
        · exact h
        · exact absurd h hq.ne'
      rw [this]; simp
    · have := mul_nonneg hp hq
      simpa using this

/-- The squared distances of two points in the same direction differ by at least a part of their sum. -/
theorem dist_gap {p1 p2 q1 q2 g S : K} (h : p1 * q2 = p2 * q1) (hd : 0 ≤ p1 * q1 + p2 * q2) (hg : g * S ≤ (p1 - q1) * (p1 - q1) + (p2 - q2) * (p2 - q2))
    (hS : (p1 * p1 + p2 * p2) + (q1 * q1 + q2 * q2) ≤ S) (hg0 : 0 ≤ g) :
    g * ((p1 * p1 + p2 * p2) + (q1 * q1 + q2 * q2)) ^ 2 ≤ ((p1 * p1 + p2 * p2) - (q1 * q1 + q2 * q2)) ^ 2 := by
  have hs0 : 0 ≤ (p1 * p1 + p2 * p2) + (q1 * q1 + q2 * q2) := by
    have := mul_self_nonneg p1
    have := mul_self_nonneg p2
    have := mul_self_nonneg q1
    have := mul_self_nonneg q2
    linarith
  have e : ((p1 * p1 + p2 * p2) - (q1 * q1 + q2 * q2)) ^ 2 =
      ((p1 - q1) * (p1 - q1) + (p2 - q2) * (p2 - q2)) * ((p1 + q1) * (p1 + q1) + (p2 + q2) * (p2 + q2)) := by
    linear_combination (-4 * (p1 * q2 - p2 * q1)) * h
  have f : (p1 * p1 + p2 * p2) + (q1 * q1 + q2 * q2) ≤ (p1 + q1) * (p1 + q1) + (p2 + q2) * (p2 + q2) := by linarith
  rw [e]
  generalize (p1 * p1 + p2 * p2) + (q1 * q1 + q2 * q2) = s at *
  calc g * s ^ 2 = g * s * s := by ring
    _ ≤ g * S * s := mul_le_mul_of_nonneg_right (mul_le_mul_of_nonneg_left hS hg0) hs0
    _ ≤ _ := mul_le_mul hg f hs0 ((mul_nonneg hg0 (hs0.trans hS)).trans hg)

/-- Two corners of a triangle that is not too flat are not too close to each other. -/
theorem far_of_turn {a b c : Vec2 K} (hac : |c.x - a.x| ≤ 200 ∧ |c.y - a.y| ≤ 200) (ht : 2 / 10 ^ 9 ≤ |turn a b c|) :
    1 / 10 ^ 28 * 160000 ≤ (a.x - b.x) * (a.x - b.x) + (a.y - b.y) * (a.y - b.y) := by
  have l : turn a b c ^ 2 ≤ ((a.x - b.x) * (a.x - b.x) + (a.y - b.y) * (a.y - b.y)) * ((c.x - a.x) * (c.x - a.x) + (c.y - a.y) * (c.y - a.y)) := by
    have e : ((a.x - b.x) * (a.x - b.x) + (a.y - b.y) * (a.y - b.y)) * ((c.x - a.x) * (c.x - a.x) + (c.y - a.y) * (c.y - a.y)) =
        turn a b c ^ 2 + ((a.x - b.x) * (c.x - a.x) + (a.y - b.y) * (c.y - a.y)) ^ 2 := by unfold turn; ring
    rw [e]
    have := sq_nonneg ((a.x - b.x) * (c.x - a.x) + (a.y - b.y) * (c.y - a.y))
    linarith
  have t : (2 / 10 ^ 9 : K) ^ 2 ≤ turn a b c ^ 2 := by
    rw [← sq_abs (turn a b c)]
    exact pow_le_pow_left₀ (by positivity) ht 2
  have m : ∀ x : K, |x| ≤ 200 → x * x ≤ 200 * 200 := fun x hx => by
    rw [← abs_mul_abs_self]; exact mul_le_mul hx hx (abs_nonneg _) (by norm_num)
  have s := add_le_add (m _ hac.1) (m _ hac.2)
  have n : 0 ≤ (a.x - b.x) * (a.x - b.x) + (a.y - b.y) * (a.y - b.y) := add_nonneg (mul_self_nonneg _) (mul_self_nonneg _)
  have := mul_le_mul_of_nonneg_left s n
  have k := t.trans (l.trans this)
  norm_num at k ⊢
  linarith

end gap

theorem abs_le_abs_of_sq_le_sq' {a b : K} (h0 : 0 ≤ a) (h : a ^ 2 ≤ b ^ 2) : a ≤ |b| := by
  rw [← sq_abs b] at h
  exact (pow_le_pow_iff_left₀ h0 (abs_nonneg b) (by norm_num)).1 h

section num
variable {R : Rounding K} {u : K}

omit [IsStrictOrderedRing K] in
theorem lt_val {a b : Fp R} : a < b ↔ a.val < b.val := Iff.rfl

theorem absA_fp (F : FormatOk R u) (x : Fp R) : (absA x).val = |x.val| := by
  have e : (absA x).val = max x.val (R.rnd (-x.val)) := by
    unfold absA
    rcases le_total x (-x) with h | h
    · rw [max_eq_right h]; exact (max_eq_right (show x.val ≤ (-x : Fp R).val from h)).symm
    · rw [max_eq_left h]; exact (max_eq_left (show (-x : Fp R).val ≤ x.val from h)).symm
  rw [e, show R.rnd (-x.val) = -x.val from F.neg _ x.2, abs_eq_max_neg]

theorem eps_fp (F : FormatOk R u) (hu : u ≤ 1 / 10 ^ 15) : 8 / 10 ^ 10 ≤ (eps : Fp R).val ∧ (eps : Fp R).val ≤ 12 / 10 ^ 10 := by
  have e : (eps : Fp R).val = R.rnd (1 / R.rnd (10 ^ 9)) := by
    show R.rnd (R.rnd 1 / R.rnd ((10 ^ 9 : Nat) : K)) = _
    have := F.nat 1 le_rfl (by norm_num)
    rw [Nat.cast_one] at this
    rw [this, Nat.cast_pow, Nat.cast_ofNat]
  rw [e]
  have b1 := abs_le.1 (F.err (10 ^ 9))
  rw [abs_of_pos (by norm_num : (0 : K) < 10 ^ 9)] at b1
  have n0 : 9 * 10 ^ 8 ≤ R.rnd (10 ^ 9) := by linarith
  have n1 : R.rnd (10 ^ 9) ≤ 11 * 10 ^ 8 := by linarith
  generalize R.rnd (10 ^ 9) = N at n0 n1
  have p : 0 < N := by linarith
  have c1 : 1 / N ≤ 1 / (9 * 10 ^ 8) := one_div_le_one_div_of_le (by norm_num) n0
  have c2 : 1 / (11 * 10 ^ 8) ≤ 1 / N := one_div_le_one_div_of_le p n1
  have c0 : 0 < 1 / N := by positivity
  have b2 := abs_le.1 (F.err (1 / N))
  rw [abs_of_pos c0] at b2
  have b3 : u * (1 / N) ≤ 1 / 10 ^ 15 * (1 / N) := mul_le_mul_of_nonneg_right hu c0.le
  generalize 1 / N = M at *
  constructor
  · have : 1 / (11 * 10 ^ 8) * (1 - 1 / 10 ^ 15) ≤ M * (1 - 1 / 10 ^ 15) := mul_le_mul_of_nonneg_right c2 (by norm_num)
    have : (8 / 10 ^ 10 : K) ≤ 1 / (11 * 10 ^ 8) * (1 - 1 / 10 ^ 15) := by norm_num
    linarith
  · have : M * (1 + 1 / 10 ^ 15) ≤ 1 / (9 * 10 ^ 8) * (1 + 1 / 10 ^ 15) := mul_le_mul_of_nonneg_right c1 (by norm_num)
    have : (1 / (9 * 10 ^ 8) * (1 + 1 / 10 ^ 15) : K) ≤ 12 / 10 ^ 10 := by norm_num
    linarith

theorem near_neg {k : Nat} {y x A : K} (h : Num.Near u k y x A) : Num.Near u k (-y) (-x) A := by
  refine ⟨by rw [abs_neg]; exact h.1, ?_⟩
  rw [show -y - -x = -(y - x) by ring, abs_neg]
  exact h.2

theorem near_sub (F : FormatOk R u) (a b : Fp R) : Num.Near u 1 (a - b).val (a.val - b.val) |a.val - b.val| := (Num.Near.refl le_rfl).rnd F.err F.nonneg

theorem near_four (F : FormatOk R u) (hu : u ≤ 1 / 10 ^ 15) {y x A : K} (h : Num.Near u 4 y x A) : |y - x| ≤ 5 / 10 ^ 15 * A := by
  refine h.2.trans (mul_le_mul_of_nonneg_right ?_ ((abs_nonneg _).trans h.1))
  have h0 := F.nonneg
  have : (1 + u) ^ 4 ≤ (1 + 1 / 10 ^ 15) ^ 4 := pow_le_pow_left₀ (by linarith) (by linarith) 4
  have : ((1 + 1 / 10 ^ 15) ^ 4 : K) ≤ 1 + 5 / 10 ^ 15 := by norm_num
  linarith

/-- The rounded test value of `orientation`. -/
theorem val_near (F : FormatOk R u) (hu : u ≤ 1 / 10 ^ 15) {p q r : Vec2 (Fp R)} (hp : |p.x.val| ≤ 100 ∧ |p.y.val| ≤ 100) (hq : |q.x.val| ≤ 100 ∧ |q.y.val| ≤ 100)
    (hr : |r.x.val| ≤ 100 ∧ |r.y.val| ≤ 100) :
    |((q.y - p.y) * (r.x - q.x) - (q.x - p.x) * (r.y - q.y) : Fp R).val + turn (value p) (value q) (value r)| ≤ 4 / 10 ^ 10 := by
  have n1 := ((near_sub F q.y p.y).mul (near_sub F r.x q.x)).rnd F.err F.nonneg
  have n2 := ((near_sub F q.x p.x).mul (near_sub F r.y q.y)).rnd F.err F.nonneg
  have n := (n1.add (near_neg n2)).rnd F.err F.nonneg
  have b := near_four F hu n
  have d : ∀ x y : K, |x| ≤ 100 → |y| ≤ 100 → |x - y| ≤ 200 := fun x y hx hy => (abs_sub _ _).trans (by linarith)
  have m1 : |q.y.val - p.y.val| * |r.x.val - q.x.val| ≤ 200 * 200 := mul_le_mul (d _ _ hq.2 hp.2) (d _ _ hr.1 hq.1) (abs_nonneg _) (by norm_num)
  have m2 : |q.x.val - p.x.val| * |r.y.val - q.y.val| ≤ 200 * 200 := mul_le_mul (d _ _ hq.1 hp.1) (d _ _ hr.2 hq.2) (abs_nonneg _) (by norm_num)
  have e : turn (value p) (value q) (value r) =
      -((q.y.val - p.y.val) * (r.x.val - q.x.val) + -((q.x.val - p.x.val) * (r.y.val - q.y.val))) := by unfold turn value; ring
  rw [e, ← sub_eq_add_neg]
  have v : ((q.y - p.y) * (r.x - q.x) - (q.x - p.x) * (r.y - q.y) : Fp R).val =
      R.rnd (R.rnd ((q.y - p.y).val * (r.x - q.x).val) + -R.rnd ((q.x - p.x).val * (r.y - q.y).val)) := by
    rw [← sub_eq_add_neg]; rfl
  rw [v]
  refine b.trans ?_
  have : (5 / 10 ^ 15 : K) * (|q.y.val - p.y.val| * |r.x.val - q.x.val| + |q.x.val - p.x.val| * |r.y.val - q.y.val|) ≤ 5 / 10 ^ 15 * (200 * 200 + 200 * 200) :=
    mul_le_mul_of_nonneg_left (add_le_add m1 m2) (by norm_num)
  refine this.trans (by norm_num)

theorem orientation_fp (F : FormatOk R u) (hu : u ≤ 1 / 10 ^ 15) {p q r : Vec2 (Fp R)} (hp : |p.x.val| ≤ 100 ∧ |p.y.val| ≤ 100)
    (hq : |q.x.val| ≤ 100 ∧ |q.y.val| ≤ 100) (hr : |r.x.val| ≤ 100 ∧ |r.y.val| ≤ 100)
    (ht : turn (value p) (value q) (value r) = 0 ∨ 2 / 10 ^ 9 ≤ |turn (value p) (value q) (value r)|) :
    orientation (value p) (value q) (value r) = orientation p q r := by
  have n := val_near F hu hp hq hr
  obtain ⟨e1, e2⟩ := eps_fp (R := R) F hu
  have z : (0 : Fp R).val = 0 := R.zero
  have ex : ((value q).y - (value p).y) * ((value r).x - (value q).x) - ((value q).x - (value p).x) * ((value r).y - (value q).y) =
      -turn (value p) (value q) (value r) := by unfold turn; ring
  unfold orientation
  dsimp only
  rw [ex, absA_abs, abs_neg, eps_eq]
  generalize ((q.y - p.y) * (r.x - q.x) - (q.x - p.x) * (r.y - q.y) : Fp R) = v at n
  generalize turn (value p) (value q) (value r) = t at n ht
  have a : absA v < eps ↔ |v.val| < (eps : Fp R).val := by rw [lt_val, absA_fp F]
  have c : 0 < v ↔ 0 < v.val := by rw [lt_val, z]
  rcases ht with rfl | ht
  · rw [add_zero] at n
    rw [if_pos (by rw [abs_zero]; norm_num), if_pos (a.2 (lt_of_le_of_lt n (lt_of_lt_of_le (by norm_num) e1)))]
  · have hv : |t| - 4 / 10 ^ 10 ≤ |v.val| := by
      have := abs_add_le (v.val + t) (-v.val)
      rw [show v.val + t + -v.val = t by ring, abs_neg] at this
      linarith
    rw [if_neg (show ¬ |t| < 1 / 10 ^ 9 by rw [not_lt]; exact le_trans (by norm_num) ht), if_neg (show ¬ absA v < eps from fun h => by
      have := a.1 h
      norm_num at *
      linarith)]
    obtain ⟨n1, n2⟩ := abs_le.1 n
    refine if_congr ?_ rfl rfl
    rw [c]
    rcases le_total 0 t with h0 | h0
    · rw [abs_of_nonneg h0] at ht
      norm_num at ht n1 n2
      constructor <;> intro h <;> linarith
    · rw [abs_of_nonpos h0] at ht
      norm_num at ht n1 n2
      constructor <;> intro h <;> linarith

theorem low_fp (F : FormatOk R u) (hu : u ≤ 1 / 10 ^ 15) {p b : Vec2 (Fp R)} (h : p.y.val = b.y.val ∨ 2 / 10 ^ 9 ≤ |p.y.val - b.y.val|) :
    ((value p).y < (value b).y ∨ (absA ((value p).y - (value b).y) < eps ∧ (value p).x < (value b).x)) ↔
    (p.y < b.y ∨ (absA (p.y - b.y) < eps ∧ p.x < b.x)) := by
  obtain ⟨e1, e2⟩ := eps_fp (R := R) F hu
  rw [absA_abs, eps_eq, lt_val, lt_val, lt_val, absA_fp F]
  have n : (p.y - b.y : Fp R).val = R.rnd (p.y.val - b.y.val) := rfl
  show p.y.val < b.y.val ∨ (|p.y.val - b.y.val| < 1 / 10 ^ 9 ∧ p.x.val < b.x.val) ↔ _
  rw [n]
  refine or_congr Iff.rfl (and_congr ?_ Iff.rfl)
  rcases h with h | h
  · rw [h, sub_self, R.zero, abs_zero]
    exact ⟨fun _ => lt_of_lt_of_le (by norm_num) e1, fun _ => by norm_num⟩
  · have b1 := F.err (p.y.val - b.y.val)
    generalize p.y.val - b.y.val = d at b1 h
    have b2 : u * |d| ≤ 1 / 10 ^ 15 * |d| := mul_le_mul_of_nonneg_right hu (abs_nonneg _)
    have b3 : |d| ≤ |R.rnd d| + |R.rnd d - d| := by
      have := abs_sub (R.rnd d) (R.rnd d - d)
      rwa [show R.rnd d - (R.rnd d - d) = d by ring] at this
    constructor
    · intro k; norm_num at h k; linarith
    · intro k; norm_num at h k b2 e2; linarith

theorem distSq_fp (F : FormatOk R u) (hu : u ≤ 1 / 10 ^ 15) (o a : Vec2 (Fp R)) :
    |(distSq o a).val - distSq (value o) (value a)| ≤ 5 / 10 ^ 15 * distSq (value o) (value a) := by
  have n1 := ((near_sub F o.x a.x).mul (near_sub F o.x a.x)).rnd F.err F.nonneg
  have n2 := ((near_sub F o.y a.y).mul (near_sub F o.y a.y)).rnd F.err F.nonneg
  have := near_four F hu ((n1.add n2).rnd F.err F.nonneg)
  rw [abs_mul_abs_self, abs_mul_abs_self] at this
  exact this

/-- What is asked of the points. -/
theorem sim_fp (F : FormatOk R u) (hu : u ≤ 1 / 10 ^ 15) {L : List (Vec2 (Fp R))} (hb : ∀ p ∈ L, |p.x.val| ≤ 100 ∧ |p.y.val| ≤ 100)
    (hr : Resolved (2 / 10 ^ 9) (L.map value)) : Sim value L where
  orient a ha b hb' c hc := orientation_fp F hu (hb a ha) (hb b hb') (hb c hc)
    (hr.1 _ (List.mem_map_of_mem ha) _ (List.mem_map_of_mem hb') _ (List.mem_map_of_mem hc))
  low p hp b hb' := low_fp F hu (hr.2 _ (List.mem_map_of_mem hp) _ (List.mem_map_of_mem hb'))

theorem dist_fp (F : FormatOk R u) (hu : u ≤ 1 / 10 ^ 15) {L : List (Vec2 (Fp R))} (hb : ∀ p ∈ L, |p.x.val| ≤ 100 ∧ |p.y.val| ≤ 100)
    (hr : Resolved (2 / 10 ^ 9) (L.map value)) (hc : ¬ AllCollinear (L.map value)) {o a b : Vec2 (Fp R)} (ho : o ∈ L) (ha : a ∈ L) (hb' : b ∈ L)
    (h1 : Above (value o) (value a)) (h2 : Above (value o) (value b)) (ht : turn (value o) (value a) (value b) = 0) :
    distSq (value o) (value a) < distSq (value o) (value b) ↔ distSq o a < distSq o b := by
  by_cases hab : value a = value b
  · have : a = b := Vec2.ext (Subtype.ext (congrArg Vec2.x hab)) (Subtype.ext (congrArg Vec2.y hab))
    rw [this]
    exact ⟨fun h => absurd h (lt_irrefl _), fun h => absurd h (lt_irrefl _)⟩
  · obtain ⟨c', hc', hoff⟩ := exists_off hc hab
    obtain ⟨c, hcm, rfl⟩ := List.mem_map.1 hc'
    have d : ∀ x y : K, |x| ≤ 100 → |y| ≤ 100 → |x - y| ≤ 200 := fun x y hx hy => (abs_sub _ _).trans (by linarith)
    have m : ∀ x : K, |x| ≤ 200 → x * x ≤ 200 * 200 := fun x hx => by
      rw [← abs_mul_abs_self]; exact mul_le_mul hx hx (abs_nonneg _) (by norm_num)
    have far := far_of_turn (a := value a) (b := value b) (c := value c) ⟨d _ _ (hb c hcm).1 (hb a ha).1, d _ _ (hb c hcm).2 (hb a ha).2⟩
      ((hr.1 _ (List.mem_map_of_mem ha) _ (List.mem_map_of_mem hb') _ hc').resolve_left hoff)
    have ab : ∀ {x : Vec2 K}, Above (value o) x → 0 < x.y - (value o).y ∨ (x.y - (value o).y = 0 ∧ 0 ≤ x.x - (value o).x) := fun h => by
      rcases h with h | ⟨h, h'⟩
      · exact Or.inl (by linarith)
      · exact Or.inr ⟨by linarith, by linarith⟩
    have par : ((value a).x - (value o).x) * ((value b).y - (value o).y) = ((value a).y - (value o).y) * ((value b).x - (value o).x) := by
      unfold turn at ht; linear_combination ht
    have dn := dot_nonneg (ab h1) (ab h2) par
    have s1 := m _ (d _ _ (hb a ha).1 (hb o ho).1)
    have s2 := m _ (d _ _ (hb a ha).2 (hb o ho).2)
    have s3 := m _ (d _ _ (hb b hb').1 (hb o ho).1)
    have s4 := m _ (d _ _ (hb b hb').2 (hb o ho).2)
    have gap := dist_gap (g := 1 / 10 ^ 28) (S := 160000) par dn (far.trans (le_of_eq (by ring))) (by unfold value; dsimp only; linarith) (by norm_num)
    have e1 : distSq (value o) (value a) = ((value a).x - (value o).x) * ((value a).x - (value o).x) + ((value a).y - (value o).y) * ((value a).y - (value o).y) := by
      unfold distSq; ring
    have e2 : distSq (value o) (value b) = ((value b).x - (value o).x) * ((value b).x - (value o).x) + ((value b).y - (value o).y) * ((value b).y - (value o).y) := by
      unfold distSq; ring
    rw [← e1, ← e2] at gap
    have n1 : 0 ≤ distSq (value o) (value a) := add_nonneg (mul_self_nonneg _) (mul_self_nonneg _)
    have n2 : 0 ≤ distSq (value o) (value b) := add_nonneg (mul_self_nonneg _) (mul_self_nonneg _)
    have g : 1 / 10 ^ 14 * (distSq (value o) (value a) + distSq (value o) (value b)) ≤ |distSq (value o) (value a) - distSq (value o) (value b)| := by
      refine abs_le_abs_of_sq_le_sq' ?_ ?_
      · exact mul_nonneg (by norm_num) (add_nonneg n1 n2)
      · calc (1 / 10 ^ 14 * (distSq (value o) (value a) + distSq (value o) (value b))) ^ 2 =
            1 / 10 ^ 28 * (distSq (value o) (value a) + distSq (value o) (value b)) ^ 2 := by ring
          _ ≤ _ := gap
    obtain ⟨a1, a2⟩ := abs_le.1 (distSq_fp F hu o a)
    obtain ⟨b1, b2⟩ := abs_le.1 (distSq_fp F hu o b)
    rw [lt_val]
    generalize distSq (value o) (value a) = x at *
    generalize distSq (value o) (value b) = y at *
    rcases lt_or_ge x y with h | h
    · rw [abs_of_neg (by linarith)] at g
      exact ⟨fun _ => by norm_num at *; linarith, fun _ => h⟩
    · rw [abs_of_nonneg (by linarith)] at g
      exact ⟨fun k => absurd k (not_lt.2 h), fun k => by norm_num at *; linarith⟩

end num

end Cmm.Hull2d
