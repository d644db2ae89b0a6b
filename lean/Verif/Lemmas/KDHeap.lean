import Verif.Model.KDHeap
import Verif.Lemmas.KDTree
/-!
Lemmas about the heap model of kdtree.h: which tree a pointer stands for, and what each call does to it.
-/
namespace Cmm.KDHeap
open Cmm.KD
variable {K : Type}

/-- Pointer `p` stands for the tree; the last argument are the addresses of its nodes. -/
def Shows (h : Heap K) : Ptr → KD.Tree K → List Nat → Prop
  | p, .nil, f => p = none ∧ f = []
  | p, .node x ax l r, f => ∃ a lp rp fl fr, p = some a ∧ get h a = some ⟨x, ax, lp, rp⟩ ∧ Shows h lp l fl ∧ Shows h rp r fr ∧
      f = a :: (fl ++ fr)

theorem get_mem {h : Heap K} {a : Nat} {c : Cell K} (hc : get h a = some c) : a ∈ addrs h := by
  induction h with
  | nil => simp [get] at hc
  | cons e h ih =>
    obtain ⟨b, d⟩ := e
    simp only [get, List.lookup_cons] at hc
    by_cases hab : a = b
    · simp [addrs, hab]
    · simp only [beq_eq_false_iff_ne.mpr hab] at hc
      exact List.mem_cons_of_mem _ (ih hc)

theorem get_of_not_mem {h : Heap K} {a : Nat} (ha : a ∉ addrs h) : get h a = none := by
  cases hg : get h a with
  | none => rfl
  | some c => exact absurd (get_mem hg) ha

theorem Shows.mem {h : Heap K} {p : Ptr} {t : KD.Tree K} {f : List Nat} (s : Shows h p t f) : ∀ a ∈ f, a ∈ addrs h := by
  induction t generalizing p f with
  | nil => obtain ⟨-, rfl⟩ := s; simp
  | node x ax l r il ir =>
    obtain ⟨a, lp, rp, fl, fr, rfl, hc, hl, hr, rfl⟩ := s
    intro b hb
    simp only [List.mem_cons, List.mem_append] at hb
    rcases hb with rfl | hb | hb
    · exact get_mem hc
    · exact il hl b hb
    · exact ir hr b hb

theorem Shows.frame {h h' : Heap K} {p : Ptr} {t : KD.Tree K} {f : List Nat} (s : Shows h p t f)
    (hf : ∀ a ∈ f, get h' a = get h a) : Shows h' p t f := by
  induction t generalizing p f with
  | nil => exact s
  | node x ax l r il ir =>
    obtain ⟨a, lp, rp, fl, fr, rfl, hc, hl, hr, rfl⟩ := s
    refine ⟨a, lp, rp, fl, fr, rfl, ?_, il hl ?_, ir hr ?_, rfl⟩
    · rw [hf _ (by simp)]; exact hc
    · intro b hb; exact hf b (by simp [hb])
    · intro b hb; exact hf b (by simp [hb])

theorem Shows.length {h : Heap K} {p : Ptr} {t : KD.Tree K} {f : List Nat} (s : Shows h p t f) : f.length = t.points.length := by
  induction t generalizing p f with
  | nil => obtain ⟨-, rfl⟩ := s; simp [Tree.points]
  | node x ax l r il ir =>
    obtain ⟨a, lp, rp, fl, fr, rfl, hc, hl, hr, rfl⟩ := s
    simp only [Tree.points, List.length_cons, List.length_append, il hl, ir hr]
    omega

theorem get_cons_self (h : Heap K) (a : Nat) (c : Cell K) : get ((a, c) :: h) a = some c := by
  simp [get]

theorem get_cons_ne (h : Heap K) {a b : Nat} (c : Cell K) (hab : b ≠ a) : get ((a, c) :: h) b = get h b := by
  simp [get, List.lookup_cons, beq_eq_false_iff_ne.mpr hab]

theorem addrs_put (h : Heap K) (a : Nat) (c : Cell K) : addrs (put h a c) = addrs h := by
  induction h with
  | nil => rfl
  | cons e h ih =>
    simp only [addrs, put, List.map_cons, List.cons.injEq] at ih ⊢
    refine ⟨?_, ih⟩
    split
    · rename_i heq; exact heq.symm
    · rfl

theorem get_put_ne (h : Heap K) {a b : Nat} (c : Cell K) (hab : b ≠ a) : get (put h a c) b = get h b := by
  induction h with
  | nil => rfl
  | cons e h ih =>
    obtain ⟨x, d⟩ := e
    simp only [get, put, List.map_cons] at ih ⊢
    by_cases hx : x = a
    · subst hx
      simp only [if_true, List.lookup_cons, beq_eq_false_iff_ne.mpr hab]
      exact ih
    · simp only [hx, if_false, List.lookup_cons]
      rw [ih]

theorem get_put_self (h : Heap K) {a : Nat} (c : Cell K) {d : Cell K} (hd : get h a = some d) : get (put h a c) a = some c := by
  induction h with
  | nil => simp [get] at hd
  | cons e h ih =>
    obtain ⟨x, d'⟩ := e
    by_cases hx : x = a
    · subst hx
      simp [get, put]
    · simp only [get, put, List.map_cons, hx, if_false, List.lookup_cons, beq_eq_false_iff_ne.mpr (Ne.symm hx)] at hd ih ⊢
      exact ih hd

theorem get_filter (h : Heap K) (p : Nat → Bool) (a : Nat) :
    get (h.filter fun e => p e.1) a = if p a then get h a else none := by
  induction h with
  | nil => simp [get]
  | cons e h ih =>
    obtain ⟨x, d⟩ := e
    simp only [get] at ih ⊢
    by_cases hx : a = x
    · subst hx
      cases hp : p a with
      | true => simp [hp]
      | false =>
        simp only [hp] at ih
        simp [List.filter_cons, hp, ih]
    · cases hp : p x with
      | true => simp only [List.filter_cons, hp, if_true, List.lookup_cons, beq_eq_false_iff_ne.mpr hx, ih]
      | false => simp only [List.filter_cons, hp, List.lookup_cons, beq_eq_false_iff_ne.mpr hx]; simpa using ih

/-- The heap without the nodes of `f`. -/
def without (h : Heap K) (f : List Nat) : Heap K := h.filter fun e => decide (e.1 ∉ f)

theorem get_without (h : Heap K) (f : List Nat) (a : Nat) : get (without h f) a = if a ∈ f then none else get h a := by
  have := get_filter h (fun b => decide (b ∉ f)) a
  simp only [without, this]
  by_cases ha : a ∈ f <;> simp [ha]

theorem without_without (h : Heap K) (f g : List Nat) : without (without h f) g = without h (f ++ g) := by
  simp only [without, List.filter_filter]
  refine List.filter_congr fun e _ => ?_
  by_cases h1 : e.1 ∈ f <;> by_cases h2 : e.1 ∈ g <;> simp [h1, h2]

theorem without_nil (h : Heap K) : without h [] = h := by simp [without]

theorem addrs_without (h : Heap K) (f : List Nat) : addrs (without h f) = (addrs h).filter fun a => decide (a ∉ f) := by
  simp only [addrs, without, List.filter_map]
  rfl

/-- Deleting a tree frees exactly its nodes. -/
theorem deleteRec_shows {h : Heap K} {p : Ptr} {t : KD.Tree K} {f : List Nat} (s : Shows h p t f) (hn : f.Nodup) (fuel : Nat)
    (hfuel : f.length ≤ fuel) : deleteRec fuel p h = .ok () (without h f) := by
  induction t generalizing h p f fuel with
  | nil => obtain ⟨rfl, rfl⟩ := s; cases fuel <;> simp [deleteRec, without_nil]
  | node x ax l r il ir =>
    obtain ⟨a, lp, rp, fl, fr, rfl, hc, hl, hr, rfl⟩ := s
    cases fuel with
    | zero => simp at hfuel
    | succ fuel =>
      simp only [List.length_cons, List.length_append] at hfuel
      rw [List.nodup_cons, List.mem_append, not_or, List.nodup_append] at hn
      obtain ⟨⟨hal, har⟩, hnl, hnr, hd⟩ := hn
      have hg1 : get (without h fl) a = some ⟨x, ax, lp, rp⟩ := by rw [get_without, if_neg hal]; exact hc
      have sr : Shows (without h fl) rp r fr := by
        refine hr.frame fun b hb => ?_
        rw [get_without, if_neg]
        intro hb'
        exact hd b hb' b hb rfl
      have hg2 : get (without h (fl ++ fr)) a = some ⟨x, ax, lp, rp⟩ := by
        rw [get_without, if_neg (by simp [hal, har])]; exact hc
      simp only [deleteRec, hc, il hl hnl fuel (by omega), Out.bind, hg1, ir sr hnr fuel (by omega), without_without, free, hg2]
      congr 1
      simp only [without, List.filter_filter]
      refine List.filter_congr fun e _ => ?_
      by_cases h1 : e.1 = a <;> by_cases h2 : e.1 ∈ fl <;> by_cases h3 : e.1 ∈ fr <;> simp [h1, h2, h3]

/-- Memory is never exhausted. -/
def Allocator.Total (A : Allocator) : Prop := ∀ used, A.pick used ≠ none

theorem newNode_total {A : Allocator} (hA : A.Total) (x : Vec3 K) (ax : Nat) (h : Heap K) :
    ∃ a, a ∉ addrs h ∧ newNode A x ax h = .ok a ((a, ⟨x, ax, none, none⟩) :: h) := by
  cases hp : A.pick (addrs h) with
  | none => exact absurd hp (hA _)
  | some a => exact ⟨a, A.fresh _ _ hp, by simp [newNode, hp]⟩

theorem buildRec_shows [LT K] (nth : NthElement K) {A : Allocator} (hA : A.Total) (l : List (Vec3 K)) (depth : Nat) (h : Heap K)
    (hn : (addrs h).Nodup) :
    ∃ p f h', buildRec nth A l depth h = .ok (p, (KD.buildRec nth l depth).2) h' ∧ Shows h' p (KD.buildRec nth l depth).1 f ∧
      (∀ b ∈ addrs h, get h' b = get h b) ∧ (addrs h').Perm (f ++ addrs h) ∧ (addrs h').Nodup := by
  induction hl : l.length using Nat.strong_induction_on generalizing l depth h with
  | _ n ih =>
    subst hl
    rw [buildRec, KD.buildRec]
    by_cases h0 : l = []
    · simp only [h0, dif_pos]
      exact ⟨none, [], h, rfl, ⟨rfl, rfl⟩, fun _ _ => rfl, by simp, hn⟩
    · simp only [dif_neg h0]
      have hlen : (nth.run (depth % 3) (l.length / 2) l).length = l.length := (nth.perm _ _ l).length_eq
      have hpos : 0 < l.length := List.length_pos_iff.mpr h0
      have hk : l.length / 2 < (nth.run (depth % 3) (l.length / 2) l).length := by omega
      generalize hmid : (nth.run (depth % 3) (l.length / 2) l)[l.length / 2] = mid
      generalize hl' : nth.run (depth % 3) (l.length / 2) l = l' at hlen hk
      obtain ⟨a, hfresh, e1⟩ := newNode_total hA mid (depth % 3) h
      have hn1 : (addrs ((a, (⟨mid, depth % 3, none, none⟩ : Cell K)) :: h)).Nodup := by
        simp only [addrs, List.map_cons, List.nodup_cons]
        exact ⟨hfresh, hn⟩
      obtain ⟨p2, f2, h2, e2, s2, k2, q2, n2⟩ := ih (l'.take (l.length / 2)).length (by rw [List.length_take]; omega)
        (l'.take (l.length / 2)) (depth + 1) _ hn1 rfl
      have g2 : get h2 a = some ⟨mid, depth % 3, none, none⟩ := by
        rw [k2 a (by simp [addrs]), get_cons_self]
      have e3 : setLeft a p2 h2 = .ok () (put h2 a ⟨mid, depth % 3, p2, none⟩) := by simp [setLeft, g2]
      have n3 : (addrs (put h2 a (⟨mid, depth % 3, p2, none⟩ : Cell K))).Nodup := by rw [addrs_put]; exact n2
      obtain ⟨p4, f4, h4, e4, s4, k4, q4, n4⟩ := ih (l'.drop (l.length / 2 + 1)).length (by rw [List.length_drop]; omega)
        (l'.drop (l.length / 2 + 1)) (depth + 1) _ n3 rfl
      rw [addrs_put] at k4 q4
      have ma2 : a ∈ addrs h2 := get_mem g2
      have g4 : get h4 a = some ⟨mid, depth % 3, p2, none⟩ := by rw [k4 a ma2, get_put_self _ _ g2]
      have e5 : setRight a p4 h4 = .ok () (put h4 a ⟨mid, depth % 3, p2, p4⟩) := by simp [setRight, g4]
      have d2 := (q2.nodup_iff.mp n2)
      have d4 := (q4.nodup_iff.mp n4)
      rw [List.nodup_append] at d2 d4
      have na2 : ∀ b ∈ f2, b ≠ a := fun b hb => d2.2.2 b hb a (by simp [addrs])
      have na4 : ∀ b ∈ f4, b ≠ a := fun b hb => d4.2.2 b hb a ma2
      simp only [e1, e2, e3, e4, e5, Out.bind]
      refine ⟨some a, a :: (f2 ++ f4), put h4 a ⟨mid, depth % 3, p2, p4⟩, rfl,
        ⟨a, p2, p4, f2, f4, rfl, get_put_self _ _ g4, ?_, ?_, rfl⟩, ?_, ?_, ?_⟩
      · refine s2.frame fun b hb => ?_
        rw [get_put_ne _ _ (na2 b hb), k4 b (s2.mem b hb), get_put_ne _ _ (na2 b hb)]
      · refine s4.frame fun b hb => ?_
        rw [get_put_ne _ _ (na4 b hb)]
      · intro b hb
        have hba : b ≠ a := fun e => hfresh (e ▸ hb)
        have hb2 : b ∈ addrs h2 := by rw [q2.mem_iff]; simp only [addrs, List.map_cons, List.mem_append, List.mem_cons]; right; right; exact hb
        rw [get_put_ne _ _ hba, k4 b hb2, get_put_ne _ _ hba, k2 b (by simp only [addrs, List.map_cons, List.mem_cons]; right; exact hb),
          get_cons_ne _ _ hba]
      · rw [addrs_put]
        refine q4.trans ?_
        have : (f4 ++ addrs h2).Perm (f4 ++ (f2 ++ (a :: addrs h))) := q2.append_left f4
        refine this.trans ?_
        rw [List.perm_iff_count]
        intro b
        simp only [List.count_append, List.count_cons]
        omega
      · rw [addrs_put]; exact n4

theorem insertRec_shows [LT K] [DecidableLT K] {A : Allocator} (hA : A.Total) (x : Vec3 K) {h : Heap K} {p : Ptr} {t : KD.Tree K}
    {f : List Nat} (s : Shows h p t f) (hn : f.Nodup) (fuel : Nat) (hfuel : f.length ≤ fuel) (depth size : Nat) :
    ∃ p' f' h' a, insertRec A x fuel p depth (h, size) = .ok p' (h', (KD.insertRec t x depth size).2) ∧
      Shows h' p' (KD.insertRec t x depth size).1 f' ∧ (∀ b ∈ addrs h, b ∉ f → get h' b = get h b) ∧
      a ∉ addrs h ∧ f'.Perm (a :: f) ∧ addrs h' = a :: addrs h := by
  induction t generalizing p f fuel depth with
  | nil =>
    obtain ⟨rfl, rfl⟩ := s
    obtain ⟨a, hfresh, e1⟩ := newNode_total hA x (depth % 3) h
    refine ⟨some a, [a], (a, ⟨x, depth % 3, none, none⟩) :: h, a, ?_, ?_, ?_, hfresh, .refl _, rfl⟩
    · cases fuel <;> simp [insertRec, e1, KD.insertRec]
    · exact ⟨a, none, none, [], [], rfl, get_cons_self _ _ _, ⟨rfl, rfl⟩, ⟨rfl, rfl⟩, rfl⟩
    · intro b hb _
      exact get_cons_ne _ _ (fun e => hfresh (e ▸ hb))
  | node y ax l r il ir =>
    obtain ⟨a, lp, rp, fl, fr, rfl, hc, hl, hr, rfl⟩ := s
    cases fuel with
    | zero => simp at hfuel
    | succ fuel =>
      simp only [List.length_cons, List.length_append] at hfuel
      rw [List.nodup_cons, List.mem_append, not_or, List.nodup_append] at hn
      obtain ⟨⟨hal, har⟩, hnl, hnr, hd⟩ := hn
      have ha : a ∈ addrs h := get_mem hc
      rw [KD.insertRec]
      by_cases hcond : (ax = 0 ∧ x.x < y.x) ∨ (ax = 1 ∧ x.y < y.y) ∨ (ax = 2 ∧ x.z < y.z)
      · obtain ⟨p', f', h', n, e, s', k, hfr, hp, hadd⟩ := il hl hnl fuel (by omega) (depth + 1)
        have ga : get h' a = some ⟨y, ax, lp, rp⟩ := by rw [k a ha hal, hc]
        have hna : ∀ b ∈ f', b ≠ a := by
          intro b hb
          rw [hp.mem_iff, List.mem_cons] at hb
          rintro rfl
          rcases hb with rfl | hb
          · exact hfr ha
          · exact hal hb
        refine ⟨some a, a :: (f' ++ fr), put h' a ⟨y, ax, p', rp⟩, n, ?_, ?_, ?_, hfr, ?_, ?_⟩
        · simp only [insertRec, hc, if_pos hcond, e, Out.bind, setLeft, ga]
        · simp only [if_pos hcond]
          refine ⟨a, p', rp, f', fr, rfl, get_put_self _ _ ga, ?_, ?_, rfl⟩
          · exact s'.frame fun b hb => get_put_ne _ _ (hna b hb)
          · refine hr.frame fun b hb => ?_
            rw [get_put_ne _ _ (fun e : b = a => har (e ▸ hb)), k b (hr.mem b hb) (fun hb' => hd b hb' b hb rfl)]
        · intro b hb hbf
          simp only [List.mem_cons, List.mem_append, not_or] at hbf
          rw [get_put_ne _ _ hbf.1, k b hb hbf.2.1]
        · rw [List.perm_iff_count] at hp ⊢
          intro b
          have := hp b
          simp only [List.count_append, List.count_cons] at this ⊢
          omega
        · rw [addrs_put, hadd]
      · obtain ⟨p', f', h', n, e, s', k, hfr, hp, hadd⟩ := ir hr hnr fuel (by omega) (depth + 1)
        have ga : get h' a = some ⟨y, ax, lp, rp⟩ := by rw [k a ha har, hc]
        have hna : ∀ b ∈ f', b ≠ a := by
          intro b hb
          rw [hp.mem_iff, List.mem_cons] at hb
          rintro rfl
          rcases hb with rfl | hb
          · exact hfr ha
          · exact har hb
        refine ⟨some a, a :: (fl ++ f'), put h' a ⟨y, ax, lp, p'⟩, n, ?_, ?_, ?_, hfr, ?_, ?_⟩
        · simp only [insertRec, hc, if_neg hcond, e, Out.bind, setRight, ga]
        · simp only [if_neg hcond]
          refine ⟨a, lp, p', fl, f', rfl, get_put_self _ _ ga, ?_, ?_, rfl⟩
          · refine hl.frame fun b hb => ?_
            rw [get_put_ne _ _ (fun e : b = a => hal (e ▸ hb)), k b (hl.mem b hb) (fun hb' => hd b hb b hb' rfl)]
          · exact s'.frame fun b hb => get_put_ne _ _ (hna b hb)
        · intro b hb hbf
          simp only [List.mem_cons, List.mem_append, not_or] at hbf
          rw [get_put_ne _ _ hbf.1, k b hb hbf.2.2]
        · rw [List.perm_iff_count] at hp ⊢
          intro b
          have := hp b
          simp only [List.count_append, List.count_cons] at this ⊢
          omega
        · rw [addrs_put, hadd]

theorem rangeSearchRec_shows [LE K] [DecidableLE K] (lower upper : Vec3 K) {h : Heap K} {p : Ptr} {t : KD.Tree K} {f : List Nat}
    (s : Shows h p t f) (fuel : Nat) (hfuel : f.length ≤ fuel) (res : List (Vec3 K)) :
    rangeSearchRec h lower upper fuel p res = .ok (KD.rangeSearchRec lower upper t res) := by
  induction t generalizing p f fuel res with
  | nil => obtain ⟨rfl, rfl⟩ := s; cases fuel <;> simp [rangeSearchRec, KD.rangeSearchRec]
  | node y ax l r il ir =>
    obtain ⟨a, lp, rp, fl, fr, rfl, hc, hl, hr, rfl⟩ := s
    cases fuel with
    | zero => simp at hfuel
    | succ fuel =>
      simp only [List.length_cons, List.length_append] at hfuel
      simp only [rangeSearchRec, hc, KD.rangeSearchRec, il hl fuel (by omega), ir hr fuel (by omega)]
      split <;> split <;> split <;> rfl

theorem nearestRec_shows [Add K] [Sub K] [Mul K] [LT K] [DecidableLT K] (target : Vec3 K) {h : Heap K} {p : Ptr} {t : KD.Tree K}
    {f : List Nat} (s : Shows h p t f) (fuel : Nat) (hfuel : f.length ≤ fuel) (b : Vec3 K × K) :
    nearestRec h target fuel p b = .ok (KD.nearestRec target t b) := by
  induction t generalizing p f fuel b with
  | nil => obtain ⟨rfl, rfl⟩ := s; cases fuel <;> simp [nearestRec, KD.nearestRec]
  | node y ax l r il ir =>
    obtain ⟨a, lp, rp, fl, fr, rfl, hc, hl, hr, rfl⟩ := s
    cases fuel with
    | zero => simp at hfuel
    | succ fuel =>
      simp only [List.length_cons, List.length_append] at hfuel
      rw [nearestRec, KD.nearestRec]
      simp only [hc]
      by_cases hg : (ax = 0 ∧ target.x < y.x) ∨ (ax = 1 ∧ target.y < y.y) ∨ (ax = 2 ∧ target.z < y.z)
      · simp only [if_pos hg, il hl fuel (by omega), ir hr fuel (by omega)]
        exact (apply_ite Res.ok _ _ _).symm
      · simp only [if_neg hg, il hl fuel (by omega), ir hr fuel (by omega)]
        exact (apply_ite Res.ok _ _ _).symm

end Cmm.KDHeap
