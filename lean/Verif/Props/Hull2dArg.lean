import Verif.Lemmas.Hull2dArg
import Verif.Model.GaussMap
import Mathlib.Data.List.Pairwise
/-!
C133: what `convex_hull2d` leaves in its argument, and that its answer depends on the set of points only.
-/
namespace Cmm.Hull2d
open Cmm.Geom
variable {K : Type} [Field K] [LinearOrder K]

/-- C133: the function with its effect on the argument returns the hull of `Model/Hull2d` (the one C50 speaks about). -/
theorem C133_hull (sort : StdSort (Vec2 K)) (points : List (Vec2 K)) : (convexHull2dRef sort points).1 = convexHull2d sort points := by
  match points with
  | [] => rfl
  | [_] => rfl
  | [_, _] => rfl
  | p :: q :: r :: rest =>
    obtain ⟨o, tail, e, h⟩ := ref_cases sort p q r rest
    rw [h]
    unfold convexHull2d
    dsimp only
    rw [e]

/-- C133: the projection tests of separability.h replace an empty hull by the point in front of the vector *after* the call (undefined if there is none). -/
theorem C133_projection_hull (sort : StdSort (Vec2 K)) (poly : List (Vec2 K)) : Gauss.hullOrFirst sort poly =
    match (convexHull2dRef sort poly).1, (convexHull2dRef sort poly).2 with
    | [], [] => .ub
    | [], p :: _ => .ok [p]
    | h, _ => .ok h := by
  unfold Gauss.hullOrFirst
  rw [← C133_hull]
  match poly with
  | [] => rfl
  | [_] => rfl
  | [_, _] => rfl
  | p :: q :: r :: rest =>
    obtain ⟨o, tail, e, h⟩ := ref_cases sort p q r rest
    rw [h]
    dsimp only
    generalize hullFrom sort o tail = hl
    cases hl with
    | cons a l => rfl
    | nil =>
      dsimp only
      have : o = (p :: q :: r :: rest).getD (lowestGo (q :: r :: rest) 1 0 p) p := by
        have := congrArg List.head? e
        generalize lowestGo (q :: r :: rest) 1 0 p = k at *
        cases k with
        | zero => simpa using this.symm
        | succ k => simpa using this.symm
      rw [this]

variable [IsStrictOrderedRing K]

/-- The point lies between `o` and `d`. -/
def Between (o d p : Vec2 K) : Prop := ∃ t, 0 ≤ t ∧ t ≤ 1 ∧ p.x = o.x + t * (d.x - o.x) ∧ p.y = o.y + t * (d.y - o.y)

theorem between_of_hull {o d p : Vec2 K} (h : InHull2 [o, o, d] p) : Between o d p := by
  obtain ⟨w, hl, h0, hs, hx, hy⟩ := h
  match w, hl with
  | [u, v, t], _ =>
    simp only [List.zipWith_cons_cons, List.zipWith_nil_right, List.sum_cons, List.sum_nil, add_zero] at hs hx hy
    have a := h0 u (by simp)
    have b := h0 v (by simp)
    have c := h0 t (by simp)
    exact ⟨t, c, by linarith, by rw [hx]; linear_combination o.x * hs, by rw [hy]; linear_combination o.y * hs⟩

theorem between_self (o d : Vec2 K) : Between o d d := ⟨1, zero_le_one, le_refl _, by ring, by ring⟩

theorem Between.trans {o a b c : Vec2 K} (h1 : Between o b a) (h2 : Between o c b) : Between o c a := by
  obtain ⟨s, s0, s1, sx, sy⟩ := h1
  obtain ⟨t, t0, t1, tx, ty⟩ := h2
  exact ⟨s * t, mul_nonneg s0 t0, mul_le_one₀ s1 t0 t1, by rw [sx, tx]; ring, by rw [sy, ty]; ring⟩

omit [IsStrictOrderedRing K] in
theorem Between.turn {o a b : Vec2 K} (h : Between o b a) : Geom.turn o a b = 0 := by
  obtain ⟨s, s0, s1, sx, sy⟩ := h
  unfold Geom.turn; rw [sx, sy]; ring

theorem Between.eq_of_both {o a b : Vec2 K} (h : Between o b a) (h' : Between o a b) (hne : a ≠ o) : a = b := by
  obtain ⟨s, s0, s1, sx, sy⟩ := h
  obtain ⟨t, t0, t1, tx, ty⟩ := h'
  have ex : (1 - s * t) * (a.x - o.x) = 0 := by rw [tx] at sx; linear_combination sx
  have ey : (1 - s * t) * (a.y - o.y) = 0 := by rw [ty] at sy; linear_combination sy
  have one : s * t = 1 := by
    by_contra hn
    have hn : 1 - s * t ≠ 0 := fun h => hn (by linarith)
    refine hne ?_
    ext
    · have := (mul_eq_zero.1 ex).resolve_left hn; linarith
    · have := (mul_eq_zero.1 ey).resolve_left hn; linarith
  have ht : t = 1 := by nlinarith
  subst ht
  ext
  · rw [tx]; ring
  · rw [ty]; ring

/-- The points kept in each direction. -/
structure Kept (o : Vec2 K) (tail D : List (Vec2 K)) : Prop where
  sub : ∀ d ∈ D, d ∈ tail
  order : D.Pairwise fun a b => 0 < turn o a b
  cover : ∀ p ∈ tail, ∃ d ∈ D, Between o d p

theorem farthest_kept (sort : StdSort (Vec2 K)) (o : Vec2 K) (tail : List (Vec2 K)) (ha : ∀ q ∈ tail, Above o q)
    (hr : ∀ a ∈ tail, ∀ b ∈ tail, turn o a b = 0 ∨ eps ≤ |turn o a b|) :
    (sort.run (comparator o) tail).Perm tail ∧ Kept o tail (farthest o (sort.run (comparator o) tail)) := by
  have sw : StrictWeak (comparator o) tail := comparator_strictWeak ha hr
  have hperm := sort.perm _ _ sw
  have hsort := sort.sorted _ _ sw
  have ha' : ∀ q ∈ sort.run (comparator o) tail, Above o q := fun q hq => ha q (hperm.subset hq)
  have hr' : ∀ a ∈ sort.run (comparator o) tail, ∀ b ∈ sort.run (comparator o) tail, turn o a b = 0 ∨ eps ≤ |turn o a b| :=
    fun a h1 b h2 => hr a (hperm.subset h1) b (hperm.subset h2)
  have hS : Sorted o (sort.run (comparator o) tail) := by
    refine List.Pairwise.imp_of_mem ?_ hsort
    intro a b h1 h2 h
    rw [← Bool.not_eq_true, comparator_iff (hr' b h2 a h1), turn_anti o a b] at h
    push Not at h
    exact ⟨by linarith [h.1], fun h0 => h.2 (by rw [h0, neg_zero])⟩
  obtain ⟨f1, f2, f3⟩ := farthest_spec _ ha' hr' hS
  refine ⟨hperm, fun d hd => hperm.subset (f1 d hd), f2, fun p hp => ?_⟩
  obtain ⟨d, hd, h⟩ := f3 p (hperm.symm.subset hp)
  exact ⟨d, hd, between_of_hull h⟩

omit [LinearOrder K] [IsStrictOrderedRing K] in
theorem turn_first (o a : Vec2 K) : turn o o a = 0 := by unfold turn; ring

omit [IsStrictOrderedRing K] in
theorem Kept.ne {o : Vec2 K} {tail D : List (Vec2 K)} (h : Kept o tail D) {x y : Vec2 K} (hx : x ∈ D) (hy : y ∈ D) (hne : x ≠ y) : turn o x y ≠ 0 := by
  intro h0
  have : Std.Symm fun a b : Vec2 K => turn o a b ≠ 0 := ⟨fun a b h => by rw [turn_anti]; exact neg_ne_zero.2 h⟩
  exact (h.order.imp fun h => h.ne').forall hx hy hne h0

theorem Kept.subset {o : Vec2 K} {t1 t2 D1 D2 : List (Vec2 K)} (h1 : Kept o t1 D1) (h2 : Kept o t2 D2)
    (a : ∀ x ∈ t1, ∃ d, (d = o ∨ d ∈ t2) ∧ Between o d x) (b : ∀ x ∈ t2, ∃ d, (d = o ∨ d ∈ t1) ∧ Between o d x) :
    ∀ x ∈ D1, x ≠ o → x ∈ D2 := by
  intro x hx hne
  have lift : ∀ {p d : Vec2 K}, Between o d p → p ≠ o → d ≠ o := by
    rintro p d ⟨t, -, -, hx, hy⟩ hp rfl
    exact hp (by ext; · rw [hx]; ring
                 · rw [hy]; ring)
  obtain ⟨d, hd, e1⟩ := a x (h1.sub x hx)
  have nd := lift e1 hne
  obtain ⟨e, he, e2⟩ := h2.cover d (hd.resolve_left nd)
  have ne := lift e2 nd
  obtain ⟨f, hf, e3⟩ := b e (h2.sub e he)
  have nf := lift e3 ne
  obtain ⟨g, hg, e4⟩ := h1.cover f (hf.resolve_left nf)
  have xe := e1.trans e2
  have eg := e3.trans e4
  have xg : x = g := by
    by_contra hn
    exact h1.ne hx hg hn (xe.trans eg).turn
  subst xg
  rw [xe.eq_of_both eg hne]
  exact he

/-- Points with the same directions and farthest points give the same hull. -/
theorem hullFrom_eq (s1 s2 : StdSort (Vec2 K)) (o : Vec2 K) (t1 t2 : List (Vec2 K)) (a1 : ∀ q ∈ t1, Above o q) (a2 : ∀ q ∈ t2, Above o q)
    (r1 : ∀ a ∈ t1, ∀ b ∈ t1, turn o a b = 0 ∨ eps ≤ |turn o a b|) (r2 : ∀ a ∈ t2, ∀ b ∈ t2, turn o a b = 0 ∨ eps ≤ |turn o a b|)
    (a : ∀ x ∈ t1, ∃ d, (d = o ∨ d ∈ t2) ∧ Between o d x) (b : ∀ x ∈ t2, ∃ d, (d = o ∨ d ∈ t1) ∧ Between o d x) :
    hullFrom s1 o t1 = hullFrom s2 o t2 := by
  obtain ⟨-, k1⟩ := farthest_kept s1 o t1 a1 r1
  obtain ⟨-, k2⟩ := farthest_kept s2 o t2 a2 r2
  unfold hullFrom
  generalize farthest o (s1.run (comparator o) t1) = D1 at k1
  generalize farthest o (s2.run (comparator o) t2) = D2 at k2
  have noto : ∀ {t D : List (Vec2 K)}, Kept o t D → 2 ≤ D.length → ∀ x ∈ D, x ≠ o := by
    intro t D k h2 x hx ho
    subst ho
    have : ∃ y ∈ D, y ≠ x := by
      match D, h2, k.order with
      | y :: z :: D, _, k =>
        by_cases hy : y = x
        · refine ⟨z, by simp, fun hz => ?_⟩
          have := (List.pairwise_cons.1 k).1 z (by simp)
          rw [hy, turn_first] at this
          exact absurd this (lt_irrefl _)
        · exact ⟨y, by simp, hy⟩
    obtain ⟨y, hy, hne⟩ := this
    exact k.ne hx hy (Ne.symm hne) (turn_first _ _)
  have nd : ∀ {t D : List (Vec2 K)}, Kept o t D → D.Nodup := by
    intro t D k
    refine k.order.imp ?_
    rintro x y h rfl
    rw [turn_self] at h
    exact absurd h (lt_irrefl _)
  have big : ∀ {t t' D D' : List (Vec2 K)}, Kept o t D → Kept o t' D' → (∀ x ∈ D, x ≠ o → x ∈ D') → 2 ≤ D.length → 2 ≤ D'.length := by
    intro t t' D D' k k' hs h2
    have : D.Subperm D' := List.subperm_of_subset (nd k) fun x hx => hs x hx (noto k h2 x hx)
    exact h2.trans this.length_le
  have s12 := k1.subset k2 a b
  have s21 := k2.subset k1 b a
  by_cases h2 : 2 ≤ D1.length
  · have h2' := big k1 k2 s12 h2
    have hp : D1.Perm D2 := (List.perm_ext_iff_of_nodup (nd k1) (nd k2)).2 fun x =>
      ⟨fun h => s12 x h (noto k1 h2 x h), fun h => s21 x h (noto k2 h2' x h)⟩
    have : D1 = D2 := by
      refine hp.eq_of_pairwise (le := fun a b => 0 < turn o a b) ?_ k1.order k2.order
      intro x y _ _ h h'
      rw [turn_anti] at h'
      linarith
    rw [this]
  · have h2' : ¬ 2 ≤ D2.length := fun h => h2 (big k2 k1 s21 h)
    match D1, D2, h2, h2' with
    | [], [], _, _ => rfl
    | [], [_], _, _ => rfl
    | [_], [], _, _ => rfl
    | [_], [_], _, _ => rfl
    | _ :: _ :: _, _, h, _ => simp at h
    | _, _ :: _ :: _, _, h => simp at h

theorem above_antisymm {a b : Vec2 K} (h : Above a b) (h' : Above b a) : a = b := by
  unfold Above at h h'
  rcases h with h | ⟨h, g⟩ <;> rcases h' with h' | ⟨h', g'⟩
  · linarith
  · linarith
  · linarith
  · ext
    · exact le_antisymm g g'
    · exact h

/-- **C133**: the hull depends on the set of the points only, not on their order, their multiplicity or the sorting algorithm. -/
theorem C133_set (s1 s2 : StdSort (Vec2 K)) (p1 p2 : List (Vec2 K)) (n1 : 3 ≤ p1.length) (n2 : 3 ≤ p2.length) (hr : Resolved (1 / 10 ^ 9 : K) p1)
    (h : ∀ p, p ∈ p1 ↔ p ∈ p2) : convexHull2d s1 p1 = convexHull2d s2 p2 := by
  have hr2 : Resolved (1 / 10 ^ 9 : K) p2 := ⟨fun a ha b hb c hc => hr.1 a ((h a).2 ha) b ((h b).2 hb) c ((h c).2 hc),
    fun a ha b hb => hr.2 a ((h a).2 ha) b ((h b).2 hb)⟩
  rw [← eps_eq] at hr hr2
  obtain ⟨o, t1, e1, g1, f1⟩ := hull_cases s1 p1 n1 hr
  obtain ⟨o', t2, e2, g2, f2⟩ := hull_cases s2 p2 n2 hr2
  have ho : o = o' := above_antisymm (g1 o' ((h _).2 (e2.subset List.mem_cons_self))) (g2 o ((h _).1 (e1.subset List.mem_cons_self)))
  subst ho
  rw [f1, f2]
  have m1 : ∀ x ∈ t1, x ∈ p1 := fun x hx => e1.subset (List.mem_cons_of_mem _ hx)
  have m2 : ∀ x ∈ t2, x ∈ p2 := fun x hx => e2.subset (List.mem_cons_of_mem _ hx)
  refine hullFrom_eq s1 s2 o t1 t2 (fun q hq => g1 q (m1 q hq)) (fun q hq => g2 q (m2 q hq))
    (fun a ha b hb => hr.1 o (e1.subset List.mem_cons_self) a (m1 a ha) b (m1 b hb))
    (fun a ha b hb => hr2.1 o (e2.subset List.mem_cons_self) a (m2 a ha) b (m2 b hb)) (fun x hx => ?_) (fun x hx => ?_)
  · exact ⟨x, List.mem_cons.1 (e2.symm.subset ((h x).1 (m1 x hx))), between_self o x⟩
  · exact ⟨x, List.mem_cons.1 (e1.symm.subset ((h x).2 (m2 x hx))), between_self o x⟩

/-- The argument after the call. -/
theorem ref_shape (sort : StdSort (Vec2 K)) (points : List (Vec2 K)) (hn : 3 ≤ points.length) (hr : Resolved eps points) :
    ∃ o tail D rest, (o :: tail).Perm points ∧ (∀ q ∈ points, Above o q) ∧ Kept o tail D ∧ (∀ x ∈ rest, x ∈ tail) ∧ (D ++ rest).length = tail.length ∧
      convexHull2dRef sort points = (hullFrom sort o tail, o :: (D ++ rest)) ∧ ∀ x ∈ hullFrom sort o tail, x = o ∨ x ∈ D := by
  match points, hn with
  | p :: q :: r :: rest, hn =>
    obtain ⟨o, tail, e, h⟩ := ref_cases sort p q r rest
    obtain ⟨o', tail', e', hp, ha⟩ := front_cases p q r rest hr rfl
    rw [e] at e'
    obtain ⟨rfl, rfl⟩ := List.cons.inj e'
    have m : ∀ x ∈ tail, x ∈ p :: q :: r :: rest := fun x hx => hp.subset (List.mem_cons_of_mem _ hx)
    obtain ⟨pm, k⟩ := farthest_kept sort o tail (fun x hx => ha x (m x hx))
      (fun a ha b hb => hr.1 o (hp.subset List.mem_cons_self) a (m a ha) b (m b hb))
    refine ⟨o, tail, _, _, hp, ha, k, fun x hx => pm.subset (List.mem_of_mem_drop hx), ?_, h, ?_⟩
    · rw [List.length_append, List.length_drop, pm.length_eq]
      have : (farthest o (sort.run (comparator o) tail)).Nodup := by
        refine k.order.imp ?_
        rintro x y h rfl
        rw [turn_self] at h
        exact absurd h (lt_irrefl _)
      have := (List.subperm_of_subset this k.sub).length_le
      omega
    · unfold hullFrom
      have ms : ∀ (l s : List (Vec2 K)), ∀ x ∈ scan l s, x ∈ l ∨ x ∈ s := by
        intro l
        induction l with
        | nil => intro s x hx; exact Or.inr hx
        | cons y l ih =>
          intro s x hx
          have mp : ∀ (s : List (Vec2 K)), ∀ x ∈ popWhile y s, x ∈ s := by
            intro s
            induction s with
            | nil => intro x hx; exact hx
            | cons a s ih =>
              cases s with
              | nil => intro x hx; exact hx
              | cons b s =>
                intro x hx
                unfold popWhile at hx
                split at hx
                · exact List.mem_cons_of_mem _ (ih x hx)
                · exact hx
          rcases ih _ x hx with h | h
          · exact Or.inl (List.mem_cons_of_mem _ h)
          · rcases List.mem_cons.1 h with rfl | h
            · exact Or.inl List.mem_cons_self
            · exact Or.inr (mp s x h)
      intro x hx
      split at hx
      · rename_i q1 q2 l hl
        rw [hl]
        rcases ms _ _ x (List.mem_reverse.1 hx) with h | h
        · right; simp [h]
        · simp only [List.mem_cons, List.not_mem_nil, or_false] at h
          rcases h with rfl | rfl | rfl
          · right; simp
          · right; simp
          · left; rfl
      · simp at hx

/-- **C133**: `convex_hull2d` overwrites its argument: afterwards it holds the same number of points, all of them from the input, among them all vertices of the
hull; in front is the lowest point, of several the leftmost. Fewer than three points are left as they are. -/
theorem C133_argument (sort : StdSort (Vec2 K)) (points : List (Vec2 K)) (hr : Resolved (1 / 10 ^ 9 : K) points) :
    (convexHull2dRef sort points).2.length = points.length ∧ (∀ p ∈ (convexHull2dRef sort points).2, p ∈ points) ∧
      (∀ p ∈ convexHull2d sort points, p ∈ (convexHull2dRef sort points).2) ∧
      (3 ≤ points.length → ∃ o, (convexHull2dRef sort points).2.head? = some o ∧ ∀ q ∈ points, o.y < q.y ∨ (o.y = q.y ∧ o.x ≤ q.x)) ∧
      (points.length < 3 → (convexHull2dRef sort points).2 = points) := by
  by_cases hn : 3 ≤ points.length
  · obtain ⟨o, tail, D, rest, hp, ha, k, hs, hl, e, hm⟩ := ref_shape sort points hn (by rw [eps_eq]; exact hr)
    rw [← C133_hull, e]
    refine ⟨?_, fun p h => ?_, fun p h => ?_, fun _ => ⟨o, rfl, ha⟩, fun h => absurd h (by omega)⟩
    · rw [← hp.length_eq, List.length_cons, List.length_cons, hl]
    · rcases List.mem_cons.1 h with rfl | h
      · exact hp.subset List.mem_cons_self
      · rcases List.mem_append.1 h with h | h
        · exact hp.subset (List.mem_cons_of_mem _ (k.sub p h))
        · exact hp.subset (List.mem_cons_of_mem _ (hs p h))
    · rcases hm p h with rfl | h
      · exact List.mem_cons_self
      · exact List.mem_cons_of_mem _ (List.mem_append_left _ h)
  · have e : convexHull2dRef sort points = (points, points) := by
      match points, hn with
      | [], _ => rfl
      | [_], _ => rfl
      | [_, _], _ => rfl
      | _ :: _ :: _ :: _, h => simp at h
    rw [← C133_hull, e]
    exact ⟨rfl, fun _ h => h, fun _ h => h, fun h => absurd h hn, fun _ => rfl⟩

/-- **C133**: a second call with what the first one left in the vector returns the same hull. -/
theorem C133_again (s1 s2 : StdSort (Vec2 K)) (points : List (Vec2 K)) (hr : Resolved (1 / 10 ^ 9 : K) points) :
    convexHull2d s2 (convexHull2dRef s1 points).2 = convexHull2d s1 points := by
  obtain ⟨c1, c2, -, -, c5⟩ := C133_argument s1 points hr
  rw [← eps_eq] at hr
  by_cases hn : 3 ≤ points.length
  · obtain ⟨o, tail, D, rest, hp, ha, k, hs, hl, e, hm⟩ := ref_shape s1 points hn hr
    have hr' : Resolved (eps : K) (convexHull2dRef s1 points).2 :=
      ⟨fun a ha b hb c hc => hr.1 a (c2 a ha) b (c2 b hb) c (c2 c hc), fun a ha b hb => hr.2 a (c2 a ha) b (c2 b hb)⟩
    obtain ⟨o', t2, hp', ha', e'⟩ := hull_cases s2 _ (by rw [c1]; exact hn) hr'
    rw [e', ← C133_hull]
    rw [e] at hp' ha' ⊢
    have mo : ∀ x ∈ o' :: t2, x ∈ points := fun x hx => c2 x (by rw [e]; exact hp'.subset hx)
    have ho : o = o' := above_antisymm (ha o' (mo o' List.mem_cons_self)) (ha' o List.mem_cons_self)
    subst ho
    have m1 : ∀ x ∈ tail, x ∈ points := fun x hx => hp.subset (List.mem_cons_of_mem _ hx)
    have m2 : ∀ x ∈ t2, x ∈ points := fun x hx => mo x (List.mem_cons_of_mem _ hx)
    have mo' := hp.subset (List.mem_cons_self (a := o) (l := tail))
    refine (hullFrom_eq s1 s2 o tail t2 (fun q hq => ha q (m1 q hq)) (fun q hq => ha q (m2 q hq))
      (fun a ha b hb => hr.1 o mo' a (m1 a ha) b (m1 b hb)) (fun a ha b hb => hr.1 o mo' a (m2 a ha) b (m2 b hb)) (fun x hx => ?_) (fun x hx => ?_)).symm
    · obtain ⟨d, hd, h⟩ := k.cover x hx
      exact ⟨d, List.mem_cons.1 (hp'.symm.subset (List.mem_cons_of_mem _ (List.mem_append_left _ hd))), h⟩
    · exact ⟨x, List.mem_cons.1 (hp.symm.subset (m2 x hx)), between_self o x⟩
  · have hn : points.length < 3 := by omega
    rw [c5 hn, (C50_degenerate s2 points).1 hn, (C50_degenerate s1 points).1 hn]

/-- C133: points of the input that are no vertices can be lost from the argument; the vector then holds others twice. -/
theorem C133_lost_points : (convexHull2dRef (insertionSort (Vec2 ℚ)) [⟨0, 0⟩, ⟨1, 0⟩, ⟨2, 0⟩, ⟨1, 1⟩]).2 = [⟨0, 0⟩, ⟨2, 0⟩, ⟨1, 1⟩, ⟨1, 1⟩] := by
  decide +kernel

/-- The hypotheses can be met. -/
example : Resolved (1 / 10 ^ 9 : ℚ) [⟨0, 0⟩, ⟨1, 0⟩, ⟨2, 0⟩, ⟨1, 1⟩] ∧ Resolved (1 / 10 ^ 9 : ℚ) [⟨2, 0⟩, ⟨1, 1⟩, ⟨1, 0⟩, ⟨0, 0⟩, ⟨1, 1⟩] := by
  unfold Resolved turn; decide +kernel

example : convexHull2d (insertionSort (Vec2 ℚ)) [⟨2, 0⟩, ⟨1, 1⟩, ⟨1, 0⟩, ⟨0, 0⟩, ⟨1, 1⟩] = [⟨0, 0⟩, ⟨2, 0⟩, ⟨1, 1⟩] := by decide +kernel

end Cmm.Hull2d
