import Verif.Lemmas.QuickVisit
import Verif.Lemmas.PolytopeHull
/-!
The main loop of Quickhull: it keeps a closed convex surface below which, or in the outside sets of whose facets, all points are, and it ends.
-/
namespace Cmm.Quick
open Cmm.Geom
variable {K : Type} [Field K] [LinearOrder K] [IsStrictOrderedRing K]

theorem partition_spec {eps : K} (h0 : 0 ≤ eps) (d : Nat → K) : ∀ (l : List Nat) (m : K) (taken : List Nat),
    (taken = [] ∧ m = 0 ∨ taken ≠ [] ∧ eps < m) →
    (∀ p, p ∈ (partition eps d l m taken).2.1 ↔ p ∈ taken ∨ (p ∈ l ∧ eps < d p)) ∧
    (∀ p, p ∈ (partition eps d l m taken).2.2 ↔ p ∈ l ∧ ¬ eps < d p) ∧
    ((partition eps d l m taken).2.1 = [] ∧ (partition eps d l m taken).1 = 0 ∨ (partition eps d l m taken).2.1 ≠ [] ∧ eps < (partition eps d l m taken).1) := by
  intro l
  induction l with
  | nil =>
    intro m taken h
    exact ⟨fun p => by simp [partition], fun p => by simp [partition], h⟩
  | cons i l ih =>
    intro m taken h
    rw [partition]
    by_cases hi : eps < d i
    · rw [if_pos hi]
      have key : ∀ m' taken', (∀ p, p ∈ taken' ↔ p ∈ taken ∨ p = i) → (taken' ≠ [] ∧ eps < m') →
          (∀ p, p ∈ (partition eps d l m' taken').2.1 ↔ p ∈ taken ∨ (p ∈ i :: l ∧ eps < d p)) ∧
          (∀ p, p ∈ (partition eps d l m' taken').2.2 ↔ p ∈ i :: l ∧ ¬ eps < d p) ∧
          ((partition eps d l m' taken').2.1 = [] ∧ (partition eps d l m' taken').1 = 0 ∨
            (partition eps d l m' taken').2.1 ≠ [] ∧ eps < (partition eps d l m' taken').1) := by
        intro m' taken' hm ht
        obtain ⟨h1, h2, h3⟩ := ih m' taken' (Or.inr ht)
        refine ⟨fun p => ?_, fun p => ?_, h3⟩
        · rw [h1, hm, List.mem_cons]
          constructor
          · rintro ((h | rfl) | h)
            · exact Or.inl h
            · exact Or.inr ⟨Or.inl rfl, hi⟩
            · exact Or.inr ⟨Or.inr h.1, h.2⟩
          · rintro (h | ⟨rfl | h, h'⟩)
            · exact Or.inl (Or.inl h)
            · exact Or.inl (Or.inr rfl)
            · exact Or.inr ⟨h, h'⟩
        · rw [h2, List.mem_cons]
          constructor
          · rintro ⟨h, h'⟩; exact ⟨Or.inr h, h'⟩
          · rintro ⟨rfl | h, h'⟩
            · exact absurd hi h'
            · exact ⟨h, h'⟩
      split
      · exact key _ _ (fun p => by rw [List.mem_cons, or_comm]) ⟨by simp, hi⟩
      · rename_i hm
        refine key _ _ (fun p => by rw [List.mem_append, List.mem_singleton]) ⟨by simp, ?_⟩
        rcases h with ⟨-, rfl⟩ | ⟨-, h⟩
        · exact absurd (lt_of_le_of_lt h0 hi) hm
        · exact h
    · rw [if_neg hi]
      obtain ⟨h1, h2, h3⟩ := ih m taken h
      refine ⟨fun p => ?_, fun p => ?_, h3⟩
      · dsimp only
        rw [h1, List.mem_cons]
        constructor
        · rintro (h | h)
          · exact Or.inl h
          · exact Or.inr ⟨Or.inr h.1, h.2⟩
        · rintro (h | ⟨rfl | h, h'⟩)
          · exact Or.inl h
          · exact absurd h' hi
          · exact Or.inr ⟨h, h'⟩
      · dsimp only
        rw [List.mem_cons, h2, List.mem_cons]
        constructor
        · rintro (rfl | h)
          · exact ⟨Or.inl rfl, hi⟩
          · exact ⟨Or.inr h.1, h.2⟩
        · rintro ⟨rfl | h, h'⟩
          · exact Or.inl rfl
          · exact Or.inr ⟨h, h'⟩

/-- The facets `ids` have taken their points from the pool. -/
structure Settled (eps : K) (dist : (Fin 3 → Nat) → Nat → K) (ids : List Nat) (s t : State K) : Prop where
  out1 : ∀ i ∈ ids, ∀ p ∈ (t.facets i).outside, p ∈ s.outside ∧ eps < dist (t.facets i).vertices p
  out2 : ∀ p ∈ s.outside, (∃ i ∈ ids, p ∈ (t.facets i).outside) ∨ (p ∈ t.outside ∧ ∀ i ∈ ids, ¬ eps < dist (t.facets i).vertices p)
  rank : ∀ f, (∃ e ∈ t.ranking, e.2 = f) ↔ (∃ e ∈ s.ranking, e.2 = f) ∨ (f ∈ ids ∧ (t.facets f).outside ≠ [])
  keep : ∀ g, g ∉ ids → t.facets g = s.facets g
  pool : ∀ p ∈ t.outside, p ∈ s.outside

variable {eps : K} {dist : (Fin 3 → Nat) → Nat → K}

omit [IsStrictOrderedRing K] in
theorem Settled.nil (s : State K) : Settled eps dist [] s s :=
  ⟨fun i hi => by simp at hi, fun p hp => Or.inr ⟨hp, fun i hi => by simp at hi⟩, fun f => by simp, fun _ _ => rfl, fun _ h => h⟩

omit [IsStrictOrderedRing K] in
theorem Settled.cons {s s1 t : State K} {i : Nat} {ids : List Nat} (h : Settled eps dist [i] s s1) (k : Settled eps dist ids s1 t) (hi : i ∉ ids) :
    Settled eps dist (i :: ids) s t := by
  refine ⟨?_, ?_, ?_, ?_, fun p hp => h.pool p (k.pool p hp)⟩
  · intro j hj p hp
    rcases List.mem_cons.mp hj with rfl | hj
    · rw [k.keep j hi] at hp ⊢
      exact h.out1 j List.mem_cons_self p hp
    · exact ⟨h.pool p (k.out1 j hj p hp).1, (k.out1 j hj p hp).2⟩
  · intro p hp
    rcases h.out2 p hp with ⟨j, hj, h1⟩ | ⟨h1, h2⟩
    · rw [List.mem_singleton] at hj
      subst hj
      exact Or.inl ⟨j, List.mem_cons_self, by rw [k.keep j hi]; exact h1⟩
    · rcases k.out2 p h1 with ⟨j, hj, h3⟩ | ⟨h3, h4⟩
      · exact Or.inl ⟨j, List.mem_cons_of_mem _ hj, h3⟩
      · refine Or.inr ⟨h3, fun j hj => ?_⟩
        rcases List.mem_cons.mp hj with rfl | hj
        · rw [k.keep j hi]; exact h2 j List.mem_cons_self
        · exact h4 j hj
  · intro f
    rw [k.rank, h.rank, List.mem_singleton, List.mem_cons]
    by_cases hf : f = i
    · subst hf
      rw [k.keep f hi]
      simp [hi]
    · simp [hf]
  · intro g hg
    rw [List.mem_cons, not_or] at hg
    rw [k.keep g hg.2, h.keep g (by simpa using hg.1)]

/-- Only points, not the surface, have changed. -/
structure Fixed (s t : State K) : Prop where
  vertices : ∀ f, (t.facets f).vertices = (s.facets f).vertices
  neighbours : ∀ f, (t.facets f).neighbours = (s.facets f).neighbours
  size : t.size = s.size
  removed : t.removed = s.removed
  ridges : t.ridges = s.ridges
  visited : t.visited = s.visited
  visible : t.visible = s.visible
  fresh : t.fresh = s.fresh

theorem settle_spec (h0 : 0 ≤ eps) (s : State K) (f : Nat) : Settled eps dist [f] s (s.settle eps dist f) ∧ Fixed s (s.settle eps dist f) := by
  obtain ⟨h1, h2, h3⟩ := partition_spec h0 (dist (s.facets f).vertices) s.outside 0 [] (Or.inl ⟨rfl, rfl⟩)
  set r := partition eps (dist (s.facets f).vertices) s.outside 0 [] with hr
  have hF : ∀ g, (s.settle eps dist f).facets g = if g = f then { s.facets f with outside := r.2.1 } else s.facets g := by
    intro g
    rw [State.settle]
    dsimp only
    rw [State.rank, ← hr]
    split <;> · show (State.put _ _ _).facets g = _; rw [put_facets]
  have hFf : (s.settle eps dist f).facets f = { s.facets f with outside := r.2.1 } := by rw [hF, if_pos rfl]
  have hO : (s.settle eps dist f).outside = r.2.2 := by
    rw [State.settle]; dsimp only; rw [State.rank]; split <;> rfl
  have hR : (s.settle eps dist f).ranking = if eps < r.1 then s.ranking ++ [(r.1, f)] else s.ranking := by
    rw [State.settle]; dsimp only; rw [State.rank]; split <;> rfl
  constructor
  · refine ⟨?_, ?_, ?_, ?_, ?_⟩
    · intro i hi p hp
      rw [List.mem_singleton] at hi
      subst hi
      rw [hFf] at hp ⊢
      have := (h1 p).mp hp
      simpa using this
    · intro p hp
      by_cases hd : eps < dist (s.facets f).vertices p
      · exact Or.inl ⟨f, List.mem_cons_self, by rw [hFf]; exact (h1 p).mpr (Or.inr ⟨hp, hd⟩)⟩
      · refine Or.inr ⟨by rw [hO]; exact (h2 p).mpr ⟨hp, hd⟩, fun i hi => ?_⟩
        rw [List.mem_singleton] at hi
        subst hi
        rw [hFf]; exact hd
    · intro g
      rw [hR, List.mem_singleton]
      rcases h3 with ⟨e1, e2⟩ | ⟨e1, e2⟩
      · rw [if_neg (by rw [e2]; exact not_lt.mpr h0)]
        constructor
        · exact Or.inl
        · rintro (h | ⟨rfl, h⟩)
          · exact h
          · rw [hFf] at h; exact absurd e1 h
      · rw [if_pos e2]
        simp only [List.mem_append, List.mem_singleton]
        constructor
        · rintro ⟨e, h | rfl, rfl⟩
          · exact Or.inl ⟨e, h, rfl⟩
          · exact Or.inr ⟨rfl, by rw [hFf]; exact e1⟩
        · rintro (⟨e, h, rfl⟩ | ⟨rfl, -⟩)
          · exact ⟨e, Or.inl h, rfl⟩
          · exact ⟨_, Or.inr rfl, rfl⟩
    · intro g hg
      rw [hF, if_neg (by simpa using hg)]
    · intro p hp
      rw [hO] at hp
      exact ((h2 p).mp hp).1
  · refine ⟨fun g => ?_, fun g => ?_, ?_, ?_, ?_, ?_, ?_, ?_⟩
    · rw [hF]; split
      · rename_i e; rw [e]
      · rfl
    · rw [hF]; split
      · rename_i e; rw [e]
      · rfl
    all_goals rw [State.settle]; dsimp only; rw [State.rank]; split <;> rfl

theorem settle_fold (h0 : 0 ≤ eps) : ∀ (ids : List Nat) (s : State K), ids.Nodup → Settled eps dist ids s (ids.foldl (State.settle eps dist) s) ∧
    Fixed s (ids.foldl (State.settle eps dist) s) := by
  intro ids
  induction ids with
  | nil => intro s _; exact ⟨.nil s, fun _ => rfl, fun _ => rfl, rfl, rfl, rfl, rfl, rfl, rfl⟩
  | cons i ids ih =>
    intro s hnd
    rw [List.nodup_cons] at hnd
    obtain ⟨a1, a2⟩ := settle_spec (dist := dist) h0 s i
    obtain ⟨b1, b2⟩ := ih (s.settle eps dist i) hnd.2
    rw [List.foldl_cons]
    exact ⟨a1.cons b1 hnd.1, fun f => (b2.vertices f).trans (a2.vertices f), fun f => (b2.neighbours f).trans (a2.neighbours f), b2.size.trans a2.size,
      b2.removed.trans a2.removed, b2.ridges.trans a2.ridges, b2.visited.trans a2.visited, b2.visible.trans a2.visible, b2.fresh.trans a2.fresh⟩

/-- The computed distances of the points have the right signs, and those above are above by more than `eps`. -/
structure Exact (eps : K) (dist : (Fin 3 → Nat) → Nat → K) (P : Nat → Vec3 K) (n : Nat) : Prop where
  nonneg : 0 ≤ eps
  pos : ∀ vs : Fin 3 → Nat, Function.Injective vs → (∀ k, vs k < n) → ∀ p < n, 0 < dist vs p ↔ 0 < ov P vs (P p)
  above : ∀ vs : Fin 3 → Nat, Function.Injective vs → (∀ k, vs k < n) → ∀ p < n, eps < dist vs p ↔ 0 < ov P vs (P p)

/-- The state between two steps of the loop. -/
structure Inv (P : Nat → Vec3 K) (n : Nat) (s : State K) : Prop where
  C : Complex P n s.live (fun f => (s.facets f).vertices) (fun f => (s.facets f).neighbours)
  ne : s.live.Nonempty
  nodup : s.removed.Nodup
  lt : ∀ f ∈ s.removed, f < s.size
  nil : ∀ f ∈ s.removed, (s.facets f).outside = []
  rank1 : ∀ e ∈ s.ranking, e.2 ∈ s.live ∧ (s.facets e.2).outside ≠ []
  rank2 : ∀ f ∈ s.live, (s.facets f).outside ≠ [] → ∃ e ∈ s.ranking, e.2 = f
  out : ∀ f ∈ s.live, ∀ p ∈ (s.facets f).outside, p < n ∧ 0 < ov P (s.facets f).vertices (P p)
  cov : ∀ p < n, (∀ f ∈ s.live, Below P (s.facets f).vertices p) ∨ ∃ f ∈ s.live, p ∈ (s.facets f).outside
  outside : s.outside = []
  ridges : s.ridges = []
  visited : s.visited = []
  visible : s.visible = []
  fresh : s.fresh = []

/-- The points outside. -/
def State.pending (s : State K) (n : Nat) : Finset Nat := (Finset.range n).filter fun p => ∃ f ∈ s.live, p ∈ (s.facets f).outside

variable {P : Nat → Vec3 K} {n : Nat}

/-- Some triangle is not visible. -/
theorem _root_.Cmm.Geom.Complex.exists_hidden {L : Finset Nat} {V N : Nat → Fin 3 → Nat} (C : Complex P n L V N) {f : Nat} (hf : f ∈ L) (x : Vec3 K) :
    ∃ g ∈ L, ¬ 0 < ov P (V g) x := by
  by_contra hn
  push Not at hn
  have hs := C.sum_diff (P (V f 0)) x
  have : 0 < ∑ g ∈ L, (ov P (V g) x - ov P (V g) (P (V f 0))) := by
    refine Finset.sum_pos (fun g hg => ?_) ⟨f, hf⟩
    have h1 := hn g hg
    have h2 := (C.cov g hg f hf 0).le
    linarith
  linarith

/-- Adding one point. -/
theorem addPoint_spec (hG : Gen P n) (hx : Exact eps dist P n) {s : State K} (h : Inv P n s) {f q : Nat} {rest : List Nat} (hf : f ∈ s.live)
    (hq : (s.facets f).outside = q :: rest) : ∃ t, s.addPoint eps dist f q = some t ∧ Inv P n t ∧ t.pending n ⊂ s.pending n := by
  classical
  set s0 := s.put f { s.facets f with outside := (s.facets f).outside.tail } with hs0
  have hl0 : s0.live = s.live := rfl
  have hV0 : ∀ g, (s0.facets g).vertices = (s.facets g).vertices := by
    intro g; rw [hs0, put_facets]; split
    · rename_i e; rw [e]
    · rfl
  have hN0 : ∀ g, (s0.facets g).neighbours = (s.facets g).neighbours := by
    intro g; rw [hs0, put_facets]; split
    · rename_i e; rw [e]
    · rfl
  have hO0 : ∀ g, g ≠ f → (s0.facets g).outside = (s.facets g).outside := by
    intro g hg; rw [hs0, put_ne _ _ _ _ hg]
  have hO0f : (s0.facets f).outside = rest := by rw [hs0, put_same, hq]; rfl
  have hO0s : ∀ g p, p ∈ (s0.facets g).outside → p ∈ (s.facets g).outside := by
    intro g p hp
    by_cases hg : g = f
    · subst hg; rw [hO0f] at hp; rw [hq]; exact List.mem_cons_of_mem _ hp
    · rwa [hO0 g hg] at hp
  have hqf := h.out f hf q (by rw [hq]; exact List.mem_cons_self)
  have c : Ctx P n s.live s0 q := by
    refine ⟨?_, hG, hqf.1, ?_, fun g => s.mem_live g, h.nodup, h.lt, ?_, h.outside, h.ridges, h.visited, h.visible, h.fresh⟩
    · have e1 : (fun g => (s0.facets g).vertices) = fun g => (s.facets g).vertices := funext hV0
      have e2 : (fun g => (s0.facets g).neighbours) = fun g => (s.facets g).neighbours := funext hN0
      rw [e1, e2]; exact h.C
    · intro g hg k e
      rw [hV0] at e
      have h1 := (h.C.cov f hf g hg k).le
      rw [← e] at h1
      exact absurd hqf.2 (not_lt.mpr h1)
    · intro g hg
      rw [List.eq_nil_iff_forall_not_mem]
      intro p hp
      have := hO0s g p hp
      rw [h.nil g hg] at this
      simp at this
  have hvf : Vis P s0 q f := by rw [Vis, hV0]; exact hqf.2
  have hd : ∀ g ∈ s.live, 0 < dist (s0.facets g).vertices q ↔ Vis P s0 q g := by
    intro g hg
    exact hx.pos _ (c.C.inj g hg) (c.C.lt g hg) q c.qn
  have hcard : (s.live.filter (· ∉ s0.visited)).card < s0.size + 1 := by
    refine Nat.lt_succ_of_le ((Finset.card_filter_le _ _).trans ((Finset.card_filter_le _ _).trans ?_))
    rw [Finset.card_range]; exact le_refl _
  obtain ⟨b, s', D, E, e1, hb, hJ, -, -, -, hfD, -⟩ := visit_spec c hd (s0.size + 1) s0 [] [] [] f (J.init c) hf hcard
  have hbt := hb.mpr hvf
  subst hbt
  have hfD : f ∈ D := by simpa using hfD hvf
  have S := hJ.toCone c hfD
  have hridge := hJ.ridges_nil c hfD
  have hC' := Cone.complex c.C hG c.qn c.hq S
  have hfr : s'.fresh.Nodup := by rw [hJ.fresh]; exact (List.nodup_append.mp (hJ.alloc_nodup c)).2.1
  set s1 : State K := { s' with visited := [], visible := [] } with hs1
  obtain ⟨hset, hfix⟩ := settle_fold (dist := dist) hx.nonneg s'.fresh s1 hfr
  set t1 := s'.fresh.foldl (State.settle eps dist) s1 with ht1
  have hadd : s.addPoint eps dist f q = some { t1 with fresh := [], outside := [] } := by
    rw [State.addPoint]
    dsimp only
    rw [← hs0, e1]
    dsimp only
    rw [if_neg (not_not.mpr hridge)]
  refine ⟨_, hadd, ?_⟩
  set t : State K := { t1 with fresh := [], outside := [] } with ht
  have hlt : t.live = s'.live := by
    rw [State.live, State.live]
    show (Finset.range t1.size).filter (· ∉ t1.removed) = _
    rw [hfix.size, hfix.removed]
  have hVt : ∀ g, (t.facets g).vertices = (s'.facets g).vertices := hfix.vertices
  have hNt : ∀ g, (t.facets g).neighbours = (s'.facets g).neighbours := hfix.neighbours
  have hidE : ∀ i, i ∈ s'.fresh ↔ ∃ g k, (i, g, k) ∈ E := by
    intro i
    rw [hJ.fresh, List.mem_map]
    constructor
    · rintro ⟨⟨i, g, k⟩, h1, rfl⟩; exact ⟨g, k, h1⟩
    · rintro ⟨g, k, h1⟩; exact ⟨(i, g, k), h1, rfl⟩
  have hidL : ∀ i, i ∈ s'.fresh → i ∈ s'.live := fun i hi => (S.live i).mpr (Or.inr ((hidE i).mp hi))
  have hnD : ∀ g, ¬ Vis P s0 q g → g ∉ D := fun g hv hd => hv (hJ.ad g (Or.inr hd)).2
  have hnf : ∀ g, ¬ Vis P s0 q g → g ≠ f := fun g hv e => hv (e ▸ hvf)
  have hnid : ∀ g ∈ s.live, g ∉ D → g ∉ s'.fresh := by
    intro g hg hgD hi
    rw [hJ.fresh] at hi
    exact hgD ((hJ.alloc_mem c (Or.inr hi)).2 hg)
  have hOt : ∀ g ∈ s.live, ¬ Vis P s0 q g → (t.facets g).outside = (s.facets g).outside := by
    intro g hg hv
    show (t1.facets g).outside = _
    rw [hset.keep g (hnid g hg (hnD g hv))]
    show (s'.facets g).outside = _
    rw [hJ.outOld g hg (by simp) (hnD g hv), hO0 g (hnf g hv)]
  have hpool : ∀ p, p ∈ s'.outside → ∃ g ∈ s.live, Vis P s0 q g ∧ p ∈ (s0.facets g).outside := by
    intro p hp
    obtain ⟨g, hg, hp⟩ := (hJ.pool p).mp hp
    exact ⟨g, (hJ.ad g hg).1, (hJ.ad g hg).2, hp⟩
  have hout : ∀ g ∈ t.live, ∀ p ∈ (t.facets g).outside, (p < n ∧ 0 < ov P (t.facets g).vertices (P p)) ∧ ∃ g' ∈ s.live, p ∈ (s.facets g').outside := by
    intro g hg p hp
    rw [hlt] at hg
    rw [hVt]
    rcases (S.live g).mp hg with ⟨h1, h2⟩ | h1
    · rw [hOt g h1 h2] at hp
      have := h.out g h1 p hp
      rw [S.vOld g h1 h2, hV0]
      exact ⟨this, g, h1, hp⟩
    · obtain ⟨h2, h3⟩ := hset.out1 g ((hidE g).mpr h1) p hp
      obtain ⟨g', hg', -, hp'⟩ := hpool p h2
      have h4 := h.out g' hg' p (hO0s g' p hp')
      rw [show (t1.facets g).vertices = (s'.facets g).vertices from hVt g] at h3
      exact ⟨⟨h4.1, (hx.above _ (hC'.inj g hg) (hC'.lt g hg) p h4.1).mp h3⟩, g', hg', hO0s g' p hp'⟩
  constructor
  · refine ⟨?_, ?_, ?_, ?_, ?_, ?_, ?_, fun g hg p hp => (hout g hg p hp).1, ?_, rfl, ?_, ?_, ?_, rfl⟩
    · have e1 : (fun g => (t.facets g).vertices) = fun g => (s'.facets g).vertices := funext hVt
      have e2 : (fun g => (t.facets g).neighbours) = fun g => (s'.facets g).neighbours := funext hNt
      rw [e1, e2, hlt]; exact hC'
    · obtain ⟨g, hg, hv⟩ := c.C.exists_hidden hf (P q)
      exact ⟨g, by rw [hlt]; exact (S.live g).mpr (Or.inl ⟨hg, hv⟩)⟩
    · show t1.removed.Nodup
      rw [hfix.removed]; exact (List.nodup_append.mp (hJ.alloc_nodup c)).1
    · intro g hg
      change g ∈ t1.removed at hg
      show g < t1.size
      rw [hfix.removed] at hg
      rw [hfix.size]; exact (hJ.alloc_mem c (Or.inl hg)).1
    · intro g hg
      change g ∈ t1.removed at hg
      rw [hfix.removed] at hg
      show (t1.facets g).outside = []
      have hgi : g ∉ s'.fresh := by
        rw [hJ.fresh]
        exact fun hi => (List.nodup_append.mp (hJ.alloc_nodup c)).2.2 g hg g hi rfl
      rw [hset.keep g hgi]
      exact hJ.outNil g (Or.inr (Or.inl hg))
    · intro e he
      rcases (hset.rank e.2).mp ⟨e, he, rfl⟩ with ⟨e', he', ee⟩ | ⟨h1, h2⟩
      · change e' ∈ s'.ranking at he'
        rw [hJ.ranking, List.mem_filter, decide_eq_true_iff, ee] at he'
        have h1 := h.rank1 e' he'.1
        rw [ee] at h1
        have hv : ¬ Vis P s0 q e.2 := fun hv => he'.2 (hJ.all c hfD h1.1 hv)
        rw [hlt, hOt _ h1.1 hv]
        exact ⟨(S.live _).mpr (Or.inl ⟨h1.1, hv⟩), h1.2⟩
      · exact ⟨by rw [hlt]; exact hidL _ h1, h2⟩
    · intro g hg hne
      rw [hlt] at hg
      rcases (S.live g).mp hg with ⟨h1, h2⟩ | h1
      · rw [hOt g h1 h2] at hne
        obtain ⟨e, he, ee⟩ := h.rank2 g h1 hne
        refine (hset.rank g).mpr (Or.inl ⟨e, ?_, ee⟩)
        show e ∈ s'.ranking
        rw [hJ.ranking, List.mem_filter, decide_eq_true_iff, ee]
        exact ⟨he, hnD g h2⟩
      · exact (hset.rank g).mpr (Or.inr ⟨(hidE g).mpr h1, hne⟩)
    · intro p hp
      rw [hlt]
      rcases h.cov p hp with hc | ⟨g, hg, hpg⟩
      · left
        intro g hg
        rw [hVt]
        exact Cone.covered c.C hG c.qn c.hq S (p := p) (fun g hg => by rw [hV0]; exact hc g hg) g hg
      · by_cases hpq : p = q
        · left
          subst hpq
          intro g hg
          rw [hVt]
          exact Cone.covered_apex c.C hG c.qn c.hq S g hg
        · by_cases hv : Vis P s0 q g
          · have hp0 : p ∈ (s0.facets g).outside := by
              by_cases hgf : g = f
              · subst hgf
                rw [hq] at hpg
                rw [hO0f]
                exact (List.mem_cons.mp hpg).resolve_left hpq
              · rw [hO0 g hgf]; exact hpg
            have hpp : p ∈ s'.outside := (hJ.pool p).mpr ⟨g, Or.inr (hJ.all c hfD hg hv), hp0⟩
            rcases hset.out2 p hpp with ⟨i, hi, hpi⟩ | ⟨-, hall⟩
            · exact Or.inr ⟨i, hidL i hi, hpi⟩
            · left
              have hle : ∀ i g k, (i, g, k) ∈ E → ov P (Function.update (s0.facets g).vertices k q) (P p) ≤ 0 := by
                intro i g k hi
                have hi' := (hidE i).mpr ⟨g, k, hi⟩
                have h1 := hall i hi'
                rw [show (t1.facets i).vertices = (s'.facets i).vertices from hVt i, hx.above _ (hC'.inj i (hidL i hi')) (hC'.lt i (hidL i hi')) p hp,
                  hJ.vNew i g k hi] at h1
                exact not_lt.mp h1
              have hdrop := c.C.drop hG c.qn c.hq hg hv (p := P p) (by rw [hV0]; exact (h.out g hg p hpg).2) (fun t ht k h1 h2 => by
                obtain ⟨i, hi⟩ := (S.mem t k).mpr ⟨ht, h1, h2⟩
                exact hle i t k hi)
              intro g' hg'
              have hb : ov P (s'.facets g').vertices (P p) ≤ 0 := by
                rcases (S.live g').mp hg' with ⟨h1, h2⟩ | ⟨a, k, h1⟩
                · rw [S.vOld g' h1 h2]; exact hdrop g' h1 h2
                · rw [hJ.vNew g' a k h1]; exact hle g' a k h1
              rw [hVt]
              exact Below.of_gen hG (hC'.inj g' hg') (hC'.lt g' hg') hp hb
          · exact Or.inr ⟨g, (S.live g).mpr (Or.inl ⟨hg, hv⟩), by rw [hOt g hg hv]; exact hpg⟩
    · show t1.ridges = []
      rw [hfix.ridges]; exact hridge
    · show t1.visited = []
      rw [hfix.visited]
    · show t1.visible = []
      rw [hfix.visible]
  · rw [Finset.ssubset_iff_of_subset]
    · refine ⟨q, ?_, ?_⟩
      · rw [State.pending, Finset.mem_filter, Finset.mem_range]
        exact ⟨hqf.1, f, hf, by rw [hq]; exact List.mem_cons_self⟩
      · rw [State.pending, Finset.mem_filter]
        rintro ⟨-, g, hg, hp⟩
        have h1 := (hout g hg q hp).1.2
        rw [hlt] at hg
        have h2 := (Cone.covered_apex c.C hG c.qn c.hq S g hg).le
        rw [hVt] at h1
        exact absurd h1 (not_lt.mpr h2)
    · intro p hp
      rw [State.pending, Finset.mem_filter] at hp ⊢
      obtain ⟨h1, g, hg, hp⟩ := hp
      exact ⟨h1, (hout g hg p hp).2⟩

omit [Field K] [IsStrictOrderedRing K] in
theorem best_none : ∀ l : List (K × Nat), best l = none ↔ l = [] := by
  intro l
  cases l with
  | nil => exact ⟨fun _ => rfl, fun _ => rfl⟩
  | cons e l =>
    rw [best]
    cases best l with
    | none => simp
    | some b => dsimp only; split <;> simp

omit [Field K] [IsStrictOrderedRing K] in
theorem best_mem : ∀ (l : List (K × Nat)) (e : K × Nat), best l = some e → e ∈ l := by
  intro l
  induction l with
  | nil => intro e h; simp [best] at h
  | cons x l ih =>
    intro e h
    rw [best] at h
    cases hb : best l with
    | none => rw [hb] at h; simp at h; simp [h]
    | some b =>
      rw [hb] at h
      dsimp only at h
      split at h
      · simp at h; simp [h]
      · simp at h; exact List.mem_cons_of_mem _ (ih e (by rw [hb, h]))

/-- The loop ends, and then all points are below all facets. -/
theorem hullLoop_spec (hG : Gen P n) (hx : Exact eps dist P n) : ∀ (fuel : Nat) (s : State K), Inv P n s → (s.pending n).card < fuel →
    ∃ t, hullLoop eps dist fuel s = some t ∧ Inv P n t ∧ ∀ p < n, ∀ f ∈ t.live, Below P (t.facets f).vertices p := by
  intro fuel
  induction fuel with
  | zero => intro s _ h; exact absurd h (Nat.not_lt_zero _)
  | succ m ih =>
    intro s h hc
    rw [hullLoop]
    cases hb : best s.ranking with
    | none =>
      refine ⟨s, rfl, h, fun p hp => ?_⟩
      rcases h.cov p hp with hh | ⟨f, hf, hp⟩
      · exact hh
      · obtain ⟨e, he, -⟩ := h.rank2 f hf (List.ne_nil_of_mem hp)
        rw [(best_none _).mp hb] at he
        simp at he
    | some e =>
      obtain ⟨hl, hne⟩ := h.rank1 e (best_mem _ _ hb)
      cases ho : (s.facets e.2).outside with
      | nil => exact absurd ho hne
      | cons q rest =>
        obtain ⟨t, ht, hI, hlt⟩ := addPoint_spec hG hx h hl ho
        dsimp only
        rw [ho]
        dsimp only
        rw [ht]
        exact ih t hI (lt_of_lt_of_le (Finset.card_lt_card hlt) (Nat.lt_succ_iff.mp hc))

end Cmm.Quick
