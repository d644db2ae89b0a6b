import Verif.Lemmas.QuickLoop
import Mathlib.Data.Finset.Card
/-!
The four facets of the initial simplex are a closed convex surface.
-/
namespace Cmm.Quick
open Cmm.Geom
variable {K : Type} [Field K] [LinearOrder K]

/-- The number in the simplex of the vertex `k` of the facet `f`. -/
def corner (swap : Bool) (f : Fin 4) (k : Fin 3) : Fin 4 := f.succAbove (if swap == decide ((3 - f.val) % 2 = 0) then 2 - k else k)

theorem simplexFacet_vertices (simplex : Fin 4 → Nat) (swap : Bool) (f : Fin 4) (k : Fin 3) :
    (simplexFacet simplex swap f).vertices k = simplex (corner swap f k) := by
  unfold simplexFacet corner
  dsimp only
  split <;> rfl

theorem simplexFacet_neighbours (simplex : Fin 4 → Nat) (swap : Bool) (f : Fin 4) (k : Fin 3) :
    (simplexFacet simplex swap f).neighbours k = (corner swap f k).val := by
  unfold simplexFacet corner
  dsimp only
  split <;> rfl

theorem corner_inj : ∀ (swap : Bool) (f : Fin 4) (k j : Fin 3), corner swap f k = corner swap f j → k = j := by decide
theorem corner_back : ∀ (swap : Bool) (f : Fin 4) (k : Fin 3), ∃ j, corner swap (corner swap f k) j = f ∧
    corner swap (corner swap f k) (j + 1) = corner swap f (k + 2) ∧ corner swap (corner swap f k) (j + 2) = corner swap f (k + 1) := by decide
theorem corner_uniq : ∀ (swap : Bool) (f g : Fin 4) (k j : Fin 3), corner swap f (k + 1) = corner swap g (j + 1) →
    corner swap f (k + 2) = corner swap g (j + 2) → f = g := by decide
theorem corner_all : ∀ (swap : Bool) (f i : Fin 4), i = f ∨ ∃ k, i = corner swap f k := by decide

/-- The determinant of the vectors from `d` to `a`, `b` and `c`. -/
def det (a b c : Vec3 K) : K := a.dot (b.cross c)

theorem corner_orient (Q : Fin 4 → Vec3 K) (swap : Bool) (f : Fin 4) :
    orient (Q (corner swap f 0)) (Q (corner swap f 1)) (Q (corner swap f 2)) (Q f) =
      (if swap then 1 else -1) * det (Q 0 - Q 3) (Q 1 - Q 3) (Q 2 - Q 3) := by
  cases swap <;> fin_cases f
  · show orient (Q 3) (Q 2) (Q 1) (Q 0) = _
    simp [orient, det, Vec3.dot, Vec3.cross]; ring
  · show orient (Q 0) (Q 2) (Q 3) (Q 1) = _
    simp [orient, det, Vec3.dot, Vec3.cross]; ring
  · show orient (Q 3) (Q 1) (Q 0) (Q 2) = _
    simp [orient, det, Vec3.dot, Vec3.cross]; ring
  · show orient (Q 0) (Q 1) (Q 2) (Q 3) = _
    simp [orient, det, Vec3.dot, Vec3.cross]; ring
  · show orient (Q 1) (Q 2) (Q 3) (Q 0) = _
    simp [orient, det, Vec3.dot, Vec3.cross]; ring
  · show orient (Q 3) (Q 2) (Q 0) (Q 1) = _
    simp [orient, det, Vec3.dot, Vec3.cross]; ring
  · show orient (Q 0) (Q 1) (Q 3) (Q 2) = _
    simp [orient, det, Vec3.dot, Vec3.cross]; ring
  · show orient (Q 2) (Q 1) (Q 0) (Q 3) = _
    simp [orient, det, Vec3.dot, Vec3.cross]; ring

variable [IsStrictOrderedRing K] {eps : K} {dist : (Fin 3 → Nat) → Nat → K} {P : Nat → Vec3 K} {n : Nat}

/-- A surface whose facets are those of a simplex. -/
theorem simplex_complex {simplex : Fin 4 → Nat} (hi : Function.Injective simplex) (hl : ∀ i, simplex i < n) {swap : Bool}
    (hs : (if swap then 1 else -1) * det (P (simplex 0) - P (simplex 3)) (P (simplex 1) - P (simplex 3)) (P (simplex 2) - P (simplex 3)) < 0)
    {V N : Nat → Fin 3 → Nat} (hV : ∀ f : Fin 4, V f = (simplexFacet simplex swap f).vertices)
    (hN : ∀ f : Fin 4, N f = (simplexFacet simplex swap f).neighbours) {L : Finset Nat} (hL : ∀ f, f ∈ L ↔ f < 4) :
    Complex P n L V N ∧ ∀ f ∈ L, ∀ i, Below P (V f) (simplex i) := by
  have hV' : ∀ (f : Fin 4) k, V f k = simplex (corner swap f k) := fun f k => by rw [hV, simplexFacet_vertices]
  have hN' : ∀ (f : Fin 4) k, N f k = (corner swap f k).val := fun f k => by rw [hN, simplexFacet_neighbours]
  have hc : ∀ f ∈ L, ∀ i, Below P (V f) (simplex i) := by
    intro f hf i
    obtain ⟨f, rfl⟩ : ∃ g : Fin 4, f = g.val := ⟨⟨f, (hL f).mp hf⟩, rfl⟩
    rcases corner_all swap f i with rfl | ⟨k, rfl⟩
    · right
      rw [ov, hV', hV', hV', corner_orient (fun i => P (simplex i))]
      exact hs
    · exact Or.inl ⟨k, (hV' f k).symm⟩
  refine ⟨⟨?_, ?_, ?_, ?_, ?_, ?_, simplex, hi, fun i => ⟨hl i, fun f hf => hc f hf i⟩⟩, hc⟩
  · intro f hf k j e
    obtain ⟨f, rfl⟩ : ∃ g : Fin 4, f = g.val := ⟨⟨f, (hL f).mp hf⟩, rfl⟩
    rw [hV', hV'] at e
    exact corner_inj swap f k j (hi e)
  · intro f hf k
    obtain ⟨f, rfl⟩ : ∃ g : Fin 4, f = g.val := ⟨⟨f, (hL f).mp hf⟩, rfl⟩
    rw [hV']; exact hl _
  · intro f hf k
    obtain ⟨f, rfl⟩ : ∃ g : Fin 4, f = g.val := ⟨⟨f, (hL f).mp hf⟩, rfl⟩
    rw [hN', hL]; exact (corner swap f k).isLt
  · intro f hf k
    obtain ⟨f, rfl⟩ : ∃ g : Fin 4, f = g.val := ⟨⟨f, (hL f).mp hf⟩, rfl⟩
    obtain ⟨j, j0, j1, j2⟩ := corner_back swap f k
    refine ⟨j, ?_, ?_, ?_⟩
    · rw [hN', hN', j0]
    · rw [hN', hV', hV', j1]
    · rw [hN', hV', hV', j2]
  · intro f hf g hg k j e1 e2
    obtain ⟨f, rfl⟩ : ∃ g : Fin 4, f = g.val := ⟨⟨f, (hL f).mp hf⟩, rfl⟩
    obtain ⟨g, rfl⟩ : ∃ a : Fin 4, g = a.val := ⟨⟨g, (hL g).mp hg⟩, rfl⟩
    rw [hV', hV'] at e1 e2
    rw [corner_uniq swap f g k j (hi e1) (hi e2)]
  · intro f hf g hg k
    obtain ⟨g, rfl⟩ : ∃ a : Fin 4, g = a.val := ⟨⟨g, (hL g).mp hg⟩, rfl⟩
    rw [hV' g]
    exact hc f hf _

theorem make_spec (h0 : 0 ≤ eps) (s : State K) (i : Nat) (x : Facet) :
    Settled eps dist [i] s ((({ s with size := s.size + 1 } : State K).put i x).settle eps dist i) ∧
    Fixed (({ s with size := s.size + 1 } : State K).put i x) ((({ s with size := s.size + 1 } : State K).put i x).settle eps dist i) := by
  obtain ⟨h, k⟩ := settle_spec (dist := dist) h0 (({ s with size := s.size + 1 } : State K).put i x) i
  refine ⟨⟨h.out1, h.out2, h.rank, fun g hg => ?_, h.pool⟩, k⟩
  rw [h.keep g hg, put_ne _ _ _ _ (by simpa using hg)]

/-- What is known after the four facets of the simplex are made. -/
theorem simplexState_spec (h0 : 0 ≤ eps) (simplex : Fin 4 → Nat) (swap : Bool) (outside : List Nat) :
    ∃ t : State K, simplexState eps dist simplex swap outside = { t with outside := [] } ∧ Settled eps dist [0, 1, 2, 3] (State.start outside) t ∧
      t.size = 4 ∧ t.removed = [] ∧ t.ridges = [] ∧ t.visited = [] ∧ t.visible = [] ∧ t.fresh = [] ∧
      (∀ f : Fin 4, (t.facets f).vertices = (simplexFacet simplex swap f).vertices) ∧
      ∀ f : Fin 4, (t.facets f).neighbours = (simplexFacet simplex swap f).neighbours := by
  set mk : State K → Fin 4 → State K := fun s f =>
    (({ s with size := s.size + 1 } : State K).put f.val (simplexFacet simplex swap f)).settle eps dist f.val with hmk
  have hm : ∀ s f, Settled eps dist [f.val] s (mk s f) ∧ Fixed (({ s with size := s.size + 1 } : State K).put f.val (simplexFacet simplex swap f)) (mk s f) :=
    fun s f => make_spec h0 s f.val _
  set s0 : State K := State.start outside with hs0
  obtain ⟨a0, b0⟩ := hm s0 0
  obtain ⟨a1, b1⟩ := hm (mk s0 0) 1
  obtain ⟨a2, b2⟩ := hm (mk (mk s0 0) 1) 2
  obtain ⟨a3, b3⟩ := hm (mk (mk (mk s0 0) 1) 2) 3
  have v0 := b0.vertices 0
  have v1 := b1.vertices 1
  have v2 := b2.vertices 2
  have v3 := b3.vertices 3
  have n0 := b0.neighbours 0
  have n1 := b1.neighbours 1
  have n2 := b2.neighbours 2
  have n3 := b3.neighbours 3
  have k01 := a1.keep 0 (by decide)
  have k02 := a2.keep 0 (by decide)
  have k03 := a3.keep 0 (by decide)
  have k12 := a2.keep 1 (by decide)
  have k13 := a3.keep 1 (by decide)
  have k23 := a3.keep 2 (by decide)
  refine ⟨mk (mk (mk (mk s0 0) 1) 2) 3, rfl, ?_, ?_, ?_, ?_, ?_, ?_, ?_, ?_, ?_⟩
  · exact a0.cons (a1.cons (a2.cons a3 (by decide)) (by decide)) (by decide)
  · rw [b3.size, put_size]; dsimp only; rw [b2.size, put_size]; dsimp only; rw [b1.size, put_size]; dsimp only; rw [b0.size]; rfl
  · rw [b3.removed, put_removed]; dsimp only; rw [b2.removed, put_removed]; dsimp only; rw [b1.removed, put_removed]; dsimp only; rw [b0.removed]; rfl
  · rw [b3.ridges, put_ridges]; dsimp only; rw [b2.ridges, put_ridges]; dsimp only; rw [b1.ridges, put_ridges]; dsimp only; rw [b0.ridges]; rfl
  · rw [b3.visited, put_visited]; dsimp only; rw [b2.visited, put_visited]; dsimp only; rw [b1.visited, put_visited]; dsimp only; rw [b0.visited]; rfl
  · rw [b3.visible, put_visible]; dsimp only; rw [b2.visible, put_visible]; dsimp only; rw [b1.visible, put_visible]; dsimp only; rw [b0.visible]; rfl
  · rw [b3.fresh, put_fresh]; dsimp only; rw [b2.fresh, put_fresh]; dsimp only; rw [b1.fresh, put_fresh]; dsimp only; rw [b0.fresh]; rfl
  · intro f
    fin_cases f
    · show ((mk (mk (mk (mk s0 0) 1) 2) 3).facets 0).vertices = _
      rw [k03, k02, k01, v0]
      exact congrArg Facet.vertices (put_same _ _ _)
    · show ((mk (mk (mk (mk s0 0) 1) 2) 3).facets 1).vertices = _
      rw [k13, k12, v1]
      exact congrArg Facet.vertices (put_same _ _ _)
    · show ((mk (mk (mk (mk s0 0) 1) 2) 3).facets 2).vertices = _
      rw [k23, v2]
      exact congrArg Facet.vertices (put_same _ _ _)
    · show ((mk (mk (mk (mk s0 0) 1) 2) 3).facets 3).vertices = _
      rw [v3]
      exact congrArg Facet.vertices (put_same _ _ _)
  · intro f
    fin_cases f
    · show ((mk (mk (mk (mk s0 0) 1) 2) 3).facets 0).neighbours = _
      rw [k03, k02, k01, n0]
      exact congrArg Facet.neighbours (put_same _ _ _)
    · show ((mk (mk (mk (mk s0 0) 1) 2) 3).facets 1).neighbours = _
      rw [k13, k12, n1]
      exact congrArg Facet.neighbours (put_same _ _ _)
    · show ((mk (mk (mk (mk s0 0) 1) 2) 3).facets 2).neighbours = _
      rw [k23, n2]
      exact congrArg Facet.neighbours (put_same _ _ _)
    · show ((mk (mk (mk (mk s0 0) 1) 2) 3).facets 3).neighbours = _
      rw [n3]
      exact congrArg Facet.neighbours (put_same _ _ _)

theorem lt4_mem : ∀ f, f < 4 → f ∈ [0, 1, 2, 3] := by decide

/-- The state before the loop. -/
theorem simplexState_inv (hG : Gen P n) (hx : Exact eps dist P n) {simplex : Fin 4 → Nat} (hi : Function.Injective simplex) (hl : ∀ i, simplex i < n)
    {swap : Bool}
    (hs : (if swap then 1 else -1) * det (P (simplex 0) - P (simplex 3)) (P (simplex 1) - P (simplex 3)) (P (simplex 2) - P (simplex 3)) < 0)
    {outside : List Nat} (ho : ∀ p ∈ outside, p < n) (hall : ∀ p < n, p ∈ outside ∨ ∃ i, p = simplex i) :
    Inv P n (simplexState eps dist simplex swap outside) ∧ ((simplexState eps dist simplex swap outside).pending n).card ≤ outside.length ∧
      (simplexState eps dist simplex swap outside).size = 4 ∧
      (∀ f : Fin 4, ((simplexState eps dist simplex swap outside).facets f).vertices = (simplexFacet simplex swap f).vertices) ∧
      ∀ f : Fin 4, ((simplexState eps dist simplex swap outside).facets f).neighbours = (simplexFacet simplex swap f).neighbours := by
  obtain ⟨t, ht, S, t1, t2, t3, t4, t5, t6, tv, tn⟩ := simplexState_spec (dist := dist) hx.nonneg simplex swap outside
  rw [ht]
  have hL : ∀ f, f ∈ ({ t with outside := [] } : State K).live ↔ f < 4 := by
    intro f
    rw [State.mem_live]
    show f < t.size ∧ f ∉ t.removed ↔ _
    rw [t1, t2]; simp
  obtain ⟨C, hc⟩ := simplex_complex (P := P) hi hl hs (V := fun f => (t.facets f).vertices) (N := fun f => (t.facets f).neighbours) tv tn hL
  have hmem : ∀ f, f ∈ ({ t with outside := [] } : State K).live → f ∈ [0, 1, 2, 3] := fun f hf => lt4_mem f ((hL f).mp hf)
  have hout : ∀ f ∈ ({ t with outside := [] } : State K).live, ∀ p ∈ (t.facets f).outside, p ∈ outside ∧ p < n ∧ 0 < ov P (t.facets f).vertices (P p) := by
    intro f hf p hp
    obtain ⟨h1, h2⟩ := S.out1 f (hmem f hf) p hp
    have hpn := ho p h1
    exact ⟨h1, hpn, (hx.above _ (C.inj f hf) (C.lt f hf) p hpn).mp h2⟩
  refine ⟨⟨C, ⟨0, (hL 0).mpr (by decide)⟩, ?_, ?_, ?_, ?_, ?_, fun f hf p hp => (hout f hf p hp).2, ?_, rfl, t3, t4, t5, t6⟩, ?_, t1, tv, tn⟩
  · show t.removed.Nodup
    rw [t2]; exact List.nodup_nil
  · intro f hf
    change f ∈ t.removed at hf
    rw [t2] at hf; simp at hf
  · intro f hf
    change f ∈ t.removed at hf
    rw [t2] at hf; simp at hf
  · intro e he
    rcases (S.rank e.2).mp ⟨e, he, rfl⟩ with ⟨e', he', -⟩ | ⟨h1, h2⟩
    · simp [State.start] at he'
    · refine ⟨(hL _).mpr ?_, h2⟩
      simp only [List.mem_cons, List.not_mem_nil, or_false] at h1
      omega
  · intro f hf hne
    exact (S.rank f).mpr (Or.inr ⟨hmem f hf, hne⟩)
  · intro p hp
    rcases hall p hp with h | ⟨i, rfl⟩
    · rcases S.out2 p h with ⟨i, h1, h2⟩ | ⟨-, h1⟩
      · refine Or.inr ⟨i, (hL i).mpr ?_, h2⟩
        simp only [List.mem_cons, List.not_mem_nil, or_false] at h1
        omega
      · left
        intro f hf
        refine Below.of_gen hG (C.inj f hf) (C.lt f hf) hp ?_
        have := h1 f (hmem f hf)
        rw [hx.above _ (C.inj f hf) (C.lt f hf) p hp] at this
        exact not_lt.mp this
    · exact Or.inl fun f hf => hc f hf i
  · refine (Finset.card_le_card (t := outside.toFinset) ?_).trans (List.toFinset_card_le _)
    intro p hp
    rw [State.pending, Finset.mem_filter] at hp
    obtain ⟨-, f, hf, hp⟩ := hp
    rw [List.mem_toFinset]
    exact (hout f hf p hp).1

end Cmm.Quick
