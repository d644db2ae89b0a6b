import Verif.Lemmas.QuickRidge
import Mathlib.Data.List.Perm.Basic
import Mathlib.Data.List.Range
/-!
The recursion through the facets visible from the apex: it replaces them by the cone over their rim.
-/
namespace Cmm.Geom
variable {K : Type} [Field K] [LinearOrder K] [IsStrictOrderedRing K]
variable {P : Nat → Vec3 K} {n : Nat} {L : Finset Nat} {V N : Nat → Fin 3 → Nat}

/-- Different edges of a triangle have different triangles behind them. -/
theorem Complex.nb_inj (C : Complex P n L V N) {u : Nat} (hu : u ∈ L) {j j' : Fin 3} (h : N u j = N u j') : j = j' := by
  by_contra hne
  obtain ⟨m, m0, m1, m2⟩ := C.back u hu j
  obtain ⟨m', m0', m1', m2'⟩ := C.back u hu j'
  have hu' := C.nb u hu j
  rw [← h] at m1' m2'
  have : N u j = u := by
    refine C.eq_of_corners hu' hu fun k => ?_
    have : k = j + 1 ∨ k = j + 2 ∨ k = j' + 1 ∨ k = j' + 2 := by
      clear m1 m2 m1' m2' m0 m0' h hu'
      revert k j j'; decide
    rcases this with rfl | rfl | rfl | rfl
    · exact ⟨_, m2.symm⟩
    · exact ⟨_, m1.symm⟩
    · exact ⟨_, m2'.symm⟩
    · exact ⟨_, m1'.symm⟩
  rw [this] at m1 m2
  have e1 := C.inj u hu m1
  have e2 := C.inj u hu m2
  clear m1 m2 m1' m2' m0 m0' h hu' this hne
  revert m j; decide

end Cmm.Geom

namespace Cmm.Quick
open Cmm.Geom
variable {K : Type} [Field K] [LinearOrder K] [IsStrictOrderedRing K]

/-- The state before a point is added. -/
structure Ctx (P : Nat → Vec3 K) (n : Nat) (L : Finset Nat) (s0 : State K) (q : Nat) : Prop where
  C : Complex P n L (fun f => (s0.facets f).vertices) (fun f => (s0.facets f).neighbours)
  gen : Gen P n
  qn : q < n
  hq : ∀ h ∈ L, ∀ k, q ≠ (s0.facets h).vertices k
  live : ∀ f, f ∈ L ↔ f < s0.size ∧ f ∉ s0.removed
  nodup : s0.removed.Nodup
  lt : ∀ f ∈ s0.removed, f < s0.size
  nil : ∀ f ∈ s0.removed, (s0.facets f).outside = []
  outside : s0.outside = []
  ridges : s0.ridges = []
  visited : s0.visited = []
  visible : s0.visible = []
  fresh : s0.fresh = []

/-- The facet is visible from the apex. -/
def Vis (P : Nat → Vec3 K) (s0 : State K) (q f : Nat) : Prop := 0 < ov P (s0.facets f).vertices (P q)

/-- The state `s` in the recursion: the visible facets in `A` are being worked on, those in `D` are done, and `E` lists the new facets with their edges. -/
structure J (P : Nat → Vec3 K) (L : Finset Nat) (q : Nat) (s0 s : State K) (A D : List Nat) (E : List (Nat × Nat × Fin 3)) : Prop where
  nodupAD : (A ++ D).Nodup
  ad : ∀ f, f ∈ A ∨ f ∈ D → f ∈ L ∧ Vis P s0 q f
  visible : ∀ f, f ∈ s.visible ↔ f ∈ A ∨ f ∈ D
  visited : ∀ f, f ∈ s.visited → f ∈ L ∧ (Vis P s0 q f → f ∈ A ∨ f ∈ D)
  visited' : ∀ f, f ∈ A ∨ f ∈ D → f ∈ s.visited
  vOld : ∀ f ∈ L, f ∉ D → (s.facets f).vertices = (s0.facets f).vertices
  nVis : ∀ f ∈ L, Vis P s0 q f → f ∉ D → (s.facets f).neighbours = (s0.facets f).neighbours
  nOld : ∀ f ∈ L, ¬ Vis P s0 q f → ∀ j, (∀ i g k, (i, g, k) ∈ E → (s0.facets g).neighbours k = f →
    ¬ ((s0.facets f).vertices (j + 1) = (s0.facets g).vertices (k + 2) ∧ (s0.facets f).vertices (j + 2) = (s0.facets g).vertices (k + 1))) →
      (s.facets f).neighbours j = (s0.facets f).neighbours j
  nRim : ∀ f ∈ L, ¬ Vis P s0 q f → ∀ j i g k, (i, g, k) ∈ E → (s0.facets g).neighbours k = f →
    (s0.facets f).vertices (j + 1) = (s0.facets g).vertices (k + 2) → (s0.facets f).vertices (j + 2) = (s0.facets g).vertices (k + 1) →
      (s.facets f).neighbours j = i
  eMem : ∀ i g k, (i, g, k) ∈ E → g ∈ L ∧ Vis P s0 q g ∧ ¬ Vis P s0 q ((s0.facets g).neighbours k) ∧ (g ∈ A ∨ g ∈ D)
  keyInj : ∀ i i' f k, (i, f, k) ∈ E → (i', f, k) ∈ E → i = i'
  alloc : (s.removed ++ E.map (·.1)).Perm (s0.removed ++ D ++ List.range' s0.size (s.size - s0.size))
  size : s0.size ≤ s.size
  vNew : ∀ i f k, (i, f, k) ∈ E → (s.facets i).vertices = Function.update (s0.facets f).vertices k q
  nNew : ∀ i f k, (i, f, k) ∈ E → (s.facets i).neighbours k = (s0.facets f).neighbours k
  rid : Rid (fun f => (s0.facets f).vertices) s.ridges (fun f => (s.facets f).neighbours) (fun i f k d => (i, f, k) ∈ E ∧ d ≠ 0)
  fresh : s.fresh = E.map (·.1)
  done : ∀ f ∈ D, ∀ k, (Vis P s0 q ((s0.facets f).neighbours k) → (s0.facets f).neighbours k ∈ A ∨ (s0.facets f).neighbours k ∈ D) ∧
    (¬ Vis P s0 q ((s0.facets f).neighbours k) → ∃ i, (i, f, k) ∈ E)
  outOld : ∀ f ∈ L, f ∉ A → f ∉ D → (s.facets f).outside = (s0.facets f).outside
  outNil : ∀ f, f ∈ A ∨ f ∈ s.removed ∨ f ∈ E.map (·.1) → (s.facets f).outside = []
  pool : ∀ p, p ∈ s.outside ↔ ∃ f, (f ∈ A ∨ f ∈ D) ∧ p ∈ (s0.facets f).outside
  ranking : s.ranking = s0.ranking.filter fun e => decide (e.2 ∉ D)

section
variable {P : Nat → Vec3 K} {n : Nat} {L : Finset Nat} {q : Nat} {s0 s : State K} {A D : List Nat} {E : List (Nat × Nat × Fin 3)}

theorem J.alloc_nodup (c : Ctx P n L s0 q) (h : J P L q s0 s A D E) : (s.removed ++ E.map (·.1)).Nodup := by
  rw [h.alloc.nodup_iff]
  have hD : D.Nodup := (List.nodup_append.mp h.nodupAD).2.1
  have hDL : ∀ f ∈ D, f < s0.size ∧ f ∉ s0.removed := fun f hf => (c.live f).mp (h.ad f (Or.inr hf)).1
  refine List.nodup_append.mpr ⟨List.nodup_append.mpr ⟨c.nodup, hD, ?_⟩, List.nodup_range', ?_⟩
  · rintro a ha b hb rfl
    exact (hDL a hb).2 ha
  · rintro a ha b hb rfl
    have := List.mem_range'_1.mp hb
    rcases List.mem_append.mp ha with ha | ha
    · have := c.lt a ha; omega
    · have := (hDL a ha).1; omega

/-- Numbers that are free or new. -/
theorem J.alloc_mem (c : Ctx P n L s0 q) (h : J P L q s0 s A D E) {i : Nat} (hi : i ∈ s.removed ∨ i ∈ E.map (·.1)) : i < s.size ∧ (i ∈ L → i ∈ D) := by
  have hm : i ∈ s.removed ++ E.map (·.1) := List.mem_append.mpr hi
  rw [h.alloc.mem_iff, List.mem_append, List.mem_append] at hm
  have hs := h.size
  rcases hm with (hm | hm) | hm
  · have := c.lt i hm
    exact ⟨by omega, fun hl => absurd hm ((c.live i).mp hl).2⟩
  · have := ((c.live i).mp (h.ad i (Or.inr hm)).1).1
    exact ⟨by omega, fun _ => hm⟩
  · have := List.mem_range'_1.mp hm
    refine ⟨by omega, fun hl => ?_⟩
    have := ((c.live i).mp hl).1
    omega

theorem J.idInj (c : Ctx P n L s0 q) (h : J P L q s0 s A D E) {i f f' : Nat} {k k' : Fin 3} (h1 : (i, f, k) ∈ E) (h2 : (i, f', k') ∈ E) :
    f = f' ∧ k = k' := by
  have := List.inj_on_of_nodup_map (List.nodup_append.mp (h.alloc_nodup c)).2.1 h1 h2 rfl
  rw [Prod.mk.injEq, Prod.mk.injEq] at this
  exact this.2

theorem J.init (c : Ctx P n L s0 q) : J P L q s0 s0 [] [] [] where
  nodupAD := List.nodup_nil
  ad f hf := by simp at hf
  visible f := by simp [c.visible]
  visited f hf := by rw [c.visited] at hf; simp at hf
  visited' f hf := by simp at hf
  vOld f _ _ := rfl
  nVis f _ _ _ := rfl
  nOld f _ _ j _ := rfl
  nRim f _ _ j i g k hi := by simp at hi
  eMem i g k hi := by simp at hi
  keyInj i i' f k hi := by simp at hi
  alloc := by simp
  size := le_refl _
  vNew i f k hi := by simp at hi
  nNew i f k hi := by simp at hi
  rid := ⟨by rw [c.ridges]; exact List.nodup_nil, fun i v => by simp [c.ridges], fun i f k d i' f' k' d' h => by simp at h⟩
  fresh := by rw [c.fresh]; rfl
  done f hf := by simp at hf
  outOld f _ _ _ := rfl
  outNil f hf := by
    rcases hf with hf | hf | hf
    · simp at hf
    · exact c.nil f hf
    · simp at hf
  pool p := by simp [c.outside]
  ranking := by simp

/-- A facet is found not to be visible. -/
theorem J.mark (h : J P L q s0 s A D E) {f : Nat} (hf : f ∈ L) (hv : ¬ Vis P s0 q f) : J P L q s0 { s with visited := f :: s.visited } A D E :=
  ⟨h.nodupAD, h.ad, h.visible, fun g hg => by
      rcases List.mem_cons.mp hg with rfl | hg
      · exact ⟨hf, fun h => absurd h hv⟩
      · exact h.visited g hg,
    fun g hg => List.mem_cons_of_mem _ (h.visited' g hg), h.vOld, h.nVis, h.nOld, h.nRim, h.eMem, h.keyInj, h.alloc, h.size, h.vNew, h.nNew, h.rid, h.fresh,
    h.done, h.outOld, h.outNil, h.pool, h.ranking⟩

/-- A visible facet is entered. -/
theorem J.enter (c : Ctx P n L s0 q) (h : J P L q s0 s A D E) {f : Nat} (hf : f ∈ L) (hv : Vis P s0 q f) (hn : f ∉ s.visited) :
    J P L q s0 (({ s with visited := f :: s.visited, visible := f :: s.visible, outside := s.outside ++ (s.facets f).outside } : State K).put f
      { s.facets f with outside := [] }) (f :: A) D E := by
  have hA : f ∉ A := fun ha => hn (h.visited' f (Or.inl ha))
  have hD : f ∉ D := fun hd => hn (h.visited' f (Or.inr hd))
  have hV : ∀ g, ((({ s with visited := f :: s.visited, visible := f :: s.visible, outside := s.outside ++ (s.facets f).outside } : State K).put f
      { s.facets f with outside := [] }).facets g).vertices = (s.facets g).vertices := by
    intro g; rw [put_facets]; split
    · rename_i e; rw [e]
    · rfl
  have hN : ∀ g, ((({ s with visited := f :: s.visited, visible := f :: s.visible, outside := s.outside ++ (s.facets f).outside } : State K).put f
      { s.facets f with outside := [] }).facets g).neighbours = (s.facets g).neighbours := by
    intro g; rw [put_facets]; split
    · rename_i e; rw [e]
    · rfl
  have mem : ∀ g, (g ∈ f :: A ∨ g ∈ D) ↔ g = f ∨ (g ∈ A ∨ g ∈ D) := by
    intro g; rw [List.mem_cons, or_assoc]
  refine ⟨?_, ?_, ?_, ?_, ?_, ?_, ?_, ?_, ?_, ?_, h.keyInj, h.alloc, h.size, ?_, ?_, ?_, h.fresh, ?_, ?_, ?_, ?_, h.ranking⟩
  · rw [List.cons_append, List.nodup_cons]
    exact ⟨by rw [List.mem_append]; exact fun hh => hh.elim hA hD, h.nodupAD⟩
  · intro g hg
    rcases (mem g).mp hg with rfl | hg
    · exact ⟨hf, hv⟩
    · exact h.ad g hg
  · intro g
    show g ∈ f :: s.visible ↔ _
    rw [mem, List.mem_cons, h.visible]
  · intro g hg
    rw [mem]
    rcases List.mem_cons.mp hg with rfl | hg
    · exact ⟨hf, fun _ => Or.inl rfl⟩
    · exact ⟨(h.visited g hg).1, fun hh => Or.inr ((h.visited g hg).2 hh)⟩
  · intro g hg
    rcases (mem g).mp hg with rfl | hg
    · exact List.mem_cons_self
    · exact List.mem_cons_of_mem _ (h.visited' g hg)
  · intro g hg hd; rw [hV]; exact h.vOld g hg hd
  · intro g hg hgv hd; rw [hN]; exact h.nVis g hg hgv hd
  · intro g hg hgv j hj; rw [hN]; exact h.nOld g hg hgv j hj
  · intro g hg hgv j i t k ht h1 h2 h3; rw [hN]; exact h.nRim g hg hgv j i t k ht h1 h2 h3
  · intro i g k hi
    obtain ⟨h1, h2, h3, h4⟩ := h.eMem i g k hi
    exact ⟨h1, h2, h3, (mem g).mpr (Or.inr h4)⟩
  · intro i g k hi; rw [hV]; exact h.vNew i g k hi
  · intro i g k hi; rw [hN]; exact h.nNew i g k hi
  · refine ⟨h.rid.nodup, h.rid.mem, ?_⟩
    intro i1 f1 k1 d1 i2 f2 k2 d2 h1 h2 h3 h4
    rw [hN]; exact h.rid.link i1 f1 k1 d1 i2 f2 k2 d2 h1 h2 h3 h4
  · intro g hg k
    exact ⟨fun hh => (mem _).mpr (Or.inr ((h.done g hg k).1 hh)), (h.done g hg k).2⟩
  · intro g hg ha hd
    rw [put_ne _ _ _ _ (fun e : g = f => ha (e ▸ List.mem_cons_self))]
    exact h.outOld g hg (fun hh => ha (List.mem_cons_of_mem _ hh)) hd
  · intro g hg
    rw [put_facets]
    split
    · rfl
    · rename_i hne
      refine h.outNil g ?_
      rcases hg with hg | hg
      · exact Or.inl ((List.mem_cons.mp hg).resolve_left hne)
      · exact Or.inr hg
  · intro p
    show p ∈ s.outside ++ (s.facets f).outside ↔ _
    rw [List.mem_append, h.pool, h.outOld f hf hA hD]
    constructor
    · rintro (⟨g, hg, hp⟩ | hp)
      · exact ⟨g, (mem g).mpr (Or.inr hg), hp⟩
      · exact ⟨f, Or.inl List.mem_cons_self, hp⟩
    · rintro ⟨g, hg, hp⟩
      rcases (mem g).mp hg with rfl | hg
      · exact Or.inr hp
      · exact Or.inl ⟨g, hg, hp⟩

/-- A visible facet is left. -/
theorem J.finish {f : Nat} (h : J P L q s0 s (f :: A) D E)
    (hd : ∀ k, (Vis P s0 q ((s0.facets f).neighbours k) → (s0.facets f).neighbours k ∈ f :: A ∨ (s0.facets f).neighbours k ∈ D) ∧
      (¬ Vis P s0 q ((s0.facets f).neighbours k) → ∃ i, (i, f, k) ∈ E)) : J P L q s0 (s.unrank f) A (f :: D) E := by
  have mem : ∀ g, (g ∈ A ∨ g ∈ f :: D) ↔ (g ∈ f :: A ∨ g ∈ D) := by
    intro g; rw [List.mem_cons, List.mem_cons]; tauto
  refine ⟨?_, ?_, ?_, ?_, ?_, ?_, ?_, h.nOld, h.nRim, ?_, h.keyInj, ?_, h.size, h.vNew, h.nNew, h.rid, h.fresh, ?_, ?_, ?_, ?_, ?_⟩
  · exact (List.perm_middle.nodup_iff).mpr h.nodupAD
  · intro g hg; exact h.ad g ((mem g).mp hg)
  · intro g; rw [mem]; exact h.visible g
  · intro g hg; rw [mem]; exact h.visited g hg
  · intro g hg; exact h.visited' g ((mem g).mp hg)
  · intro g hg hd; exact h.vOld g hg (fun hh => hd (List.mem_cons_of_mem _ hh))
  · intro g hg hv hd; exact h.nVis g hg hv (fun hh => hd (List.mem_cons_of_mem _ hh))
  · intro i g k hi
    obtain ⟨h1, h2, h3, h4⟩ := h.eMem i g k hi
    exact ⟨h1, h2, h3, (mem g).mpr h4⟩
  · show (f :: s.removed ++ E.map (·.1)).Perm _
    rw [List.cons_append, List.append_assoc, List.cons_append]
    refine ((h.alloc.cons f).trans ?_)
    rw [List.append_assoc]
    exact List.perm_middle.symm
  · intro g hg k
    rw [mem]
    rcases List.mem_cons.mp hg with rfl | hg
    · exact hd k
    · exact h.done g hg k
  · intro g hg ha hd
    exact h.outOld g hg (fun hh => (List.mem_cons.mp hh).elim (fun e => hd (e ▸ List.mem_cons_self)) ha) (fun hh => hd (List.mem_cons_of_mem _ hh))
  · intro g hg
    refine h.outNil g ?_
    rcases hg with hg | hg | hg
    · exact Or.inl (List.mem_cons_of_mem _ hg)
    · rcases List.mem_cons.mp hg with rfl | hg
      · exact Or.inl List.mem_cons_self
      · exact Or.inr (Or.inl hg)
    · exact Or.inr (Or.inr hg)
  · intro p
    rw [show (s.unrank f).outside = s.outside from rfl, h.pool]
    simp only [mem]
  · show s.ranking.filter _ = _
    rw [h.ranking, List.filter_filter]
    refine List.filter_congr fun e _ => ?_
    simp only [List.mem_cons, not_or, ← Bool.decide_and]

theorem replaceFirst_eq {m : Fin 3 → Nat} {old : Nat} {j : Fin 3} (h : ∀ w, m w = old ↔ w = j) (new : Nat) :
    replaceFirst m old new = Function.update m j new := by
  unfold replaceFirst
  have h0 := h 0
  have h1 := h 1
  have h2 := h 2
  fin_cases j
  · rw [if_pos (h0.mpr rfl)]; rfl
  · rw [if_neg (fun e => absurd (h0.mp e) (by decide)), if_pos (h1.mpr rfl)]; rfl
  · rw [if_neg (fun e => absurd (h0.mp e) (by decide)), if_neg (fun e => absurd (h1.mp e) (by decide)), if_pos (h2.mpr rfl)]; rfl

theorem findAdjacent_eq (s : State K) (i : Nat) (k : Fin 3) : ∃ d e : Fin 3, d ≠ 0 ∧ e ≠ 0 ∧ d ≠ e ∧
    s.findAdjacent i k = (s.matchRidge i (k + d)).matchRidge i (k + e) := by
  fin_cases k
  · exact ⟨1, 2, by decide, by decide, by decide, rfl⟩
  · exact ⟨2, 1, by decide, by decide, by decide, rfl⟩
  · exact ⟨1, 2, by decide, by decide, by decide, rfl⟩

theorem fin3_either : ∀ {d e w : Fin 3}, d ≠ 0 → e ≠ 0 → d ≠ e → w ≠ 0 → w = d ∨ w = e := by decide

/-- What `addFacet` does. -/
theorem addFacet_spec (s : State K) (f : Nat) (k : Fin 3) (q u : Nat) : ∃ i t, s.addFacet f k q u = (i, t) ∧
    (t.facets i).vertices = Function.update (s.facets f).vertices k q ∧ (t.facets i).neighbours k = u ∧
    ((t.facets i).outside = [] ∨ (t.facets i).outside = (s.facets i).outside) ∧ (∀ g, g ≠ i → t.facets g = s.facets g) ∧
    ((s.removed = [] ∧ t.removed = [] ∧ i = s.size ∧ t.size = s.size + 1 ∧ (t.facets i).outside = []) ∨ (s.removed = i :: t.removed ∧ t.size = s.size)) ∧
    t.ranking = s.ranking ∧ t.outside = s.outside ∧ t.ridges = s.ridges ∧ t.visited = s.visited ∧ t.visible = s.visible ∧ t.fresh = s.fresh := by
  unfold State.addFacet
  cases h : s.removed with
  | nil =>
    refine ⟨_, _, rfl, ?_, ?_, ?_, ?_, ?_, rfl, rfl, rfl, rfl, rfl, rfl⟩
    · rw [put_same]
    · simp [put_same]
    · rw [put_same]; exact Or.inl rfl
    · intro g hg; rw [put_ne _ _ _ _ hg]
    · exact Or.inl ⟨rfl, rfl, rfl, rfl, by rw [put_same]⟩
  | cons i rest =>
    refine ⟨_, _, rfl, ?_, ?_, ?_, ?_, ?_, rfl, rfl, rfl, rfl, rfl, rfl⟩
    · rw [put_same]
    · simp [put_same]
    · rw [put_same]; exact Or.inr rfl
    · intro g hg; rw [put_ne _ _ _ _ hg]
    · exact Or.inr ⟨rfl, rfl⟩

/-- One more edge of the rim gets its facet. -/
theorem J.cone (c : Ctx P n L s0 q) (h : J P L q s0 s A D E) {f : Nat} (hf : f ∈ A) {k : Fin 3} (hu : ¬ Vis P s0 q ((s0.facets f).neighbours k))
    (hk : ∀ i, (i, f, k) ∉ E) : ∃ i, J P L q s0 (s.cone f k q ((s.facets f).neighbours k)) A D (E ++ [(i, f, k)]) ∧
      (s.cone f k q ((s.facets f).neighbours k)).visited = s.visited := by
  obtain ⟨hfL, hfv⟩ := h.ad f (Or.inl hf)
  have hfD : f ∉ D := fun hd => (List.nodup_append.mp h.nodupAD).2.2 f hf f hd rfl
  rw [h.nVis f hfL hfv hfD]
  set u := (s0.facets f).neighbours k with hudef
  have huL : u ∈ L := c.C.nb f hfL k
  have huD : u ∉ D := fun hd => hu (h.ad u (Or.inr hd)).2
  obtain ⟨i, t, ht, tv, tn, tO, tg, tal, trank, tout, trid, tvis, tvb, tfr⟩ := addFacet_spec s f k q u
  rw [h.vOld f hfL hfD] at tv
  refine ⟨i, ?_⟩
  set E' := E ++ [(i, f, k)] with hE'
  have memE' : ∀ j g w, (j, g, w) ∈ E' ↔ (j, g, w) ∈ E ∨ (j = i ∧ g = f ∧ w = k) := by
    intro j g w
    rw [hE', List.mem_append, List.mem_singleton, Prod.mk.injEq, Prod.mk.injEq]
  -- the numbers
  have halloc : (t.removed ++ E'.map (·.1)).Perm (s0.removed ++ D ++ List.range' s0.size (t.size - s0.size)) := by
    have hs := h.size
    have ha := h.alloc
    rw [hE', List.map_append]
    rcases tal with ⟨h1, h2, h3, h4, -⟩ | ⟨h1, h2⟩
    · rw [h1, List.nil_append] at ha
      rw [h2, List.nil_append, h4, show s.size + 1 - s0.size = (s.size - s0.size) + 1 by omega, List.range'_concat, ← List.append_assoc]
      refine List.Perm.append ha ?_
      show [i].Perm _
      rw [h3, Nat.one_mul, Nat.add_sub_cancel' hs]
    · rw [h1] at ha
      rw [h2]
      refine List.Perm.trans ?_ ha
      show (t.removed ++ (E.map (·.1) ++ [i])).Perm _
      rw [← List.append_assoc, List.cons_append]
      exact List.perm_append_singleton i _
  have hnd : (t.removed ++ E'.map (·.1)).Nodup := by
    rw [halloc.nodup_iff]
    have hD : D.Nodup := (List.nodup_append.mp h.nodupAD).2.1
    have hDL : ∀ f ∈ D, f < s0.size ∧ f ∉ s0.removed := fun f hf => (c.live f).mp (h.ad f (Or.inr hf)).1
    refine List.nodup_append.mpr ⟨List.nodup_append.mpr ⟨c.nodup, hD, ?_⟩, List.nodup_range', ?_⟩
    · rintro a ha b hb rfl
      exact (hDL a hb).2 ha
    · rintro a ha b hb rfl
      have := List.mem_range'_1.mp hb
      rcases List.mem_append.mp ha with ha | ha
      · have := c.lt a ha; omega
      · have := (hDL a ha).1; omega
  have hidL : ∀ j, j ∈ E'.map (·.1) → j ∈ L → j ∈ D := by
    intro j hj hl
    have hm : j ∈ t.removed ++ E'.map (·.1) := List.mem_append.mpr (Or.inr hj)
    rw [halloc.mem_iff, List.mem_append, List.mem_append] at hm
    have := (c.live j).mp hl
    rcases hm with (hm | hm) | hm
    · exact absurd hm this.2
    · exact hm
    · have h2 := List.mem_range'_1.mp hm; omega
  have hiE' : i ∈ E'.map (·.1) := List.mem_map.mpr ⟨(i, f, k), (memE' _ _ _).mpr (Or.inr ⟨rfl, rfl, rfl⟩), rfl⟩
  have hidE : ∀ j g w, (j, g, w) ∈ E' → j ∈ E'.map (·.1) := fun j g w hh => List.mem_map.mpr ⟨(j, g, w), hh, rfl⟩
  have hsubE : ∀ j g w, (j, g, w) ∈ E → (j, g, w) ∈ E' := fun j g w hh => (memE' _ _ _).mpr (Or.inl hh)
  have idInj' : ∀ j g w g' w', (j, g, w) ∈ E' → (j, g', w') ∈ E' → g = g' ∧ w = w' := by
    intro j g w g' w' h1 h2
    have := List.inj_on_of_nodup_map (List.nodup_append.mp hnd).2.1 h1 h2 rfl
    rw [Prod.mk.injEq, Prod.mk.injEq] at this
    exact this.2
  have hine : ∀ j g w, (j, g, w) ∈ E → j ≠ i := by
    rintro j g w hh rfl
    obtain ⟨rfl, rfl⟩ := idInj' j g w f k (hsubE _ _ _ hh) ((memE' _ _ _).mpr (Or.inr ⟨rfl, rfl, rfl⟩))
    exact hk j hh
  have keyInj' : ∀ j j' g w, (j, g, w) ∈ E' → (j', g, w) ∈ E' → j = j' := by
    intro j j' g w h1 h2
    rcases (memE' _ _ _).mp h1 with a1 | ⟨e0, e1, e2⟩ <;> rcases (memE' _ _ _).mp h2 with a2 | ⟨e0', e1', e2'⟩
    · exact h.keyInj _ _ _ _ a1 a2
    · rw [e1', e2'] at a1; exact absurd a1 (hk j)
    · rw [e1, e2] at a2; exact absurd a2 (hk j')
    · rw [e0, e0']
  have eMem' : ∀ j g w, (j, g, w) ∈ E' → g ∈ L ∧ Vis P s0 q g ∧ ¬ Vis P s0 q ((s0.facets g).neighbours w) ∧ (g ∈ A ∨ g ∈ D) := by
    intro j g w hh
    rcases (memE' _ _ _).mp hh with hh | ⟨rfl, rfl, rfl⟩
    · exact h.eMem j g w hh
    · exact ⟨hfL, hfv, hu, Or.inl hf⟩
  have hLi : ∀ g, g ∈ L → g ∉ D → g ≠ i := by
    rintro g hg hd rfl
    exact hd (hidL g hiE' hg)
  have hLid : ∀ g, g ∈ L → g ∉ D → ∀ g' w, (g, g', w) ∉ E' := fun g hg hd g' w hh => hd (hidL g (hidE _ _ _ hh) hg)
  -- the replaced neighbour
  obtain ⟨j0, b0, b1, b2⟩ := c.C.back f hfL k
  have hback : ∀ w, (s.facets u).neighbours w = f ↔ w = j0 := by
    intro w
    by_cases hc : ∃ j g v, (j, g, v) ∈ E ∧ (s0.facets g).neighbours v = u ∧
        (s0.facets u).vertices (w + 1) = (s0.facets g).vertices (v + 2) ∧ (s0.facets u).vertices (w + 2) = (s0.facets g).vertices (v + 1)
    · obtain ⟨j, g, v, hh, e0, e1, e2⟩ := hc
      rw [h.nRim u huL hu w j g v hh e0 e1 e2]
      constructor
      · rintro rfl
        exact absurd (hsubE _ _ _ hh) (hLid j hfL hfD g v)
      · rintro rfl
        have eu := c.C.uniq g (h.eMem j g v hh).1 f hfL v k (by rw [← e2]; exact b2) (by rw [← e1]; exact b1)
        subst eu
        have : v = k := c.C.nb_inj hfL e0
        subst this
        exact absurd hh (hk j)
    · push Not at hc
      rw [h.nOld u huL hu w (fun j g v hh e0 e => hc j g v hh e0 e.1 e.2)]
      constructor
      · intro e; exact c.C.nb_inj huL (e.trans b0.symm)
      · rintro rfl; exact b0
  have hfi : f ≠ i := hLi f hfL hfD
  have hui : u ≠ i := hLi u huL huD
  set t1 : State K := { t with fresh := t.fresh ++ [i] } with ht1
  set t2 := t1.replaceNeighbour u f i with ht2
  have ht2' : t2 = t1.put u { t1.facets u with neighbours := Function.update (s.facets u).neighbours j0 i } := by
    rw [ht2, State.replaceNeighbour, if_neg hfi]
    show t1.put u { t1.facets u with neighbours := replaceFirst (t.facets u).neighbours f i } = _
    rw [tg u hui, replaceFirst_eq hback]
  have hcone : s.cone f k q u = t2.findAdjacent i k := by
    rw [State.cone, ht]
  obtain ⟨d, e, hd, he, hde, hfa⟩ := findAdjacent_eq t2 i k
  rw [hcone, hfa]
  have sb : SameBut t1 ((t2.matchRidge i (k + d)).matchRidge i (k + e)) :=
    ((sameBut_replace t1 u f i).trans (sameBut_match _ _ _)).trans (sameBut_match _ _ _)
  have sb2 : SameBut t1 t2 := sameBut_replace t1 u f i
  have hN2 : ∀ g, g ≠ u → (t2.facets g).neighbours = (t.facets g).neighbours := by
    intro g hg
    rw [ht2', put_ne _ _ _ _ hg]
  have hN2u : (t2.facets u).neighbours = Function.update (s.facets u).neighbours j0 i := by
    rw [ht2', put_same]
  have hidu : ∀ j g w, (j, g, w) ∈ E' → j ≠ u := by
    intro j g w hh ej
    rw [ej] at hh
    exact hLid u huL huD g w hh
  have hV2 : ∀ j g w, (j, g, w) ∈ E' → (t2.facets j).vertices = Function.update (s0.facets g).vertices w q := by
    intro j g w hh
    rw [sb2.vertices]
    show (t.facets j).vertices = _
    rcases (memE' _ _ _).mp hh with hh | ⟨rfl, rfl, rfl⟩
    · rw [tg j (hine _ _ _ hh)]; exact h.vNew j g w hh
    · exact tv
  -- ridges
  have r0 : Rid (fun f => (s0.facets f).vertices) t2.ridges (fun g => (t2.facets g).neighbours) (fun i f k d => (i, f, k) ∈ E ∧ d ≠ 0) := by
    have er : t2.ridges = s.ridges := by rw [ht2', put_ridges]; exact trid
    refine ⟨?_, ?_, ?_⟩
    · rw [er]; exact h.rid.nodup
    · rw [er]; exact h.rid.mem
    · intro i1 f1 k1 d1 i2 f2 k2 d2 h1 h2 h3 h4
      show (t2.facets i1).neighbours (k1 + d1) = i2
      rw [hN2 i1 (hidu _ _ _ (hsubE _ _ _ h1.1)), tg i1 (hine _ _ _ h1.1)]
      exact h.rid.link i1 f1 k1 d1 i2 f2 k2 d2 h1 h2 h3 h4
  have hend : ∀ i1 f1 k1 i2 f2 k2 (d' : Fin 3), (i1, f1, k1) ∈ E' → (i2, f2, k2) ∈ E' → d' ≠ 0 →
      (s0.facets f1).vertices (k1 + d' + d') = (s0.facets f2).vertices (k2 + d' + d') → i1 = i2 ∧ f1 = f2 ∧ k1 = k2 := by
    intro i1 f1 k1 i2 f2 k2 d' h1 h2 hd' heq
    obtain ⟨a1, a2, a3, -⟩ := eMem' _ _ _ h1
    obtain ⟨c1, c2, c3, -⟩ := eMem' _ _ _ h2
    have a3' := c.C.neg_of_not c.gen c.qn c.hq (c.C.nb f1 a1 k1) a3
    have c3' := c.C.neg_of_not c.gen c.qn c.hq (c.C.nb f2 c1 k2) c3
    have key : f1 = f2 ∧ k1 = k2 := by
      have : d' = 1 ∨ d' = 2 := by clear heq; revert d'; decide
      rcases this with rfl | rfl
      · rw [fin3_11, fin3_11] at heq
        exact c.C.rim_head c.hq a1 c1 a2 a3' c2 c3' heq
      · rw [fin3_22, fin3_22] at heq
        exact c.C.rim_tail c.hq a1 c1 a2 a3' c2 c3' heq
    obtain ⟨rfl, rfl⟩ := key
    exact ⟨keyInj' _ _ _ _ h1 h2, rfl, rfl⟩
  have sub1 : ∀ i' f' k' d', ((i', f', k') ∈ E ∧ d' ≠ 0) ∨ (i' = i ∧ f' = f ∧ k' = k ∧ d' = d) → (i', f', k') ∈ E' ∧ d' ≠ 0 := by
    rintro i' f' k' d' (⟨h1, h2⟩ | ⟨rfl, rfl, rfl, rfl⟩)
    · exact ⟨hsubE _ _ _ h1, h2⟩
    · exact ⟨(memE' _ _ _).mpr (Or.inr ⟨rfl, rfl, rfl⟩), hd⟩
  obtain ⟨r1, n1⟩ := Rid.add (q := q) (i := i) (f := f) (k := k) (d := d) r0
    (H' := fun i' f' k' d' => ((i', f', k') ∈ E ∧ d' ≠ 0) ∨ (i' = i ∧ f' = f ∧ k' = k ∧ d' = d)) (fun _ _ _ _ => Iff.rfl) (fun hh => hk i hh.1)
    (fun i' f' k' d' hh => hV2 i' f' k' (sub1 _ _ _ _ hh).1) (fun i' f' k' d' hh => (sub1 _ _ _ _ hh).2)
    (fun i' f' k' d' hh => c.C.inj f' (eMem' _ _ _ (sub1 _ _ _ _ hh).1).1) (fun i' f' k' d' hh => c.hq f' (eMem' _ _ _ (sub1 _ _ _ _ hh).1).1)
    (fun i1 f1 k1 d1 f2 k2 d2 h1 h2 => idInj' _ _ _ _ _ (sub1 _ _ _ _ h1).1 (sub1 _ _ _ _ h2).1)
    (fun i1 f1 k1 i2 f2 k2 d' h1 h2 heq => hend _ _ _ _ _ _ d' (sub1 _ _ _ _ h1).1 (sub1 _ _ _ _ h2).1 (sub1 _ _ _ _ h1).2 heq)
  obtain ⟨r2, n2⟩ := Rid.add (q := q) (i := i) (f := f) (k := k) (d := e) r1 (H' := fun i' f' k' d' => (i', f', k') ∈ E' ∧ d' ≠ 0)
    (fun i' f' k' d' => by
      constructor
      · rintro ⟨h1, h2⟩
        rcases (memE' _ _ _).mp h1 with h1 | ⟨rfl, rfl, rfl⟩
        · exact Or.inl (Or.inl ⟨h1, h2⟩)
        · rcases fin3_either hd he hde h2 with rfl | rfl
          · exact Or.inl (Or.inr ⟨rfl, rfl, rfl, rfl⟩)
          · exact Or.inr ⟨rfl, rfl, rfl, rfl⟩
      · rintro (hh | ⟨rfl, rfl, rfl, rfl⟩)
        · exact sub1 _ _ _ _ hh
        · exact ⟨(memE' _ _ _).mpr (Or.inr ⟨rfl, rfl, rfl⟩), he⟩)
    (by
      rintro (hh | hh)
      · exact hk i hh.1
      · exact hde hh.2.2.2.symm)
    (fun i' f' k' d' hh => by rw [(sameBut_match t2 i (k + d)).vertices]; exact hV2 i' f' k' hh.1) (fun i' f' k' d' hh => hh.2)
    (fun i' f' k' d' hh => c.C.inj f' (eMem' _ _ _ hh.1).1) (fun i' f' k' d' hh => c.hq f' (eMem' _ _ _ hh.1).1)
    (fun i1 f1 k1 d1 f2 k2 d2 h1 h2 => idInj' _ _ _ _ _ h1.1 h2.1)
    (fun i1 f1 k1 i2 f2 k2 d' h1 h2 heq => hend _ _ _ _ _ _ d' h1.1 h2.1 h1.2 heq)
  set t3 := (t2.matchRidge i (k + d)).matchRidge i (k + e) with ht3
  have hN3 : ∀ g w, (∀ f' k' d', (g, f', k') ∈ E' → d' ≠ 0 → w ≠ k' + d') → (t3.facets g).neighbours w = (t2.facets g).neighbours w := by
    intro g w hh
    rcases n2 g w with e2 | ⟨f', k', d', ⟨h1, h2⟩, e2⟩
    · rcases n1 g w with e1 | ⟨f', k', d', h1, e1⟩
      · exact e2.trans e1
      · exact absurd e1 (hh f' k' d' (sub1 _ _ _ _ h1).1 (sub1 _ _ _ _ h1).2)
    · exact absurd e2 (hh f' k' d' h1 h2)
  have hN3L : ∀ g, g ∈ L → g ∉ D → (t3.facets g).neighbours = (t2.facets g).neighbours := by
    intro g hg hgD
    funext w
    exact hN3 g w fun f' k' d' hh _ => absurd hh (hLid g hg hgD f' k')
  have hnD : ∀ g, ¬ Vis P s0 q g → g ∉ D := fun g hv hd => hv (h.ad g (Or.inr hd)).2
  refine ⟨?_, by rw [sb.visited]; exact tvis⟩
  refine ⟨h.nodupAD, h.ad, ?_, ?_, ?_, ?_, ?_, ?_, ?_, eMem', keyInj', ?_, ?_, ?_, ?_, r2, ?_, ?_, ?_, ?_, ?_, ?_⟩
  · intro g; rw [sb.visible]; show g ∈ t.visible ↔ _; rw [tvb]; exact h.visible g
  · intro g hg; rw [sb.visited] at hg; change g ∈ t.visited at hg; rw [tvis] at hg; exact h.visited g hg
  · intro g hg; rw [sb.visited]; show g ∈ t.visited; rw [tvis]; exact h.visited' g hg
  · intro g hg hgD
    rw [sb.vertices]
    show (t.facets g).vertices = _
    rw [tg g (hLi g hg hgD)]
    exact h.vOld g hg hgD
  · intro g hg hgv hgD
    rw [hN3L g hg hgD, hN2 g (fun e => hu (e ▸ hgv)), tg g (hLi g hg hgD)]
    exact h.nVis g hg hgv hgD
  · intro g hg hgv j hj
    rw [hN3L g hg (hnD g hgv)]
    by_cases hgu : g = u
    · subst hgu
      rw [hN2u]
      have hjj : j ≠ j0 := by
        rintro rfl
        exact hj i f k ((memE' _ _ _).mpr (Or.inr ⟨rfl, rfl, rfl⟩)) rfl ⟨b1, b2⟩
      rw [Function.update_of_ne hjj]
      exact h.nOld u hg hgv j fun i' g' k' hh => hj i' g' k' (hsubE _ _ _ hh)
    · rw [hN2 g hgu, tg g (hLi g hg (hnD g hgv))]
      exact h.nOld g hg hgv j fun i' g' k' hh => hj i' g' k' (hsubE _ _ _ hh)
  · intro g hg hgv j i' g' k' hh e0 e1 e2
    rw [hN3L g hg (hnD g hgv)]
    by_cases hgu : g = u
    · subst hgu
      rw [hN2u]
      by_cases hjj : j = j0
      · subst hjj
        rw [Function.update_self]
        have eu := c.C.uniq g' (eMem' _ _ _ hh).1 f hfL k' k (by rw [← e2]; exact b2) (by rw [← e1]; exact b1)
        subst eu
        have : k' = k := c.C.nb_inj hfL e0
        subst this
        exact keyInj' _ _ _ _ ((memE' _ _ _).mpr (Or.inr ⟨rfl, rfl, rfl⟩)) hh
      · rw [Function.update_of_ne hjj]
        rcases (memE' _ _ _).mp hh with hh | ⟨rfl, rfl, rfl⟩
        · exact h.nRim u hg hgv j i' g' k' hh e0 e1 e2
        · exact absurd (fin3_cancel1 (c.C.inj _ huL (e1.trans b1.symm))) hjj
    · rw [hN2 g hgu, tg g (hLi g hg (hnD g hgv))]
      rcases (memE' _ _ _).mp hh with hh | ⟨rfl, rfl, rfl⟩
      · exact h.nRim g hg hgv j i' g' k' hh e0 e1 e2
      · exact absurd e0.symm hgu
  · rw [sb.removed, sb.size]; exact halloc
  · rw [sb.size]
    show s0.size ≤ t.size
    have := h.size
    rcases tal with ⟨-, -, -, h4, -⟩ | ⟨-, h2⟩ <;> omega
  · intro j g w hh
    rw [(sameBut_match _ _ _).vertices, (sameBut_match _ _ _).vertices]
    exact hV2 j g w hh
  · intro j g w hh
    rw [hN3 j w (fun f' k' d' h1 h2 e1 => by
      obtain ⟨rfl, rfl⟩ := idInj' _ _ _ _ _ hh h1
      exact fin3_d_ne1 h2 w e1.symm)]
    rw [hN2 j (hidu _ _ _ hh)]
    rcases (memE' _ _ _).mp hh with hh | ⟨rfl, rfl, rfl⟩
    · rw [tg j (hine _ _ _ hh)]; exact h.nNew j g w hh
    · exact tn
  · rw [sb.fresh]
    show t.fresh ++ [i] = _
    rw [tfr, h.fresh, hE', List.map_append]; rfl
  · intro g hg w
    refine ⟨(h.done g hg w).1, fun hh => ?_⟩
    obtain ⟨j, hj⟩ := (h.done g hg w).2 hh
    exact ⟨j, hsubE _ _ _ hj⟩
  · intro g hg hgA hgD
    rw [sb.outs]
    show (t.facets g).outside = _
    rw [tg g (hLi g hg hgD)]
    exact h.outOld g hg hgA hgD
  · intro g hg
    rw [sb.outs]
    show (t.facets g).outside = _
    rw [sb.removed] at hg
    change g ∈ A ∨ g ∈ t.removed ∨ _ at hg
    by_cases hgi : g = i
    · subst hgi
      rcases tal with ⟨-, -, -, -, h5⟩ | ⟨h1, -⟩
      · exact h5
      · rcases tO with tO | tO
        · exact tO
        · rw [tO]; exact h.outNil g (Or.inr (Or.inl (h1 ▸ List.mem_cons_self)))
    · rw [tg g hgi]
      refine h.outNil g ?_
      rcases hg with hg | hg | hg
      · exact Or.inl hg
      · rcases tal with ⟨-, h2, -⟩ | ⟨h1, -⟩
        · rw [h2] at hg; simp at hg
        · exact Or.inr (Or.inl (h1 ▸ List.mem_cons_of_mem _ hg))
      · rw [hE', List.map_append, List.mem_append] at hg
        rcases hg with hg | hg
        · exact Or.inr (Or.inr hg)
        · exact absurd (List.mem_singleton.mp hg) hgi
  · intro p
    rw [sb.outside]
    show p ∈ t.outside ↔ _
    rw [tout]; exact h.pool p
  · rw [sb.ranking]
    show t.ranking = _
    rw [trank]; exact h.ranking

/-- What a call for the facet `f` promises. -/
def Call (P : Nat → Vec3 K) (L : Finset Nat) (q : Nat) (s0 : State K) (m : Nat) (rec : Nat → State K → Option (Bool × State K)) : Prop :=
  ∀ (s : State K) (A D : List Nat) (E : List (Nat × Nat × Fin 3)) (f : Nat), J P L q s0 s A D E → f ∈ L → (L.filter (· ∉ s.visited)).card < m →
    ∃ b s' D' E', rec f s = some (b, s') ∧ (b = true ↔ Vis P s0 q f) ∧ J P L q s0 s' A D' E' ∧ (∀ g ∈ D, g ∈ D') ∧ (∀ e ∈ E, e ∈ E') ∧
      (∀ i g k, (i, g, k) ∈ E' → g ∈ A → (i, g, k) ∈ E) ∧ (Vis P s0 q f → f ∈ A ∨ f ∈ D') ∧ ∀ g ∈ s.visited, g ∈ s'.visited

theorem card_mono {L : Finset Nat} {a b : List Nat} (h : ∀ g ∈ a, g ∈ b) : (L.filter (· ∉ b)).card ≤ (L.filter (· ∉ a)).card := by
  refine Finset.card_le_card fun g hg => ?_
  rw [Finset.mem_filter] at hg ⊢
  exact ⟨hg.1, fun ha => hg.2 (h g ha)⟩

theorem edge_spec (c : Ctx P n L s0 q) {m : Nat} {rec : Nat → State K → Option (Bool × State K)} (hr : Call P L q s0 m rec) {f : Nat} :
    ∀ (vs : List (Fin 3)) (s : State K) (A D : List Nat) (E : List (Nat × Nat × Fin 3)), vs.Nodup → J P L q s0 s (f :: A) D E →
      (L.filter (· ∉ s.visited)).card < m → (∀ k ∈ vs, ∀ i, (i, f, k) ∉ E) →
      ∃ s' D' E', edgeLoop q rec f vs s = some s' ∧ J P L q s0 s' (f :: A) D' E' ∧ (∀ g ∈ D, g ∈ D') ∧ (∀ e ∈ E, e ∈ E') ∧
        (∀ i g k, (i, g, k) ∈ E' → g ∈ f :: A → (i, g, k) ∈ E ∨ (g = f ∧ k ∈ vs)) ∧
        (∀ k ∈ vs, (Vis P s0 q ((s0.facets f).neighbours k) → (s0.facets f).neighbours k ∈ f :: A ∨ (s0.facets f).neighbours k ∈ D') ∧
          (¬ Vis P s0 q ((s0.facets f).neighbours k) → ∃ i, (i, f, k) ∈ E')) ∧ ∀ g ∈ s.visited, g ∈ s'.visited := by
  intro vs
  induction vs with
  | nil =>
    intro s A D E _ h _ _
    exact ⟨s, D, E, rfl, h, fun _ h => h, fun _ h => h, fun _ _ _ h _ => Or.inl h, fun k hk => by simp at hk, fun _ h => h⟩
  | cons v vs ih =>
    intro s A D E hnd h hc hno
    rw [List.nodup_cons] at hnd
    obtain ⟨hfL, hfv⟩ := h.ad f (Or.inl List.mem_cons_self)
    have hfD : f ∉ D := fun hd => (List.nodup_append.mp h.nodupAD).2.2 f List.mem_cons_self f hd rfl
    have hn := h.nVis f hfL hfv hfD
    obtain ⟨b, s1, D1, E1, e1, hb, h1, hD1, hE1, hold1, hv1, hvis1⟩ := hr s (f :: A) D E ((s0.facets f).neighbours v) h (c.C.nb f hfL v) hc
    have hc1 := card_mono (L := L) hvis1
    have hno1 : ∀ k ∈ v :: vs, ∀ i, (i, f, k) ∉ E1 := fun k hk i hi => hno k hk i (hold1 i f k hi List.mem_cons_self)
    by_cases hvn : Vis P s0 q ((s0.facets f).neighbours v)
    · have hbt := hb.mpr hvn
      obtain ⟨s', D', E', e2, h2, hD2, hE2, hold2, hdone, hvis2⟩ := ih s1 A D1 E1 hnd.2 h1 (lt_of_le_of_lt hc1 hc)
        (fun k hk => hno1 k (List.mem_cons_of_mem _ hk))
      refine ⟨s', D', E', ?_, h2, fun g hg => hD2 g (hD1 g hg), fun e he => hE2 e (hE1 e he), ?_, ?_, fun g hg => hvis2 g (hvis1 g hg)⟩
      · rw [edgeLoop, hn, e1]
        dsimp only
        rw [hbt, if_pos rfl, e2]
      · intro i g k hi hg
        rcases hold2 i g k hi hg with hh | ⟨rfl, hk⟩
        · exact Or.inl (hold1 i g k hh hg)
        · exact Or.inr ⟨rfl, List.mem_cons_of_mem _ hk⟩
      · intro k hk
        rcases List.mem_cons.mp hk with rfl | hk
        · refine ⟨fun _ => ?_, fun hh => absurd hvn hh⟩
          rcases hv1 hvn with hh | hh
          · exact Or.inl hh
          · exact Or.inr (hD2 _ hh)
        · exact hdone k hk
    · have hbf : b = false := by
        cases b
        · rfl
        · exact absurd (hb.mp rfl) hvn
      have hfD1 : f ∉ D1 := fun hd => (List.nodup_append.mp h1.nodupAD).2.2 f List.mem_cons_self f hd rfl
      obtain ⟨i0, hj, hjv⟩ := h1.cone c List.mem_cons_self hvn (hno1 v List.mem_cons_self)
      rw [h1.nVis f hfL hfv hfD1] at hj hjv
      obtain ⟨s', D', E', e2, h2, hD2, hE2, hold2, hdone, hvis2⟩ := ih _ A D1 _ hnd.2 hj (by rw [hjv]; exact lt_of_le_of_lt hc1 hc) (by
        intro k hk i hi
        rcases List.mem_append.mp hi with hi | hi
        · exact hno1 k (List.mem_cons_of_mem _ hk) i hi
        · rw [List.mem_singleton, Prod.mk.injEq, Prod.mk.injEq] at hi
          exact hnd.1 (hi.2.2 ▸ hk))
      refine ⟨s', D', E', ?_, h2, fun g hg => hD2 g (hD1 g hg), fun e he => hE2 e (List.mem_append_left _ (hE1 e he)), ?_, ?_,
        fun g hg => hvis2 g (by rw [hjv]; exact hvis1 g hg)⟩
      · rw [edgeLoop, hn, e1]
        dsimp only
        rw [hbf, if_neg (by decide), e2]
      · intro i g k hi hg
        rcases hold2 i g k hi hg with hh | ⟨rfl, hk⟩
        · rcases List.mem_append.mp hh with hh | hh
          · exact Or.inl (hold1 i g k hh hg)
          · rw [List.mem_singleton, Prod.mk.injEq, Prod.mk.injEq] at hh
            exact Or.inr ⟨hh.2.1, hh.2.2 ▸ List.mem_cons_self⟩
        · exact Or.inr ⟨rfl, List.mem_cons_of_mem _ hk⟩
      · intro k hk
        rcases List.mem_cons.mp hk with rfl | hk
        · exact ⟨fun hh => absurd hh hvn, fun _ => ⟨i0, hE2 _ (List.mem_append_right _ List.mem_cons_self)⟩⟩
        · exact hdone k hk

/-- The recursion works from any state it can be in. -/
theorem visit_spec (c : Ctx P n L s0 q) {dist : (Fin 3 → Nat) → Nat → K} (hd : ∀ f ∈ L, 0 < dist (s0.facets f).vertices q ↔ Vis P s0 q f) :
    ∀ m, Call P L q s0 m (processVisibles dist q m) := by
  intro m
  induction m with
  | zero => intro s A D E f _ _ hc; exact absurd hc (Nat.not_lt_zero _)
  | succ m ih =>
    intro s A D E f h hf hc
    rw [processVisibles]
    by_cases hvd : f ∈ s.visited
    · rw [if_pos hvd]
      refine ⟨_, s, D, E, rfl, ?_, h, fun _ h => h, fun _ h => h, fun _ _ _ h _ => h, (h.visited f hvd).2, fun _ h => h⟩
      rw [decide_eq_true_iff, h.visible]
      exact ⟨fun hh => (h.ad f hh).2, (h.visited f hvd).2⟩
    · rw [if_neg hvd]
      have hfA : f ∉ A := fun ha => hvd (h.visited' f (Or.inl ha))
      have hfD : f ∉ D := fun hd => hvd (h.visited' f (Or.inr hd))
      dsimp only
      have hvo := h.vOld f hf hfD
      by_cases hv : Vis P s0 q f
      · rw [if_neg (by rw [hvo]; exact not_not.mpr ((hd f hf).mpr hv))]
        have h1 := h.enter c hf hv hvd
        have hcard : (L.filter (· ∉ f :: s.visited)).card < m := by
          refine lt_of_lt_of_le (Finset.card_lt_card ?_) (Nat.lt_succ_iff.mp hc)
          refine Finset.ssubset_iff_of_subset (fun g hg => ?_) |>.mpr ⟨f, ?_, ?_⟩
          · rw [Finset.mem_filter] at hg ⊢
            exact ⟨hg.1, fun ha => hg.2 (List.mem_cons_of_mem _ ha)⟩
          · rw [Finset.mem_filter]; exact ⟨hf, hvd⟩
          · rw [Finset.mem_filter]; exact fun hh => hh.2 List.mem_cons_self
        have hnoE : ∀ i k, (i, f, k) ∉ E := fun i k hi => by
          rcases (h.eMem i f k hi).2.2.2 with hh | hh
          · exact hfA hh
          · exact hfD hh
        obtain ⟨s', D', E', e2, h2, hD2, hE2, hold2, hdone, hvis2⟩ := edge_spec c ih [0, 1, 2] _ A D E (by decide) h1 hcard (fun k _ i => hnoE i k)
        dsimp only at e2
        rw [e2]
        refine ⟨true, _, f :: D', E', rfl, ⟨fun _ => hv, fun _ => rfl⟩, h2.finish ?_, fun g hg => List.mem_cons_of_mem _ (hD2 g hg), hE2, ?_,
          fun _ => Or.inr List.mem_cons_self, fun g hg => hvis2 g (List.mem_cons_of_mem _ hg)⟩
        · intro k
          exact hdone k (by revert k; decide)
        · intro i g k hi hg
          rcases hold2 i g k hi (List.mem_cons_of_mem _ hg) with hh | ⟨rfl, -⟩
          · exact hh
          · exact absurd hg hfA
      · rw [if_pos (by rw [hvo]; exact fun hh => hv ((hd f hf).mp hh))]
        exact ⟨false, _, D, E, rfl, ⟨fun hh => by simp at hh, fun hh => absurd hh hv⟩, h.mark hf hv, fun _ h => h, fun _ h => h, fun _ _ _ h _ => h,
          fun hh => absurd hh hv, fun g hg => List.mem_cons_of_mem _ hg⟩

/-- The numbers of the facets in use. -/
def State.live (s : State K) : Finset Nat := (Finset.range s.size).filter (· ∉ s.removed)

omit [IsStrictOrderedRing K] in
theorem State.mem_live (s : State K) (f : Nat) : f ∈ s.live ↔ f < s.size ∧ f ∉ s.removed := by
  rw [State.live, Finset.mem_filter, Finset.mem_range]

/-- All facets that are visible have been replaced. -/
theorem J.all {f0 : Nat} (c : Ctx P n L s0 q) (h : J P L q s0 s [] D E) (hf0 : f0 ∈ D) {g : Nat} (hg : g ∈ L) (hv : Vis P s0 q g) : g ∈ D := by
  have h0 := h.ad f0 (Or.inr hf0)
  have hr := c.C.connected h0.1 hg h0.2 hv
  clear hv hg
  induction hr with
  | refl => exact hf0
  | tail _ hbc ha =>
    rename_i a b _
    obtain ⟨k, rfl, hb⟩ := hbc
    rcases (h.done a ha k).1 hb with hh | hh
    · simp at hh
    · exact hh

/-- The surface afterwards. -/
theorem J.toCone {f0 : Nat} (c : Ctx P n L s0 q) (h : J P L q s0 s [] D E) (hf0 : f0 ∈ D) :
    Cone L (fun f => (s0.facets f).vertices) (fun f => (s0.facets f).neighbours) (fun f => 0 < ov P (s0.facets f).vertices (P q)) q E s.live
      (fun f => (s.facets f).vertices) (fun f => (s.facets f).neighbours) := by
  have hnD : ∀ g, ¬ Vis P s0 q g → g ∉ D := fun g hv hd => hv (h.ad g (Or.inr hd)).2
  refine ⟨?_, fun i f k f' k' => h.idInj c, h.keyInj, ?_, ?_, h.vNew, ?_, h.nRim, h.nNew, ?_⟩
  · intro f k
    constructor
    · rintro ⟨i, hi⟩
      obtain ⟨h1, h2, h3, -⟩ := h.eMem i f k hi
      exact ⟨h1, h2, h3⟩
    · rintro ⟨h1, h2, h3⟩
      exact (h.done f (h.all c hf0 h1 h2) k).2 h3
  · intro f
    have hmemE : f ∈ E.map (·.1) ↔ ∃ g k, (f, g, k) ∈ E := by
      rw [List.mem_map]
      constructor
      · rintro ⟨⟨i, g, k⟩, h1, rfl⟩; exact ⟨g, k, h1⟩
      · rintro ⟨g, k, h1⟩; exact ⟨(f, g, k), h1, rfl⟩
    rw [State.mem_live, ← hmemE]
    have hs := h.size
    constructor
    · rintro ⟨h1, h2⟩
      by_cases hl : f ∈ L ∧ ¬ Vis P s0 q f
      · exact Or.inl hl
      · right
        have : f ∈ s0.removed ++ D ++ List.range' s0.size (s.size - s0.size) := by
          rw [List.mem_append, List.mem_append]
          by_cases hlt : f < s0.size
          · by_cases hr : f ∈ s0.removed
            · exact Or.inl (Or.inl hr)
            · have hfL : f ∈ L := (c.live f).mpr ⟨hlt, hr⟩
              refine Or.inl (Or.inr (h.all c hf0 hfL ?_))
              by_contra hv
              exact hl ⟨hfL, hv⟩
          · exact Or.inr (List.mem_range'_1.mpr ⟨by omega, by omega⟩)
        rw [← h.alloc.mem_iff, List.mem_append] at this
        exact this.resolve_left h2
    · rintro (⟨h1, h2⟩ | h1)
      · have := ((c.live f).mp h1).1
        refine ⟨by omega, fun hr => hnD f h2 ((h.alloc_mem c (Or.inl hr)).2 h1)⟩
      · refine ⟨(h.alloc_mem c (Or.inr h1)).1, fun hr => ?_⟩
        exact (List.nodup_append.mp (h.alloc_nodup c)).2.2 f hr f h1 rfl
  · intro f hf hv; exact h.vOld f hf (hnD f hv)
  · intro f hf hv j hj
    refine h.nOld f hf hv j fun i g k hi e0 e => ?_
    obtain ⟨m, m0, m1, m2⟩ := c.C.back f hf j
    have := c.C.uniq g (h.eMem i g k hi).1 _ (c.C.nb f hf j) k m (e.2.symm.trans m1.symm) (e.1.symm.trans m2.symm)
    rw [← this] at hj
    exact hj (h.eMem i g k hi).2.1
  · intro i f k i' f' k' h1 h2 e
    have l1 := h.rid.link i f k 1 i' f' k' 2 ⟨h1, by decide⟩ ⟨h2, by decide⟩ (by decide) (by rw [fin3_11, fin3_22]; exact e)
    have l2 := h.rid.link i' f' k' 2 i f k 1 ⟨h2, by decide⟩ ⟨h1, by decide⟩ (by decide) (by rw [fin3_11, fin3_22]; exact e.symm)
    exact ⟨l1, l2⟩

/-- All ridges have found their partners. -/
theorem J.ridges_nil {f0 : Nat} (c : Ctx P n L s0 q) (h : J P L q s0 s [] D E) (hf0 : f0 ∈ D) : s.ridges = [] := by
  have hmem := (h.toCone c hf0).mem
  rw [List.eq_nil_iff_forall_not_mem]
  rintro ⟨i, v⟩ hr
  obtain ⟨f, k, d, ⟨hi, hd⟩, rfl, hall⟩ := (h.rid.mem i v).mp hr
  obtain ⟨h1, h2, h3, -⟩ := h.eMem i f k hi
  have : d = 1 ∨ d = 2 := by clear hall hr; revert d; decide
  rcases this with rfl | rfl
  · obtain ⟨g, hg, j, g1, g2, e⟩ := c.C.rim_next (Vis P s0 q) h1 h2 h3
    obtain ⟨i', hi'⟩ := (hmem g j).mpr ⟨hg, g1, g2⟩
    exact hall i' g j 2 ⟨hi', by decide⟩ (by decide) (by rw [fin3_11, fin3_22]; exact e)
  · obtain ⟨g, hg, j, g1, g2, e⟩ := c.C.rim_prev (Vis P s0 q) h1 h2 h3
    obtain ⟨i', hi'⟩ := (hmem g j).mpr ⟨hg, g1, g2⟩
    exact hall i' g j 1 ⟨hi', by decide⟩ (by decide) (by rw [fin3_11, fin3_22]; exact e)

end
end Cmm.Quick
