import Verif.Lemmas.Polytope
import Mathlib.Data.Finset.Prod
/-!
The cone over the rim of what is visible from a point: the new surface.
-/
namespace Cmm.Geom
variable {K : Type} [Field K] [LinearOrder K] [IsStrictOrderedRing K]
variable {P : Nat → Vec3 K} {n : Nat} {L : Finset Nat} {V N : Nat → Fin 3 → Nat}

/-- An injective map of a finite set into itself that leaves a subset also comes back. -/
theorem exists_return {α : Type} [DecidableEq α] {S : Finset α} {r : α → α} (hm : ∀ c ∈ S, r c ∈ S) (hi : ∀ c ∈ S, ∀ d ∈ S, r c = r d → c = d)
    (p : α → Prop) {c : α} (hc : c ∈ S) (h1 : p c) (h2 : ¬ p (r c)) : ∃ d ∈ S, ¬ p d ∧ p (r d) := by
  classical
  by_contra hn
  push Not at hn
  set A := S.filter fun d => ¬ p d with hA
  have hsub : A.image r ⊆ A := by
    intro x hx
    obtain ⟨d, hd, rfl⟩ := Finset.mem_image.mp hx
    rw [hA, Finset.mem_filter] at hd ⊢
    exact ⟨hm d hd.1, hn d hd.1 hd.2⟩
  have hcard : A.card ≤ (A.image r).card := by
    rw [Finset.card_image_of_injOn]
    intro x hx y hy e
    rw [hA, Finset.mem_coe, Finset.mem_filter] at hx hy
    exact hi x hx.1 y hy.1 e
  have heq := Finset.eq_of_subset_of_card_le hsub hcard
  have : r c ∈ A.image r := by rw [heq, hA, Finset.mem_filter]; exact ⟨hm c hc, h2⟩
  obtain ⟨d, hd, e⟩ := Finset.mem_image.mp this
  rw [hA, Finset.mem_filter] at hd
  exact hd.2 (hi d hd.1 c hc e ▸ h1)

theorem fin3_cancel1 {j k : Fin 3} (h : k + 1 = j + 1) : k = j := by revert j k; decide
theorem fin3_cancel2 {j k : Fin 3} (h : k + 2 = j + 2) : k = j := by revert j k; decide

namespace Complex

/-- Turning around the corner `a`. -/
theorem exists_turn (C : Complex P n L V N) (a : Nat) : ∃ r : Nat × Fin 3 → Nat × Fin 3,
    (∀ c ∈ (L ×ˢ Finset.univ).filter (fun c => V c.1 c.2 = a), r c ∈ (L ×ˢ Finset.univ).filter (fun c => V c.1 c.2 = a)) ∧
    (∀ c ∈ (L ×ˢ Finset.univ).filter (fun c => V c.1 c.2 = a), ∀ d ∈ (L ×ˢ Finset.univ).filter (fun c => V c.1 c.2 = a), r c = r d → c = d) ∧
    ∀ c ∈ (L ×ˢ Finset.univ).filter (fun c => V c.1 c.2 = a), (r c).1 = N c.1 (c.2 + 1) ∧ N (r c).1 ((r c).2 + 2) = c.1 ∧
      V (r c).1 ((r c).2 + 1) = V c.1 (c.2 + 2) := by
  have : ∀ f k, ∃ j, f ∈ L → N (N f k) j = f ∧ V (N f k) (j + 1) = V f (k + 2) ∧ V (N f k) (j + 2) = V f (k + 1) := by
    intro f k
    by_cases hf : f ∈ L
    · obtain ⟨j, h⟩ := C.back f hf k
      exact ⟨j, fun _ => h⟩
    · exact ⟨0, fun h => absurd h hf⟩
  choose b hb using this
  refine ⟨fun c => (N c.1 (c.2 + 1), b c.1 (c.2 + 1) + 1), ?_, ?_, ?_⟩
  · intro c hc
    simp only [Finset.mem_filter, Finset.mem_product, Finset.mem_univ, and_true] at hc ⊢
    refine ⟨C.nb _ hc.1 _, ?_⟩
    rw [(hb c.1 (c.2 + 1) hc.1).2.1, fin3_12]
    exact hc.2
  · rintro ⟨f, i⟩ hc ⟨g, j⟩ hd e
    simp only [Finset.mem_filter, Finset.mem_product, Finset.mem_univ, and_true] at hc hd
    simp only [Prod.mk.injEq] at e
    have h1 := (hb f (i + 1) hc.1).1
    have h2 := (hb g (j + 1) hd.1).1
    rw [e.1, fin3_cancel1 e.2, h2] at h1
    subst h1
    rw [C.inj g hc.1 (hc.2.trans hd.2.symm)]
  · intro c hc
    simp only [Finset.mem_filter, Finset.mem_product, Finset.mem_univ, and_true] at hc
    have h := hb c.1 (c.2 + 1) hc.1
    refine ⟨rfl, ?_, ?_⟩
    · show N (N c.1 (c.2 + 1)) (b c.1 (c.2 + 1) + 1 + 2) = c.1
      rw [fin3_12]; exact h.1
    · show V (N c.1 (c.2 + 1)) (b c.1 (c.2 + 1) + 1 + 1) = _
      rw [fin3_11, h.2.2, fin3_11]

/-- The rim goes on at the head of a rim edge. -/
theorem rim_next (C : Complex P n L V N) (vis : Nat → Prop) {f : Nat} (hf : f ∈ L) {k : Fin 3} (h1 : vis f) (h2 : ¬ vis (N f k)) :
    ∃ g ∈ L, ∃ j, vis g ∧ ¬ vis (N g j) ∧ V g (j + 1) = V f (k + 2) := by
  obtain ⟨r, hm, hi, hr⟩ := C.exists_turn (V f (k + 2))
  have hc : (f, k + 2) ∈ (L ×ˢ Finset.univ).filter (fun c : Nat × Fin 3 => V c.1 c.2 = V f (k + 2)) := by simp [hf]
  have e := (hr _ hc).1
  rw [fin3_21] at e
  obtain ⟨d, hd, n1, n2⟩ := exists_return hm hi (fun c => vis c.1) hc h1 (by rw [e]; exact h2)
  have hrd := hm d hd
  obtain ⟨-, g2, g3⟩ := hr d hd
  simp only [Finset.mem_filter, Finset.mem_product, Finset.mem_univ, and_true] at hrd
  refine ⟨(r d).1, hrd.1, (r d).2 + 2, n2, by rw [g2]; exact n1, ?_⟩
  rw [fin3_21]; exact hrd.2

/-- The rim comes to the tail of a rim edge. -/
theorem rim_prev (C : Complex P n L V N) (vis : Nat → Prop) {f : Nat} (hf : f ∈ L) {k : Fin 3} (h1 : vis f) (h2 : ¬ vis (N f k)) :
    ∃ g ∈ L, ∃ j, vis g ∧ ¬ vis (N g j) ∧ V g (j + 2) = V f (k + 1) := by
  obtain ⟨r, hm, hi, hr⟩ := C.exists_turn (V f (k + 1))
  obtain ⟨j, hj, j1, j2⟩ := C.back f hf k
  have hc : (N f k, j + 2) ∈ (L ×ˢ Finset.univ).filter (fun c : Nat × Fin 3 => V c.1 c.2 = V f (k + 1)) := by simp [C.nb f hf k, j2]
  have e := (hr _ hc).1
  rw [fin3_21, hj] at e
  obtain ⟨d, hd, n1, n2⟩ := exists_return hm hi (fun c => ¬ vis c.1) hc h2 (by rw [e]; exact not_not.mpr h1)
  rw [not_not] at n1
  have g1 := (hr d hd).1
  simp only [Finset.mem_filter, Finset.mem_product, Finset.mem_univ, and_true] at hd
  refine ⟨d.1, hd.1, d.2 + 1, n1, by rw [← g1]; exact n2, ?_⟩
  rw [fin3_12]; exact hd.2

/-- Two triangles over rim edges with the same tail. -/
theorem rim_tail (C : Complex P n L V N) {q f g : Nat} (hq : ∀ h ∈ L, ∀ k, q ≠ V h k) (hf : f ∈ L) (hg : g ∈ L) {k j : Fin 3} (f1 : 0 < ov P (V f) (P q))
    (f2 : ov P (V (N f k)) (P q) < 0) (g1 : 0 < ov P (V g) (P q)) (g2 : ov P (V (N g j)) (P q) < 0) (h : V f (k + 1) = V g (j + 1)) :
    f = g ∧ k = j := by
  by_cases e : V f (k + 2) = V g (j + 2)
  · have := C.uniq f hf g hg k j h e
    subst this
    exact ⟨rfl, fin3_cancel1 (C.inj f hf h)⟩
  · exfalso
    have b1 := C.cone_below hf f1 f2 (C.cov f hf g hg (j + 2)) (C.cov _ (C.nb f hf k) g hg (j + 2))
    have b2 := C.cone_below hg g1 g2 (C.cov g hg f hf (k + 2)) (C.cov _ (C.nb g hg j) f hf (k + 2))
    have l1 : ov P (Function.update (V f) k q) (P (V g (j + 2))) < 0 := by
      rcases b1 with ⟨i, hi⟩ | b1
      · exfalso
        rcases fin3_cases i k with rfl | rfl | rfl
        · rw [Function.update_self] at hi; exact hq g hg _ hi.symm
        · rw [Function.update_of_ne (fin3_ne1 k), h] at hi
          exact fin3_ne12 j (C.inj g hg hi.symm)
        · rw [Function.update_of_ne (fin3_ne2 k)] at hi
          exact e hi.symm
      · exact b1
    have l2 : ov P (Function.update (V g) j q) (P (V f (k + 2))) < 0 := by
      rcases b2 with ⟨i, hi⟩ | b2
      · exfalso
        rcases fin3_cases i j with rfl | rfl | rfl
        · rw [Function.update_self] at hi; exact hq f hf _ hi.symm
        · rw [Function.update_of_ne (fin3_ne1 j), ← h] at hi
          exact fin3_ne12 k (C.inj f hf hi.symm)
        · rw [Function.update_of_ne (fin3_ne2 j)] at hi
          exact e hi
      · exact b2
    rw [ov_update] at l1 l2
    rw [← h] at l2
    have : orient (P (V f (k + 1))) (P (V g (j + 2))) (P q) (P (V f (k + 2))) = -orient (P (V f (k + 1))) (P (V f (k + 2))) (P q) (P (V g (j + 2))) := by
      unfold orient; ring
    linarith

/-- Two triangles over rim edges with the same head. -/
theorem rim_head (C : Complex P n L V N) {q f g : Nat} (hq : ∀ h ∈ L, ∀ k, q ≠ V h k) (hf : f ∈ L) (hg : g ∈ L) {k j : Fin 3} (f1 : 0 < ov P (V f) (P q))
    (f2 : ov P (V (N f k)) (P q) < 0) (g1 : 0 < ov P (V g) (P q)) (g2 : ov P (V (N g j)) (P q) < 0) (h : V f (k + 2) = V g (j + 2)) :
    f = g ∧ k = j := by
  by_cases e : V f (k + 1) = V g (j + 1)
  · have := C.uniq f hf g hg k j e h
    subst this
    exact ⟨rfl, fin3_cancel2 (C.inj f hf h)⟩
  · exfalso
    have b1 := C.cone_below hf f1 f2 (C.cov f hf g hg (j + 1)) (C.cov _ (C.nb f hf k) g hg (j + 1))
    have b2 := C.cone_below hg g1 g2 (C.cov g hg f hf (k + 1)) (C.cov _ (C.nb g hg j) f hf (k + 1))
    have l1 : ov P (Function.update (V f) k q) (P (V g (j + 1))) < 0 := by
      rcases b1 with ⟨i, hi⟩ | b1
      · exfalso
        rcases fin3_cases i k with rfl | rfl | rfl
        · rw [Function.update_self] at hi; exact hq g hg _ hi.symm
        · rw [Function.update_of_ne (fin3_ne1 k)] at hi
          exact e hi.symm
        · rw [Function.update_of_ne (fin3_ne2 k), h] at hi
          exact fin3_ne12 j (C.inj g hg hi)
      · exact b1
    have l2 : ov P (Function.update (V g) j q) (P (V f (k + 1))) < 0 := by
      rcases b2 with ⟨i, hi⟩ | b2
      · exfalso
        rcases fin3_cases i j with rfl | rfl | rfl
        · rw [Function.update_self] at hi; exact hq f hf _ hi.symm
        · rw [Function.update_of_ne (fin3_ne1 j)] at hi
          exact e hi
        · rw [Function.update_of_ne (fin3_ne2 j), ← h] at hi
          exact fin3_ne12 k (C.inj f hf hi)
      · exact b2
    rw [ov_update] at l1 l2
    rw [← h] at l2
    have : orient (P (V g (j + 1))) (P (V f (k + 2))) (P q) (P (V f (k + 1))) = -orient (P (V f (k + 1))) (P (V f (k + 2))) (P q) (P (V g (j + 1))) := by
      unfold orient; ring
    linarith

end Complex

/-- The surface after the cone with the apex `q` over the rim of the visible part: `E` lists for each rim edge (triangle `f`, against corner `k`) the number of
the new triangle. -/
structure Cone (L : Finset Nat) (V N : Nat → Fin 3 → Nat) (vis : Nat → Prop) (q : Nat) (E : List (Nat × Nat × Fin 3)) (L' : Finset Nat)
    (V' N' : Nat → Fin 3 → Nat) : Prop where
  mem : ∀ f k, (∃ i, (i, f, k) ∈ E) ↔ f ∈ L ∧ vis f ∧ ¬ vis (N f k)
  idInj : ∀ i f k f' k', (i, f, k) ∈ E → (i, f', k') ∈ E → f = f' ∧ k = k'
  keyInj : ∀ i i' f k, (i, f, k) ∈ E → (i', f, k) ∈ E → i = i'
  live : ∀ f, f ∈ L' ↔ (f ∈ L ∧ ¬ vis f) ∨ ∃ g k, (f, g, k) ∈ E
  vOld : ∀ f ∈ L, ¬ vis f → V' f = V f
  vNew : ∀ i f k, (i, f, k) ∈ E → V' i = Function.update (V f) k q
  nOld : ∀ f ∈ L, ¬ vis f → ∀ j, ¬ vis (N f j) → N' f j = N f j
  nRim : ∀ f ∈ L, ¬ vis f → ∀ j i g k, (i, g, k) ∈ E → N g k = f → V f (j + 1) = V g (k + 2) → V f (j + 2) = V g (k + 1) → N' f j = i
  nNew : ∀ i f k, (i, f, k) ∈ E → N' i k = N f k
  link : ∀ i f k i' f' k', (i, f, k) ∈ E → (i', f', k') ∈ E → V f (k + 2) = V f' (k' + 1) → N' i (k + 1) = i' ∧ N' i' (k' + 2) = i

theorem update_injective {vs : Fin 3 → Nat} (h : Function.Injective vs) {q : Nat} (hq : ∀ k, q ≠ vs k) (k : Fin 3) :
    Function.Injective (Function.update vs k q) := by
  intro i j e
  by_cases hi : i = k <;> by_cases hj : j = k
  · rw [hi, hj]
  · subst hi
    rw [Function.update_self, Function.update_of_ne hj] at e
    exact absurd e (hq j)
  · subst hj
    rw [Function.update_self, Function.update_of_ne hi] at e
    exact absurd e.symm (hq i)
  · rw [Function.update_of_ne hi, Function.update_of_ne hj] at e
    exact h e

section step
variable {q : Nat} {E : List (Nat × Nat × Fin 3)} {L' : Finset Nat} {V' N' : Nat → Fin 3 → Nat}

theorem Complex.neg_of_not (C : Complex P n L V N) (hG : Gen P n) (hqn : q < n) (hq : ∀ h ∈ L, ∀ k, q ≠ V h k) {f : Nat} (hf : f ∈ L)
    (h : ¬ 0 < ov P (V f) (P q)) : ov P (V f) (P q) < 0 :=
  lt_of_le_of_ne (not_lt.mp h) (hG _ (C.inj f hf) (C.lt f hf) q hqn (hq f hf))

/-- What is below the old surface is below the new one. -/
theorem Cone.covered (C : Complex P n L V N) (hG : Gen P n) (hqn : q < n) (hq : ∀ h ∈ L, ∀ k, q ≠ V h k)
    (S : Cone L V N (fun f => 0 < ov P (V f) (P q)) q E L' V' N') {p : Nat} (hp : ∀ f ∈ L, Below P (V f) p) : ∀ f ∈ L', Below P (V' f) p := by
  intro f hf
  rcases (S.live f).mp hf with ⟨h1, h2⟩ | ⟨g, k, h⟩
  · rw [S.vOld f h1 h2]; exact hp f h1
  · obtain ⟨h1, h2, h3⟩ := (S.mem g k).mp ⟨f, h⟩
    rw [S.vNew f g k h]
    exact C.cone_below h1 h2 (C.neg_of_not hG hqn hq (C.nb g h1 k) h3) (hp g h1) (hp _ (C.nb g h1 k))

theorem Cone.covered_apex (C : Complex P n L V N) (hG : Gen P n) (hqn : q < n) (hq : ∀ h ∈ L, ∀ k, q ≠ V h k)
    (S : Cone L V N (fun f => 0 < ov P (V f) (P q)) q E L' V' N') : ∀ f ∈ L', Below P (V' f) q := by
  intro f hf
  rcases (S.live f).mp hf with ⟨h1, h2⟩ | ⟨g, k, h⟩
  · rw [S.vOld f h1 h2]; exact Or.inr (C.neg_of_not hG hqn hq h1 h2)
  · rw [S.vNew f g k h]
    exact Or.inl ⟨k, by rw [Function.update_self]⟩

/-- The new surface is a closed convex surface again. -/
theorem Cone.complex (C : Complex P n L V N) (hG : Gen P n) (hqn : q < n) (hq : ∀ h ∈ L, ∀ k, q ≠ V h k)
    (S : Cone L V N (fun f => 0 < ov P (V f) (P q)) q E L' V' N') : Complex P n L' V' N' := by
  have hinj : ∀ f ∈ L', Function.Injective (V' f) := by
    intro f hf
    rcases (S.live f).mp hf with ⟨h1, h2⟩ | ⟨g, k, h⟩
    · rw [S.vOld f h1 h2]; exact C.inj f h1
    · rw [S.vNew f g k h]
      have hg := ((S.mem g k).mp ⟨f, h⟩).1
      exact update_injective (C.inj g hg) (hq g hg) k
  have hcov : ∀ f ∈ L', ∀ g ∈ L', ∀ k, Below P (V' f) (V' g k) := by
    intro f hf g hg k
    have old : ∀ h ∈ L, ∀ i, Below P (V' f) (V h i) := fun h hh i => S.covered C hG hqn hq (fun t ht => C.cov t ht h hh i) f hf
    rcases (S.live g).mp hg with ⟨h1, h2⟩ | ⟨h, j, hh⟩
    · rw [S.vOld g h1 h2]; exact old g h1 k
    · rw [S.vNew g h j hh]
      by_cases e : k = j
      · rw [e, Function.update_self]; exact S.covered_apex C hG hqn hq f hf
      · rw [Function.update_of_ne e]; exact old h ((S.mem h j).mp ⟨g, hh⟩).1 k
  refine ⟨hinj, ?_, ?_, ?_, ?_, hcov, ?_⟩
  · intro f hf k
    rcases (S.live f).mp hf with ⟨h1, h2⟩ | ⟨g, j, h⟩
    · rw [S.vOld f h1 h2]; exact C.lt f h1 k
    · rw [S.vNew f g j h]
      by_cases e : k = j
      · rw [e, Function.update_self]; exact hqn
      · rw [Function.update_of_ne e]; exact C.lt g ((S.mem g j).mp ⟨f, h⟩).1 k
  · intro f hf j
    rcases (S.live f).mp hf with ⟨h1, h2⟩ | ⟨g, k, h⟩
    · by_cases hv : 0 < ov P (V (N f j)) (P q)
      · obtain ⟨k, k0, k1, k2⟩ := C.back f h1 j
        obtain ⟨i, hi⟩ := (S.mem (N f j) k).mpr ⟨C.nb f h1 j, hv, by rw [k0]; exact h2⟩
        rw [S.nRim f h1 h2 j i _ k hi k0 k2.symm k1.symm]
        exact (S.live i).mpr (Or.inr ⟨_, _, hi⟩)
      · rw [S.nOld f h1 h2 j hv]
        exact (S.live _).mpr (Or.inl ⟨C.nb f h1 j, hv⟩)
    · obtain ⟨h1, h2, h3⟩ := (S.mem g k).mp ⟨f, h⟩
      rcases fin3_cases j k with rfl | rfl | rfl
      · rw [S.nNew f g j h]
        exact (S.live _).mpr (Or.inl ⟨C.nb g h1 j, h3⟩)
      · obtain ⟨g', hg', k', v1, v2, e⟩ := C.rim_next (fun f => 0 < ov P (V f) (P q)) h1 h2 h3
        obtain ⟨i, hi⟩ := (S.mem g' k').mpr ⟨hg', v1, v2⟩
        rw [(S.link f g k i g' k' h hi e.symm).1]
        exact (S.live i).mpr (Or.inr ⟨_, _, hi⟩)
      · obtain ⟨g', hg', k', v1, v2, e⟩ := C.rim_prev (fun f => 0 < ov P (V f) (P q)) h1 h2 h3
        obtain ⟨i, hi⟩ := (S.mem g' k').mpr ⟨hg', v1, v2⟩
        rw [(S.link i g' k' f g k hi h e).2]
        exact (S.live i).mpr (Or.inr ⟨_, _, hi⟩)
  · intro f hf j
    rcases (S.live f).mp hf with ⟨h1, h2⟩ | ⟨g, k, h⟩
    · obtain ⟨k, k0, k1, k2⟩ := C.back f h1 j
      by_cases hv : 0 < ov P (V (N f j)) (P q)
      · obtain ⟨i, hi⟩ := (S.mem (N f j) k).mpr ⟨C.nb f h1 j, hv, by rw [k0]; exact h2⟩
        rw [S.nRim f h1 h2 j i _ k hi k0 k2.symm k1.symm, S.vNew i _ k hi, S.vOld f h1 h2]
        refine ⟨k, ?_, ?_, ?_⟩
        · rw [S.nNew i _ k hi, k0]
        · rw [Function.update_of_ne (fin3_ne1 k), k1]
        · rw [Function.update_of_ne (fin3_ne2 k), k2]
      · rw [S.nOld f h1 h2 j hv, S.vOld _ (C.nb f h1 j) hv, S.vOld f h1 h2]
        exact ⟨k, by rw [S.nOld _ (C.nb f h1 j) hv k (by rw [k0]; exact h2), k0], k1, k2⟩
    · obtain ⟨h1, h2, h3⟩ := (S.mem g k).mp ⟨f, h⟩
      rcases fin3_cases j k with rfl | rfl | rfl
      · obtain ⟨k, k0, k1, k2⟩ := C.back g h1 j
        rw [S.nNew f g j h, S.vOld _ (C.nb g h1 j) h3, S.vNew f g j h, Function.update_of_ne (fin3_ne1 j), Function.update_of_ne (fin3_ne2 j)]
        exact ⟨k, S.nRim _ (C.nb g h1 j) h3 k f g j h rfl k1 k2, k1, k2⟩
      · obtain ⟨g', hg', k', v1, v2, e⟩ := C.rim_next (fun f => 0 < ov P (V f) (P q)) h1 h2 h3
        obtain ⟨i, hi⟩ := (S.mem g' k').mpr ⟨hg', v1, v2⟩
        obtain ⟨l1, l2⟩ := S.link f g k i g' k' h hi e.symm
        rw [l1, S.vNew i g' k' hi, S.vNew f g k h]
        refine ⟨k' + 2, l2, ?_, ?_⟩
        · rw [fin3_21, fin3_12, Function.update_self, Function.update_self]
        · rw [fin3_22, fin3_11, Function.update_of_ne (fin3_ne1 k'), Function.update_of_ne (fin3_ne2 k), e]
      · obtain ⟨g', hg', k', v1, v2, e⟩ := C.rim_prev (fun f => 0 < ov P (V f) (P q)) h1 h2 h3
        obtain ⟨i, hi⟩ := (S.mem g' k').mpr ⟨hg', v1, v2⟩
        obtain ⟨l1, l2⟩ := S.link i g' k' f g k hi h e
        rw [l2, S.vNew i g' k' hi, S.vNew f g k h]
        refine ⟨k' + 1, l1, ?_, ?_⟩
        · rw [fin3_11, fin3_22, Function.update_of_ne (fin3_ne2 k'), Function.update_of_ne (fin3_ne1 k), e]
        · rw [fin3_12, fin3_21, Function.update_self, Function.update_self]
  · -- mixed pairs
    have mixed : ∀ f ∈ L, ¬ 0 < ov P (V f) (P q) → ∀ i g k, (i, g, k) ∈ E → ∀ m j, V f (m + 1) = Function.update (V g) k q (j + 1) →
        V f (m + 2) = Function.update (V g) k q (j + 2) → False := by
      intro f hf hv i g k h m j e1 e2
      obtain ⟨h1, h2, h3⟩ := (S.mem g k).mp ⟨i, h⟩
      rcases fin3_cases j k with rfl | rfl | rfl
      · rw [Function.update_of_ne (fin3_ne1 j)] at e1
        rw [Function.update_of_ne (fin3_ne2 j)] at e2
        exact hv (C.uniq f hf g h1 m j e1 e2 ▸ h2)
      · rw [fin3_12, Function.update_self] at e2
        exact hq f hf _ e2.symm
      · rw [fin3_21, Function.update_self] at e1
        exact hq f hf _ e1.symm
    intro f hf f' hf' m m' e1 e2
    rcases (S.live f).mp hf with ⟨h1, h2⟩ | ⟨g, k, h⟩ <;> rcases (S.live f').mp hf' with ⟨h1', h2'⟩ | ⟨g', k', h'⟩
    · rw [S.vOld f h1 h2, S.vOld f' h1' h2'] at e1 e2
      exact C.uniq f h1 f' h1' m m' e1 e2
    · rw [S.vOld f h1 h2, S.vNew f' g' k' h'] at e1 e2
      exact (mixed f h1 h2 f' g' k' h' m m' e1 e2).elim
    · rw [S.vOld f' h1' h2', S.vNew f g k h] at e1 e2
      exact (mixed f' h1' h2' f g k h m' m e1.symm e2.symm).elim
    · have e0 : V' f m = V' f' m' := by
        by_contra hne
        have b1 : ov P (V' f) (P (V' f' m')) < 0 := by
          rcases hcov f hf f' hf' m' with ⟨i, hi⟩ | hb
          · exfalso
            rcases fin3_cases i m with rfl | rfl | rfl
            · exact hne hi.symm
            · exact fin3_ne1 m' (hinj f' hf' (e1.symm.trans hi.symm))
            · exact fin3_ne2 m' (hinj f' hf' (e2.symm.trans hi.symm))
          · exact hb
        have b2 : ov P (V' f') (P (V' f m)) < 0 := by
          rcases hcov f' hf' f hf m with ⟨i, hi⟩ | hb
          · exfalso
            rcases fin3_cases i m' with rfl | rfl | rfl
            · exact hne hi
            · exact fin3_ne1 m (hinj f hf (e1.trans hi.symm))
            · exact fin3_ne2 m (hinj f hf (e2.trans hi.symm))
          · exact hb
        rw [ov_edge _ _ m] at b1
        rw [ov_edge _ _ m', ← e1, ← e2, orient_last] at b2
        linarith
      have hv := S.vNew f g k h
      have hv' := S.vNew f' g' k' h'
      have hk : V' f k = q := by rw [hv, Function.update_self]
      have hk' : V' f' k' = q := by rw [hv', Function.update_self]
      have key : V' f (k + 1) = V' f' (k' + 1) ∧ V' f (k + 2) = V' f' (k' + 2) := by
        rcases fin3_cases k m with rfl | rfl | rfl
        · have : k' = m' := hinj f' hf' (by rw [hk', ← e0, hk])
          subst this
          exact ⟨e1, e2⟩
        · have : k' = m' + 1 := hinj f' hf' (by rw [hk', ← e1, hk])
          subst this
          rw [fin3_11, fin3_12, fin3_11, fin3_12]
          exact ⟨e2, e0⟩
        · have : k' = m' + 2 := hinj f' hf' (by rw [hk', ← e2, hk])
          subst this
          rw [fin3_21, fin3_22, fin3_21, fin3_22]
          exact ⟨e0, e1⟩
      rw [hv, hv', Function.update_of_ne (fin3_ne1 k), Function.update_of_ne (fin3_ne1 k'), Function.update_of_ne (fin3_ne2 k),
        Function.update_of_ne (fin3_ne2 k')] at key
      have hg := (S.mem g k).mp ⟨f, h⟩
      have hg' := (S.mem g' k').mp ⟨f', h'⟩
      have := C.uniq g hg.1 g' hg'.1 k k' key.1 key.2
      subst this
      have : k = k' := fin3_cancel1 (C.inj g hg.1 key.1)
      subst this
      exact S.keyInj f f' g k h h'
  · obtain ⟨b, hb, h⟩ := C.full
    exact ⟨b, hb, fun i => ⟨(h i).1, S.covered C hG hqn hq (h i).2⟩⟩

/-- A point above a triangle that is visible from the apex and above no triangle of the cone is above no other triangle. -/
theorem Complex.drop (C : Complex P n L V N) (hG : Gen P n) (hqn : q < n) (hq : ∀ h ∈ L, ∀ k, q ≠ V h k) {p : Vec3 K} {f : Nat} (hf : f ∈ L)
    (f1 : 0 < ov P (V f) (P q)) (f2 : 0 < ov P (V f) p)
    (hc : ∀ t ∈ L, ∀ k, 0 < ov P (V t) (P q) → ¬ 0 < ov P (V (N t k)) (P q) → ov P (Function.update (V t) k q) p ≤ 0) :
    ∀ g ∈ L, ¬ 0 < ov P (V g) (P q) → ov P (V g) p ≤ 0 := by
  intro g hg hv
  by_contra hp
  push Not at hp
  have path := C.connected hf hg f2 hp
  have : g ∈ L ∧ 0 < ov P (V g) p ∧ 0 < ov P (V g) (P q) := by
    clear hv hp hg
    induction path with
    | refl => exact ⟨hf, f2, f1⟩
    | tail hst hr ih =>
      obtain ⟨k, rfl, hu⟩ := hr
      refine ⟨C.nb _ ih.1 k, hu, ?_⟩
      by_contra hn
      have := C.cone_above ih.1 ih.2.2 (C.neg_of_not hG hqn hq (C.nb _ ih.1 k) hn) ih.2.1 hu
      exact absurd this (not_lt.mpr (hc _ ih.1 k ih.2.2 hn))
  exact hv this.2.2

end step
end Cmm.Geom
