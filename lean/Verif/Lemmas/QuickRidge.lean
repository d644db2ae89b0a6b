import Verif.Model.QuickHull
import Verif.Lemmas.PolytopeStep
/-!
How the single steps of Quickhull change its state, and how the ridges of the new facets are matched.
-/
namespace Cmm.Quick
open Cmm.Geom
variable {K : Type} [Field K] [LinearOrder K]

section fields
variable (s : State K) (f g : Nat) (x : Facet)
@[simp] theorem put_size : (s.put f x).size = s.size := rfl
@[simp] theorem put_removed : (s.put f x).removed = s.removed := rfl
@[simp] theorem put_ranking : (s.put f x).ranking = s.ranking := rfl
@[simp] theorem put_outside : (s.put f x).outside = s.outside := rfl
@[simp] theorem put_ridges : (s.put f x).ridges = s.ridges := rfl
@[simp] theorem put_visited : (s.put f x).visited = s.visited := rfl
@[simp] theorem put_visible : (s.put f x).visible = s.visible := rfl
@[simp] theorem put_fresh : (s.put f x).fresh = s.fresh := rfl
@[simp] theorem put_same : (s.put f x).facets f = x := Function.update_self ..
theorem put_ne (h : g ≠ f) : (s.put f x).facets g = s.facets g := Function.update_of_ne h ..
theorem put_facets : (s.put f x).facets g = if g = f then x else s.facets g := by
  by_cases h : g = f
  · subst h; rw [if_pos rfl, put_same]
  · rw [if_neg h, put_ne _ _ _ _ h]
end fields

/-- Everything but the neighbours of the facets and the ridges is the same. -/
structure SameBut (s t : State K) : Prop where
  vertices : ∀ f, (t.facets f).vertices = (s.facets f).vertices
  outs : ∀ f, (t.facets f).outside = (s.facets f).outside
  size : t.size = s.size
  removed : t.removed = s.removed
  ranking : t.ranking = s.ranking
  outside : t.outside = s.outside
  visited : t.visited = s.visited
  visible : t.visible = s.visible
  fresh : t.fresh = s.fresh

theorem SameBut.refl (s : State K) : SameBut s s := ⟨fun _ => rfl, fun _ => rfl, rfl, rfl, rfl, rfl, rfl, rfl, rfl⟩

theorem SameBut.trans {s t u : State K} (h : SameBut s t) (k : SameBut t u) : SameBut s u :=
  ⟨fun f => (k.vertices f).trans (h.vertices f), fun f => (k.outs f).trans (h.outs f), k.size.trans h.size, k.removed.trans h.removed,
    k.ranking.trans h.ranking, k.outside.trans h.outside, k.visited.trans h.visited, k.visible.trans h.visible, k.fresh.trans h.fresh⟩

theorem sameBut_put (s : State K) (f : Nat) (n : Fin 3 → Nat) : SameBut s (s.put f { s.facets f with neighbours := n }) := by
  refine ⟨fun g => ?_, fun g => ?_, rfl, rfl, rfl, rfl, rfl, rfl, rfl⟩ <;>
  · rw [put_facets]
    split
    · rename_i h; rw [h]
    · rfl

theorem sameBut_ridges (s : State K) (r : List (Nat × Fin 3)) : SameBut s { s with ridges := r } :=
  ⟨fun _ => rfl, fun _ => rfl, rfl, rfl, rfl, rfl, rfl, rfl, rfl⟩

theorem sameBut_replace (s : State K) (f old new : Nat) : SameBut s (s.replaceNeighbour f old new) := by
  unfold State.replaceNeighbour
  split
  · exact .refl s
  · exact sameBut_put s f _

theorem sameBut_match (s : State K) (f : Nat) (v : Fin 3) : SameBut s (s.matchRidge f v) := by
  unfold State.matchRidge
  split
  · exact sameBut_ridges s _
  · exact ((sameBut_put s _ _).trans (sameBut_put _ _ _)).trans (sameBut_ridges _ _)

theorem fin3_d_cases : ∀ {d : Fin 3}, d ≠ 0 → ∀ i k : Fin 3, i = k ∨ i = k + d ∨ i = k + d + d := by decide
theorem fin3_d_ne1 : ∀ {d : Fin 3}, d ≠ 0 → ∀ k : Fin 3, k + d ≠ k := by decide
theorem fin3_d_ne2 : ∀ {d : Fin 3}, d ≠ 0 → ∀ k : Fin 3, k + d + d ≠ k := by decide
theorem fin3_d_ne12 : ∀ {d : Fin 3}, d ≠ 0 → ∀ k : Fin 3, k + d + d ≠ k + d := by decide
theorem fin3_d_cancel : ∀ {d e : Fin 3} (k : Fin 3), k + d = k + e → d = e := by decide

theorem fin3_third : ∀ {a b c : Fin 3}, a ≠ 0 → b ≠ 0 → c ≠ 0 → a ≠ b → c ≠ b → a = c := by decide
theorem fin3_dd : ∀ {d e k : Fin 3}, k + d + d = k + e + e → d = e := by decide

theorem sameRidge_iff (a b : Fin 3 → Nat) (v w : Fin 3) : sameRidge a v b w = true ↔ ∀ i, a i = a v ∨ ∃ j, b j ≠ b w ∧ a i = b j := by
  have hall : ∀ i : Fin 3, i ∈ ([0, 1, 2] : List (Fin 3)) := by decide
  simp only [sameRidge, List.all_eq_true, Bool.or_eq_true, decide_eq_true_eq, List.any_eq_true, Bool.and_eq_true]
  constructor
  · intro h i
    rcases h i (hall i) with h | ⟨j, -, h⟩
    · exact Or.inl h
    · exact Or.inr ⟨j, h⟩
  · intro h i _
    rcases h i with h | ⟨j, h⟩
    · exact Or.inl h
    · exact Or.inr ⟨j, hall j, h⟩

/-- Two ridges through the apex are equal if their other ends are. -/
theorem sameRidge_cone {vs ws : Fin 3 → Nat} (hv : Function.Injective vs) (hw : Function.Injective ws) {q : Nat} (qv : ∀ m, q ≠ vs m)
    (qw : ∀ m, q ≠ ws m) (k k' : Fin 3) {d d' : Fin 3} (hd : d ≠ 0) (hd' : d' ≠ 0) :
    sameRidge (Function.update vs k q) (k + d) (Function.update ws k' q) (k' + d') = true ↔ vs (k + d + d) = ws (k' + d' + d') := by
  have iv := update_injective hv qv k
  have iw := update_injective hw qw k'
  rw [sameRidge_iff]
  constructor
  · intro h
    rcases h (k + d + d) with h | ⟨j, hj, h⟩
    · exact absurd (iv h) (fin3_d_ne12 hd k)
    · rw [Function.update_of_ne (fin3_d_ne2 hd k)] at h
      rcases fin3_d_cases hd' j k' with rfl | rfl | rfl
      · rw [Function.update_self] at h; exact absurd h.symm (qv _)
      · exact absurd rfl hj
      · rwa [Function.update_of_ne (fin3_d_ne2 hd' k')] at h
  · intro h i
    rcases fin3_d_cases hd i k with rfl | rfl | rfl
    · refine Or.inr ⟨k', fun e => fin3_d_ne1 hd' k' (iw e).symm, ?_⟩
      rw [Function.update_self, Function.update_self]
    · exact Or.inl rfl
    · refine Or.inr ⟨k' + d' + d', fun e => fin3_d_ne12 hd' k' (iw e), ?_⟩
      rw [Function.update_of_ne (fin3_d_ne2 hd k), Function.update_of_ne (fin3_d_ne2 hd' k'), h]

/-- The ridges in the table: `H i f k d` says that the facet `i` is the cone over the edge of `f` against its vertex `k`, and that its ridge against the vertex `k + d` has been
handled. The table holds those without a partner; partners know each other. -/
structure Rid (V : Nat → Fin 3 → Nat) (R : List (Nat × Fin 3)) (N : Nat → Fin 3 → Nat) (H : Nat → Nat → Fin 3 → Fin 3 → Prop) : Prop where
  nodup : R.Nodup
  mem : ∀ i v, (i, v) ∈ R ↔ ∃ f k d, H i f k d ∧ v = k + d ∧ ∀ i' f' k' d', H i' f' k' d' → d' ≠ d → V f' (k' + d' + d') ≠ V f (k + d + d)
  link : ∀ i f k d i' f' k' d', H i f k d → H i' f' k' d' → d ≠ d' → V f (k + d + d) = V f' (k' + d' + d') → N i (k + d) = i'

/-- Handling one more ridge. -/
theorem Rid.add {s : State K} {V : Nat → Fin 3 → Nat} {H : Nat → Nat → Fin 3 → Fin 3 → Prop} {q : Nat} {i f : Nat} {k d : Fin 3}
    (hR : Rid V s.ridges (fun g => (s.facets g).neighbours) H) {H' : Nat → Nat → Fin 3 → Fin 3 → Prop}
    (hH' : ∀ i' f' k' d', H' i' f' k' d' ↔ H i' f' k' d' ∨ (i' = i ∧ f' = f ∧ k' = k ∧ d' = d)) (hnew : ¬ H i f k d)
    (hV : ∀ i' f' k' d', H' i' f' k' d' → (s.facets i').vertices = Function.update (V f') k' q)
    (hd : ∀ i' f' k' d', H' i' f' k' d' → d' ≠ 0) (hinj : ∀ i' f' k' d', H' i' f' k' d' → Function.Injective (V f'))
    (hq : ∀ i' f' k' d', H' i' f' k' d' → ∀ m, q ≠ V f' m)
    (hid : ∀ i1 f1 k1 d1 f2 k2 d2, H' i1 f1 k1 d1 → H' i1 f2 k2 d2 → f1 = f2 ∧ k1 = k2)
    (hend : ∀ i1 f1 k1 i2 f2 k2 d', H' i1 f1 k1 d' → H' i2 f2 k2 d' → V f1 (k1 + d' + d') = V f2 (k2 + d' + d') → i1 = i2 ∧ f1 = f2 ∧ k1 = k2) :
    Rid V (s.matchRidge i (k + d)).ridges (fun g => ((s.matchRidge i (k + d)).facets g).neighbours) H' ∧
      ∀ g w, ((s.matchRidge i (k + d)).facets g).neighbours w = (s.facets g).neighbours w ∨ ∃ f' k' d', H' g f' k' d' ∧ w = k' + d' := by
  have h0 : H' i f k d := (hH' ..).mpr (Or.inr ⟨rfl, rfl, rfl, rfl⟩)
  have hsub : ∀ i' f' k' d', H i' f' k' d' → H' i' f' k' d' := fun _ _ _ _ h => (hH' ..).mpr (Or.inl h)
  have hsame : ∀ i' f' k' d', H i' f' k' d' → (sameRidge (s.facets i).vertices (k + d) (s.facets i').vertices (k' + d') = true ↔
      V f (k + d + d) = V f' (k' + d' + d')) := by
    intro i' f' k' d' h
    have h' := hsub _ _ _ _ h
    rw [hV i f k d h0, hV i' f' k' d' h']
    exact sameRidge_cone (hinj _ _ _ _ h0) (hinj _ _ _ _ h') (hq _ _ _ _ h0) (hq _ _ _ _ h') k k' (hd _ _ _ _ h0) (hd _ _ _ _ h')
  cases hf : s.ridges.find? fun r => sameRidge (s.facets i).vertices (k + d) (s.facets r.1).vertices r.2 with
  | none =>
    have hm : s.matchRidge i (k + d) = { s with ridges := s.ridges ++ [(i, k + d)] } := by
      unfold State.matchRidge; rw [hf]
    have hno : ∀ i' f' k' d', H i' f' k' d' → d' ≠ d → V f' (k' + d' + d') ≠ V f (k + d + d) := by
      intro i' f' k' d' h hne he
      have : (i', k' + d') ∉ s.ridges := fun hr => by
        have := List.find?_eq_none.mp hf _ hr
        exact this ((hsame i' f' k' d' h).mpr he.symm)
      rw [hR.mem] at this
      push Not at this
      obtain ⟨i2, f2, k2, d2, h2, hne2, he2⟩ := this f' k' d' h rfl
      have : d2 = d := fin3_third (hd _ _ _ _ (hsub _ _ _ _ h2)) (hd _ _ _ _ (hsub _ _ _ _ h)) (hd _ _ _ _ h0) hne2 (Ne.symm hne)
      subst this
      obtain ⟨rfl, rfl, rfl⟩ := hend _ _ _ _ _ _ _ (hsub _ _ _ _ h2) h0 (he2.trans he)
      exact hnew h2
    rw [hm]
    refine ⟨⟨?_, ?_, ?_⟩, fun g w => Or.inl rfl⟩
    · refine List.Nodup.append hR.nodup (List.nodup_singleton _) ?_
      intro x hx hx'
      rw [List.mem_singleton] at hx'
      subst hx'
      rw [hR.mem] at hx
      obtain ⟨f', k', d', h, e, -⟩ := hx
      obtain ⟨rfl, rfl⟩ := hid _ _ _ _ _ _ _ h0 (hsub _ _ _ _ h)
      rw [← fin3_d_cancel k e] at h
      exact hnew h
    · intro j v
      rw [List.mem_append, List.mem_singleton, hR.mem]
      constructor
      · rintro (⟨f', k', d', h, e, hall⟩ | e)
        · refine ⟨f', k', d', hsub _ _ _ _ h, e, ?_⟩
          intro i2 f2 k2 d2 h2 hne he
          rcases (hH' ..).mp h2 with h2 | ⟨rfl, rfl, rfl, rfl⟩
          · exact hall _ _ _ _ h2 hne he
          · exact hno _ _ _ _ h (Ne.symm hne) he.symm
        · rw [Prod.mk.injEq] at e
          obtain ⟨rfl, rfl⟩ := e
          refine ⟨f, k, d, h0, rfl, ?_⟩
          intro i2 f2 k2 d2 h2 hne he
          rcases (hH' ..).mp h2 with h2 | ⟨rfl, rfl, rfl, rfl⟩
          · exact hno _ _ _ _ h2 hne he
          · exact hne rfl
      · rintro ⟨f', k', d', h, e, hall⟩
        rcases (hH' ..).mp h with h | ⟨rfl, rfl, rfl, rfl⟩
        · exact Or.inl ⟨f', k', d', h, e, fun i2 f2 k2 d2 h2 => hall _ _ _ _ (hsub _ _ _ _ h2)⟩
        · exact Or.inr (by rw [e])
    · intro i1 f1 k1 d1 i2 f2 k2 d2 h1 h2 hne he
      rcases (hH' ..).mp h1 with h1 | ⟨rfl, rfl, rfl, rfl⟩ <;> rcases (hH' ..).mp h2 with h2 | ⟨rfl, rfl, rfl, rfl⟩
      · exact hR.link _ _ _ _ _ _ _ _ h1 h2 hne he
      · exact absurd he (hno _ _ _ _ h1 hne)
      · exact absurd he.symm (hno _ _ _ _ h2 (Ne.symm hne))
      · exact absurd rfl hne
  | some r =>
    have hr := List.mem_of_find?_eq_some hf
    have hs := List.find?_some hf
    obtain ⟨i', v'⟩ := r
    obtain ⟨f', k', d', h', rfl, hall⟩ := (hR.mem i' v').mp hr
    have he := (hsame i' f' k' d' h').mp hs
    have h1' := hsub _ _ _ _ h'
    have hdd : d' ≠ d := by
      rintro rfl
      obtain ⟨rfl, rfl, rfl⟩ := hend _ _ _ _ _ _ _ h0 h1' he
      exact hnew h'
    have hii : i' ≠ i := by
      rintro rfl
      obtain ⟨rfl, rfl⟩ := hid _ _ _ _ _ _ _ h0 h1'
      exact hdd (fin3_dd (hinj _ _ _ _ h0 he)).symm
    have hm : (s.matchRidge i (k + d)).ridges = s.ridges.erase (i', k' + d') := by
      unfold State.matchRidge; rw [hf]
    have hN : ∀ g w, ((s.matchRidge i (k + d)).facets g).neighbours w =
        if g = i then (if w = k + d then i' else (s.facets g).neighbours w) else
          if g = i' then (if w = k' + d' then i else (s.facets g).neighbours w) else (s.facets g).neighbours w := by
      intro g w
      unfold State.matchRidge; rw [hf]
      show ((State.put _ _ _).facets g).neighbours w = _
      rw [put_facets]
      by_cases hg : g = i
      · subst hg
        rw [if_pos rfl, if_pos rfl]
        show Function.update (_ : Fin 3 → Nat) (k + d) i' w = _
        rw [Function.update_apply, put_ne _ _ _ _ (Ne.symm hii)]
      · rw [if_neg hg, if_neg hg, put_facets]
        by_cases hg' : g = i'
        · subst hg'
          rw [if_pos rfl, if_pos rfl]
          show Function.update (_ : Fin 3 → Nat) (k' + d') i w = _
          rw [Function.update_apply]
        · rw [if_neg hg', if_neg hg']
    refine ⟨⟨?_, ?_, ?_⟩, ?_⟩
    · rw [hm]; exact hR.nodup.erase _
    · intro j v
      rw [hm, hR.nodup.mem_erase_iff, hR.mem]
      constructor
      · rintro ⟨hne, f1, k1, d1, h1, rfl, hall1⟩
        refine ⟨f1, k1, d1, hsub _ _ _ _ h1, rfl, ?_⟩
        intro i2 f2 k2 d2 h2 hne2 he2
        rcases (hH' ..).mp h2 with h2 | ⟨rfl, rfl, rfl, rfl⟩
        · exact hall1 _ _ _ _ h2 hne2 he2
        · have : d1 = d' := fin3_third (hd _ _ _ _ (hsub _ _ _ _ h1)) (hd _ _ _ _ h0) (hd _ _ _ _ h1') (Ne.symm hne2) hdd
          subst this
          obtain ⟨rfl, rfl, rfl⟩ := hend _ _ _ _ _ _ _ (hsub _ _ _ _ h1) h1' (he2.symm.trans he)
          exact hne rfl
      · rintro ⟨f1, k1, d1, h1, rfl, hall1⟩
        rcases (hH' ..).mp h1 with h1 | ⟨rfl, rfl, rfl, rfl⟩
        · refine ⟨?_, f1, k1, d1, h1, rfl, fun i2 f2 k2 d2 h2 => hall1 _ _ _ _ (hsub _ _ _ _ h2)⟩
          intro e
          rw [Prod.mk.injEq] at e
          obtain ⟨rfl, e⟩ := e
          obtain ⟨rfl, rfl⟩ := hid _ _ _ _ _ _ _ (hsub _ _ _ _ h1) h1'
          have := fin3_d_cancel k1 e
          subst this
          exact hall1 _ _ _ _ h0 (Ne.symm hdd) he
        · exact absurd he.symm (hall1 _ _ _ _ h1' hdd)
    · intro i1 f1 k1 d1 i2 f2 k2 d2 h1 h2 hne he2
      show ((s.matchRidge i (k + d)).facets i1).neighbours (k1 + d1) = i2
      rw [hN]
      rcases (hH' ..).mp h1 with g1 | ⟨rfl, rfl, rfl, rfl⟩
      · rcases (hH' ..).mp h2 with g2 | ⟨rfl, rfl, rfl, rfl⟩
        · have hl := hR.link _ _ _ _ _ _ _ _ g1 g2 hne he2
          split
          · rename_i hi
            subst hi
            rw [if_neg]
            · exact hl
            · intro e
              obtain ⟨rfl, rfl⟩ := hid _ _ _ _ _ _ _ h1 h0
              rw [fin3_d_cancel k1 e] at g1
              exact hnew g1
          · split
            · rename_i hi
              subst hi
              rw [if_neg]
              · exact hl
              · intro e
                obtain ⟨rfl, rfl⟩ := hid _ _ _ _ _ _ _ h1 h1'
                have := fin3_d_cancel k1 e
                subst this
                exact hall _ _ _ _ g2 (Ne.symm hne) he2.symm
            · exact hl
        · have : d1 = d' := fin3_third (hd _ _ _ _ h1) (hd _ _ _ _ h0) (hd _ _ _ _ h1') hne hdd
          subst this
          obtain ⟨rfl, rfl, rfl⟩ := hend _ _ _ _ _ _ _ h1 h1' (he2.trans he)
          rw [if_neg hii, if_pos rfl, if_pos rfl]
      · rw [if_pos rfl, if_pos rfl]
        have : d2 = d' := fin3_third (hd _ _ _ _ h2) (hd _ _ _ _ h0) (hd _ _ _ _ h1') (Ne.symm hne) hdd
        subst this
        exact (hend _ _ _ _ _ _ _ h1' h2 (he.symm.trans he2)).1
    · intro g w
      rw [hN]
      split
      · rename_i hg
        subst hg
        split
        · rename_i hw
          exact Or.inr ⟨f, k, d, h0, hw⟩
        · exact Or.inl rfl
      · split
        · rename_i hg
          subst hg
          split
          · rename_i hw
            exact Or.inr ⟨f', k', d', h1', hw⟩
          · exact Or.inl rfl
        · exact Or.inl rfl

end Cmm.Quick
