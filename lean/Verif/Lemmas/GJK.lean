import Verif.Model.GJK
import Verif.Lemmas.Hull
import Verif.Lemmas.ClosestPoint
/-!
Lemmas for cmmcore/gjk.h.
-/
namespace Cmm.Gjk
open Cmm.Geom
variable {K : Type} [Field K] [LinearOrder K]

theorem supportGo_spec (d : Vec3 K) (all : List (Vec3 K)) : ∀ (vs pre : List (Vec3 K)) (best : Option (Nat × K)),
    all = pre ++ vs →
    (∀ j h, best = some (j, h) → ∃ v, all[j]? = some v ∧ h = v.dot d ∧ (∀ u ∈ pre, u.dot d ≤ h) ∧ ∀ i u, i < j → all[i]? = some u → u.dot d < h) →
    (best = none → pre = []) →
    (supportGo d vs pre.length best = none → all = []) ∧
    ∀ j h, supportGo d vs pre.length best = some (j, h) → ∃ v, all[j]? = some v ∧ h = v.dot d ∧ (∀ u ∈ all, u.dot d ≤ h) ∧
      ∀ i u, i < j → all[i]? = some u → u.dot d < h
  | [], pre, best, hall, hb, hn => by
    rw [List.append_nil] at hall
    subst hall
    exact ⟨fun h => hn h, fun j h he => hb j h he⟩
  | v :: vs, pre, best, hall, hb, hn => by
    have hall' : all = (pre ++ [v]) ++ vs := by rw [hall]; simp
    have hat : all[pre.length]? = some v := by rw [hall]; simp
    have hlen : (pre ++ [v]).length = pre.length + 1 := by simp
    have hpre : ∀ i u, i < pre.length → all[i]? = some u → u ∈ pre := by
      intro i u hi hu
      rw [hall, List.getElem?_append_left hi] at hu
      exact List.mem_of_getElem? hu
    cases hbest : best with
    | none =>
      have := supportGo_spec d all vs (pre ++ [v]) (some (pre.length, v.dot d)) hall' (by
        rintro j h he
        cases he
        rw [hn hbest] at hat ⊢
        refine ⟨v, hat, rfl, by simp, fun i u hi => by simp at hi⟩) (by simp)
      rw [hlen] at this
      simp only [supportGo]
      exact this
    | some jh =>
      obtain ⟨j, h⟩ := jh
      obtain ⟨w, h1, h2, h3, h4⟩ := hb j h hbest
      simp only [supportGo]
      by_cases hgt : v.dot d > h
      · rw [if_pos hgt]
        have := supportGo_spec d all vs (pre ++ [v]) (some (pre.length, v.dot d)) hall' (by
          rintro j' h' he
          cases he
          refine ⟨v, hat, rfl, fun u hu => ?_, fun i u hi hu => lt_of_le_of_lt (h3 u (hpre i u hi hu)) hgt⟩
          rcases List.mem_append.1 hu with hu | hu
          · exact le_of_lt (lt_of_le_of_lt (h3 u hu) hgt)
          · rw [List.mem_singleton.1 hu]) (by simp)
        rw [hlen] at this
        exact this
      · rw [if_neg hgt]
        have := supportGo_spec d all vs (pre ++ [v]) (some (j, h)) hall' (by
          rintro j' h' he
          cases he
          refine ⟨w, h1, h2, fun u hu => ?_, h4⟩
          rcases List.mem_append.1 hu with hu | hu
          · exact h3 u hu
          · rw [List.mem_singleton.1 hu]; exact not_lt.1 hgt) (by simp)
        rw [hlen] at this
        exact this

/-- `supportVector` returns the first index of the largest product, and -1 for an empty list only. -/
theorem supportVector_spec (vs : List (Vec3 K)) (d : Vec3 K) :
    (supportVector vs d = none ↔ vs = []) ∧
    ∀ j, supportVector vs d = some j → ∃ v, vs[j]? = some v ∧ (∀ u ∈ vs, u.dot d ≤ v.dot d) ∧ ∀ i u, i < j → vs[i]? = some u → u.dot d < v.dot d := by
  have := supportGo_spec d vs vs [] none rfl (by simp) (by simp)
  obtain ⟨h1, h2⟩ := this
  rw [List.length_nil] at h1 h2
  unfold supportVector
  refine ⟨⟨fun h => h1 (by simpa using h), fun h => by subst h; rfl⟩, fun j hj => ?_⟩
  rw [Option.map_eq_some_iff] at hj
  obtain ⟨⟨j', h⟩, ha, rfl⟩ := hj
  obtain ⟨v, e1, e2, e3, e4⟩ := h2 j' h ha
  subst e2
  exact ⟨v, e1, e3, e4⟩

theorem support_spec {A B : List (Vec3 K)} (hA : A ≠ []) (hB : B ≠ []) (d : Vec3 K) :
    ∃ a ∈ A, ∃ b ∈ B, support A B d = .ok (a - b) ∧ (∀ u ∈ A, u.dot d ≤ a.dot d) ∧ (∀ u ∈ B, u.dot (-d) ≤ b.dot (-d)) := by
  have key : ∀ (V : List (Vec3 K)), V ≠ [] → ∀ d, ∃ v ∈ V, vertexAt V (supportVector V d) = .ok v ∧ ∀ u ∈ V, u.dot d ≤ v.dot d := by
    intro V hV d
    obtain ⟨h1, h2⟩ := supportVector_spec V d
    cases hs : supportVector V d with
    | none => exact absurd (h1.1 hs) hV
    | some j =>
      obtain ⟨v, e1, e2, _⟩ := h2 j hs
      refine ⟨v, List.mem_of_getElem? e1, ?_, e2⟩
      simp [vertexAt, e1]
  obtain ⟨a, ha, ea, ma⟩ := key A hA d
  obtain ⟨b, hb, eb, mb⟩ := key B hB (-d)
  refine ⟨a, ha, b, hb, ?_, ma, mb⟩
  simp [support, ea, eb]

/-- What `handleSimplex` does to the simplex: two to four points in, a selection of them out; "inside" only with four points. -/
theorem handleSimplex_spec {s : List (Vec3 K)} (h2 : 2 ≤ s.length) (h4 : s.length ≤ 4) (dir : Vec3 K) (tol : K) :
    ∃ r s' d', handleSimplex s dir tol = .ok (r, s', d') ∧ (∀ v ∈ s', v ∈ s) ∧ 1 ≤ s'.length ∧ s'.length ≤ 4 ∧
      (r = false → s'.length ≤ 3) := by
  match s, h2, h4 with
  | [b, a], _, _ =>
    simp only [handleSimplex]
    split
    · exact ⟨_, _, _, rfl, by simp, by simp, by simp, by simp⟩
    · exact ⟨_, _, _, rfl, by simp, by simp, by simp, by simp⟩
  | [c, b, a], _, _ =>
    simp only [handleSimplex]
    split
    · exact ⟨_, _, _, rfl, by simp, by simp, by simp, by simp⟩
    split
    · exact ⟨_, _, _, rfl, by simp, by simp, by simp, by simp⟩
    split
    · exact ⟨_, _, _, rfl, by simp, by simp, by simp, by simp⟩
    · exact ⟨_, _, _, rfl, by simp, by simp, by simp, by simp⟩
  | [d, c, b, a], _, _ =>
    simp only [handleSimplex]
    split
    · exact ⟨_, _, _, rfl, by simp, by simp, by simp, by simp⟩
    split
    · exact ⟨_, _, _, rfl, by simp, by simp, by simp, by simp⟩
    split
    · exact ⟨_, _, _, rfl, by simp, by simp, by simp, by simp⟩
    · exact ⟨_, _, _, rfl, by simp, by simp, by simp, by simp⟩

/-- With at most four points the closest point is computed without undefined behaviour. -/
theorem closestPointOnSimplex_ok {s : List (Vec3 K)} (h : s.length ≤ 4) : ∃ c, closestPointOnSimplex s = .ok c := by
  match s, h with
  | [], _ => exact ⟨_, rfl⟩
  | [_], _ => exact ⟨_, rfl⟩
  | [_, _], _ => exact ⟨_, rfl⟩
  | [_, _, _], _ => exact ⟨_, rfl⟩
  | [_, _, _, _], _ => exact ⟨_, rfl⟩

/-- With more it is undefined. -/
theorem closestPointOnSimplex_ub {s : List (Vec3 K)} (h : 5 ≤ s.length) : closestPointOnSimplex s = .ub := by
  match s, h with
  | _ :: _ :: _ :: _ :: _ :: _, _ => rfl

/-- The loop: it returns; what it returns. -/
theorem gjkLoop_spec {A B : List (Vec3 K)} (hA : A ≠ []) (hB : B ≠ []) (tol : K) (cp : Option (Vec3 K)) :
    ∀ (n rounds : Nat) (s : List (Vec3 K)) (dir : Vec3 K), 1 ≤ s.length → s.length ≤ 3 → (∀ v ∈ s, ∃ a ∈ A, ∃ b ∈ B, v = a - b) →
      ∃ r, gjkLoop A B tol cp n rounds s dir = .ok r ∧ rounds ≤ r.rounds ∧ r.rounds ≤ rounds + n ∧ 1 ≤ r.simplex.length ∧ r.simplex.length ≤ 4 ∧
        (∀ v ∈ r.simplex, ∃ a ∈ A, ∃ b ∈ B, v = a - b) ∧
        (r.collide = false → r.simplex.length ≤ 3 ∧ closestPointOnSimplex r.simplex = .ok r.closest ∧
          ∃ d c : Vec3 K, ∃ e ∈ B, c ∈ A ∧ (∀ u ∈ A, u.dot d ≤ c.dot d) ∧ (∀ u ∈ B, u.dot (-d) ≤ e.dot (-d)) ∧ (c - e).dot d < 0) ∧
        (r.collide = true → r.rounds < rounds + n → r.simplex.length = 4 ∧ r.closest = cp)
  | 0, rounds, s, dir, h1, h3, hs => by
    obtain ⟨c, hc⟩ := closestPointOnSimplex_ok (s := s) (by omega)
    refine ⟨⟨true, s, some 0, rounds⟩, by simp [gjkLoop, hc], le_refl _, le_refl _, h1, by dsimp only; omega, hs, by simp, ?_⟩
    intro _ h; simp at h
  | n + 1, rounds, s, dir, h1, h3, hs => by
    obtain ⟨a, ha, b, hb, e, ma, mb⟩ := support_spec hA hB dir
    simp only [gjkLoop, e]
    by_cases hneg : (a - b).dot dir < 0
    · rw [if_pos hneg]
      obtain ⟨c, hc⟩ := closestPointOnSimplex_ok (s := s) (by omega)
      rw [hc]
      refine ⟨_, rfl, by dsimp only; omega, by dsimp only; omega, h1, by dsimp only; omega, hs, fun _ => ⟨h3, hc, dir, a, b, hb, ha, ma, mb, hneg⟩, by simp⟩
    · rw [if_neg hneg]
      have hs' : ∀ v ∈ s ++ [a - b], ∃ a ∈ A, ∃ b ∈ B, v = a - b := by
        intro v hv
        rcases List.mem_append.1 hv with hv | hv
        · exact hs v hv
        · exact ⟨a, ha, b, hb, List.mem_singleton.1 hv⟩
      obtain ⟨r, s', d', he, hsub, l1, l4, l3⟩ := handleSimplex_spec (s := s ++ [a - b]) (by simp; omega) (by simp; omega) dir tol
      rw [he]
      have hs'' : ∀ v ∈ s', ∃ a ∈ A, ∃ b ∈ B, v = a - b := fun v hv => hs' v (hsub v hv)
      cases r with
      | true =>
        refine ⟨_, rfl, by dsimp only; omega, by dsimp only; omega, l1, l4, hs'', by simp, fun _ _ => ⟨?_, rfl⟩⟩
        -- only the four-point case answers true
        dsimp only
        have : (s ++ [a - b]).length = 2 ∨ (s ++ [a - b]).length = 3 ∨ (s ++ [a - b]).length = 4 := by simp; omega
        generalize s ++ [a - b] = t at he this
        match t, this with
        | [_, _], _ => simp only [handleSimplex] at he; split at he <;> cases he
        | [_, _, _], _ =>
          simp only [handleSimplex] at he
          split at he
          · cases he
          split at he
          · cases he
          split at he <;> cases he
        | [_, _, _, _], _ =>
          simp only [handleSimplex] at he
          split at he
          · cases he
          split at he
          · cases he
          split at he
          · cases he
          · cases he; rfl
      | false =>
        obtain ⟨r, hr, g1, g2, g3, g4, g5, g6, g7⟩ := gjkLoop_spec hA hB tol cp n (rounds + 1) s' d' l1 (l3 rfl) hs''
        exact ⟨r, hr, by omega, by omega, g3, g4, g5, g6, fun h h' => g7 h (by omega)⟩

end Cmm.Gjk
