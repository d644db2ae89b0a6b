import Verif.Lemmas.AABB
import Mathlib.Algebra.Order.Field.Rat
/-! Properties C08-C10 and C62 of aabb.h. -/
namespace Cmm
variable {K : Type}

/-- C08. For valid boxes `intersects` is true exactly when some point lies in both. -/
theorem C08_intersects_iff_common_point [LinearOrder K] (a b : AABB K) (ha : ValidBox a) (hb : ValidBox b) :
    a.intersects b = true ↔ ∃ p, InBox p a ∧ InBox p b := by
  rw [intersects_iff]
  constructor
  · rintro ⟨h1, h2, h3, h4, h5, h6⟩
    obtain ⟨v1, v2, v3⟩ := ha
    obtain ⟨w1, w2, w3⟩ := hb
    exact ⟨⟨max a.min.x b.min.x, max a.min.y b.min.y, max a.min.z b.min.z⟩, by simp [InBox, *], by simp [InBox, *]⟩
  · rintro ⟨p, ⟨h1, h2, h3, h4, h5, h6⟩, ⟨g1, g2, g3, g4, g5, g6⟩⟩
    exact ⟨h1.trans g2, g1.trans h2, h3.trans g4, g3.trans h4, h5.trans g6, g5.trans h6⟩

/-- C08. `intersects` is symmetric, for all boxes. -/
theorem C08_intersects_symm [LinearOrder K] (a b : AABB K) : a.intersects b = b.intersects a := by
  rw [Bool.eq_iff_iff, intersects_iff, intersects_iff]
  tauto

/-- C08. `intersection` reports the same as `intersects`; on success the result box holds exactly the common points,
on failure the output parameter is untouched. -/
theorem C08_intersection_exact [LinearOrder K] (a b r : AABB K) :
    (a.intersection b r).1 = a.intersects b ∧
    (a.intersects b = true → ∀ p, InBox p (a.intersection b r).2 ↔ InBox p a ∧ InBox p b) ∧
    (a.intersects b = false → (a.intersection b r).2 = r) := by
  refine ⟨intersection_fst a b r, ?_, intersection_snd_false r⟩
  intro h p
  rw [intersection_snd_true r h]
  simp only [InBox, max_le_iff, le_min_iff]
  tauto

/-- C09. `merge` encloses both boxes and is enclosed by every box that does. -/
theorem C09_merge_least [LinearOrder K] (a b : AABB K) :
    BoxLe a (a.merge b) ∧ BoxLe b (a.merge b) ∧ ∀ c, BoxLe a c → BoxLe b c → BoxLe (a.merge b) c :=
  ⟨le_merge_left a b, le_merge_right a b, fun _ h g => merge_le h g⟩

/-- C09. On valid boxes the order of bounds used above is inclusion of point sets. -/
theorem C09_boxLe_is_inclusion [LinearOrder K] (a b : AABB K) (ha : ValidBox a) :
    BoxLe a b ↔ ∀ p, InBox p a → InBox p b := boxLe_iff_subset a b ha

/-- C09. The box of a non-empty point list contains every point and is the least such box; the box of an empty list is
undefined behaviour. -/
theorem C09_ofPoints_least [LinearOrder K] (ps : List (Vec3 K)) :
    (ps = [] → AABB.ofPoints ps = .ub) ∧
    (ps ≠ [] → ∃ b, AABB.ofPoints ps = .ok b ∧ (∀ p ∈ ps, InBox p b) ∧
      ∀ c, (∀ p ∈ ps, InBox p c) → BoxLe b c) := by
  constructor
  · rintro rfl; rfl
  · intro h
    cases ps with
    | nil => exact absurd rfl h
    | cons p ps =>
      refine ⟨_, rfl, ?_, ?_⟩
      · have := (foldl_expand_spec ps ⟨p, p⟩ _).mp (BoxLe.refl _)
        intro q hq
        rw [inBox_iff]
        rcases List.mem_cons.mp hq with rfl | hq
        · exact this.1
        · exact this.2 q hq
      · intro c hc
        rw [foldl_expand_spec]
        simp only [List.mem_cons, forall_eq_or_imp, inBox_iff] at hc
        exact hc

/-- C09. The box does not depend on the order or the multiplicity of the points. -/
theorem C09_ofPoints_set_invariant [LinearOrder K] (ps qs : List (Vec3 K)) (h : ∀ p, p ∈ ps ↔ p ∈ qs) :
    AABB.ofPoints ps = AABB.ofPoints qs := by
  by_cases hp : ps = []
  · have hq : qs = [] := by
      rw [List.eq_nil_iff_forall_not_mem]; intro q hq; rw [← h, hp] at hq; simp at hq
    rw [hp, hq]
  · have hq : qs ≠ [] := by
      intro hq; apply hp; rw [List.eq_nil_iff_forall_not_mem]; intro q hq'; rw [h, hq] at hq'; simp at hq'
    obtain ⟨b, hb, b1, b2⟩ := (C09_ofPoints_least ps).2 hp
    obtain ⟨c, hc, c1, c2⟩ := (C09_ofPoints_least qs).2 hq
    rw [hb, hc]
    congr 1
    exact BoxLe.antisymm (b2 c fun p hp => c1 p ((h p).mp hp)) (c2 b fun p hp => b1 p ((h p).mpr hp))

/-- C09. `expand` adds exactly one point: the result contains the old box and the point and is least. -/
theorem C09_expand_least [LinearOrder K] (a : AABB K) (p : Vec3 K) :
    BoxLe a (a.expand p) ∧ InBox p (a.expand p) ∧ ∀ c, BoxLe a c → InBox p c → BoxLe (a.expand p) c := by
  rw [expand_eq_merge]
  refine ⟨le_merge_left _ _, (inBox_iff _ _).mpr (le_merge_right _ _), ?_⟩
  intro c h g
  exact merge_le h ((inBox_iff _ _).mp g)

/-- C09. The default-constructed box is neutral for `merge` for all boxes within the range of the number format. -/
theorem C09_default_neutral [LinearOrder K] (big low : K) (b : AABB K) (h : InRange big low b) :
    (AABB.init big low).merge b = b ∧ b.merge (AABB.init big low) = b := by
  refine ⟨init_merge big low b h, ?_⟩
  obtain ⟨h1, h2, h3, h4, h5, h6⟩ := h
  ext <;> simp [AABB.merge, AABB.init, *]

section volume
variable [Arith K] [LinearOrder K] [MonoArith K]

/-- C10. The volume of a valid box is the product of its side lengths, and is not negative. -/
theorem C10_volume_nonneg {K : Type} [Field K] [LinearOrder K] [IsStrictOrderedRing K] (a : AABB K) (ha : ValidBox a) :
    0 ≤ a.volume ∧ a.volume = (a.max.x - a.min.x) * ((a.max.y - a.min.y) * (a.max.z - a.min.z)) :=
  ⟨volume_nonneg ha, by unfold AABB.volume; rw [mul_assoc]⟩

/-- C10. Also with rounding the volume of a valid box is not negative. -/
theorem C10_volume_rounded (a : AABB K) (ha : ValidBox a) : 0 ≤ a.volume := volume_nonneg ha

/-- C10. A box inside another has no larger volume, with any rounding. -/
theorem C10_volume_mono (a b : AABB K) (ha : ValidBox a) (h : ∀ p, InBox p a → InBox p b) : a.volume ≤ b.volume :=
  volume_mono ha ((boxLe_iff_subset a b ha).mpr h)

/-- C10. The intersection box is valid and has at most the volume of either box, with any rounding. -/
theorem C10_volume_intersection (a b r : AABB K) (ha : ValidBox a) (hb : ValidBox b) (h : a.intersects b = true) :
    ValidBox (a.intersection b r).2 ∧ (a.intersection b r).2.volume ≤ a.volume ∧
    (a.intersection b r).2.volume ≤ b.volume := by
  have hv := intersection_valid r ha hb h
  have hm := (C08_intersection_exact a b r).2.1 h
  exact ⟨hv, C10_volume_mono _ _ hv fun p hp => ((hm p).mp hp).1, C10_volume_mono _ _ hv fun p hp => ((hm p).mp hp).2⟩
end volume

/-- C62 (the code violates the intent of `infinity()`): the chained comparison makes it false for every box, in
particular for the default-constructed one it is meant to recognise. `dmin` is the smallest positive normal double. -/
theorem C62_infinity_never_true [Field K] [LinearOrder K] [IsStrictOrderedRing K] (dmin dmax : K)
    (h0 : 0 < dmin) (h1 : dmin < 1) (a : AABB K) : a.infinity dmin dmax = false := by
  have hb : ∀ b : Bool, ¬ boolToNum (K := K) b = dmin := by
    intro b
    cases b
    · exact ne_of_lt h0
    · exact ne_of_gt h1
  simp [AABB.infinity, hb]

/-! ### Non-vacuity -/
example : ValidBox (⟨⟨0, 0, 0⟩, ⟨2, 3, 4⟩⟩ : AABB ℚ) ∧ ValidBox (⟨⟨1, 1, 1⟩, ⟨5, 5, 5⟩⟩ : AABB ℚ) ∧
    (⟨⟨0, 0, 0⟩, ⟨2, 3, 4⟩⟩ : AABB ℚ).intersects ⟨⟨1, 1, 1⟩, ⟨5, 5, 5⟩⟩ = true := by
  refine ⟨by simp [ValidBox], by simp [ValidBox], by decide +kernel⟩
example : (⟨⟨0, 0, 0⟩, ⟨2, 3, 4⟩⟩ : AABB ℚ).intersects ⟨⟨2, 3, 5⟩, ⟨5, 5, 5⟩⟩ = false := by decide +kernel
example : InRange (10 : ℚ) (-10) ⟨⟨0, 0, 0⟩, ⟨2, 3, 4⟩⟩ := by norm_num [InRange]

end Cmm
