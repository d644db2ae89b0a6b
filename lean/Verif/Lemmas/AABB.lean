import Verif.Spec.Box
import Verif.Lemmas.Rounding
import Mathlib.Tactic.Linarith
namespace Cmm
variable {K : Type}

theorem intersects_iff [LinearOrder K] (a b : AABB K) : a.intersects b = true ↔
    (a.min.x ≤ b.max.x ∧ b.min.x ≤ a.max.x ∧ a.min.y ≤ b.max.y ∧ b.min.y ≤ a.max.y ∧
      a.min.z ≤ b.max.z ∧ b.min.z ≤ a.max.z) := by
  simp [AABB.intersects, and_assoc]

theorem intersects_mono [LinearOrder K] {a a' b b' : AABB K} (ha : BoxLe a a') (hb : BoxLe b b')
    (h : a.intersects b = true) : a'.intersects b' = true := by
  rw [intersects_iff] at *
  obtain ⟨h1, h2, h3, h4, h5, h6⟩ := h
  obtain ⟨a1, a2, a3, a4, a5, a6⟩ := ha
  obtain ⟨b1, b2, b3, b4, b5, b6⟩ := hb
  exact ⟨a1.trans (h1.trans b2), b1.trans (h2.trans a2), a3.trans (h3.trans b4), b3.trans (h4.trans a4),
    a5.trans (h5.trans b6), b5.trans (h6.trans a6)⟩

theorem BoxLe.refl [LinearOrder K] (a : AABB K) : BoxLe a a := by simp [BoxLe]

theorem BoxLe.trans [LinearOrder K] {a b c : AABB K} (h : BoxLe a b) (g : BoxLe b c) : BoxLe a c := by
  obtain ⟨a1, a2, a3, a4, a5, a6⟩ := h
  obtain ⟨b1, b2, b3, b4, b5, b6⟩ := g
  exact ⟨b1.trans a1, a2.trans b2, b3.trans a3, a4.trans b4, b5.trans a5, a6.trans b6⟩

theorem BoxLe.antisymm [LinearOrder K] {a b : AABB K} (h : BoxLe a b) (g : BoxLe b a) : a = b := by
  obtain ⟨a1, a2, a3, a4, a5, a6⟩ := h
  obtain ⟨b1, b2, b3, b4, b5, b6⟩ := g
  ext <;> apply le_antisymm <;> assumption

theorem le_merge_left [LinearOrder K] (a b : AABB K) : BoxLe a (a.merge b) := by simp [BoxLe, AABB.merge]
theorem le_merge_right [LinearOrder K] (a b : AABB K) : BoxLe b (a.merge b) := by simp [BoxLe, AABB.merge]
theorem merge_le [LinearOrder K] {a b c : AABB K} (h : BoxLe a c) (g : BoxLe b c) : BoxLe (a.merge b) c := by
  obtain ⟨a1, a2, a3, a4, a5, a6⟩ := h
  obtain ⟨b1, b2, b3, b4, b5, b6⟩ := g
  simp [BoxLe, AABB.merge, *]

theorem expand_eq_merge [LinearOrder K] (a : AABB K) (p : Vec3 K) : a.expand p = a.merge ⟨p, p⟩ := rfl

theorem init_merge [LinearOrder K] (big low : K) (b : AABB K) (h : InRange big low b) :
    (AABB.init big low).merge b = b := by
  obtain ⟨h1, h2, h3, h4, h5, h6⟩ := h
  ext <;> simp [AABB.merge, AABB.init, *]

theorem foldl_expand_spec [LinearOrder K] (ps : List (Vec3 K)) (b c : AABB K) :
    BoxLe (ps.foldl AABB.expand b) c ↔ BoxLe b c ∧ ∀ p ∈ ps, BoxLe ⟨p, p⟩ c := by
  induction ps generalizing b with
  | nil => simp
  | cons p ps ih =>
    simp only [List.foldl_cons, ih, List.mem_cons, forall_eq_or_imp]
    rw [expand_eq_merge]
    constructor
    · rintro ⟨h1, h2⟩
      exact ⟨(le_merge_left b _).trans h1, (le_merge_right b _).trans h1, h2⟩
    · rintro ⟨h1, h2, h3⟩
      exact ⟨merge_le h1 h2, h3⟩

theorem inBox_iff [LinearOrder K] (p : Vec3 K) (b : AABB K) : InBox p b ↔ BoxLe ⟨p, p⟩ b := by
  simp [InBox, BoxLe]

theorem boxLe_iff_subset [LinearOrder K] (a b : AABB K) (ha : ValidBox a) :
    BoxLe a b ↔ ∀ p, InBox p a → InBox p b := by
  constructor
  · intro h p hp
    rw [inBox_iff] at *
    exact hp.trans h
  · intro h
    obtain ⟨v1, v2, v3⟩ := ha
    obtain ⟨a1, _, a3, _, a5, _⟩ := h a.min ⟨le_refl _, v1, le_refl _, v2, le_refl _, v3⟩
    obtain ⟨_, b2, _, b4, _, b6⟩ := h a.max ⟨v1, le_refl _, v2, le_refl _, v3, le_refl _⟩
    exact ⟨a1, b2, a3, b4, a5, b6⟩

section volume
variable [LinearOrder K] [Arith K] [MonoArith K]

theorem sub_nonneg_mono {a b : K} (h : a ≤ b) : 0 ≤ b - a := by
  rw [← MonoArith.sub_self a]
  exact MonoArith.sub_mono _ _ _ _ h le_rfl

theorem mul_nonneg_mono {a b : K} (h1 : 0 ≤ a) (h2 : 0 ≤ b) : 0 ≤ a * b := by
  rw [← MonoArith.mul_zero (0 : K)]
  exact MonoArith.mul_mono _ _ _ _ le_rfl h1 le_rfl h2

theorem volume_mono {a b : AABB K} (ha : ValidBox a) (h : BoxLe a b) : a.volume ≤ b.volume := by
  obtain ⟨v1, v2, v3⟩ := ha
  obtain ⟨a1, a2, a3, a4, a5, a6⟩ := h
  unfold AABB.volume
  exact MonoArith.mul_mono _ _ _ _ (mul_nonneg_mono (sub_nonneg_mono v1) (sub_nonneg_mono v2))
    (MonoArith.mul_mono _ _ _ _ (sub_nonneg_mono v1) (MonoArith.sub_mono _ _ _ _ a2 a1) (sub_nonneg_mono v2) (MonoArith.sub_mono _ _ _ _ a4 a3))
    (sub_nonneg_mono v3) (MonoArith.sub_mono _ _ _ _ a6 a5)

theorem volume_nonneg {a : AABB K} (ha : ValidBox a) : 0 ≤ a.volume := by
  obtain ⟨v1, v2, v3⟩ := ha
  unfold AABB.volume
  exact mul_nonneg_mono (mul_nonneg_mono (sub_nonneg_mono v1) (sub_nonneg_mono v2)) (sub_nonneg_mono v3)
end volume

theorem intersection_fst [LinearOrder K] (a b r : AABB K) : (a.intersection b r).1 = a.intersects b := by
  unfold AABB.intersection
  by_cases h : a.intersects b = true
  · rw [if_pos ((intersects_iff a b).mp h), h]
  · rw [if_neg (fun h' => h ((intersects_iff a b).mpr h'))]
    simp at h; simp [h]

theorem intersection_snd_true [LinearOrder K] {a b : AABB K} (r : AABB K) (h : a.intersects b = true) :
    (a.intersection b r).2 = ⟨⟨Max.max a.min.x b.min.x, Max.max a.min.y b.min.y, Max.max a.min.z b.min.z⟩,
            ⟨Min.min a.max.x b.max.x, Min.min a.max.y b.max.y, Min.min a.max.z b.max.z⟩⟩ := by
  unfold AABB.intersection
  rw [if_pos ((intersects_iff a b).mp h)]

theorem intersection_snd_false [LinearOrder K] {a b : AABB K} (r : AABB K) (h : a.intersects b = false) :
    (a.intersection b r).2 = r := by
  unfold AABB.intersection
  rw [if_neg]
  intro h'
  rw [(intersects_iff a b).mpr h'] at h
  cases h

theorem intersection_valid [LinearOrder K] {a b : AABB K} (r : AABB K) (ha : ValidBox a) (hb : ValidBox b)
    (h : a.intersects b = true) : ValidBox (a.intersection b r).2 := by
  rw [intersection_snd_true r h]
  rw [intersects_iff] at h
  obtain ⟨v1, v2, v3⟩ := ha
  obtain ⟨w1, w2, w3⟩ := hb
  simp [ValidBox, *]

end Cmm
