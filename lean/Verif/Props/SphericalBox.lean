import Verif.Lemmas.SphericalBox
import Verif.Model.VecOps
import Mathlib.Analysis.SpecialFunctions.Complex.Arg
import Mathlib.Data.Rat.Floor
/-! C98: spherical boxes. -/
namespace Cmm.SBox
variable {K : Type} [Field K] [LinearOrder K] [IsStrictOrderedRing K]

omit [IsStrictOrderedRing K] [Field K] in
theorem getD_le {L : List K} (h : L.Pairwise (· ≤ ·)) (d : K) {i j : Nat} (hij : i ≤ j) (hj : j < L.length) : L.getD i d ≤ L.getD j d := by
  rw [List.getD_eq_getElem?_getD, List.getD_eq_getElem?_getD, List.getElem?_eq_getElem hj, List.getElem?_eq_getElem (by omega), Option.getD_some,
    Option.getD_some]
  rcases Nat.eq_or_lt_of_le hij with rfl | hij
  · exact le_rfl
  · exact List.pairwise_iff_getElem.mp h i j (by omega) hj hij

omit [IsStrictOrderedRing K] [Field K] [LinearOrder K] in
theorem getD_mem {L : List K} (d : K) {i : Nat} (h : i < L.length) : L.getD i d ∈ L := by
  rw [List.getD_eq_getElem?_getD, List.getElem?_eq_getElem h, Option.getD_some]
  exact List.getElem_mem h

/-- C98, the part that holds of the start: the wedge begins after the largest gap. For every angle of the list there is one from which the way to it is not
longer than the way from any angle of the list to the start. -/
theorem C98_start_partial {t : K} {angles : List K} (h : angles ≠ []) (hw : ∀ a ∈ angles, ∀ b ∈ angles, a < b + t) :
    ∃ s e, smallestWedge t angles = .ok (s, e) ∧ s ∈ angles ∧ e ∈ angles ∧ ∀ x ∈ angles, ∃ y ∈ angles, ∀ z ∈ angles, ccw t y x ≤ ccw t z s := by
  obtain ⟨a, l, idx, hs, hidx, hmax, e⟩ := smallestWedge_spec (t := t) h
  have hsort : (a :: l).Pairwise (· ≤ ·) := hs ▸ ascSort_sorted angles
  have hmem : ∀ x, x ∈ angles ↔ x ∈ a :: l := fun x => hs ▸ (ascSort_perm angles).mem_iff.symm
  have hmod : (idx + 1) % (a :: l).length < (a :: l).length := Nat.mod_lt _ (by simp)
  refine ⟨_, _, e, (hmem _).mpr (getD_mem 0 hidx), (hmem _).mpr (getD_mem 0 hmod), fun x hx => ?_⟩
  -- the largest gap bounds the way to the start from below
  have hlow : ∀ z ∈ angles, (angleDiffs t a l).getD idx 0 ≤ ccw t z ((a :: l).getD idx 0) := by
    intro z hz
    obtain ⟨j, hj, hjz⟩ := List.mem_iff_getElem.mp ((hmem z).mp hz)
    have hzj : z = (a :: l).getD j 0 := by
      rw [List.getD_eq_getElem?_getD, List.getElem?_eq_getElem hj, Option.getD_some, hjz]
    cases idx with
    | zero =>
      rw [angleDiffs_zero, ccw]
      have h1 := getD_le hsort 0 (Nat.zero_le j) hj
      have h2 := getD_le hsort 0 (show j ≤ (a :: l).length - 1 by omega) (by omega)
      rw [if_neg (not_lt.mpr (by rw [hzj]; exact h1)), List.getD_cons_zero, hzj]
      linarith
    | succ i =>
      rw [angleDiffs_succ t a l i (by simpa using hidx), ccw]
      split
      · rename_i hlt
        have hji : j ≤ i := by
          by_contra hc
          have := getD_le hsort 0 (show i + 1 ≤ j by omega) hj
          rw [← hzj] at this
          exact absurd hlt (not_lt.mpr this)
        have := getD_le hsort 0 hji (by omega)
        rw [← hzj] at this
        linarith
      · have := hw z hz _ ((hmem _).mpr (getD_mem 0 (show i < (a :: l).length by omega)))
        linarith
  -- the first place of `x`
  have hex : ∃ i, i < (a :: l).length ∧ (a :: l).getD i 0 = x := by
    obtain ⟨j, hj, hjx⟩ := List.mem_iff_getElem.mp ((hmem x).mp hx)
    exact ⟨j, hj, by rw [List.getD_eq_getElem?_getD, List.getElem?_eq_getElem hj, Option.getD_some, hjx]⟩
  obtain ⟨hi, hix⟩ := Nat.find_spec hex
  set i := Nat.find hex with hidef
  cases hi0 : i with
  | zero =>
    rw [hi0] at hi hix
    refine ⟨(a :: l).getD ((a :: l).length - 1) 0, (hmem _).mpr (getD_mem 0 (by simp)), fun z hz => le_trans ?_ ((hmax 0 (by simp)).trans (hlow z hz))⟩
    have h1 := getD_le hsort 0 (Nat.zero_le ((a :: l).length - 1)) (by simp)
    rw [angleDiffs_zero, ccw, ← hix, if_neg (not_lt.mpr h1), List.getD_cons_zero]
    linarith
  | succ i' =>
    rw [hi0] at hi hix
    have hlt : (a :: l).getD i' 0 < x := by
      refine lt_of_le_of_ne (hix ▸ getD_le hsort 0 (by omega) hi) fun he => ?_
      exact Nat.find_min hex (m := i') (by omega) ⟨by omega, he⟩
    refine ⟨(a :: l).getD i' 0, (hmem _).mpr (getD_mem 0 (by omega)), fun z hz => le_trans ?_ ((hmax (i' + 1) hi).trans (hlow z hz))⟩
    rw [angleDiffs_succ t a l i' (by simpa using hi), ccw, if_pos hlt, hix]

/-- C98: the stored end is the angle that follows the start, not the last one. -/
theorem C98_end_is_next {t : K} {angles : List K} (h : 2 ≤ angles.length) (hn : angles.Nodup) (hw : ∀ a ∈ angles, ∀ b ∈ angles, a < b + t) {s e : K}
    (hb : smallestWedge t angles = .ok (s, e)) : e ≠ s ∧ ∀ z ∈ angles, z ≠ s → ccw t s e ≤ ccw t s z := by
  obtain ⟨a, l, idx, hs, hidx, hmax, he⟩ := smallestWedge_spec (t := t) (angles := angles) (by intro hc; subst hc; simp at h)
  rw [he] at hb
  simp only [Res.ok.injEq, Prod.mk.injEq] at hb
  obtain ⟨rfl, rfl⟩ := hb
  have hsort : (a :: l).Pairwise (· ≤ ·) := hs ▸ ascSort_sorted angles
  have hperm : (a :: l).Perm angles := hs ▸ ascSort_perm angles
  have hnd : (a :: l).Nodup := hperm.nodup_iff.mpr hn
  have hlen : 2 ≤ (a :: l).length := by rw [hperm.length_eq]; exact h
  have hinj : ∀ i j, i < j → j < (a :: l).length → (a :: l).getD i 0 < (a :: l).getD j 0 := by
    intro i j hij hj
    refine lt_of_le_of_ne (getD_le hsort 0 (by omega) hj) fun hc => ?_
    rw [List.getD_eq_getElem?_getD, List.getD_eq_getElem?_getD, List.getElem?_eq_getElem hj, List.getElem?_eq_getElem (by omega), Option.getD_some,
      Option.getD_some] at hc
    have := (List.Nodup.getElem_inj_iff hnd).mp hc
    omega
  rcases Nat.lt_or_ge (idx + 1) (a :: l).length with hc | hc
  · rw [Nat.mod_eq_of_lt hc]
    refine ⟨ne_of_gt (hinj _ _ (by omega) hc), fun z hz hne => ?_⟩
    obtain ⟨j, hj, hjz⟩ := List.mem_iff_getElem.mp (hperm.mem_iff.mpr hz)
    have hzj : (a :: l).getD j 0 = z := by rw [List.getD_eq_getElem?_getD, List.getElem?_eq_getElem hj, Option.getD_some, hjz]
    have hji : j ≠ idx := fun hc => hne (by rw [← hzj, hc])
    rw [ccw, if_pos (hinj _ _ (by omega) hc), ccw]
    rcases Nat.lt_or_gt_of_ne hji with h1 | h1
    · have := hinj j idx h1 hidx
      rw [hzj] at this
      rw [if_neg (not_lt.mpr (le_of_lt this))]
      have := hw _ (hperm.mem_iff.mp (getD_mem 0 hc)) z hz
      linarith
    · have h2 := getD_le hsort 0 (show idx + 1 ≤ j by omega) hj
      have h3 := hinj idx j h1 hj
      rw [hzj] at h2 h3
      rw [if_pos h3]
      linarith
  · have hlast : idx + 1 = (a :: l).length := by omega
    rw [hlast, Nat.mod_self]
    refine ⟨ne_of_lt (hinj 0 idx (by omega) hidx), fun z hz hne => ?_⟩
    obtain ⟨j, hj, hjz⟩ := List.mem_iff_getElem.mp (hperm.mem_iff.mpr hz)
    have hzj : (a :: l).getD j 0 = z := by rw [List.getD_eq_getElem?_getD, List.getElem?_eq_getElem hj, Option.getD_some, hjz]
    have hji : j ≠ idx := fun hc => hne (by rw [← hzj, hc])
    have h1 := hinj 0 idx (by omega) hidx
    have h2 := hinj j idx (by omega) hidx
    have h3 := getD_le hsort 0 (Nat.zero_le j) hj
    rw [hzj] at h2 h3
    rw [ccw, if_neg (not_lt.mpr (le_of_lt h1)), ccw, if_neg (not_lt.mpr (le_of_lt h2))]
    linarith

/-- C98, the part that holds of the wedge: with one or two points it contains their angles. -/
theorem C98_wedge_partial {t : K} {angles : List K} (h : angles ≠ []) (h2 : angles.length ≤ 2) :
    ∃ s e, smallestWedge t angles = .ok (s, e) ∧ ∀ x ∈ angles, InWedge s e x := by
  obtain ⟨a, l, idx, hs, hidx, hmax, e⟩ := smallestWedge_spec (t := t) h
  have hsort : (a :: l).Pairwise (· ≤ ·) := hs ▸ ascSort_sorted angles
  have hperm : (a :: l).Perm angles := hs ▸ ascSort_perm angles
  refine ⟨_, _, e, fun x hx => ?_⟩
  have hx := hperm.mem_iff.mpr hx
  rw [← hperm.length_eq] at h2
  cases l with
  | nil =>
    obtain rfl : idx = 0 := by simpa using hidx
    have : x = a := by simpa using hx
    subst this
    simp [InWedge]
  | cons b l =>
    obtain rfl : l = [] := by
      cases l with
      | nil => rfl
      | cons _ _ => simp at h2
    have hab : a ≤ b := List.rel_of_pairwise_cons hsort (by simp)
    have hx : x = a ∨ x = b := by simpa using hx
    have hi : idx = 0 ∨ idx = 1 := by simp at hidx; omega
    rcases hi with rfl | rfl
    · show InWedge a b x
      rw [InWedge, if_pos hab]
      rcases hx with rfl | rfl
      · exact ⟨le_rfl, hab⟩
      · exact ⟨hab, le_rfl⟩
    · rw [show ([a, b].getD 1 0) = b from rfl, show (1 + 1) % [a, b].length = 0 by simp, show ([a, b].getD 0 0) = a from rfl, InWedge]
      split
      · rename_i hba
        obtain rfl := le_antisymm hab hba
        rcases hx with rfl | rfl <;> exact ⟨le_rfl, le_rfl⟩
      · rcases hx with rfl | rfl
        · exact Or.inr le_rfl
        · exact Or.inl le_rfl

omit [Field K] [IsStrictOrderedRing K] in
/-- C98: the test is symmetric, a box is never separable from itself, and `intersects` is its negation. -/
theorem C98_symmetric (a b : SBox K) : a.separable b = b.separable a ∧ a.separable a = false ∧ (a.intersects b = true ↔ a.separable b = false) := by
  have h1 : ∀ s e os oe : K, axisSeparable s e os oe = axisSeparable os oe s e := by
    intro s e os oe
    rw [axisSeparable, axisSeparable, Bool.or_comm]
  have h2 : ∀ s e : K, axisSeparable s e s e = false := by
    intro s e
    rw [axisSeparable, Bool.or_eq_false_iff]
    constructor <;>
    · rw [Bool.and_eq_false_iff, decide_eq_false_iff_not, decide_eq_false_iff_not]
      by_contra hc
      push Not at hc
      exact absurd (hc.1.trans hc.2) (lt_irrefl _)
  refine ⟨?_, ?_, ?_⟩
  · rw [SBox.separable, SBox.separable, h1 a.start.x, h1 a.start.y, h1 a.start.z]
  · rw [SBox.separable, h2, h2, h2]; rfl
  · rw [SBox.intersects, Bool.not_eq_true']

omit [Field K] [IsStrictOrderedRing K] in
/-- C98, the part that holds of the verdict: if no wedge crosses the angle π (start before end on every axis), separable boxes have disjoint wedges on some axis. -/
theorem C98_separable_partial (a b : SBox K) (ha : a.start.x ≤ a.stop.x ∧ a.start.y ≤ a.stop.y ∧ a.start.z ≤ a.stop.z)
    (hb : b.start.x ≤ b.stop.x ∧ b.start.y ≤ b.stop.y ∧ b.start.z ≤ b.stop.z) (h : a.separable b = true) :
    (∀ t, ¬ (InWedge a.start.x a.stop.x t ∧ InWedge b.start.x b.stop.x t)) ∨ (∀ t, ¬ (InWedge a.start.y a.stop.y t ∧ InWedge b.start.y b.stop.y t)) ∨
      ∀ t, ¬ (InWedge a.start.z a.stop.z t ∧ InWedge b.start.z b.stop.z t) := by
  have key : ∀ s e os oe : K, s ≤ e → os ≤ oe → axisSeparable s e os oe = true → ∀ t, ¬ (InWedge s e t ∧ InWedge os oe t) := by
    rintro s e os oe h1 h2 h t ⟨h3, h4⟩
    rw [InWedge, if_pos h1] at h3
    rw [InWedge, if_pos h2] at h4
    simp only [axisSeparable, Bool.or_eq_true, Bool.and_eq_true, decide_eq_true_eq] at h
    rcases h with ⟨h, -⟩ | ⟨h, -⟩
    · exact absurd (lt_of_le_of_lt h3.2 h) (not_lt.mpr h4.1)
    · exact absurd (lt_of_le_of_lt h4.2 h) (not_lt.mpr h3.1)
  rw [SBox.separable, Bool.or_eq_true, Bool.or_eq_true] at h
  rcases h with (h | h) | h
  · exact Or.inl (key _ _ _ _ ha.1 hb.1 h)
  · exact Or.inr (Or.inl (key _ _ _ _ ha.2.1 hb.2.1 h))
  · exact Or.inr (Or.inr (key _ _ _ _ ha.2.2 hb.2.2 h))

/-- C98: the constructor reads an empty vector if there are no points, and returns otherwise. The three wedges are those of the projected points. -/
theorem C98_outcome (sqrt : K → K) (atan2 : K → K → K) (t : K) (pts : List (Vec3 K)) (c : Vec3 K) :
    (SBox.ofPoints sqrt atan2 t pts c = .ub ↔ pts = []) ∧
    ∀ b, SBox.ofPoints sqrt atan2 t pts c = .ok b →
      smallestWedge t (pts.map fun p => atan2 (Geom.unitize3 sqrt (p - c)).z (Geom.unitize3 sqrt (p - c)).y) = .ok (b.start.x, b.stop.x) ∧
      smallestWedge t (pts.map fun p => atan2 (Geom.unitize3 sqrt (p - c)).x (Geom.unitize3 sqrt (p - c)).z) = .ok (b.start.y, b.stop.y) ∧
      smallestWedge t (pts.map fun p => atan2 (Geom.unitize3 sqrt (p - c)).y (Geom.unitize3 sqrt (p - c)).x) = .ok (b.start.z, b.stop.z) := by
  have e0 : axisAngles atan2 0 (projectToSphere sqrt pts c) = pts.map fun p => atan2 (Geom.unitize3 sqrt (p - c)).z (Geom.unitize3 sqrt (p - c)).y := by
    rw [axisAngles, projectToSphere, List.map_map]; rfl
  have e1 : axisAngles atan2 1 (projectToSphere sqrt pts c) = pts.map fun p => atan2 (Geom.unitize3 sqrt (p - c)).x (Geom.unitize3 sqrt (p - c)).z := by
    rw [axisAngles, projectToSphere, List.map_map]; rfl
  have e2 : axisAngles atan2 2 (projectToSphere sqrt pts c) = pts.map fun p => atan2 (Geom.unitize3 sqrt (p - c)).y (Geom.unitize3 sqrt (p - c)).x := by
    rw [axisAngles, projectToSphere, List.map_map]; rfl
  by_cases hp : pts = []
  · subst hp
    exact ⟨⟨fun _ => rfl, fun _ => rfl⟩, fun b hb => by simp [SBox.ofPoints, axisAngles, projectToSphere, smallestWedge, ascSort] at hb⟩
  · obtain ⟨_, _, _, -, -, -, w0⟩ := smallestWedge_spec (t := t) (angles := axisAngles atan2 0 (projectToSphere sqrt pts c)) (by rw [e0]; simpa using hp)
    obtain ⟨_, _, _, -, -, -, w1⟩ := smallestWedge_spec (t := t) (angles := axisAngles atan2 1 (projectToSphere sqrt pts c)) (by rw [e1]; simpa using hp)
    obtain ⟨_, _, _, -, -, -, w2⟩ := smallestWedge_spec (t := t) (angles := axisAngles atan2 2 (projectToSphere sqrt pts c)) (by rw [e2]; simpa using hp)
    refine ⟨⟨fun h => ?_, fun h => absurd h hp⟩, fun b hb => ?_⟩
    · rw [SBox.ofPoints] at h
      rw [w0, Res.ok_bind, w1, Res.ok_bind, w2, Res.ok_bind] at h
      simp at h
    · rw [SBox.ofPoints] at hb
      rw [w0, Res.ok_bind, w1, Res.ok_bind, w2, Res.ok_bind] at hb
      simp only [Res.ok.injEq] at hb
      subst hb
      rw [← e0, ← e1, ← e2]
      exact ⟨w0, w1, w2⟩

/-- C98 fails: of the three angles 0, 1 and 2 the stored wedge leaves out the last. -/
theorem C98_wedge_counterexample {t : K} (ht : 3 < t) : smallestWedge t [0, 1, 2] = .ok (0, 1) ∧ ¬ InWedge (0 : K) 1 2 := by
  constructor
  · have h1 : ascSort ([0, 1, 2] : List K) = [0, 1, 2] := by
      simp only [ascSort, ascInsert]
      rw [if_pos (by norm_num)]
      simp only [ascInsert]
      rw [if_pos (by norm_num)]
    rw [smallestWedge, h1]
    simp only [angleDiffs, adjacentDiffs, List.getLastD_cons, List.getLastD_nil, List.headD_cons, List.tail_cons, maxIdx]
    rw [if_neg (by linarith), if_neg (by linarith)]
    simp
  · rw [InWedge, if_pos zero_le_one]
    rintro ⟨-, h⟩
    norm_num at h

/-- the wedge of two angles -/
theorem wedge_two {t a b : K} (h : a < b) :
    smallestWedge t [a, b] = .ok (if a + t - b < b - a then (b, a) else (a, b)) ∧ smallestWedge t [b, a] = .ok (if a + t - b < b - a then (b, a) else (a, b)) := by
  have key : ∀ l, ascSort l = [a, b] → smallestWedge t l = .ok (if a + t - b < b - a then (b, a) else (a, b)) := by
    intro l hl
    rw [smallestWedge, hl]
    simp only [angleDiffs, adjacentDiffs, List.getLastD_cons, List.getLastD_nil, List.headD_cons, List.tail_cons, maxIdx]
    split <;> simp
  refine ⟨key _ ?_, key _ ?_⟩
  · simp [ascSort, ascInsert, h.le]
  · simp [ascSort, ascInsert, not_le.mpr h]

open VecOps in
/-- C98 fails, with the real square root and `atan2`: the second set contains the middle of the two points of the first, and the test reports a separation. -/
theorem C98_separation_counterexample :
    sphericalAABBTest Real.sqrt atan2 (2 * Real.pi) [⟨-1/2, 1/10, 0⟩, ⟨-1/2, -1/10, 0⟩] [⟨1/2, 1/2, 0⟩, ⟨-1/2, 0, 0⟩] = .ok true := by
  have hu : ∀ v : Vec3 ℝ, v.sqLength ≤ 1 → Geom.unitize3 Real.sqrt (v - ⟨0, 0, 0⟩) = v := by
    intro v hv
    have hv0 : v - ⟨0, 0, 0⟩ = v := by
      cases v
      show Vec3.mk _ _ _ = _
      simp
    have h1 : Real.sqrt v.sqLength ≤ 1 := Real.sqrt_le_one.mpr hv
    have h2 : (0 : ℝ) ≤ Geom.machEps := by
      rw [Geom.machEps]; norm_num
    rw [hv0, Geom.unitize3, if_pos (Or.inr (by linarith))]
  -- every constructor call returns
  have hret : ∀ pts : List (Vec3 ℝ), pts ≠ [] → ∃ b, SBox.ofPoints Real.sqrt atan2 (2 * Real.pi) pts ⟨0, 0, 0⟩ = .ok b := by
    intro pts hp
    obtain ⟨_, _, _, -, -, -, w0⟩ := smallestWedge_spec (t := 2 * Real.pi) (angles := axisAngles atan2 0 (projectToSphere Real.sqrt pts ⟨0, 0, 0⟩))
      (by simpa [axisAngles, projectToSphere] using hp)
    obtain ⟨_, _, _, -, -, -, w1⟩ := smallestWedge_spec (t := 2 * Real.pi) (angles := axisAngles atan2 1 (projectToSphere Real.sqrt pts ⟨0, 0, 0⟩))
      (by simpa [axisAngles, projectToSphere] using hp)
    obtain ⟨_, _, _, -, -, -, w2⟩ := smallestWedge_spec (t := 2 * Real.pi) (angles := axisAngles atan2 2 (projectToSphere Real.sqrt pts ⟨0, 0, 0⟩))
      (by simpa [axisAngles, projectToSphere] using hp)
    rw [SBox.ofPoints, w0, Res.ok_bind, w1, Res.ok_bind, w2, Res.ok_bind]
    exact ⟨_, rfl⟩
  obtain ⟨A, hA⟩ := hret [⟨-1/2, 1/10, 0⟩, ⟨-1/2, -1/10, 0⟩] (by simp)
  obtain ⟨B, hB⟩ := hret [⟨1/2, 1/2, 0⟩, ⟨-1/2, 0, 0⟩] (by simp)
  have zA := ((C98_outcome _ _ _ _ _).2 A hA).2.2
  have zB := ((C98_outcome _ _ _ _ _).2 B hB).2.2
  simp only [List.map_cons, List.map_nil] at zA zB
  rw [hu _ (by rw [Vec3.sqLength]; norm_num), hu _ (by rw [Vec3.sqLength]; norm_num)] at zA zB
  simp only [] at zA zB
  -- the four angles
  have hpi := Real.pi_pos
  set θ := atan2 (1/10) (-1/2) with hθ
  have c1 : atan2 (-1/10) (-1/2) = -θ := by
    have : (⟨-1/2, -1/10⟩ : ℂ) = (starRingEnd ℂ) ⟨-1/2, 1/10⟩ := by
      apply Complex.ext <;> simp <;> norm_num
    rw [atan2, this, Complex.arg_conj, if_neg, hθ, atan2]
    intro hc
    have := (Complex.arg_eq_pi_iff.mp hc).2
    norm_num at this
  have c2 : θ < Real.pi := by
    refine lt_of_le_of_ne (Complex.arg_le_pi _) fun hc => ?_
    have := (Complex.arg_eq_pi_iff.mp hc).2
    norm_num at this
  have c3 : Real.pi / 2 < θ := by
    by_contra hc
    have h0 : 0 ≤ θ := Complex.arg_nonneg_iff.mpr (by norm_num)
    have := Complex.abs_arg_le_pi_div_two_iff.mp (show |Complex.arg ⟨-1/2, 1/10⟩| ≤ Real.pi / 2 from (abs_of_nonneg h0).trans_le (not_lt.mp hc))
    norm_num at this
  have c4 : atan2 0 (-1/2) = Real.pi := Complex.arg_eq_pi_iff.mpr (by norm_num)
  have c5 : 0 < atan2 (1/2) (1/2) := by
    refine lt_of_le_of_ne (Complex.arg_nonneg_iff.mpr (by norm_num)) fun hc => ?_
    have := (Complex.arg_eq_zero_iff.mp hc.symm).2
    norm_num at this
  have c6 : atan2 (1/2) (1/2) ≤ Real.pi / 2 :=
    (le_abs_self _).trans (Complex.abs_arg_le_pi_div_two_iff.mpr (by norm_num))
  rw [c1, (wedge_two (show -θ < θ by linarith)).2, if_pos (by linarith)] at zA
  rw [c4, (wedge_two (show atan2 (1/2) (1/2) < Real.pi by linarith)).1, if_neg (by linarith)] at zB
  simp only [Res.ok.injEq, Prod.mk.injEq] at zA zB
  rw [sphericalAABBTest, hA, Res.ok_bind, hB, Res.ok_bind, SBox.separable, axisSeparable, axisSeparable, axisSeparable, ← zA.1, ← zA.2, ← zB.1, ← zB.2]
  have h1 : -θ < atan2 (1/2) (1/2) := by linarith
  rw [decide_eq_true h1, decide_eq_true (show Real.pi > θ from c2)]
  simp

/-- A case that meets the hypotheses of `C98_start_partial` and `C98_end_is_next`: the angles 3, -3 and 1 with a full turn of 44/7. -/
example : smallestWedge (44/7 : ℚ) [3, -3, 1] = .ok (1, 3) ∧ ([3, -3, 1] : List ℚ).Nodup ∧ ∀ a ∈ ([3, -3, 1] : List ℚ), ∀ b ∈ ([3, -3, 1] : List ℚ), a < b + 44/7 := by
  decide +kernel

/-- Two boxes that meet the hypotheses of `C98_separable_partial`. -/
example : (⟨⟨0, 0, 0⟩, ⟨1, 1, 1⟩⟩ : SBox ℚ).separable ⟨⟨0, 2, 0⟩, ⟨1, 3, 1⟩⟩ = true := by
  decide +kernel

end Cmm.SBox
