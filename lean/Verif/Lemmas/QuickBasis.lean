import Verif.Lemmas.QuickCheck
/-!
The choice of the first points: the reflections of `orthonormalize` give an orthonormal basis, so `steal_best` measures distances from a line and from a plane.
-/
namespace Cmm.Quick
open Cmm.Geom Cmm.Newton
variable {K : Type} [Field K] [LinearOrder K] [IsStrictOrderedRing K]

section algebra
omit [LinearOrder K] [IsStrictOrderedRing K]

theorem reflect_reflect {u : Vec3 K} (h : u.dot u = 2) (x : Vec3 K) : reflect u (reflect u x) = x := by
  simp only [Vec3.dot] at h
  ext
  all_goals
    simp only [reflect, Vec3.dot, Vec3.smul, Vec3.sub_x, Vec3.sub_y, Vec3.sub_z]
  · linear_combination (u.x * (u.x * x.x + u.y * x.y + u.z * x.z)) * h
  · linear_combination (u.y * (u.x * x.x + u.y * x.y + u.z * x.z)) * h
  · linear_combination (u.z * (u.x * x.x + u.y * x.y + u.z * x.z)) * h

theorem dot_reflect (u x y : Vec3 K) : x.dot (reflect u y) = (reflect u x).dot y := by
  simp only [reflect, Vec3.dot, Vec3.smul, Vec3.sub_x, Vec3.sub_y, Vec3.sub_z]; ring

theorem reflect_combo (u x y : Vec3 K) (a : K) : reflect u (x - y.smul a) = reflect u x - (reflect u y).smul a := by
  ext
  all_goals
    simp only [reflect, Vec3.dot, Vec3.smul, Vec3.sub_x, Vec3.sub_y, Vec3.sub_z]
    ring

theorem reflect_smul (u x : Vec3 K) (a : K) : reflect u (x.smul a) = (reflect u x).smul a := by
  ext
  all_goals
    simp only [reflect, Vec3.dot, Vec3.smul, Vec3.sub_x, Vec3.sub_y, Vec3.sub_z]
    ring

theorem sqLength_dot (x : Vec3 K) : x.sqLength = x.dot x := rfl

/-- The vector of a reflection that takes `t` to the axis `e`. -/
theorem householder {t e : Vec3 K} {N F : K} (he : e.dot e = 1) (hN : N * N = t.sqLength) (hF : F * F = t.sqLength + t.dot e * N) (hN0 : N ≠ 0) (hF0 : F ≠ 0) :
    ((t + e.smul N).sdiv F).dot ((t + e.smul N).sdiv F) = 2 ∧ reflect ((t + e.smul N).sdiv F) e = t.smul (-(1 / N)) := by
  have h1 : t.dot e + N ≠ 0 := by
    intro h
    have : F * F = 0 := by rw [hF, ← hN]; linear_combination N * h
    exact hF0 (mul_self_eq_zero.mp this)
  have hFF : F * F = N * (t.dot e + N) := by rw [hF, ← hN]; ring
  have hu : ((t + e.smul N).sdiv F).dot e = (t.dot e + N) / F := by
    simp only [Vec3.dot, Vec3.sdiv, Vec3.smul, Vec3.add_x, Vec3.add_y, Vec3.add_z] at he ⊢
    field_simp
    linear_combination N * he
  constructor
  · have : ((t + e.smul N).sdiv F).dot ((t + e.smul N).sdiv F) = (t.sqLength + 2 * (t.dot e) * N + e.dot e * (N * N)) / (F * F) := by
      simp only [Vec3.dot, Vec3.sqLength, Vec3.sdiv, Vec3.smul, Vec3.add_x, Vec3.add_y, Vec3.add_z]
      field_simp
      ring
    rw [this, he, hFF, ← hN, div_eq_iff (mul_ne_zero hN0 h1)]
    ring
  · have key : (t.dot e + N) / F / F = 1 / N := by
      rw [div_div, hFF, div_eq_div_iff (mul_ne_zero hN0 h1) hN0]; ring
    rw [reflect, hu]
    ext
    all_goals
      simp only [Vec3.sdiv, Vec3.smul, Vec3.sub_x, Vec3.sub_y, Vec3.sub_z, Vec3.add_x, Vec3.add_y, Vec3.add_z]
    · have : (t.x + e.x * N) / F * ((t.dot e + N) / F) = (t.x + e.x * N) * ((t.dot e + N) / F / F) := by ring
      rw [this, key]; field_simp; ring
    · have : (t.y + e.y * N) / F * ((t.dot e + N) / F) = (t.y + e.y * N) * ((t.dot e + N) / F / F) := by ring
      rw [this, key]; field_simp; ring
    · have : (t.z + e.z * N) / F * ((t.dot e + N) / F) = (t.z + e.z * N) * ((t.dot e + N) / F / F) := by ring
      rw [this, key]; field_simp; ring

theorem gram2 (a b : Vec3 K) : (a.cross b).sqLength = a.sqLength * b.sqLength - a.dot b ^ 2 := by
  simp only [Vec3.sqLength, Vec3.cross, Vec3.dot]; ring

theorem gram3 (a b c : Vec3 K) : det a b c ^ 2 = a.sqLength * b.sqLength * c.sqLength + 2 * a.dot b * a.dot c * b.dot c - a.sqLength * b.dot c ^ 2 -
    b.sqLength * a.dot c ^ 2 - c.sqLength * a.dot b ^ 2 := by
  simp only [Vec3.sqLength, Vec3.cross, Vec3.dot, det]; ring

/-- Taking away the components along two orthonormal vectors. -/
theorem off_two (q r d : Vec3 K) (hq : q.dot q = 1) (hr : r.dot r = 1) (hqr : q.dot r = 0) :
    (d + q.smul (-(q.dot d)) + r.smul (-(r.dot d))).sqLength = d.sqLength - q.dot d ^ 2 - r.dot d ^ 2 := by
  have : (d + q.smul (-(q.dot d)) + r.smul (-(r.dot d))).sqLength =
      d.sqLength + (q.dot q - 2) * q.dot d ^ 2 + (r.dot r - 2) * r.dot d ^ 2 + 2 * q.dot r * q.dot d * r.dot d := by
    simp only [Vec3.sqLength, Vec3.dot, Vec3.smul, Vec3.add_x, Vec3.add_y, Vec3.add_z]; ring
  rw [this, hq, hr, hqr]; ring

theorem off_one (q d : Vec3 K) (hq : q.dot q = 1) : (d + q.smul (-(q.dot d))).sqLength = d.sqLength - q.dot d ^ 2 := by
  have : (d + q.smul (-(q.dot d))).sqLength = d.sqLength + (q.dot q - 2) * q.dot d ^ 2 := by
    simp only [Vec3.sqLength, Vec3.dot, Vec3.smul, Vec3.add_x, Vec3.add_y, Vec3.add_z]; ring
  rw [this, hq]; ring

theorem dot_smul_left (a d : Vec3 K) (c : K) : (a.smul c).dot d = c * a.dot d := by
  simp only [Vec3.dot, Vec3.smul]; ring
theorem dot_comm (a b : Vec3 K) : a.dot b = b.dot a := by simp only [Vec3.dot]; ring
theorem dot_sub_left (a b d : Vec3 K) : (a - b).dot d = a.dot d - b.dot d := by
  simp only [Vec3.dot, Vec3.sub_x, Vec3.sub_y, Vec3.sub_z]; ring
end algebra

theorem sqLength_nonneg (x : Vec3 K) : 0 ≤ x.sqLength := by
  simp only [Vec3.sqLength]; nlinarith [mul_self_nonneg x.x, mul_self_nonneg x.y, mul_self_nonneg x.z]

variable {sqrt : K → K} {eps : K}

/-- One row: the condition on `eps` is met and the new reflection takes the rest of the row to the axis. -/
theorem orth_step (hsq : IsSqrt sqrt) (h0 : 0 ≤ eps) {t e : Vec3 K} (he : e.dot e = 1) (hpos : 0 < t.sqLength) (hbig : eps * eps < t.sqLength) {c : K}
    (hc : c = t.dot e) : ∃ N F : K, N = (if c < 0 then -sqrt t.sqLength else sqrt t.sqLength) ∧ F = sqrt (t.sqLength + c * N) ∧
      eps < sqrt t.sqLength ∧ eps < F ∧ N ≠ 0 ∧ N * N = t.sqLength ∧ ((t + e.smul N).sdiv F).dot ((t + e.smul N).sdiv F) = 2 ∧
      reflect ((t + e.smul N).sdiv F) e = t.smul (-(1 / N)) := by
  obtain ⟨s1, s2⟩ := hsq _ hpos
  have hlt : ∀ x : K, 0 < x → eps * eps < x * x → eps < x := fun x hx h => by
    by_contra hn
    exact absurd h (not_lt.mpr (mul_self_le_mul_self hx.le (not_lt.mp hn)))
  set N := if c < 0 then -sqrt t.sqLength else sqrt t.sqLength with hN
  have hNN : N * N = t.sqLength := by
    rw [hN]; split <;> linarith
  have hN0 : N ≠ 0 := by rintro h; rw [h, zero_mul] at hNN; linarith
  have hcN : 0 ≤ c * N := by
    rw [hN]; split
    · rename_i h; nlinarith
    · rename_i h; exact mul_nonneg (not_lt.mp h) s1.le
  have hFpos : 0 < t.sqLength + c * N := by linarith
  obtain ⟨f1, f2⟩ := hsq _ hFpos
  obtain ⟨r1, r2⟩ := householder (F := sqrt (t.sqLength + c * N)) he hNN (by rw [f2, hc]) hN0 f1.ne'
  exact ⟨N, _, rfl, rfl, hlt _ s1 (by rw [s2]; exact hbig), hlt _ f1 (by rw [f2]; linarith), hN0, hNN, r1, r2⟩

theorem axis_unit (i : Nat) : (axis i : Vec3 K).dot (axis i) = 1 := by
  match i with
  | 0 => simp [axis, Vec3.dot]
  | 1 => simp [axis, Vec3.dot]
  | i + 2 => simp [axis, Vec3.dot]

/-- One vector. -/
theorem orth_one (hsq : IsSqrt sqrt) (h0 : 0 ≤ eps) {r : Vec3 K} (hpos : 0 < r.sqLength) (hbig : eps * eps < r.sqLength) :
    ∃ u : Vec3 K, orthonormalize sqrt eps 0 [] [r] = some [u] ∧ u.dot u = 2 ∧ ∃ N : K, N ≠ 0 ∧ N * N = r.sqLength ∧ reflect u (axis 0) = r.smul (-(1 / N)) := by
  obtain ⟨N, F, hN, hF, h1, h2, h3, h4, h5, h6⟩ := orth_step hsq h0 (axis_unit 0) hpos hbig (c := r.x) (by simp [axis, Vec3.dot])
  refine ⟨_, ?_, h5, N, h3, h4, h6⟩
  simp only [orthonormalize, List.foldl_nil, tailFrom, Vec3.coord, List.nil_append]
  rw [if_neg (not_not.mpr h1), ← hN, ← hF, if_neg (not_not.mpr h2)]

/-- Two vectors. -/
theorem orth_two (hsq : IsSqrt sqrt) (h0 : 0 ≤ eps) {r r' : Vec3 K} (hpos : 0 < r.sqLength) (hbig : eps * eps < r.sqLength)
    (hpos' : 0 < (r.cross r').sqLength) (hbig' : eps * eps * r.sqLength < (r.cross r').sqLength) :
    ∃ u v : Vec3 K, orthonormalize sqrt eps 0 [] [r, r'] = some [u, v] ∧ ∃ N M : K, N ≠ 0 ∧ N * N = r.sqLength ∧ M ≠ 0 ∧ M * M * r.sqLength = (r.cross r').sqLength ∧
      reflect u (reflect v (axis 0)) = r.smul (-(1 / N)) ∧
      reflect u (reflect v (axis 1)) = (r' - r.smul (r.dot r' / r.sqLength)).smul (-(1 / M)) := by
  obtain ⟨N, F, hN, hF, h1, h2, h3, h4, h5, h6⟩ := orth_step hsq h0 (axis_unit 0) hpos hbig (c := r.x) (by simp [axis, Vec3.dot])
  set u := (r + (axis 0).smul N).sdiv F with hu
  set row := reflect u r' with hrow
  have ht : tailFrom 1 row = row - (axis 0).smul row.x := by
    ext <;> simp [tailFrom, axis, Vec3.smul]
  have hrowx : row.x = -(r.dot r') / N := by
    have : row.x = (axis 0).dot row := by simp [axis, Vec3.dot]
    rw [this, hrow, dot_reflect, h6, dot_smul_left]; field_simp
  have hsq2 : row.sqLength = r'.sqLength := by
    rw [sqLength_dot, sqLength_dot, hrow, dot_reflect, reflect_reflect h5]
  have htlen : (tailFrom 1 row).sqLength = row.sqLength - row.x * row.x := by
    simp only [tailFrom, Vec3.sqLength]; ring
  have hM : (tailFrom 1 row).sqLength * r.sqLength = (r.cross r').sqLength := by
    rw [htlen, hsq2, hrowx, gram2, ← h4]
    field_simp
  have hpos1 : 0 < (tailFrom 1 row).sqLength := by
    rw [← hM] at hpos'
    exact pos_of_mul_pos_left hpos' hpos.le
  have hbig1 : eps * eps < (tailFrom 1 row).sqLength := by
    rw [← hM] at hbig'
    exact lt_of_mul_lt_mul_right hbig' hpos.le
  obtain ⟨M, G, hMd, hG, k1, k2, k3, k4, k5, k6⟩ := orth_step hsq h0 (axis_unit 1) hpos1 hbig1 (c := row.y) (by simp [axis, Vec3.dot, tailFrom])
  set v := (tailFrom 1 row + (axis 1).smul M).sdiv G with hv
  have hv0 : reflect v (axis 0) = axis 0 := by
    have : v.x = 0 := by rw [hv]; simp [tailFrom, axis, Vec3.smul, Vec3.sdiv]
    have hd : v.dot (axis 0) = 0 := by simp [axis, Vec3.dot, this]
    rw [reflect, hd]
    ext <;> simp [Vec3.smul]
  refine ⟨u, v, ?_, N, M, h3, h4, k3, by rw [k4]; exact hM, ?_, ?_⟩
  · simp only [orthonormalize, List.foldl_nil, tailFrom, Vec3.coord, List.nil_append, List.foldl_cons]
    rw [if_neg (not_not.mpr h1), ← hN, ← hF, if_neg (not_not.mpr h2), ← hu]
    change (if ¬ eps < sqrt (tailFrom 1 row).sqLength then none else if ¬ eps < sqrt ((tailFrom 1 row).sqLength + row.y *
      if row.y < 0 then -sqrt (tailFrom 1 row).sqLength else sqrt (tailFrom 1 row).sqLength) then none else some ([u] ++ [(tailFrom 1 row + (axis 1).smul
        (if row.y < 0 then -sqrt (tailFrom 1 row).sqLength else sqrt (tailFrom 1 row).sqLength)).sdiv (sqrt ((tailFrom 1 row).sqLength + row.y *
          if row.y < 0 then -sqrt (tailFrom 1 row).sqLength else sqrt (tailFrom 1 row).sqLength))])) = _
    rw [if_neg (not_not.mpr k1), ← hMd, ← hG, if_neg (not_not.mpr k2)]
    rfl
  · rw [hv0, h6]
  · rw [k6, reflect_smul, ht, reflect_combo, h6, hrow, reflect_reflect h5, ← hrow, hrowx]
    congr 1
    ext
    all_goals
      simp only [Vec3.smul, Vec3.sub_x, Vec3.sub_y, Vec3.sub_z]
      rw [← h4]
      field_simp

/-- The square of the distance from a line. -/
theorem off_line {r d : Vec3 K} {N : K} (hpos : 0 < r.sqLength) (hN : N ≠ 0) (hNN : N * N = r.sqLength) :
    (d + (r.smul (-(1 / N))).smul (-((r.smul (-(1 / N))).dot d))).sqLength = (r.cross d).sqLength / r.sqLength := by
  have hq : (r.smul (-(1 / N))).dot (r.smul (-(1 / N))) = 1 := by
    rw [dot_smul_left, dot_comm, dot_smul_left, ← sqLength_dot, ← hNN]; field_simp
  rw [off_one _ _ hq, dot_smul_left, gram2, eq_div_iff hpos.ne', ← hNN]
  field_simp

/-- The square of the distance from a plane. -/
theorem off_plane {r r' d : Vec3 K} {N M : K} (hpos : 0 < r.sqLength) (hpos' : 0 < (r.cross r').sqLength) (hN : N ≠ 0) (hNN : N * N = r.sqLength) (hM : M ≠ 0)
    (hMM : M * M * r.sqLength = (r.cross r').sqLength) :
    (d + (r.smul (-(1 / N))).smul (-((r.smul (-(1 / N))).dot d)) + ((r' - r.smul (r.dot r' / r.sqLength)).smul (-(1 / M))).smul
      (-(((r' - r.smul (r.dot r' / r.sqLength)).smul (-(1 / M))).dot d))).sqLength = det r r' d ^ 2 / (r.cross r').sqLength := by
  have hR : r.sqLength ≠ 0 := hpos.ne'
  set R := r.sqLength with hRd
  set w := r' - r.smul (r.dot r' / R) with hw
  have hwr : r.dot w = 0 := by
    rw [dot_comm, hw, dot_sub_left, dot_smul_left, ← sqLength_dot, ← hRd, dot_comm r' r]; field_simp; ring
  have hww : w.dot w = M * M := by
    have e1 : w.dot w = r'.dot w := by
      conv_lhs => rw [hw]
      rw [dot_sub_left, dot_smul_left, hwr]; ring
    rw [e1, dot_comm, hw, dot_sub_left, dot_smul_left, ← sqLength_dot]
    have := gram2 r r'
    rw [← hMM, ← hRd] at this
    have h2 : M * M = (R * r'.sqLength - r.dot r' ^ 2) / R := by rw [eq_div_iff hR]; exact this
    rw [h2]; field_simp
  have hq : (r.smul (-(1 / N))).dot (r.smul (-(1 / N))) = 1 := by
    rw [dot_smul_left, dot_comm, dot_smul_left, ← sqLength_dot, ← hRd, ← hNN]; field_simp
  have hr : (w.smul (-(1 / M))).dot (w.smul (-(1 / M))) = 1 := by
    rw [dot_smul_left, dot_comm, dot_smul_left, hww]; field_simp
  have hqr : (r.smul (-(1 / N))).dot (w.smul (-(1 / M))) = 0 := by
    rw [dot_smul_left, dot_comm, dot_smul_left, dot_comm, hwr]; ring
  have hwd : w.dot d = r'.dot d - r.dot r' / R * r.dot d := by rw [hw, dot_sub_left, dot_smul_left]
  have hX : (r.cross r').sqLength = R * r'.sqLength - r.dot r' ^ 2 := gram2 r r'
  rw [off_two _ _ _ hq hr hqr, dot_smul_left, dot_smul_left, hwd, eq_div_iff hpos'.ne', gram3, ← hRd]
  have hX' := hpos'.ne'
  have e1 : (-(1 / N) * r.dot d) ^ 2 = r.dot d ^ 2 / R := by rw [← hNN]; field_simp
  have e2 : (-(1 / M) * (r'.dot d - r.dot r' / R * r.dot d)) ^ 2 = (r'.dot d - r.dot r' / R * r.dot d) ^ 2 * R / (r.cross r').sqLength := by
    rw [← hMM]; field_simp
  rw [e1, e2]
  have : (d.sqLength - r.dot d ^ 2 / R - (r'.dot d - r.dot r' / R * r.dot d) ^ 2 * R / (r.cross r').sqLength) * (r.cross r').sqLength =
      (d.sqLength - r.dot d ^ 2 / R) * (r.cross r').sqLength - (r'.dot d - r.dot r' / R * r.dot d) ^ 2 * R := by
    field_simp
  rw [this, hX]
  field_simp
  ring

omit [IsStrictOrderedRing K] [Field K] in
theorem furthest_spec (d : Nat → K) : ∀ (l : List Nat) (m : K) (best : Option Nat),
    (furthest d l m best = best ∧ ∀ j ∈ l, d j ≤ m) ∨ ∃ i ∈ l, furthest d l m best = some i ∧ m < d i ∧ ∀ j ∈ l, d j ≤ d i
  | [], m, best => .inl ⟨rfl, by simp⟩
  | i :: rest, m, best => by
    rw [furthest]
    split
    · rename_i h
      rcases furthest_spec d rest (d i) (some i) with ⟨h1, h2⟩ | ⟨j, hj, h1, h2, h3⟩
      · exact .inr ⟨i, List.mem_cons_self, h1, h, fun j hj => by
          rcases List.mem_cons.mp hj with rfl | hj
          · exact le_refl _
          · exact h2 j hj⟩
      · exact .inr ⟨j, List.mem_cons_of_mem _ hj, h1, h.trans h2, fun k hk => by
          rcases List.mem_cons.mp hk with rfl | hk
          · exact h2.le
          · exact h3 k hk⟩
    · rename_i h
      rcases furthest_spec d rest m best with ⟨h1, h2⟩ | ⟨j, hj, h1, h2, h3⟩
      · exact .inl ⟨h1, fun j hj => by
          rcases List.mem_cons.mp hj with rfl | hj
          · exact not_lt.mp h
          · exact h2 j hj⟩
      · exact .inr ⟨j, List.mem_cons_of_mem _ hj, h1, h2, fun k hk => by
          rcases List.mem_cons.mp hk with rfl | hk
          · exact (not_lt.mp h).trans h2.le
          · exact h3 k hk⟩

/-- The step took the first of the points with the largest `d`, or found none with a positive `d`. -/
def Best (d : Nat → K) (basis outside : List Nat) (r : Option (List Nat × List Nat)) : Prop :=
  (r = none ∧ ∀ p ∈ outside, d p ≤ 0) ∨ ∃ i ∈ outside, r = some (basis ++ [i], outside.erase i) ∧ 0 < d i ∧ ∀ p ∈ outside, d p ≤ d i

theorem Best.of {P : Nat → Vec3 K} {basis outside : List Nat} {us : List (Vec3 K)}
    (ho : orthonormalize sqrt eps 0 [] (basis.dropLast.map fun i => P i - P (basis.getLastD 0)) = some us) {c : K} (hc : 0 < c) {d : Nat → K}
    (hd : ∀ p, offSubspace ((List.range us.length).map (qRow us)) (P (basis.getLastD 0)) (P p) = d p / c) :
    Best d basis outside (stealBest sqrt eps P basis outside) := by
  rw [stealBest]
  rw [ho]
  dsimp only
  have e : (fun i => offSubspace ((List.range us.length).map (qRow us)) (P (basis.getLastD 0)) (P i)) = fun i => d i / c := funext hd
  rw [e]
  rcases furthest_spec (fun i => d i / c) outside 0 none with ⟨h1, h2⟩ | ⟨i, hi, h1, h2, h3⟩
  · rw [h1]
    exact .inl ⟨rfl, fun p hp => by have := h2 p hp; rwa [div_le_iff₀ hc, zero_mul] at this⟩
  · rw [h1]
    refine .inr ⟨i, hi, rfl, ?_, fun p hp => ?_⟩
    · rwa [lt_div_iff₀ hc, zero_mul] at h2
    · exact (div_le_div_iff_of_pos_right hc).mp (h3 p hp)

variable {P : Nat → Vec3 K} {outside : List Nat}

theorem steal_one (a : Nat) : Best (fun p => (P p - P a).sqLength) [a] outside (stealBest sqrt eps P [a] outside) :=
  Best.of (us := []) rfl one_pos fun p => by
    rw [div_one]; rfl

omit [LinearOrder K] [IsStrictOrderedRing K] in
theorem normal_last (a b c : Vec3 K) : (a - c).cross (b - c) = normal a b c := by
  ext
  all_goals
    simp only [normal, Vec3.cross, Vec3.sub_x, Vec3.sub_y, Vec3.sub_z]
    ring

omit [LinearOrder K] [IsStrictOrderedRing K] in
theorem normal_mid (a b c : Vec3 K) : ((a - b).cross (c - b)).sqLength = (normal a b c).sqLength := by
  simp only [normal, Vec3.cross, Vec3.sqLength, Vec3.sub_x, Vec3.sub_y, Vec3.sub_z]
  ring

omit [LinearOrder K] [IsStrictOrderedRing K] in
theorem sqLength_sub_comm (a b : Vec3 K) : (a - b).sqLength = (b - a).sqLength := by
  simp only [Vec3.sqLength, Vec3.sub_x, Vec3.sub_y, Vec3.sub_z]; ring

theorem steal_two (hsq : IsSqrt sqrt) (h0 : 0 ≤ eps) {a b : Nat} (hpos : 0 < (P b - P a).sqLength) (hbig : eps * eps < (P b - P a).sqLength) :
    Best (fun p => (normal (P a) (P b) (P p)).sqLength) [a, b] outside (stealBest sqrt eps P [a, b] outside) := by
  rw [sqLength_sub_comm] at hpos hbig
  obtain ⟨u, hu, -, N, hN, hNN, hr⟩ := orth_one hsq h0 hpos hbig
  refine Best.of (us := [u]) hu hpos fun p => ?_
  rw [← normal_mid]
  refine Eq.trans ?_ (off_line (d := P p - P b) hpos hN hNN)
  show (P p - P b + (reflect u (axis 0)).smul (-((reflect u (axis 0)).dot (P p - P b)))).sqLength = _
  rw [hr]

theorem steal_three (hsq : IsSqrt sqrt) (h0 : 0 ≤ eps) {a b c : Nat} (hpos : 0 < (P c - P a).sqLength) (hbig : eps * eps < (P c - P a).sqLength)
    (hpos' : 0 < (normal (P a) (P b) (P c)).sqLength) (hbig' : eps * eps * (P c - P a).sqLength < (normal (P a) (P b) (P c)).sqLength) :
    Best (fun p => orient (P a) (P b) (P c) (P p) ^ 2) [a, b, c] outside (stealBest sqrt eps P [a, b, c] outside) := by
  rw [sqLength_sub_comm] at hpos hbig hbig'
  rw [← normal_last] at hpos' hbig'
  obtain ⟨u, v, hu, N, M, hN, hNN, hM, hMM, hr, hr'⟩ := orth_two hsq h0 hpos hbig hpos' hbig'
  refine Best.of (us := [u, v]) hu hpos' fun p => ?_
  have e : orient (P a) (P b) (P c) (P p) ^ 2 = det (P a - P c) (P b - P c) (P p - P c) ^ 2 := by
    simp only [orient, det, Vec3.dot, Vec3.cross, Vec3.sub_x, Vec3.sub_y, Vec3.sub_z]; ring
  rw [e]
  refine Eq.trans ?_ (off_plane (d := P p - P c) hpos hpos' hN hNN hM hMM)
  show (P p - P c + (reflect u (reflect v (axis 0))).smul (-((reflect u (reflect v (axis 0))).dot (P p - P c))) +
    (reflect u (reflect v (axis 1))).smul (-((reflect u (reflect v (axis 1))).dot (P p - P c)))).sqLength = _
  rw [hr, hr']

theorem IsInt.one_le {x : K} (hx : IsInt x) (h : 0 < x) : 1 ≤ x := by
  have := hx.one_le_abs h.ne'
  rwa [abs_of_pos h] at this

omit [LinearOrder K] [IsStrictOrderedRing K] in
theorem sqLength_int {x : Vec3 K} (h : IsInt x.x ∧ IsInt x.y ∧ IsInt x.z) : IsInt x.sqLength :=
  ((h.1.mul h.1).add (h.2.1.mul h.2.1)).add (h.2.2.mul h.2.2)

omit [LinearOrder K] [IsStrictOrderedRing K] in
theorem sub_int {x y : Vec3 K} (h : IsInt x.x ∧ IsInt x.y ∧ IsInt x.z) (h' : IsInt y.x ∧ IsInt y.y ∧ IsInt y.z) :
    IsInt (x - y).x ∧ IsInt (x - y).y ∧ IsInt (x - y).z := by
  simp only [Vec3.sub_x, Vec3.sub_y, Vec3.sub_z]
  exact ⟨h.1.sub h'.1, h.2.1.sub h'.2.1, h.2.2.sub h'.2.2⟩

omit [LinearOrder K] [IsStrictOrderedRing K] in
theorem cross_int {x y : Vec3 K} (h : IsInt x.x ∧ IsInt x.y ∧ IsInt x.z) (h' : IsInt y.x ∧ IsInt y.y ∧ IsInt y.z) :
    IsInt (x.cross y).x ∧ IsInt (x.cross y).y ∧ IsInt (x.cross y).z :=
  ⟨(h.2.1.mul h'.2.2).sub (h.2.2.mul h'.2.1), (h.2.2.mul h'.1).sub (h.1.mul h'.2.2), (h.1.mul h'.2.1).sub (h.2.1.mul h'.1)⟩

theorem diff_bound {B : K} {a b : Vec3 K} (ha : Grid B a) (hb : Grid B b) : (a - b).sqLength ≤ 12 * B ^ 2 := by
  have key : ∀ x y : K, |x| ≤ B → |y| ≤ B → (x - y) * (x - y) ≤ 4 * B ^ 2 := by
    intro x y hx hy
    obtain ⟨h1, h2⟩ := abs_le.mp hx
    obtain ⟨h3, h4⟩ := abs_le.mp hy
    nlinarith
  simp only [Vec3.sqLength, Vec3.sub_x, Vec3.sub_y, Vec3.sub_z]
  have := key _ _ ha.bx hb.bx
  have := key _ _ ha.yb hb.yb
  have := key _ _ ha.bz hb.bz
  linarith

theorem sqLength_pos_of_le {a b : Vec3 K} (h : 0 < a.sqLength) (hab : a.sqLength ≤ b.sqLength) : 0 < b.sqLength := lt_of_lt_of_le h hab

/-- The points that were chosen. -/
inductive Chosen (P : Nat → Vec3 K) (l : List Nat) : List Nat → Prop
  | none : l = [] → Chosen P l []
  | one (a) : (∀ p ∈ l, (P p - P a).sqLength ≤ 0) → Chosen P l [a]
  | two (a b) : 0 < (P b - P a).sqLength → (∀ p ∈ l, (P p - P a).sqLength ≤ (P b - P a).sqLength) → (∀ p ∈ l, (normal (P a) (P b) (P p)).sqLength ≤ 0) → Chosen P l [a, b]
  | three (a b c) : 0 < (normal (P a) (P b) (P c)).sqLength → (∀ p ∈ l, (P p - P a).sqLength ≤ (P b - P a).sqLength) →
      (∀ p ∈ l, (normal (P a) (P b) (P p)).sqLength ≤ (normal (P a) (P b) (P c)).sqLength) → (∀ p ∈ l, orient (P a) (P b) (P c) (P p) ^ 2 ≤ 0) → Chosen P l [a, b, c]
  | four (a b c d) : 0 < orient (P a) (P b) (P c) (P d) ^ 2 → (∀ p ∈ l, (P p - P a).sqLength ≤ (P b - P a).sqLength) →
      (∀ p ∈ l, (normal (P a) (P b) (P p)).sqLength ≤ (normal (P a) (P b) (P c)).sqLength) →
      (∀ p ∈ l, orient (P a) (P b) (P c) (P p) ^ 2 ≤ orient (P a) (P b) (P c) (P d) ^ 2) → Chosen P l [a, b, c, d]

theorem affineBasis_spec {B : K} (hsq : IsSqrt sqrt) (h0 : 0 ≤ eps) (hB : 1 ≤ B) (hs : eps * (14 * B ^ 2) < 1) (l : List Nat) (hg : ∀ p ∈ l, Grid B (P p)) :
    ((affineBasis sqrt eps P l).1 ++ (affineBasis sqrt eps P l).2).Perm l ∧ (affineBasis sqrt eps P l).1.head? = l.head? ∧
      Chosen P l (affineBasis sqrt eps P l).1 := by
  match l with
  | [] => exact ⟨List.Perm.refl _, rfl, .none rfl⟩
  | a :: rest =>
    have hB2 : (1 : K) ≤ B ^ 2 := by nlinarith
    have he1 : eps < 1 := by nlinarith
    have he2 : eps * eps < 1 := by nlinarith
    have he3 : eps * eps * (12 * B ^ 2) < 1 := by
      have : eps * (12 * B ^ 2) < 1 := by nlinarith
      have h2 : 0 ≤ eps * (12 * B ^ 2) := mul_nonneg h0 (by positivity)
      nlinarith
    have ga := hg a List.mem_cons_self
    have z1 : (P a - P a).sqLength = 0 := by simp [Vec3.sqLength]
    have z2 : ∀ b, (normal (P a) b (P a)).sqLength = 0 := fun b => by simp [normal, Vec3.cross, Vec3.sqLength]
    have z3 : ∀ b, (normal (P a) b b).sqLength = 0 := fun b => by simp only [normal, Vec3.cross, Vec3.sqLength]; ring
    have z4 : ∀ b c, orient (P a) b c (P a) ^ 2 = 0 := fun b c => by simp only [orient]; ring
    have z5 : ∀ b c, orient (P a) b c b ^ 2 = 0 := fun b c => by simp only [orient]; ring
    have z6 : ∀ b c, orient (P a) b c c ^ 2 = 0 := fun b c => by simp only [orient]; ring
    rw [affineBasis, growBasis]
    rcases steal_one (sqrt := sqrt) (eps := eps) (P := P) (outside := rest) a with ⟨h1, h2⟩ | ⟨b, hb, h1, h2, h3⟩
    · rw [h1]
      refine ⟨List.Perm.refl _, rfl, .one a fun p hp => ?_⟩
      rcases List.mem_cons.mp hp with rfl | hp
      · rw [z1]
      · exact h2 p hp
    rw [h1]
    dsimp only at h2 h3 ⊢
    have gb := hg b (List.mem_cons_of_mem _ hb)
    have p1 : rest.Perm (b :: rest.erase b) := List.perm_cons_erase hb
    have m1 : ∀ p ∈ a :: rest, (P p - P a).sqLength ≤ (P b - P a).sqLength := fun p hp => by
      rcases List.mem_cons.mp hp with rfl | hp
      · rw [z1]; exact h2.le
      · exact h3 p hp
    have i1 : 1 ≤ (P b - P a).sqLength := (sqLength_int (sub_int gb.int ga.int)).one_le h2
    rw [growBasis]
    rcases steal_two (outside := rest.erase b) hsq h0 h2 (lt_of_lt_of_le he2 i1) with ⟨k1, k2⟩ | ⟨c, hc, k1, k2, k3⟩
    · rw [List.singleton_append, k1]
      refine ⟨(p1.symm).cons a, rfl, .two a b h2 m1 fun p hp => ?_⟩
      rcases List.mem_cons.mp (((p1.cons a).mem_iff).mp hp) with rfl | hp
      · rw [z2]
      rcases List.mem_cons.mp hp with rfl | hp
      · rw [z3]
      · exact k2 p hp
    rw [List.singleton_append, k1]
    dsimp only at k2 k3 ⊢
    have gc : Grid B (P c) := hg c (List.mem_cons_of_mem _ (List.mem_of_mem_erase hc))
    have p2 : (rest.erase b).Perm (c :: (rest.erase b).erase c) := List.perm_cons_erase hc
    have m2 : ∀ p ∈ a :: rest, (normal (P a) (P b) (P p)).sqLength ≤ (normal (P a) (P b) (P c)).sqLength := fun p hp => by
      rcases List.mem_cons.mp (((p1.cons a).mem_iff).mp hp) with rfl | hp
      · rw [z2]; exact k2.le
      rcases List.mem_cons.mp hp with rfl | hp
      · rw [z3]; exact k2.le
      · exact k3 p hp
    have i2 : 1 ≤ (normal (P a) (P b) (P c)).sqLength := (sqLength_int (cross_int (sub_int gb.int ga.int) (sub_int gc.int ga.int))).one_le k2
    have hpc : 0 < (P c - P a).sqLength := by
      refine lt_of_le_of_ne (sqLength_nonneg _) fun e => k2.ne' ?_
      have hx : ∀ x y z : K, 0 = x * x + y * y + z * z → x = 0 ∧ y = 0 ∧ z = 0 := by
        intro x y z h
        refine ⟨?_, ?_, ?_⟩ <;> nlinarith [mul_self_nonneg x, mul_self_nonneg y, mul_self_nonneg z]
      obtain ⟨e1, e2, e3⟩ := hx _ _ _ e
      simp only [normal, Vec3.cross, Vec3.sqLength, e1, e2, e3]; ring
    have i3 : 1 ≤ (P c - P a).sqLength := (sqLength_int (sub_int gc.int ga.int)).one_le hpc
    have b3 : eps * eps * (P c - P a).sqLength < (normal (P a) (P b) (P c)).sqLength := by
      have := diff_bound gc ga
      have h4 : eps * eps * (P c - P a).sqLength ≤ eps * eps * (12 * B ^ 2) := mul_le_mul_of_nonneg_left this (mul_self_nonneg _)
      linarith
    rw [growBasis]
    rcases steal_three (outside := (rest.erase b).erase c) hsq h0 hpc (lt_of_lt_of_le he2 i3) k2 b3 with ⟨q1, q2⟩ | ⟨d, hd, q1, q2, q3⟩
    · rw [show [a, b] ++ [c] = [a, b, c] from rfl, q1]
      refine ⟨(((p2.symm).cons b).trans p1.symm).cons a, rfl, .three a b c k2 m1 m2 fun p hp => ?_⟩
      rcases List.mem_cons.mp (((p1.cons a).mem_iff).mp hp) with rfl | hp
      · rw [z4]
      rcases List.mem_cons.mp hp with rfl | hp
      · rw [z5]
      rcases List.mem_cons.mp ((p2.mem_iff).mp hp) with rfl | hp
      · rw [z6]
      · exact q2 p hp
    rw [show [a, b] ++ [c] = [a, b, c] from rfl, q1]
    dsimp only at q2 q3 ⊢
    have p3 : ((rest.erase b).erase c).Perm (d :: ((rest.erase b).erase c).erase d) := List.perm_cons_erase hd
    rw [growBasis]
    refine ⟨((((p3.symm).cons c).trans p2.symm).cons b |>.trans p1.symm).cons a, rfl, .four a b c d q2 m1 m2 fun p hp => ?_⟩
    rcases List.mem_cons.mp (((p1.cons a).mem_iff).mp hp) with rfl | hp
    · rw [z4]; exact q2.le
    rcases List.mem_cons.mp hp with rfl | hp
    · rw [z5]; exact q2.le
    rcases List.mem_cons.mp ((p2.mem_iff).mp hp) with rfl | hp
    · rw [z6]; exact q2.le
    · exact q3 p hp

end Cmm.Quick
