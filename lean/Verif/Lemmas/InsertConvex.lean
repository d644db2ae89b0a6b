import Verif.Props.Surface
import Verif.Lemmas.Csx
import Verif.Spec.Decompose
/-!
Knot insertion and splitting take convex combinations of control points: a set of homogeneous control points that is closed under convex
combinations is kept.
-/
namespace Cmm.Nurbs
variable {K : Type} [Field K] [LinearOrder K] [IsStrictOrderedRing K]

/-- Closed under convex combinations of two elements. -/
def LerpClosed (C : Vec4 K → Prop) : Prop := ∀ α a b, 0 ≤ α → α ≤ 1 → C a → C b → C (lerp4 α a b)

theorem tri_closed {C : Vec4 K → Prop} (hC : LerpClosed C) {p k : Nat} {U : Nat → K} {u : K} {P : Nat → Vec4 K}
    (hU : ∀ a b, a ≤ b → b ≤ k + p → U a ≤ U b) (h1 : U k ≤ u) (h2 : u ≤ U (k + 1)) (hP : ∀ r, r ≤ k → C (P r)) (j : Nat) :
    ∀ m, j ≤ p → m ≤ k → k + j ≤ m + p → C (tri lerp4 p U u P j m) := by
  induction j with
  | zero => intro m _ h _; exact hP m h
  | succ j ih =>
    intro m hj hm hk
    have l1 : U m ≤ u := le_trans (hU m k hm (by omega)) h1
    have l2 : u ≤ U (m + p - j) := le_trans h2 (hU (k + 1) (m + p - j) (by omega) (by omega))
    refine hC _ _ _ (div_nonneg (sub_nonneg.2 l1) (sub_nonneg.2 (le_trans l1 l2)))
      (div_le_one_of_le₀ (by linarith) (sub_nonneg.2 (le_trans l1 l2))) (ih m (by omega) hm (by omega)) (ih (m - 1) (by omega) (by omega) (by omega))

theorem insArray_closed {C : Vec4 K → Prop} (hC : LerpClosed C) {p k num s n : Nat} {U : Nat → K} {u : K} {P init : Nat → Vec4 K}
    (hp : p ≤ k) (hs : num + s ≤ p) (hkn : k < n) (hU : ∀ a b, a ≤ b → b ≤ k + p → U a ≤ U b) (h1 : U k ≤ u) (h2 : u ≤ U (k + 1))
    (hP : ∀ r, r < n → C (P r)) (M : Nat) (hM : M < n + num) : C (insArray lerp4 p U P u num s k init M) := by
  have hT := tri_closed hC hU h1 h2 (fun r hr => hP r (by omega))
  rw [insArray_spec lerp4 hp hs]
  split
  · exact hP _ (by omega)
  split
  · exact hT _ _ (by omega) (by omega) (by omega)
  split
  · exact hT _ _ (by omega) (by omega) (by omega)
  split
  · exact hT _ _ (by omega) (by omega) (by omega)
  · exact hP _ (by omega)

/-- Every control point belongs to `C`. -/
def NetIn (C : Vec4 K → Prop) (s : Surface K) : Prop := ∀ r ∈ s.cpts, ∀ q ∈ r, C q

theorem NetIn.cell {C : Vec4 K → Prop} {s : Surface K} (S : ValidSurface s) (h : NetIn C s) {i j : Nat} (hi : i < s.su) (hj : j < s.sv) :
    C (cell s.cpts i j) := by
  have h1 : i < s.cpts.length := by rw [S.rows]; exact hi
  have h2 : j < s.cpts[i].length := by rw [S.cols _ (List.getElem_mem h1)]; exact hj
  have e : Nurbs.cell s.cpts i j = s.cpts[i][j] := by
    unfold Nurbs.cell ix
    simp [List.getD_eq_getElem?_getD, h1, h2]
  rw [e]
  exact h _ (List.getElem_mem h1) _ (List.getElem_mem h2)

theorem knots_mono {n p k : Nat} {U : List K} (V : ValidKnots n p U) (hk : k < n) : ∀ a b, a ≤ b → b ≤ k + p → ix U a ≤ ix U b := by
  intro a b h1 h2
  exact V.mono a b h1 (by have := V.len; omega)

theorem insRowsU_closed {C : Vec4 K → Prop} (hC : LerpClosed C) {s : Surface K} (S : ValidSurface s) (h : NetIn C s) {t : K} {count m k : Nat}
    (hp : s.du ≤ k) (hk : k < s.su) (hm : count + m ≤ s.du) (h1 : ix s.ku k ≤ t) (h2 : t ≤ ix s.ku (k + 1)) :
    ∀ r ∈ insRowsU s t count m k, ∀ q ∈ r, C q := by
  intro r hr q hq
  unfold insRowsU at hr
  obtain ⟨i, hi, rfl⟩ := List.mem_map.1 hr
  obtain ⟨j, hj, rfl⟩ := List.mem_map.1 hq
  rw [List.mem_range] at hi hj
  exact insArray_closed hC hp hm hk (knots_mono S.knots_u hk) h1 h2 (fun r hr => h.cell S hr hj) _ hi

theorem insRowsV_closed {C : Vec4 K → Prop} (hC : LerpClosed C) {s : Surface K} (S : ValidSurface s) (h : NetIn C s) {t : K} {count m k : Nat}
    (hp : s.dv ≤ k) (hk : k < s.sv) (hm : count + m ≤ s.dv) (h1 : ix s.kv k ≤ t) (h2 : t ≤ ix s.kv (k + 1)) :
    ∀ r ∈ insRowsV s t count m k, ∀ q ∈ r, C q := by
  intro r hr q hq
  unfold insRowsV at hr
  obtain ⟨row, hrow, rfl⟩ := List.mem_map.1 hr
  obtain ⟨j, hj, rfl⟩ := List.mem_map.1 hq
  rw [List.mem_range] at hj
  refine insArray_closed hC hp hm hk (knots_mono S.knots_v hk) h1 h2 (fun r hr => h row hrow _ ?_) _ hj
  have : r < row.length := by rw [S.cols row hrow]; exact hr
  unfold ix
  simp [List.getD_eq_getElem?_getD, this]

theorem make_cpts {cpts : List (List (Vec4 K))} {du dv : Nat} {ku kv : List K} {s : Surface K} (h : Surface.make cpts du dv ku kv = .ok s) :
    s.cpts = cpts := by
  unfold Surface.make at h
  match cpts, h with
  | (a :: r) :: rest, h =>
    have key : ∀ t : Surface K, t.updateInterval = .ok s → s.cpts = t.cpts := by
      intro t h
      unfold Surface.updateInterval at h
      obtain ⟨iu, _, h⟩ := Csx.ok_of_bind h
      obtain ⟨iv, _, h⟩ := Csx.ok_of_bind h
      cases h
      rfl
    dsimp only at h
    split at h <;>
    · obtain ⟨ku', _, h⟩ := Csx.ok_of_bind h
      split at h <;>
      · obtain ⟨kv', _, h⟩ := Csx.ok_of_bind h
        exact key _ h

theorem splitU_closed {C : Vec4 K → Prop} (hC : LerpClosed C) {s : Surface K} (S : ValidSurface s) (h : NetIn C s) {t tol : K}
    (h1 : ix s.ku s.du < t) (h2 : t < ix s.ku s.su) (hsep : ClearOf (1 / 10 ^ 12) s.ku t) (hc : s.ku.count t ≤ s.du)
    {a b : Surface K} (e : s.splitU t tol = .ok (a, b)) : NetIn C a ∧ NetIn C b := by
  obtain ⟨k, m, hk, hm, hpk, hkn, k1, k2, _⟩ := S.knots_u.insertion (le_of_lt h1) h2 hsep
  have hcnt := findMultiplicity_eq_count hsep
  have hmc : m = s.ku.count t := by rw [← hm, hcnt]
  have hins := insertKnotU_ok S hk hpk hkn (count := s.du - m) (by rw [hm]; omega)
  rw [hm] at hins
  unfold Surface.splitU at e
  split at e
  · cases e
  · simp only [hm] at e
    rw [if_neg (by omega), hins, Res.ok_bind] at e
    simp only at e
    obtain ⟨s1, e1, e⟩ := Csx.ok_of_bind e
    obtain ⟨s2, e2, e⟩ := Csx.ok_of_bind e
    cases e
    have hQ := insRowsU_closed hC S h (count := s.du - m) (m := m) hpk hkn (by omega) k1 (le_of_lt k2)
    unfold NetIn
    rw [make_cpts e1, make_cpts e2]
    exact ⟨fun r hr => hQ r (List.mem_of_mem_take hr), fun r hr => hQ r (List.mem_of_mem_drop hr)⟩

theorem splitV_closed {C : Vec4 K → Prop} (hC : LerpClosed C) {s : Surface K} (S : ValidSurface s) (h : NetIn C s) {t tol : K}
    (h1 : ix s.kv s.dv < t) (h2 : t < ix s.kv s.sv) (hsep : ClearOf (1 / 10 ^ 12) s.kv t) (hc : s.kv.count t ≤ s.dv)
    {a b : Surface K} (e : s.splitV t tol = .ok (a, b)) : NetIn C a ∧ NetIn C b := by
  obtain ⟨k, m, hk, hm, hpk, hkn, k1, k2, _⟩ := S.knots_v.insertion (le_of_lt h1) h2 hsep
  have hcnt := findMultiplicity_eq_count hsep
  have hmc : m = s.kv.count t := by rw [← hm, hcnt]
  obtain ⟨v0, v1, hins, _⟩ := insertKnotV_ok S hk hpk hkn (count := s.dv - m) (by rw [hm]; omega)
  rw [hm] at hins
  unfold Surface.splitV at e
  split at e
  · cases e
  · simp only [hm] at e
    rw [if_neg (by omega), hins, Res.ok_bind] at e
    simp only at e
    split at e
    · cases e
    obtain ⟨s1, e1, e⟩ := Csx.ok_of_bind e
    obtain ⟨s2, e2, e⟩ := Csx.ok_of_bind e
    cases e
    have hQ := insRowsV_closed hC S h (count := s.dv - m) (m := m) hpk hkn (by omega) k1 (le_of_lt k2)
    unfold NetIn
    rw [make_cpts e1, make_cpts e2]
    refine ⟨fun r hr q hq => ?_, fun r hr q hq => ?_⟩
    · obtain ⟨r', hr', rfl⟩ := List.mem_map.1 hr
      exact hQ r' (List.mem_of_mem_take hr') q (List.mem_of_mem_take hq)
    · obtain ⟨r', hr', rfl⟩ := List.mem_map.1 hr
      exact hQ r' (List.mem_of_mem_take hr') q (List.mem_of_mem_drop hq)

/-- Positive weights and, after division by the weight, in the box. -/
def InBoxW (b : AABB K) (q : Vec4 K) : Prop := 0 < q.w ∧ InBox q.toVec3 b

theorem lerpClosed_pos : LerpClosed (fun q : Vec4 K => 0 < q.w) := by
  intro α a b h0 h1 ha hb
  have e : (lerp4 α a b).w = α * a.w + (1 - α) * b.w := by simp [lerp4]; ring
  show 0 < (lerp4 α a b).w
  rw [e]
  rcases eq_or_lt_of_le h0 with h | h
  · rw [← h]; simpa using hb
  · have := mul_pos h ha
    have := mul_nonneg (sub_nonneg.2 h1) (le_of_lt hb)
    linarith

theorem lerpClosed_unit : LerpClosed (fun q : Vec4 K => q.w = 1) := by
  intro α a b _ _ ha hb
  show (lerp4 α a b).w = 1
  have e : (lerp4 α a b).w = α * a.w + (1 - α) * b.w := by simp [lerp4]; ring
  rw [e, ha, hb]; ring

theorem lerpClosed_box (B : AABB K) : LerpClosed (InBoxW B) := by
  intro α a b h0 h1 ha hb
  have hw := lerpClosed_pos α a b h0 h1 ha.1 hb.1
  refine ⟨hw, ?_⟩
  have key : ∀ (x y lo hi : K), lo ≤ x / a.w → x / a.w ≤ hi → lo ≤ y / b.w → y / b.w ≤ hi →
      lo ≤ (α * x + (1 - α) * y) / (lerp4 α a b).w ∧ (α * x + (1 - α) * y) / (lerp4 α a b).w ≤ hi := by
    intro x y lo hi l1 l2 l3 l4
    have e : (lerp4 α a b).w = α * a.w + (1 - α) * b.w := by simp [lerp4]; ring
    rw [le_div_iff₀ ha.1] at l1
    rw [div_le_iff₀ ha.1] at l2
    rw [le_div_iff₀ hb.1] at l3
    rw [div_le_iff₀ hb.1] at l4
    rw [le_div_iff₀ hw, div_le_iff₀ hw, e]
    have m1 := mul_le_mul_of_nonneg_left l1 h0
    have m2 := mul_le_mul_of_nonneg_left l2 h0
    have m3 := mul_le_mul_of_nonneg_left l3 (sub_nonneg.2 h1)
    have m4 := mul_le_mul_of_nonneg_left l4 (sub_nonneg.2 h1)
    constructor <;> linarith
  obtain ⟨_, a1, a2, a3, a4, a5, a6⟩ := ha
  obtain ⟨_, b1, b2, b3, b4, b5, b6⟩ := hb
  have ex : (lerp4 α a b).x = α * a.x + (1 - α) * b.x := by simp [lerp4]; ring
  have ey : (lerp4 α a b).y = α * a.y + (1 - α) * b.y := by simp [lerp4]; ring
  have ez : (lerp4 α a b).z = α * a.z + (1 - α) * b.z := by simp [lerp4]; ring
  have kx := key _ _ _ _ a1 a2 b1 b2
  have ky := key _ _ _ _ a3 a4 b3 b4
  have kz := key _ _ _ _ a5 a6 b5 b6
  rw [← ex] at kx
  rw [← ey] at ky
  rw [← ez] at kz
  exact ⟨kx.1, kx.2, ky.1, ky.2, kz.1, kz.2⟩

omit [IsStrictOrderedRing K] in
theorem NetKept.refl (s : Surface K) : NetKept s s := fun h => ⟨h, fun _ hb => hb, fun h => h⟩

omit [IsStrictOrderedRing K] in
theorem NetKept.trans {s q r : Surface K} (h : NetKept s q) (g : NetKept q r) : NetKept s r := fun hs =>
  ⟨(g (h hs).1).1, fun b hb => (g (h hs).1).2.1 b ((h hs).2.1 b hb), fun hu => (g (h hs).1).2.2 ((h hs).2.2 hu)⟩

theorem netKept_of_closed {s q : Surface K} (h : ∀ C : Vec4 K → Prop, LerpClosed C → NetIn C s → NetIn C q) : NetKept s q := by
  intro hs
  refine ⟨h _ lerpClosed_pos hs, fun b hb r hr p hp => ?_, h _ lerpClosed_unit⟩
  exact (h _ (lerpClosed_box b) (fun r hr p hp => ⟨hs r hr p hp, hb r hr p hp⟩) r hr p hp).2

theorem splitU_kept {s : Surface K} (S : ValidSurface s) {t tol : K}
    (h1 : ix s.ku s.du < t) (h2 : t < ix s.ku s.su) (hsep : ClearOf (1 / 10 ^ 12) s.ku t) (hc : s.ku.count t ≤ s.du)
    {a b : Surface K} (e : s.splitU t tol = .ok (a, b)) : NetKept s a ∧ NetKept s b :=
  ⟨netKept_of_closed fun _ hC h => (splitU_closed hC S h h1 h2 hsep hc e).1, netKept_of_closed fun _ hC h => (splitU_closed hC S h h1 h2 hsep hc e).2⟩

theorem splitV_kept {s : Surface K} (S : ValidSurface s) {t tol : K}
    (h1 : ix s.kv s.dv < t) (h2 : t < ix s.kv s.sv) (hsep : ClearOf (1 / 10 ^ 12) s.kv t) (hc : s.kv.count t ≤ s.dv)
    {a b : Surface K} (e : s.splitV t tol = .ok (a, b)) : NetKept s a ∧ NetKept s b :=
  ⟨netKept_of_closed fun _ hC h => (splitV_closed hC S h h1 h2 hsep hc e).1, netKept_of_closed fun _ hC h => (splitV_closed hC S h h1 h2 hsep hc e).2⟩

end Cmm.Nurbs
