import Verif.Lemmas.Ccx
/-! Halving Bézier curves: the steps of the control polygon halve. -/
namespace Cmm.Ccx
open Cmm.Nurbs
variable {K : Type} [Field K] [LinearOrder K] [IsStrictOrderedRing K]

omit [LinearOrder K] [IsStrictOrderedRing K] in
theorem ix_bezier {p : Nat} {lo hi : K} (i : Nat) (hi' : i < 2 * (p + 1)) :
    ix (List.replicate (p + 1) lo ++ List.replicate (p + 1) hi) i = if i ≤ p then lo else hi := by
  unfold ix
  rw [List.getD_eq_getElem?_getD, List.getElem?_append]
  simp only [List.length_replicate]
  by_cases h : i ≤ p
  · rw [if_pos (by omega), if_pos h, List.getElem?_replicate, if_pos (by omega)]; rfl
  · rw [if_neg (by omega), if_neg h, List.getElem?_replicate, if_pos (by omega)]; rfl

/-- The triangle of a Bézier curve at the middle is that of de Casteljau. -/
theorem tri_bezier {p : Nat} {U P : Nat → K} {lo hi u : K} (hlt : lo < hi) (hu : u = (hi - lo) * (1 / 2) + lo)
    (hU : ∀ i, i < 2 * (p + 1) → U i = if i ≤ p then lo else hi) (j m : Nat) (hjm : j < m) (hm : m ≤ p) :
    tri lerp1 p U u P (j + 1) m = (tri lerp1 p U u P j m + tri lerp1 p U u P j (m - 1)) / 2 := by
  rw [tri, hU m (by omega), if_pos hm, hU (m + p - j) (by omega), if_neg (by omega), hu]
  have : hi - lo ≠ 0 := by linarith [sub_pos.2 hlt] |> fun h : 0 < hi - lo => ne_of_gt h
  have e : ((hi - lo) * (1 / 2) + lo - lo) / (hi - lo) = 1 / 2 := by field_simp; ring
  rw [e, lerp1]; ring

theorem tri_steps {p : Nat} {U P : Nat → K} {lo hi u d : K} (hlt : lo < hi) (hu : u = (hi - lo) * (1 / 2) + lo)
    (hU : ∀ i, i < 2 * (p + 1) → U i = if i ≤ p then lo else hi) (hP : ∀ i, i + 1 ≤ p → |P (i + 1) - P i| ≤ d) :
    ∀ j m, j ≤ m → m + 1 ≤ p → |tri lerp1 p U u P j (m + 1) - tri lerp1 p U u P j m| ≤ d := by
  intro j
  induction j with
  | zero => intro m _ hm; simp only [tri]; exact hP m hm
  | succ j ih =>
    intro m hjm hm
    rw [tri_bezier hlt hu hU j (m + 1) (by omega) hm, tri_bezier hlt hu hU j m (by omega) (by omega)]
    have h1 := ih m (by omega) hm
    have h2 := ih (m - 1) (by omega) (by omega)
    rw [show m - 1 + 1 = m by omega] at h2
    rw [show m + 1 - 1 = m by omega]
    rw [abs_le] at *
    constructor <;> linarith [h1.1, h1.2, h2.1, h2.2]

theorem ins_steps {p : Nat} {U P : Nat → K} {lo hi u d : K} (init : Nat → K) (hlt : lo < hi) (hu : u = (hi - lo) * (1 / 2) + lo)
    (hU : ∀ i, i < 2 * (p + 1) → U i = if i ≤ p then lo else hi) (hP : ∀ i, i + 1 ≤ p → |P (i + 1) - P i| ≤ d) (x : Nat) (hx : x + 1 ≤ 2 * p) :
    |insArray lerp1 p U P u p 0 p init (x + 1) - insArray lerp1 p U P u p 0 p init x| ≤ d / 2 := by
  have e : ∀ M, M ≤ 2 * p → insArray lerp1 p U P u p 0 p init M = if M ≤ p then tri lerp1 p U u P M M else tri lerp1 p U u P (2 * p - M) p := by
    intro M hM
    rw [insArray_spec lerp1 (le_refl p) (by omega)]
    by_cases h0 : M = 0
    · subst h0; rw [if_pos (by omega), if_pos (by omega)]; rfl
    · rw [if_neg (by omega)]
      by_cases h1 : M ≤ p
      · rw [if_pos (by omega), if_pos h1, show M - (p - p) = M by omega]
      · rw [if_neg (by omega), if_neg h1, if_neg (by omega)]
        by_cases h2 : M < 2 * p
        · rw [if_pos (by omega), show p - 0 + p - M = 2 * p - M by omega, show p - 0 = p by omega]
        · rw [if_neg (by omega), show M - p = p by omega, show 2 * p - M = 0 by omega]; rfl
  have st := tri_steps hlt hu hU hP
  rw [e _ hx, e _ (by omega)]
  by_cases h1 : x + 1 ≤ p
  · rw [if_pos h1, if_pos (by omega), tri_bezier hlt hu hU x (x + 1) (by omega) h1, show x + 1 - 1 = x by omega]
    have := st x x (le_refl _) h1
    rw [abs_le] at *
    constructor <;> linarith [this.1, this.2]
  · rw [if_neg h1]
    obtain ⟨j, hj⟩ : ∃ j, 2 * p - x = j + 1 := ⟨2 * p - x - 1, by omega⟩
    have hx' : (if x ≤ p then tri lerp1 p U u P x x else tri lerp1 p U u P (2 * p - x) p) = tri lerp1 p U u P (j + 1) p := by
      by_cases h2 : x ≤ p
      · rw [if_pos h2, show x = p by omega, show j + 1 = p by omega]
      · rw [if_neg h2, hj]
    rw [hx', show 2 * p - (x + 1) = j by omega, tri_bezier hlt hu hU j p (by omega) (le_refl _)]
    have := st j (p - 1) (by omega) (by omega)
    rw [show p - 1 + 1 = p by omega] at this
    rw [abs_le] at *
    constructor <;> linarith [this.1, this.2]

/-- A Bézier curve wider than `w` whose control points are at most `d` apart. -/
structure Bez (d w : K) (p : Curve K) : Prop where
  valid : ValidCurve p
  unit : ∀ q ∈ p.cpts, q.w = 1
  interval : IntervalOk p
  bezier : IsBezier p
  wide : w < p.hi - p.lo
  steps : StepsLe d p

theorem Bez.halve {d w : K} {p : Curve K} (h : Bez d w p) (hw : 2 / 10 ^ 12 ≤ w) :
    ∃ a b, p.split ((p.hi - p.lo) * (1 / 2) + p.lo) false = .ok (a, b) ∧ Bez (d / 2) (w / 2) a ∧ Bez (d / 2) (w / 2) b ∧ a.degree = p.degree ∧
      b.degree = p.degree := by
  obtain ⟨V, un, I, ⟨kn, len⟩, wide, st⟩ := h
  have wpos : (0 : K) < 2 / 10 ^ 12 := by positivity
  have hlt : p.lo < p.hi := by linarith
  set u := (p.hi - p.lo) * (1 / 2) + p.lo with hu
  have hU : ∀ i, i < 2 * (p.degree + 1) → ix p.knots i = if i ≤ p.degree then p.lo else p.hi := by
    intro i hi; rw [kn]; exact ix_bezier i hi
  have mem : ∀ x ∈ p.knots, x = p.lo ∨ x = p.hi := by
    intro x hx
    rw [kn] at hx
    rcases List.mem_append.1 hx with hx | hx
    · exact Or.inl (List.eq_of_mem_replicate hx)
    · exact Or.inr (List.eq_of_mem_replicate hx)
  have dlo : ix p.knots p.degree = p.lo := by rw [hU _ (by omega), if_pos (le_refl _)]
  have dhi : ix p.knots p.cpts.length = p.hi := by rw [len, hU _ (by omega), if_neg (by omega)]
  have wl : w / 2 < u - p.lo := by rw [hu]; linarith
  have wh : w / 2 < p.hi - u := by rw [hu]; linarith
  have hw2 : (1 : K) / 10 ^ 12 ≤ w / 2 := by linarith
  obtain ⟨a, b, hs, ⟨Va, _, Ia, da⟩, ⟨Vb, _, Ib, db⟩, _, _, _, ⟨ka, kb⟩, hwt, k, s, junk, S, la, lb, hv⟩ :=
    split_core p V ⟨1, one_pos, un⟩ u (by rw [dlo]; linarith) (by rw [dhi]; linarith) (by linarith) (by linarith) (by
      intro x hx hne
      rcases mem x hx with rfl | rfl
      · rw [abs_of_pos (by linarith)]; linarith
      · rw [abs_of_neg (by linarith)]; linarith) (by
      rw [List.count_eq_zero_of_not_mem]
      · omega
      · intro hx
        rcases mem u hx with hx | hx <;> linarith)
  have hk : k = p.degree := by have := S.hpk; have := S.hkn; omega
  have hs0 : s = 0 := by
    by_contra hne
    have := S.hm k (by omega) (le_refl _)
    have hkl : k < p.knots.length := by rw [V.len]; omega
    rcases mem _ (mem_ix hkl) with hx | hx <;> rw [this] at hx <;> linarith
  subst hk hs0
  have fl : p.knots.filter (fun x => decide (x < u)) = List.replicate (p.degree + 1) p.lo := by
    conv_lhs => rw [kn]
    rw [List.filter_append, List.filter_replicate_of_pos (by simp; linarith), List.filter_replicate_of_neg (by simp; linarith), List.append_nil]
  have fh : p.knots.filter (fun x => decide (u < x)) = List.replicate (p.degree + 1) p.hi := by
    conv_lhs => rw [kn]
    rw [List.filter_append, List.filter_replicate_of_neg (by simp; linarith), List.filter_replicate_of_pos (by simp; linarith), List.nil_append]
  rw [fl] at ka
  rw [fh] at kb
  have ends : ∀ (x : Curve K) (l r : K), IntervalOk x → l < r → x.knots = List.replicate (p.degree + 1) l ++ List.replicate (p.degree + 1) r → x.lo = l ∧ x.hi = r := by
    intro x l r Ix hlr hx
    obtain ⟨⟨a1, a2⟩, a3, a4⟩ := interval_facts Ix
    rw [hx] at a1 a2 a3 a4
    constructor
    · apply le_antisymm
      · exact a2 _ (List.mem_append_left _ (by simp))
      · rcases List.mem_append.1 a1 with h | h <;> rw [List.eq_of_mem_replicate h]; exact le_of_lt hlr
    · apply le_antisymm
      · rcases List.mem_append.1 a3 with h | h <;> rw [List.eq_of_mem_replicate h]; exact le_of_lt hlr
      · exact a4 _ (List.mem_append_right _ (by simp))
  obtain ⟨al, ah⟩ := ends a _ _ Ia (by linarith) ka
  obtain ⟨bl, bh⟩ := ends b _ _ Ib (by linarith) kb
  have steps : ∀ φ : Vec4 K → K, (∀ α a b, φ (lerp4 α a b) = lerp1 α (φ a) (φ b)) →
      (∀ i, i + 1 < p.cpts.length → |φ (ix p.cpts (i + 1)) - φ (ix p.cpts i)| ≤ d) →
      (∀ i, i + 1 < a.cpts.length → |φ (ix a.cpts (i + 1)) - φ (ix a.cpts i)| ≤ d / 2) ∧
      (∀ i, i + 1 < b.cpts.length → |φ (ix b.cpts (i + 1)) - φ (ix b.cpts i)| ≤ d / 2) := by
    intro φ hφ hst
    obtain ⟨va, vb⟩ := hv φ hφ
    have key := ins_steps (p := p.degree) (U := ix p.knots) (P := fun r => φ (ix p.cpts r)) (d := d) (fun r => φ (junk r)) hlt hu hU
      (fun i hi => hst i (by omega))
    constructor
    · intro i hi
      rw [va _ hi, va _ (by omega)]
      exact key i (by omega)
    · intro i hi
      rw [vb _ hi, vb _ (by omega)]
      exact key (p.degree - 0 + i) (by omega)
  have sx := steps Vec4.x lerp4_x fun i hi => (st i hi).1
  have sy := steps Vec4.y lerp4_y fun i hi => (st i hi).2.1
  have sz := steps Vec4.z lerp4_z fun i hi => (st i hi).2.2
  obtain ⟨ua, ub⟩ := hwt 1 un
  exact ⟨a, b, hs, ⟨Va, ua, Ia, ⟨by rw [da, al, ah]; exact ka, by omega⟩, by rw [al, ah]; exact wl,
    fun i hi => ⟨sx.1 i hi, sy.1 i hi, sz.1 i hi⟩⟩, ⟨Vb, ub, Ib, ⟨by rw [db, bl, bh]; exact kb, by omega⟩, by rw [bl, bh]; exact wh,
    fun i hi => ⟨sx.2 i hi, sy.2 i hi, sz.2 i hi⟩⟩, da, db⟩

/-! ### The box -/

theorem steps_far {f : Nat → K} {n : Nat} {d : K} (h : ∀ i, i + 1 < n → |f (i + 1) - f i| ≤ d) (i m : Nat) (him : i + m < n) : |f (i + m) - f i| ≤ m * d := by
  induction m with
  | zero => simp
  | succ m ih =>
    have h1 := ih (by omega)
    have h2 := h (i + m) (by omega)
    have e : f (i + (m + 1)) - f i = (f (i + m + 1) - f (i + m)) + (f (i + m) - f i) := by rw [← add_assoc]; ring
    rw [e]
    push_cast
    calc _ ≤ _ := abs_add_le _ _
      _ ≤ d + m * d := add_le_add h2 h1
      _ = _ := by ring

theorem steps_all {f : Nat → K} {n : Nat} {d : K} (hd : 0 ≤ d) (h : ∀ i, i + 1 < n + 1 → |f (i + 1) - f i| ≤ d) (i j : Nat) (hi : i ≤ n) (hj : j ≤ n) :
    f i - f j ≤ n * d := by
  rcases le_total i j with hij | hij
  · obtain ⟨m, rfl⟩ := Nat.exists_eq_add_of_le hij
    have := steps_far h i m (by omega)
    have hmn : (m : K) ≤ n := Nat.cast_le.2 (by omega)
    have := (abs_le.1 this).1
    nlinarith
  · obtain ⟨m, rfl⟩ := Nat.exists_eq_add_of_le hij
    have := steps_far h j m (by omega)
    have hmn : (m : K) ≤ n := Nat.cast_le.2 (by omega)
    have := (abs_le.1 this).2
    nlinarith

omit [Field K] [IsStrictOrderedRing K] in
theorem foldl_attains {A : Type} (g : A → Vec3 K) (S : A → Prop) : ∀ (ps : List A) (b : AABB K), (∀ q ∈ ps, S q) →
    (∃ q, S q ∧ b.max.x = (g q).x) → (∃ q, S q ∧ b.max.y = (g q).y) → (∃ q, S q ∧ b.max.z = (g q).z) →
    (∃ q, S q ∧ b.min.x = (g q).x) → (∃ q, S q ∧ b.min.y = (g q).y) → (∃ q, S q ∧ b.min.z = (g q).z) →
    let r := ps.foldl (fun b q => b.expand (g q)) b
    (∃ q, S q ∧ r.max.x = (g q).x) ∧ (∃ q, S q ∧ r.max.y = (g q).y) ∧ (∃ q, S q ∧ r.max.z = (g q).z) ∧
    (∃ q, S q ∧ r.min.x = (g q).x) ∧ (∃ q, S q ∧ r.min.y = (g q).y) ∧ (∃ q, S q ∧ r.min.z = (g q).z) := by
  intro ps
  induction ps with
  | nil => intro b _ h1 h2 h3 h4 h5 h6; exact ⟨h1, h2, h3, h4, h5, h6⟩
  | cons p ps ih =>
    intro b hS h1 h2 h3 h4 h5 h6
    have hp := hS p List.mem_cons_self
    have mx : ∀ (f : Vec3 K → K) (m : K), (∃ q, S q ∧ m = f (g q)) → ∃ q, S q ∧ Max.max m (f (g p)) = f (g q) := by
      rintro f m ⟨q, hq, rfl⟩
      rcases max_choice (f (g q)) (f (g p)) with h | h
      · exact ⟨q, hq, h⟩
      · exact ⟨p, hp, h⟩
    have mn : ∀ (f : Vec3 K → K) (m : K), (∃ q, S q ∧ m = f (g q)) → ∃ q, S q ∧ Min.min m (f (g p)) = f (g q) := by
      rintro f m ⟨q, hq, rfl⟩
      rcases min_choice (f (g q)) (f (g p)) with h | h
      · exact ⟨q, hq, h⟩
      · exact ⟨p, hp, h⟩
    exact ih (b.expand (g p)) (fun q hq => hS q (List.mem_cons_of_mem _ hq)) (mx Vec3.x _ h1) (mx Vec3.y _ h2) (mx Vec3.z _ h3) (mn Vec3.x _ h4)
      (mn Vec3.y _ h5) (mn Vec3.z _ h6)

theorem Bez.box {d w : K} {p : Curve K} (h : Bez d w p) (hd : 0 ≤ d) :
    ∃ b, p.bbox = .ok b ∧ (b.max - b.min).sqLength ≤ 3 * (p.degree * d) ^ 2 := by
  obtain ⟨V, un, I, ⟨kn, len⟩, wide, st⟩ := h
  match hm : p.cpts with
  | [] => rw [hm] at len; simp at len
  | q0 :: qs =>
    obtain ⟨h1, h2, h3, h4, h5, h6⟩ := foldl_attains Vec4.toVec3 (fun q => q ∈ p.cpts) (q0 :: qs) ⟨q0.toVec3, q0.toVec3⟩ (by rw [hm]; exact fun q hq => hq)
      ⟨q0, by rw [hm]; simp, rfl⟩ ⟨q0, by rw [hm]; simp, rfl⟩ ⟨q0, by rw [hm]; simp, rfl⟩ ⟨q0, by rw [hm]; simp, rfl⟩ ⟨q0, by rw [hm]; simp, rfl⟩
      ⟨q0, by rw [hm]; simp, rfl⟩
    have hb : p.bbox = .ok ((q0 :: qs).foldl (fun b q => b.expand q.toVec3) ⟨q0.toVec3, q0.toVec3⟩) := by unfold Curve.bbox; rw [hm]
    have hv := (C27_own_box_unit_weights p V un)
    refine ⟨_, hb, ?_⟩
    generalize ((q0 :: qs).foldl (fun (b : AABB K) (q : Vec4 K) => b.expand q.toVec3) ⟨q0.toVec3, q0.toVec3⟩) = b at *
    -- every point of the control polygon lies in the box, so its sides are not negative
    have side : ∀ (f : Vec3 K → K) (g : Vec4 K → K), (∀ q ∈ p.cpts, f q.toVec3 = g q) →
        (∀ i, i + 1 < p.cpts.length → |g (ix p.cpts (i + 1)) - g (ix p.cpts i)| ≤ d) → ∀ M m, (∃ q, q ∈ p.cpts ∧ M = f q.toVec3) →
        (∃ q, q ∈ p.cpts ∧ m = f q.toVec3) → M - m ≤ p.degree * d := by
      rintro f g hfg hst M m ⟨q, hq, rfl⟩ ⟨r, hr, rfl⟩
      rw [hfg q hq, hfg r hr]
      obtain ⟨i, hi, e⟩ := List.getElem_of_mem hq
      obtain ⟨j, hj, e'⟩ := List.getElem_of_mem hr
      rw [← e, ← e', ← ix_eq_getElem hi, ← ix_eq_getElem hj]
      exact steps_all (f := fun i => g (ix p.cpts i)) (n := p.degree) hd (fun i hi => hst i (by omega)) i j (by omega) (by omega)
    have toV : ∀ q ∈ p.cpts, q.toVec3.x = q.x ∧ q.toVec3.y = q.y ∧ q.toVec3.z = q.z := by
      intro q hq
      unfold Vec4.toVec3
      rw [un q hq, div_one, div_one, div_one]
      exact ⟨rfl, rfl, rfl⟩
    have x1 := side Vec3.x Vec4.x (fun q hq => (toV q hq).1) (fun i hi => (st i hi).1) _ _ h1 h4
    have y1 := side Vec3.y Vec4.y (fun q hq => (toV q hq).2.1) (fun i hi => (st i hi).2.1) _ _ h2 h5
    have z1 := side Vec3.z Vec4.z (fun q hq => (toV q hq).2.2) (fun i hi => (st i hi).2.2) _ _ h3 h6
    have x2 := side Vec3.x Vec4.x (fun q hq => (toV q hq).1) (fun i hi => (st i hi).1) _ _ h4 h1
    have y2 := side Vec3.y Vec4.y (fun q hq => (toV q hq).2.1) (fun i hi => (st i hi).2.1) _ _ h5 h2
    have z2 := side Vec3.z Vec4.z (fun q hq => (toV q hq).2.2) (fun i hi => (st i hi).2.2) _ _ h6 h3
    have sq : ∀ x y : K, x ≤ y → -x ≤ y → x * x ≤ y ^ 2 := by intro x y h1 h2; nlinarith
    simp only [Vec3.sqLength, Vec3.sub_x, Vec3.sub_y, Vec3.sub_z]
    have := sq _ _ x1 (by linarith)
    have := sq _ _ y1 (by linarith)
    have := sq _ _ z1 (by linarith)
    linarith

theorem bezier_search {sqrt : K → K} (hs : Newton.IsSqrt sqrt) (hs0 : sqrt 0 = 0) {tol : K} (ht : 0 < tol) :
    ∀ m d e w v p q acc, Bez d w p → Bez e v q → 0 ≤ d → 0 ≤ e → 2 ^ m / 10 ^ 12 ≤ w → 2 ^ m / 10 ^ 12 ≤ v → 3 * (p.degree * d) ^ 2 < tol ^ 2 * 4 ^ m →
      3 * (q.degree * e) ^ 2 < tol ^ 2 * 4 ^ m → ∃ res, ccx sqrt tol (m + 1) p q acc = some (.ok res) := by
  intro m
  induction m with
  | zero =>
    intro d e w v p q acc hp hq hd he _ _ h1 h2
    obtain ⟨b1, e1, l1⟩ := hp.box hd
    obtain ⟨b2, e2, l2⟩ := hq.box he
    rw [ccx, e1, e2]
    simp only
    by_cases hi : b1.intersects b2 = true
    · rw [if_pos hi, if_pos]
      · exact ⟨_, rfl⟩
      · rw [Bool.and_eq_true, small_spec hs hs0, small_spec hs hs0]
        rw [pow_zero, mul_one] at h1 h2
        exact ⟨⟨ht, lt_of_le_of_lt l1 h1⟩, ht, lt_of_le_of_lt l2 h2⟩
    · rw [if_neg hi]; exact ⟨_, rfl⟩
  | succ m ih =>
    intro d e w v p q acc hp hq hd he hw hv h1 h2
    obtain ⟨b1, e1, l1⟩ := hp.box hd
    obtain ⟨b2, e2, l2⟩ := hq.box he
    rw [ccx, e1, e2]
    simp only
    by_cases hi : b1.intersects b2 = true
    · rw [if_pos hi]
      by_cases hsm : (small sqrt tol b1 && small sqrt tol b2) = true
      · rw [if_pos hsm]; exact ⟨_, rfl⟩
      · rw [if_neg hsm]
        have two : (2 : K) / 10 ^ 12 ≤ 2 ^ (m + 1) / 10 ^ 12 := by
          have : (1 : K) ≤ 2 ^ m := one_le_pow₀ (by norm_num)
          rw [pow_succ (2 : K) m]
          apply div_le_div_of_nonneg_right _ (by positivity)
          linarith
        obtain ⟨a1, d1, sp1, pa1, pd1, da1, dd1⟩ := hp.halve (le_trans two hw)
        obtain ⟨a2, d2, sp2, pa2, pd2, da2, dd2⟩ := hq.halve (le_trans two hv)
        rw [sp1, sp2]
        simp only [andThen]
        have hw' : 2 ^ m / 10 ^ 12 ≤ w / 2 := by rw [pow_succ (2 : K) m] at hw; linarith
        have hv' : 2 ^ m / 10 ^ 12 ≤ v / 2 := by rw [pow_succ (2 : K) m] at hv; linarith
        have h1' : 3 * (p.degree * (d / 2)) ^ 2 < tol ^ 2 * 4 ^ m := by rw [pow_succ (4 : K) m] at h1; linarith
        have h2' : 3 * (q.degree * (e / 2)) ^ 2 < tol ^ 2 * 4 ^ m := by rw [pow_succ (4 : K) m] at h2; linarith
        have hd' : 0 ≤ d / 2 := by linarith
        have he' : 0 ≤ e / 2 := by linarith
        obtain ⟨r1, x1⟩ := ih _ _ _ _ a1 a2 acc pa1 pa2 hd' he' hw' hv' (by rw [da1]; exact h1') (by rw [da2]; exact h2')
        obtain ⟨r2, x2⟩ := ih _ _ _ _ d1 d2 r1 pd1 pd2 hd' he' hw' hv' (by rw [dd1]; exact h1') (by rw [dd2]; exact h2')
        obtain ⟨r3, x3⟩ := ih _ _ _ _ a1 d2 r2 pa1 pd2 hd' he' hw' hv' (by rw [da1]; exact h1') (by rw [dd2]; exact h2')
        obtain ⟨r4, x4⟩ := ih _ _ _ _ d1 a2 r3 pd1 pa2 hd' he' hw' hv' (by rw [dd1]; exact h1') (by rw [da2]; exact h2')
        simp only [x1, x2, x3]
        exact ⟨r4, x4⟩
    · rw [if_neg hi]; exact ⟨_, rfl⟩

/-- Bézier curves wider than `2 ^ N` times the tolerance of `split` can be halved `N` times. -/
theorem halvable_bezier {c : Curve K} (V : ValidCurve c) (un : ∀ q ∈ c.cpts, q.w = 1) (I : IntervalOk c) (B : IsBezier c) {N : Nat}
    (hw : 2 ^ N / 10 ^ 12 < c.hi - c.lo) : Halvable N c := by
  obtain ⟨kn, len⟩ := B
  have hU : ∀ i, i < 2 * (c.degree + 1) → ix c.knots i = if i ≤ c.degree then c.lo else c.hi := by
    intro i hi; rw [kn]; exact ix_bezier i hi
  have mem : ∀ x ∈ c.knots, x = c.lo ∨ x = c.hi := by
    intro x hx
    rw [kn] at hx
    rcases List.mem_append.1 hx with hx | hx
    · exact Or.inl (List.eq_of_mem_replicate hx)
    · exact Or.inr (List.eq_of_mem_replicate hx)
  have hpos : (0 : K) < 2 ^ N / 10 ^ 12 := by positivity
  refine ⟨V, un, I, ⟨?_, ?_⟩, ?_, ?_⟩
  · intro i hi
    rw [hU i (by omega), hU _ (by omega), if_pos hi, if_pos (le_refl _)]
  · intro i h1 h2
    rw [hU i (by omega), hU _ (by omega), if_neg (by omega), if_neg (by omega)]
  · intro x h1 h2
    rw [List.count_eq_zero_of_not_mem]
    · omega
    · intro hx; rcases mem x hx with rfl | rfl
      · exact lt_irrefl _ h1
      · exact lt_irrefl _ h2
  · intro n hn k hk x hx hne
    have hwn : 1 / 10 ^ 12 < (c.hi - c.lo) / 2 ^ n := by
      rw [lt_div_iff₀ (by positivity)]
      have : (2 : K) ^ n ≤ 2 ^ N := pow_le_pow_right₀ (by norm_num) hn
      calc (1 : K) / 10 ^ 12 * 2 ^ n ≤ (1 : K) / 10 ^ 12 * 2 ^ N := mul_le_mul_of_nonneg_left this (by positivity)
        _ = 2 ^ N / 10 ^ 12 := by ring
        _ < _ := hw
    have e0 : c.lo = cut c n 0 := by unfold cut; simp
    have e1 : c.hi = cut c n (2 ^ n) := by unfold cut; push_cast; field_simp; ring
    have hp : 0 < (c.hi - c.lo) / 2 ^ n := lt_trans (by positivity) hwn
    rcases mem x hx with rfl | rfl
    · have hk0 : k ≠ 0 := by rintro rfl; exact hne e0
      have : (1 : K) ≤ k := by exact_mod_cast Nat.one_le_iff_ne_zero.2 hk0
      rw [e0, cut_sub, Nat.cast_zero, sub_zero, abs_of_pos (by positivity)]
      nlinarith
    · have hkn : k < 2 ^ n := lt_of_le_of_ne hk (by rintro rfl; exact hne e1)
      have : (k : K) + 1 ≤ 2 ^ n := by exact_mod_cast hkn
      have e2 : cut c n k - c.hi = -((c.hi - c.lo) / 2 ^ n * (2 ^ n - k)) := by
        conv_lhs => rw [e1]
        rw [cut_sub]; push_cast; ring
      rw [e2, abs_neg, abs_of_pos (mul_pos hp (by linarith))]
      nlinarith

end Cmm.Ccx
