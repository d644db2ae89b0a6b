import Verif.Lemmas.RoundingInsert
import Verif.Props.RoundingEval
import Verif.Lemmas.FloatOne
/-!
C127: the error of `insert_knot` when every arithmetic operation rounds. `c.exact` is the curve with the same numbers, treated without rounding.
-/
namespace Cmm.Nurbs
variable {K : Type} [Field K] [LinearOrder K] [IsStrictOrderedRing K] {R : Rounding K} {u : K}

/-- What `insertKnot` computes with rounding. -/
theorem insertKnot_rounded {c : Curve (Fp R)} (V : ValidCurve c.exact) {t : Fp R} {k count : Nat}
    (hk : findSpan (c.cpts.length - 1) c.degree t (ix c.knots) = k) (hpk : c.degree ≤ k) (hkn : k < c.cpts.length)
    (hc : count + findMultiplicity t c.knots ≤ c.degree) :
    ∃ junk c', c.insertKnot t count = .ok c' ∧
      c'.cpts = (List.range (c.cpts.length + count)).map (insArray lerp4 c.degree (ix c.knots) (ix c.cpts) t count (findMultiplicity t c.knots) k junk) ∧
      c'.knots = knotInsertionKv c.knots t k count ∧ c'.degree = c.degree ∧ c'.periodic = c.periodic := by
  have hlen : c.knots.length = c.cpts.length + c.degree + 1 := by
    have := V.len
    simpa [Curve.exact] using this
  have h8 : c.degree ≤ 8 := V.deg_le
  unfold Curve.insertKnot
  simp only [hk]
  rw [if_neg (by omega)]
  unfold knotInsertion
  rw [if_neg (by unfold maxDegree; omega)]
  simp only [Res.ok_bind]
  set junk : Nat → Vec4 (Fp R) := fun i =>
    if i ≤ count then ix c.cpts (c.cpts.length - 1) - ⟨(i : Fp R), (i : Fp R), (i : Fp R), (i : Fp R)⟩ else ix c.cpts i with hjunk
  have hne : (knotInsertionKv c.knots t k count) ≠ [] := by
    intro h
    have h2 := knotInsertionKv_val c.knots t k count
    rw [h, knotInsertionKv_eq _ _ _ _ (by simp; omega)] at h2
    have := congrArg List.length h2
    simp at this
    omega
  match hkv : knotInsertionKv c.knots t k count, hne with
  | a :: l, _ => exact ⟨junk, _, rfl, rfl, rfl, rfl, rfl⟩

/-- What is known about the curve after `insertKnot`, compared with exact insertion. -/
theorem insertion_near (hu : R.RelError u) (h0 : 0 ≤ u) (h1 : u ≤ 1 / 2 ^ 20) (c : Curve (Fp R)) (V : ValidCurve c.exact)
    (hw : EqualWeights c.exact) (t : Fp R) (ht1 : ix c.exact.knots c.degree ≤ t.val) (ht2 : t.val < ix c.exact.knots c.cpts.length)
    (hsep : ClearOf (2 / 10 ^ 12) c.exact.knots t.val) (count : Nat) (hc : count + c.exact.knots.count t.val ≤ c.degree)
    (M : K) (hM : ∀ q ∈ c.exact.cpts, Bounded M (Vec4.pos q)) :
    ∃ c' e, c.insertKnot t count = .ok c' ∧ c.exact.insertKnot t.val count = .ok e ∧ ValidCurve e ∧ EqualWeights e ∧
      c'.knots.map Fp.val = e.knots ∧ c'.degree = c.degree ∧ e.degree = c.degree ∧ c'.periodic = c.periodic ∧ c'.cpts.length = c.cpts.length + count ∧
      e.cpts.length = c.cpts.length + count ∧ (∀ s, (InDomain e s ↔ InDomain c.exact s) ∧ (InDomain c.exact s → e.evaluate s = c.exact.evaluate s)) ∧ 0 ≤ M ∧
      ∀ x < c.cpts.length + count, Close (1 - u)⁻¹ (20 * count) (ix e.cpts x).w (ix c'.cpts x).w.val ∧ Near (1 - u)⁻¹ (10 * count) M (ix e.cpts x).x (ix c'.cpts x).x.val ∧
        Near (1 - u)⁻¹ (10 * count) M (ix e.cpts x).y (ix c'.cpts x).y.val ∧ Near (1 - u)⁻¹ (10 * count) M (ix e.cpts x).z (ix c'.cpts x).z.val ∧
        Near (1 - u)⁻¹ (10 * count) (ix e.cpts x).w (ix e.cpts x).w (ix c'.cpts x).w.val := by
  have h20 : u ≤ 1 / 1048576 := by norm_num at h1 ⊢; exact h1
  have H := errUnit hu h0 (lt_of_le_of_lt h1 (by norm_num))
  set ρ := (1 - u)⁻¹ with hρ
  have pw : ∀ k : Nat, k ≤ 800 → ρ ^ k - 1 ≤ (k + 1) * u := by
    intro k hk
    have a1 : k * (k + 1) ≤ 800 * 801 := Nat.mul_le_mul hk (by omega)
    have a2 : (k : K) * (k + 1) ≤ 800 * 801 := by exact_mod_cast a1
    have a3 : (k : K) * (k + 1) * u ≤ 1 := (mul_le_mul_of_nonneg_right a2 h0).trans (by linarith)
    have := H.pow_sub_one_le k (k + 1) (by push_cast; linarith)
    push_cast at this
    exact this
  have el : c.exact.cpts.length = c.cpts.length := by simp [Curve.exact]
  have ek : ix c.exact.knots = fun i => (ix c.knots i).val := funext (ix_knots_exact c.knots)
  have ec : ix c.exact.cpts = fun i => exact4 (ix c.cpts i) := funext (ix_cpts_exact c.cpts)
  have ed : c.exact.degree = c.degree := rfl
  have hp8 : c.degree ≤ 8 := V.deg_le
  have hsep1 : ClearOf (1 / 10 ^ 12) c.exact.knots t.val := fun x hx hne => lt_trans (by
    rw [div_lt_div_iff_of_pos_right (by positivity)]; norm_num) (hsep x hx hne)
  have hmul : findMultiplicity t c.knots = c.exact.knots.count t.val :=
    findMultiplicity_val H (by have := pw 5 (by omega); push_cast at this; linarith) hsep
  have hmule := findMultiplicity_eq_count hsep1
  obtain ⟨k, s, hk, hs, hpk, hkn, k1, k2, hsk, hm, hlt⟩ := ValidKnots.insertion V (by rw [ed]; exact ht1) (by rw [el]; exact ht2) hsep1
  rw [el] at hkn
  rw [ed] at hpk
  have hs' : findMultiplicity t c.knots = s := by rw [hmul, ← hmule, hs]
  have hcs : count + s ≤ c.degree := by rw [← hs', hmul]; exact hc
  obtain ⟨e, he, Ve, we, _, de, pe, le, _, hev⟩ := C29_insertion_keeps_curve c.exact V hw t.val (by rw [ed]; exact ht1) (by rw [el]; exact ht2) hsep1 count
    (by rw [ed]; exact hc)
  obtain ⟨junke, lo, hi, he', _⟩ := insertKnot_ok V (u := t.val) (count := count) hk (by rw [ed]; exact hpk) (by rw [el]; exact hkn)
    (by rw [hs, ed]; exact hcs)
  rw [he] at he'
  have he' := Res.ok.inj he'
  have hkc : findSpan (c.cpts.length - 1) c.degree t (ix c.knots) = k := by rw [findSpan_val, ← ek, ← hk, el, ed]
  obtain ⟨junk, c', h', q1, q2, q3, q4⟩ := insertKnot_rounded V hkc hpk hkn (by rw [hs']; exact hcs)
  rw [hs'] at q1
  have hkn' : c'.knots.map Fp.val = e.knots := by
    rw [q2, knotInsertionKv_val, he']; rfl
  have hl' : c'.cpts.length = c.cpts.length + count := by rw [q1]; simp
  have hle : e.cpts.length = c.cpts.length + count := by rw [le, el]
  obtain ⟨w, hw0, hweq⟩ := we
  obtain ⟨w1, hw1, hweq1⟩ := hw
  have hmono : ∀ a b, a ≤ b → b ≤ k + c.degree → (ix c.knots a).val ≤ (ix c.knots b).val := by
    intro a b hab hb
    have := V.mono a b hab (by rw [el, ed]; omega)
    rw [ek] at this
    exact this
  rw [ek] at k1 k2
  have hpts : ∀ x, x < c.cpts.length + count → ∀ (φ : Vec4 K → K) (ψ : Vec4 (Fp R) → Fp R) (A : K),
      (∀ α a b, φ (lerp4 α a b) = lerp1 α (φ a) (φ b)) → (∀ α a b, ψ (lerp4 α a b) = lerp1r α (ψ a) (ψ b)) →
      (∀ q, φ (exact4 q) = (ψ q).val) → (∀ q ∈ c.exact.cpts, |φ q| ≤ A) → Near ρ (10 * count) A (φ (ix e.cpts x)) (ψ (ix c'.cpts x)).val := by
    intro x hx φ ψ A hφ hψ hφψ hA
    rw [q1, he']
    change Near ρ (10 * count) A (φ (ix ((List.range (c.exact.cpts.length + count)).map _) x)) _
    rw [ix_map_range _ hx, ix_map_range _ (by rw [el]; exact hx), insArray_map_r hψ hpk hcs, hs, ec]
    refine Eq.mp ?_ (insArray_near H (init := fun r => ψ (junk r)) (init' := fun r => φ (junke r)) (M := A) (P := fun r => ψ (ix c.cpts r)) hpk hcs hkn hmono
      k1 k2 (fun r hr => ?_) x hx)
    · congr 1
      rw [insArray_map hφ (by rw [ed]; exact hpk) (by rw [ed]; exact hcs), ek]
      simp only [hφψ]
      rfl
    · rw [← hφψ]
      have := hA _ (mem_ix (by rw [el]; exact hr))
      rw [ec] at this
      exact this
  have ex := fun x hx => hpts x hx Vec4.x Vec4.x M lerp4_x (fun _ _ _ => rfl) (fun _ => rfl) (fun q hq => (hM q hq).1)
  have ey := fun x hx => hpts x hx Vec4.y Vec4.y M lerp4_y (fun _ _ _ => rfl) (fun _ => rfl) (fun q hq => (hM q hq).2.1)
  have ez := fun x hx => hpts x hx Vec4.z Vec4.z M lerp4_z (fun _ _ _ => rfl) (fun _ => rfl) (fun q hq => (hM q hq).2.2)
  have ew := fun x hx => hpts x hx Vec4.w Vec4.w w1 lerp4_w (fun _ _ _ => rfl) (fun _ => rfl)
    (fun q hq => by rw [hweq1 q hq, abs_of_pos hw1])
  have hww : w = w1 := by
    have hx : 0 < c.cpts.length + count := by omega
    rw [← hweq _ (mem_ix (by rw [hle]; exact hx)), he']
    change Vec4.w (ix ((List.range (c.exact.cpts.length + count)).map _) 0) = _
    rw [ix_map_range _ (by rw [el]; exact hx), insArray_map lerp4_w (by rw [ed]; exact hpk) (by rw [ed, hs]; exact hcs)]
    exact insArray_const (by rw [ed]; exact hpk) (by rw [ed, hs]; exact hcs) hkn (fun r hr => hweq1 _ (mem_ix (by rw [el]; exact hr))) 0 hx
  have hM0 : 0 ≤ M := by
    have hmem : ix c.exact.cpts k ∈ c.exact.cpts := mem_ix (by rw [el]; omega)
    exact (abs_nonneg _).trans (hM _ hmem).1
  have hcl : ∀ x, x < c.cpts.length + count → Close ρ (20 * count) (ix e.cpts x).w (ix c'.cpts x).w.val := by
    intro x hx
    have g := ew x hx
    rw [hweq _ (mem_ix (by rw [hle]; exact hx))] at g ⊢
    rw [← hww] at g
    have := g.close H (by have := pw (10 * count) (by omega); push_cast at this; have : (count : K) ≤ 8 := by { exact_mod_cast (by omega : count ≤ 8) }; nlinarith)
    rw [← mul_assoc] at this
    exact this
  refine ⟨c', e, h', he, Ve, ⟨w, hw0, hweq⟩, hkn', q3, by rw [de, ed], q4, hl', hle, hev, hM0, fun x hx => ⟨hcl x hx, ex x hx, ey x hx, ez x hx, ?_⟩⟩
  have := ew x hx
  rw [hweq (ix e.cpts x) (mem_ix (by rw [hle]; exact hx)), hww]
  rw [hweq (ix e.cpts x) (mem_ix (by rw [hle]; exact hx)), hww] at this
  exact this

/-- The powers of `1 / (1 - u)` that occur. -/
theorem pow_small (hu : R.RelError u) (h0 : 0 ≤ u) (h1 : u ≤ 1 / 2 ^ 20) (k : Nat) (hk : k ≤ 800) : (1 - u)⁻¹ ^ k - 1 ≤ (k + 1) * u := by
  have h20 : u ≤ 1 / 1048576 := by norm_num at h1 ⊢; exact h1
  have H := errUnit hu h0 (lt_of_le_of_lt h1 (by norm_num))
  have a1 : k * (k + 1) ≤ 800 * 801 := Nat.mul_le_mul hk (by omega)
  have a2 : (k : K) * (k + 1) ≤ 800 * 801 := by exact_mod_cast a1
  have a3 : (k : K) * (k + 1) * u ≤ 1 := (mul_le_mul_of_nonneg_right a2 h0).trans (by linarith)
  have := H.pow_sub_one_le k (k + 1) (by push_cast; linarith)
  push_cast at this
  exact this

/-- C127. `insert_knot` on a curve whose weights are all equal: the knots and the number of control points are those of exact insertion, each computed control point and weight
is off by at most `(10 count + 1) u`, and the new curve, evaluated with rounding, is the old curve up to `(14 p + 60 count + 10) u` times the largest coordinate of the control
points. -/
theorem C127_insertion_error (hu : R.RelError u) (h0 : 0 ≤ u) (h1 : u ≤ 1 / 2 ^ 20) (c : Curve (Fp R)) (V : ValidCurve c.exact)
    (hw : EqualWeights c.exact) (t : Fp R) (ht1 : ix c.exact.knots c.degree ≤ t.val) (ht2 : t.val < ix c.exact.knots c.cpts.length)
    (hsep : ClearOf (2 / 10 ^ 12) c.exact.knots t.val) (count : Nat) (hc : count + c.exact.knots.count t.val ≤ c.degree)
    (M : K) (hM : ∀ q ∈ c.exact.cpts, Bounded M (Vec4.pos q)) :
    ∃ c' e, c.insertKnot t count = .ok c' ∧ c.exact.insertKnot t.val count = .ok e ∧ ValidCurve c'.exact ∧ PositiveWeights c'.exact ∧
      c'.exact.knots = e.knots ∧ c'.degree = c.degree ∧ c'.periodic = c.periodic ∧ c'.cpts.length = c.cpts.length + count ∧
      (∀ x < c'.cpts.length, |(ix c'.cpts x).x.val - (ix e.cpts x).x| ≤ (10 * count + 1) * u * M ∧
        |(ix c'.cpts x).y.val - (ix e.cpts x).y| ≤ (10 * count + 1) * u * M ∧ |(ix c'.cpts x).z.val - (ix e.cpts x).z| ≤ (10 * count + 1) * u * M ∧
        |(ix c'.cpts x).w.val - (ix e.cpts x).w| ≤ (10 * count + 1) * u * (ix e.cpts x).w) ∧
      ∀ s : Fp R, InDomain c.exact s.val → ∃ r r', c'.evaluate s = .ok r ∧ c.exact.evaluate s.val = .ok r' ∧
        Within ((14 * c.degree + 60 * count + 10) * u * M) r r' := by
  have H := errUnit hu h0 (lt_of_le_of_lt h1 (by norm_num))
  have pw := pow_small hu h0 h1
  have ed : c.exact.degree = c.degree := rfl
  have hp8 : c.degree ≤ 8 := V.deg_le
  obtain ⟨c', e, h', he, Ve, ⟨w, hw0, hweq⟩, hkn', q3, de, q4, hl', hle, hev, hM0, hn⟩ := insertion_near hu h0 h1 c V hw t ht1 ht2 hsep count hc M hM
  set ρ := (1 - u)⁻¹ with hρ
  have b10 := pw (10 * count) (by omega)
  have bfin := pw (14 * c.degree + 9 + 2 * (20 * count + 10 * count)) (by omega)
  push_cast at b10 bfin
  have sz : ∀ {A a b : K}, Near ρ (10 * count) A a b → |b - a| ≤ (10 * count + 1) * u * A := fun g =>
    g.2.trans (mul_le_mul_of_nonneg_right b10 g.size_nonneg)
  refine ⟨c', e, h', he, ?_, ?_, hkn', q3, q4, hl', fun x hx => ?_, fun s' hs' => ?_⟩
  · have : ValidKnots e.cpts.length e.degree e.knots := Ve
    show ValidKnots c'.exact.cpts.length c'.exact.degree c'.exact.knots
    rw [show c'.exact.knots = e.knots from hkn', show c'.exact.degree = c'.degree from rfl, q3,
      show c'.exact.cpts.length = c'.cpts.length by simp [Curve.exact], hl', ← hle, ← de]
    exact this
  · intro q hq
    obtain ⟨x, hx, rfl⟩ := List.getElem_of_mem hq
    have hx' : x < c.cpts.length + count := by simpa [Curve.exact, hl'] using hx
    rw [← ix_eq_getElem, show ix c'.exact.cpts x = exact4 (ix c'.cpts x) from ix_cpts_exact _ _]
    refine (hn x hx').1.pos H ?_
    rw [hweq _ (mem_ix (by rw [hle]; exact hx'))]
    exact hw0
  · rw [hl'] at hx
    obtain ⟨-, ex, ey, ez, ew⟩ := hn x hx
    exact ⟨sz ex, sz ey, sz ez, sz ew⟩
  · obtain ⟨r, r', g1, g2, g3⟩ := curve_near H c' e Ve (fun q hq => by rw [hweq q hq]; exact hw0) (lw := 20 * count) (l := 10 * count) (M := M)
      (by rw [q3, de]) hkn' (by rw [hl', hle])
      (fun x hx => by rw [hle] at hx; obtain ⟨a, b, c, d, -⟩ := hn x hx; exact ⟨a, b, c, d⟩) s' ((hev _).1.mpr hs')
    rw [(hev _).2 hs'] at g2
    refine ⟨r, r', g1, g2, ?_⟩
    have hle' : (ρ ^ (14 * e.degree + 9 + 2 * (20 * count + 10 * count)) - 1) * M ≤ (14 * c.degree + 60 * count + 10) * u * M := by
      refine mul_le_mul_of_nonneg_right ?_ hM0
      rw [de]
      linarith
    exact ⟨g3.1.trans hle', g3.2.1.trans hle', g3.2.2.trans hle'⟩

/-- C127. For `double` rounded to nearest and every degree, the curve after insertion is within `2 ^ -43` times the largest coordinate of the control points. -/
theorem C127_insertion_double [FloorRing K] (c : Curve (Fp (Rounding.float (K := K) 53 (by norm_num)))) (V : ValidCurve c.exact)
    (hw : EqualWeights c.exact) (t : Fp _) (ht1 : ix c.exact.knots c.degree ≤ t.val) (ht2 : t.val < ix c.exact.knots c.cpts.length)
    (hsep : ClearOf (2 / 10 ^ 12) c.exact.knots t.val) (count : Nat) (hc : count + c.exact.knots.count t.val ≤ c.degree)
    (M : K) (hM : ∀ q ∈ c.exact.cpts, Bounded M (Vec4.pos q)) :
    ∃ c', c.insertKnot t count = .ok c' ∧ ∀ s : Fp _, InDomain c.exact s.val → ∃ r r', c'.evaluate s = .ok r ∧ c.exact.evaluate s.val = .ok r' ∧
      Within (1 / 2 ^ 43 * M) r r' := by
  obtain ⟨c', _, h, _, _, _, _, _, _, _, _, g⟩ := C127_insertion_error (float_error 53 _) (by norm_num) (by norm_num) c V hw t ht1 ht2 hsep count hc M hM
  refine ⟨c', h, fun s hs => ?_⟩
  obtain ⟨r, r', e1, e2, h1, h2, h3⟩ := g s hs
  have hp : c.degree ≤ 8 := V.deg_le
  have h8 : (c.degree : K) ≤ 8 := by exact_mod_cast hp
  have hc8 : (count : K) ≤ 8 := by exact_mod_cast (by omega : count ≤ 8)
  have hM0 : 0 ≤ M := by
    have hl := V.enough
    have hmem : ix c.exact.cpts 0 ∈ c.exact.cpts := mem_ix (by omega)
    exact (abs_nonneg _).trans (hM _ hmem).1
  have hb : (14 * (c.degree : K) + 60 * count + 10) * (1 / 2 ^ 53) * M ≤ 1 / 2 ^ 43 * M := by
    refine mul_le_mul_of_nonneg_right ?_ hM0
    norm_num
    linarith
  exact ⟨r, r', e1, e2, h1.trans hb, h2.trans hb, h3.trans hb⟩

theorem dotL_sub_le {e : K} (N : List K) (f g : Nat → K) : ∀ k, (∀ x ∈ N, 0 ≤ x) → (∀ r < N.length, |f (k + r) - g (k + r)| ≤ e) →
    |dotL N f k - dotL N g k| ≤ N.sum * e := by
  induction N with
  | nil => intro k _ _; simp [dotL]
  | cons a N ih =>
    intro k h1 h2
    have i1 := ih (k + 1) (fun x hx => h1 x (by simp [hx])) (fun r hr => by
      have := h2 (r + 1) (by simpa using hr)
      rwa [show k + 1 + r = k + (r + 1) by omega])
    have ha := h1 a (by simp)
    have h3 := mul_le_mul_of_nonneg_left (h2 0 (by simp)) ha
    rw [Nat.add_zero] at h3
    rw [dotL, dotL, List.sum_cons, show a * f k + dotL N f (k + 1) - (a * g k + dotL N g (k + 1)) = a * (f k - g k) + (dotL N f (k + 1) - dotL N g (k + 1)) by ring]
    refine (abs_add_le _ _).trans ?_
    rw [abs_mul, abs_of_nonneg ha]
    linarith

/-- C127. With weights one and rounding to the nearest number of `p` binary digits the weights stay exactly one, so that more knots can be inserted, and the new curve is the old one,
at every parameter, up to `(10 count + 1) / 2 ^ p` times the largest coordinate of the control points. -/
theorem C127_unit_weights [FloorRing K] (p : Nat) (hp : 20 ≤ p) (c : Curve (Fp (Rounding.float (K := K) p (by omega)))) (V : ValidCurve c.exact)
    (hw : ∀ q ∈ c.exact.cpts, q.w = 1) (t : Fp _) (ht1 : ix c.exact.knots c.degree ≤ t.val) (ht2 : t.val < ix c.exact.knots c.cpts.length)
    (hsep : ClearOf (2 / 10 ^ 12) c.exact.knots t.val) (count : Nat) (hc : count + c.exact.knots.count t.val ≤ c.degree)
    (M : K) (hM : ∀ q ∈ c.exact.cpts, Bounded M (Vec4.pos q)) :
    ∃ c', c.insertKnot t count = .ok c' ∧ ValidCurve c'.exact ∧ (∀ q ∈ c'.exact.cpts, q.w = 1) ∧
      ∀ s, (InDomain c'.exact s ↔ InDomain c.exact s) ∧ (InDomain c.exact s → ∃ r r', c'.exact.evaluate s = .ok r ∧ c.exact.evaluate s = .ok r' ∧
        |r.x - r'.x| ≤ (10 * count + 1) / 2 ^ p * M ∧ |r.y - r'.y| ≤ (10 * count + 1) / 2 ^ p * M ∧ |r.z - r'.z| ≤ (10 * count + 1) / 2 ^ p * M) := by
  have hp1 : 1 ≤ p := by omega
  have hu := float_error (K := K) p hp1
  have hu0 : (0 : K) ≤ 1 / 2 ^ p := by positivity
  have hu1 : (1 : K) / 2 ^ p ≤ 1 / 2 ^ 20 := by
    rw [div_le_div_iff₀ (by positivity) (by positivity)]
    have : (2 : K) ^ 20 ≤ 2 ^ p := pow_le_pow_right₀ (by norm_num) hp
    linarith
  have hW : EqualWeights c.exact := ⟨1, one_pos, hw⟩
  have el : c.exact.cpts.length = c.cpts.length := by simp [Curve.exact]
  have ek : ix c.exact.knots = fun i => (ix c.knots i).val := funext (ix_knots_exact c.knots)
  have ed : c.exact.degree = c.degree := rfl
  have hsep1 : ClearOf (1 / 10 ^ 12) c.exact.knots t.val := fun x hx hne => lt_trans (by
    rw [div_lt_div_iff_of_pos_right (by positivity)]; norm_num) (hsep x hx hne)
  obtain ⟨c', e, h', he, V', _, hk', hd', _, hl', hpts, _⟩ := C127_insertion_error hu hu0 hu1 c V hW t ht1 ht2 hsep count hc M hM
  obtain ⟨e', he', Ve, we, _, de, _, le, _, hev⟩ := C29_insertion_keeps_curve c.exact V hW t.val (by rw [ed]; exact ht1) (by rw [el]; exact ht2) hsep1 count
    (by rw [ed]; exact hc)
  obtain rfl : e = e' := Res.ok.inj (he.symm.trans he')
  have hw1 : ∀ q ∈ c'.exact.cpts, q.w = 1 := by
    obtain ⟨k, s, hk, hs, hpk, hkn, k1, k2, -⟩ := ValidKnots.insertion V (by rw [ed]; exact ht1) (by rw [el]; exact ht2) hsep1
    rw [el] at hkn
    rw [ed] at hpk
    have H := errUnit hu hu0 (lt_of_le_of_lt hu1 (by norm_num))
    have hs' : findMultiplicity t c.knots = s := by
      rw [findMultiplicity_val H ?_ hsep, show c.knots.map Fp.val = c.exact.knots from rfl, ← findMultiplicity_eq_count hsep1, hs]
      have := H.pow_le (hu1.trans (by norm_num)) 5 (by omega)
      have h20 : (1 : K) / 2 ^ p ≤ 1 / 1048576 := by norm_num at hu1 ⊢; exact hu1
      push_cast at this
      linarith
    have hcs : count + s ≤ c.degree := by rw [← hs, findMultiplicity_eq_count hsep1]; exact hc
    have hkc : findSpan (c.cpts.length - 1) c.degree t (ix c.knots) = k := by rw [findSpan_val, ← ek, ← hk, el, ed]
    obtain ⟨junk, c'', h'', q1, -⟩ := insertKnot_rounded V hkc hpk hkn (by rw [hs']; exact hcs)
    obtain rfl : c' = c'' := Res.ok.inj (h'.symm.trans h'')
    rw [hs'] at q1
    rw [ek] at k1 k2
    intro q hq
    obtain ⟨x, hx, rfl⟩ := List.getElem_of_mem hq
    have hx' : x < c.cpts.length + count := by simpa [Curve.exact, hl'] using hx
    rw [← ix_eq_getElem, show ix c'.exact.cpts x = exact4 (ix c'.cpts x) from ix_cpts_exact _ _, q1, ix_map_range _ hx']
    have : Vec4.w (insArray lerp4 c.degree (ix c.knots) (ix c.cpts) t count s k junk x) = 1 := by
      rw [insArray_map_r (φ := Vec4.w) (fun _ _ _ => rfl) hpk hcs]
      refine insArray_one p hp1 hpk hcs hkn ?_ k1 k2 (fun r hr => ?_) x hx'
      · intro a b hab hb
        have := V.mono a b hab (by rw [el, ed]; omega)
        rw [ek] at this
        exact this
      · have := hw _ (mem_ix (x := r) (by rw [el]; exact hr))
        rw [show ix c.exact.cpts r = exact4 (ix c.cpts r) from ix_cpts_exact _ _] at this
        exact Subtype.ext (this.trans (float_rnd_one p hp1).symm)
    rw [show (exact4 _).w = Fp.val (Vec4.w (insArray lerp4 c.degree (ix c.knots) (ix c.cpts) t count s k junk x)) from rfl, this]
    exact float_rnd_one p hp1
  have elc : c'.exact.cpts.length = e.cpts.length := by
    rw [show c'.exact.cpts.length = c'.cpts.length by simp [Curve.exact], hl', le, el]
  have edc : c'.exact.degree = e.degree := by rw [show c'.exact.degree = c'.degree from rfl, hd', de, ed]
  have hdom : ∀ s, InDomain c'.exact s ↔ InDomain e s := by
    intro s; unfold InDomain; rw [hk', elc, edc]
  obtain ⟨w, hw0, hweq⟩ := we
  refine ⟨c', h', V', hw1, fun s => ⟨(hdom s).trans (hev s).1, fun hs => ?_⟩⟩
  have hse := (hev s).1.mpr hs
  have hsc := (hdom s).mpr hse
  have E1 := curve_eval_equal V' one_ne_zero hw1 hsc
  have E2 := curve_eval_equal Ve hw0.ne' hweq hse
  rw [(hev s).2 hs] at E2
  rw [elc, edc, hk'] at E1
  obtain ⟨i, hi, a1, a2, a3, a4, a5, _, a7⟩ := ValidKnots.span Ve hse.1 hse.2
  simp only [hi] at E1 E2
  have hN := basisFuns_nonneg (ValidKnots.mono Ve) a3 a4 e.degree a1 (by omega)
  have hS := basisFuns_sum a1 a7 s
  have key : ∀ (φ : Vec4 K → K) (ψ : Vec4 (Fp (Rounding.float (K := K) p hp1)) → Fp (Rounding.float (K := K) p hp1)), (∀ q, φ (exact4 q) = (ψ q).val) →
      (∀ x < c'.cpts.length, |(ψ (ix c'.cpts x)).val - φ (ix e.cpts x)| ≤ (10 * count + 1) * (1 / 2 ^ p) * M) →
      |splineVal (ix e.knots) e.degree (fun r => φ (ix c'.exact.cpts r)) i s - splineVal (ix e.knots) e.degree (fun r => φ (ix e.cpts r)) i s| ≤
        (10 * count + 1) / 2 ^ p * M := by
    intro φ ψ hφ hb
    have := dotL_sub_le (e := (10 * count + 1) * (1 / 2 ^ p) * M) (basisFuns i s (ix e.knots) e.degree) (fun r => φ (ix c'.exact.cpts r))
      (fun r => φ (ix e.cpts r)) (i - e.degree) hN (fun r hr => ?_)
    · rw [hS, one_mul] at this
      refine this.trans (le_of_eq ?_)
      ring
    · rw [basisFuns_length] at hr
      have := hb (i - e.degree + r) (by rw [hl', ← el, ← le]; omega)
      rw [← hφ] at this
      rw [show ix c'.exact.cpts (i - e.degree + r) = exact4 (ix c'.cpts (i - e.degree + r)) from ix_cpts_exact _ _]
      exact this
  exact ⟨_, _, E1, E2, key Vec4.x Vec4.x (fun _ => rfl) fun x hx => (hpts x hx).1, key Vec4.y Vec4.y (fun _ => rfl) fun x hx => (hpts x hx).2.1,
    key Vec4.z Vec4.z (fun _ => rfl) fun x hx => (hpts x hx).2.2.1⟩

/-! ### Cases -/

/-- The weights of the curve of C26 are one. -/
example : ∀ q ∈ demoCurve.rounded.exact.cpts, q.w = 1 := by decide +kernel

/-- C127. Equal weights other than one do not stay equal: inserting the `double` nearest to 0.1 into a line whose weights are both the `double` nearest to 0.1 gives a control
point with a larger weight. -/
theorem C127_weights_counterexample :
    ValidCurve tenthLine.rounded.exact ∧ EqualWeights tenthLine.rounded.exact ∧ ∃ c', tenthLine.rounded.insertKnot (Fp.round double (1 / 10)) 1 = .ok c' ∧
      ¬ EqualWeights c'.exact ∧ c'.cpts.map (fun q => q.w.val) = [3602879701896397 / 2 ^ 55, 7205759403792795 / 2 ^ 56, 3602879701896397 / 2 ^ 55] := by
  have hv : ValidCurve tenthLine.rounded.exact :=
    ⟨by decide, by decide, by decide, by decide, by unfold SortedKnots; decide +kernel, by decide +kernel⟩
  refine ⟨hv, ⟨3602879701896397 / 2 ^ 55, by norm_num, by decide +kernel⟩, ?_⟩
  have h : ∃ c', tenthLine.rounded.insertKnot (Fp.round double (1 / 10)) 1 = .ok c' ∧
      c'.cpts.map (fun q => q.w.val) = [3602879701896397 / 2 ^ 55, 7205759403792795 / 2 ^ 56, 3602879701896397 / 2 ^ 55] := by
    have : (match tenthLine.rounded.insertKnot (Fp.round double (1 / 10)) 1 with
        | .ok c' => decide (c'.cpts.map (fun q => q.w.val) = [3602879701896397 / 2 ^ 55, 7205759403792795 / 2 ^ 56, 3602879701896397 / 2 ^ 55])
        | _ => false) = true := by decide +kernel
    split at this
    · rename_i c' hc'; exact ⟨c', hc', of_decide_eq_true this⟩
    · cases this
  obtain ⟨c', h1, h2⟩ := h
  refine ⟨c', h1, ?_, h2⟩
  rintro ⟨w, _, hw⟩
  have hall : ∀ x ∈ c'.cpts.map (fun q => q.w.val), x = w := by
    intro x hx
    obtain ⟨q, hq, rfl⟩ := List.mem_map.1 hx
    exact hw (exact4 q) (List.mem_map_of_mem hq)
  rw [h2] at hall
  have a := hall (3602879701896397 / 2 ^ 55) (by simp)
  have b := hall (7205759403792795 / 2 ^ 56) (by simp)
  rw [← b] at a
  norm_num at a

/-- The quadratic curve of C26 has `double` coordinates and meets the hypotheses, for the `double` nearest to 0.1, which is not a knot. -/
example : demoCurve.rounded.exact = demoCurve ∧ ValidCurve demoCurve.rounded.exact ∧ EqualWeights demoCurve.rounded.exact ∧
    ix demoCurve.rounded.exact.knots demoCurve.degree ≤ (Fp.round double (1 / 10)).val ∧
    (Fp.round double (1 / 10)).val < ix demoCurve.rounded.exact.knots demoCurve.cpts.length ∧
    ClearOf (2 / 10 ^ 12) demoCurve.rounded.exact.knots (Fp.round double (1 / 10)).val ∧
    2 + demoCurve.rounded.exact.knots.count (Fp.round double (1 / 10)).val ≤ demoCurve.degree ∧
    ∀ q ∈ demoCurve.rounded.exact.cpts, Bounded 6 (Vec4.pos q) := by
  have e : demoCurve.rounded.exact = demoCurve := by decide +kernel
  rw [e]
  exact ⟨rfl, demoCurve_valid, demoCurve_equal, by decide +kernel, by decide +kernel, by unfold ClearOf; decide +kernel, by decide +kernel,
    by unfold Bounded; decide +kernel⟩


end Cmm.Nurbs
