import Verif.Spec.RoundingDecompose
import Verif.Props.RoundingSplit
import Verif.Props.Decompose
/-!
C143: the error of `decompose` when every arithmetic operation rounds.
-/
namespace Cmm.Nurbs
variable {K : Type} [Field K] [LinearOrder K] [IsStrictOrderedRing K]

section
variable {R : Rounding K} {u M : K}

/-- Two curves with weight one, the same knots and close control points are close. -/
theorem unit_near (H : ErrUnit R u (1 - u)⁻¹) {a : Curve (Fp R)} {e : Curve K} (hM0 : 0 ≤ M) (N : PieceNear u M a e) (ha : ∀ q ∈ a.exact.cpts, q.w = 1) (he : ∀ q ∈ e.cpts, q.w = 1) :
    ValidCurve a.exact ∧ (∀ s, InDomain a.exact s ↔ InDomain e s) ∧ (∀ q ∈ a.exact.cpts, Bounded ((1 - u)⁻¹ ^ (10 * e.degree) * M) (Vec4.pos q)) ∧
      ∀ s, InDomain e s → ∃ r r', a.exact.evaluate s = .ok r ∧ e.evaluate s = .ok r' ∧
        |r.x - r'.x| ≤ ((1 - u)⁻¹ ^ (10 * e.degree) - 1) * M ∧ |r.y - r'.y| ≤ ((1 - u)⁻¹ ^ (10 * e.degree) - 1) * M ∧ |r.z - r'.z| ≤ ((1 - u)⁻¹ ^ (10 * e.degree) - 1) * M := by
  obtain ⟨V, -, hd, hk, hl, hP⟩ := N
  have el : a.exact.cpts.length = e.cpts.length := by rw [← hl]; simp [Curve.exact]
  have ek : a.exact.knots = e.knots := hk
  have ed : a.exact.degree = e.degree := hd
  have hdom : ∀ s, InDomain a.exact s ↔ InDomain e s := by
    intro s; unfold InDomain; rw [ek, ed, el]
  have V' : ValidCurve a.exact := by
    show ValidKnots a.exact.cpts.length a.exact.degree a.exact.knots
    rw [ek, ed, el]
    exact V
  have size : ∀ {k : Nat} {x y : K}, Near (1 - u)⁻¹ k M x y → |y| ≤ (1 - u)⁻¹ ^ k * M := by
    intro k x y g
    have : |y| ≤ |y - x| + |x| := by
      have := abs_add_le (y - x) x
      rwa [sub_add_cancel] at this
    have := g.1
    have := g.2
    linarith
  refine ⟨V', hdom, ?_, ?_⟩
  · intro q hq
    obtain ⟨x, hx, rfl⟩ := List.getElem_of_mem hq
    have hx' : x < e.cpts.length := by rw [← el]; exact hx
    rw [← ix_eq_getElem, show ix a.exact.cpts x = exact4 (ix a.cpts x) from ix_cpts_exact _ _]
    obtain ⟨-, g1, g2, g3⟩ := hP x hx'
    exact ⟨size g1, size g2, size g3⟩
  · intro s hse
    have hsc := (hdom s).mpr hse
    have E1 := curve_eval_equal V' one_ne_zero ha hsc
    have E2 := curve_eval_equal V one_ne_zero he hse
    rw [el, ed, ek] at E1
    obtain ⟨i, hi, a1, a2, a3, a4, a5, _, a7⟩ := ValidKnots.span V hse.1 hse.2
    simp only [hi] at E1 E2
    have hN := basisFuns_nonneg (ValidKnots.mono V) a3 a4 e.degree a1 (by omega)
    have hS := basisFuns_sum a1 a7 s
    have key : ∀ (φ : Vec4 K → K) (ψ : Vec4 (Fp R) → Fp R), (∀ q, φ (exact4 q) = (ψ q).val) →
        (∀ x < e.cpts.length, |(ψ (ix a.cpts x)).val - φ (ix e.cpts x)| ≤ ((1 - u)⁻¹ ^ (10 * e.degree) - 1) * M) →
        |splineVal (ix e.knots) e.degree (fun r => φ (ix a.exact.cpts r)) i s - splineVal (ix e.knots) e.degree (fun r => φ (ix e.cpts r)) i s| ≤
          ((1 - u)⁻¹ ^ (10 * e.degree) - 1) * M := by
      intro φ ψ hφ hb
      have := dotL_sub_le (e := ((1 - u)⁻¹ ^ (10 * e.degree) - 1) * M) (basisFuns i s (ix e.knots) e.degree) (fun r => φ (ix a.exact.cpts r))
        (fun r => φ (ix e.cpts r)) (i - e.degree) hN (fun r hr => ?_)
      · rw [hS, one_mul] at this
        exact this
      · rw [basisFuns_length] at hr
        have := hb (i - e.degree + r) (by omega)
        rw [← hφ] at this
        rw [show ix a.exact.cpts (i - e.degree + r) = exact4 (ix a.cpts (i - e.degree + r)) from ix_cpts_exact _ _]
        exact this
    exact ⟨_, _, E1, E2, key Vec4.x Vec4.x (fun _ => rfl) fun x hx => (hP x hx).2.1.2, key Vec4.y Vec4.y (fun _ => rfl) fun x hx => (hP x hx).2.2.1.2,
      key Vec4.z Vec4.z (fun _ => rfl) fun x hx => (hP x hx).2.2.2.2⟩

theorem min_val {U : List (Fp R)} {lo : Fp R} {a : K} (h : minElement U = .ok lo) (ha : a ∈ U.map Fp.val) (hm : ∀ x ∈ U.map Fp.val, a ≤ x) : lo.val = a := by
  have hne : U ≠ [] := by rintro rfl; simp at ha
  obtain ⟨m, h1, h2, h3⟩ := minElement_ok hne
  obtain rfl : m = lo := Res.ok.inj (h1.symm.trans h)
  obtain ⟨y, hy, rfl⟩ := List.mem_map.1 ha
  exact le_antisymm (h3 y hy) (hm _ (List.mem_map_of_mem h2))

theorem max_val {U : List (Fp R)} {hi : Fp R} {b : K} (h : maxElement U = .ok hi) (hb : b ∈ U.map Fp.val) (hm : ∀ x ∈ U.map Fp.val, x ≤ b) : hi.val = b := by
  have hne : U ≠ [] := by rintro rfl; simp at hb
  obtain ⟨m, h1, h2, h3⟩ := maxElement_ok hne
  obtain rfl : m = hi := Res.ok.inj (h1.symm.trans h)
  obtain ⟨y, hy, rfl⟩ := List.mem_map.1 hb
  exact le_antisymm (hm _ (List.mem_map_of_mem h2)) (h3 y hy)

theorem run_interval {tol : K} {p : Nat} {U : List (Fp R)} {a b : K} {ks : List K} {lo hi : Fp R} (ht : 0 ≤ tol) (h : KnotRun tol p (U.map Fp.val) a ks b)
    (h1 : minElement U = .ok lo) (h2 : maxElement U = .ok hi) : lo.val = a ∧ hi.val = b := by
  obtain ⟨l1, l2⟩ := h.lt ht
  have ha : a ∈ U.map Fp.val := (h.mem a).2 (by simp)
  have hb : b ∈ U.map Fp.val := (h.mem b).2 (by simp)
  have amin : ∀ x ∈ U.map Fp.val, a ≤ x ∧ x ≤ b := by
    intro x hx
    rcases List.mem_cons.1 ((h.mem x).1 hx) with rfl | hm
    · exact ⟨le_rfl, l2.le⟩
    · rcases List.mem_append.1 hm with hm | hm
      · exact ⟨(l1 x hm).1.le, (l1 x hm).2.le⟩
      · rw [List.mem_singleton.1 hm]; exact ⟨l2.le, le_rfl⟩
  exact ⟨min_val h1 ha fun x hx => (amin x hx).1, max_val h2 hb fun x hx => (amin x hx).2⟩

theorem unique_run {tol : K} {p : Nat} {U : List (Fp R)} {a b : K} {ks : List K} (ht : 0 ≤ tol) (h : KnotRun tol p (U.map Fp.val) a ks b) :
    (uniqueKnots U []).map Fp.val = a :: (ks ++ [b]) := by
  have hs : SortedKnots U := by
    have := h.sorted
    unfold SortedKnots at this ⊢
    rw [List.pairwise_map] at this
    exact this
  obtain ⟨ex, h1, h2, h3⟩ := C25_unique_knots U [] hs
  rw [h1, List.nil_append]
  have hinc : (a :: (ks ++ [b])).Pairwise (· < ·) := h.inc.imp fun h => by linarith
  have h2' : (ex.map Fp.val).Pairwise (· < ·) := by
    rw [List.pairwise_map]; exact h2
  refine List.Perm.eq_of_pairwise (le := (· < ·)) (fun x y _ _ hxy hyx => absurd hxy (not_lt.2 hyx.le)) h2' hinc
    ((List.perm_ext_iff_of_nodup (h2'.imp fun h => h.ne) (hinc.imp fun h => h.ne)).2 fun x => Iff.trans ?_ (h.mem x))
  rw [List.mem_map, List.mem_map]
  exact exists_congr fun y => and_congr_left fun _ => h3 y

end

section
variable [FloorRing K]

omit [FloorRing K] in
theorem float_small (p : Nat) (hp : 20 ≤ p) : (1 : K) / 2 ^ p ≤ 1 / 2 ^ 20 := by
  rw [div_le_div_iff₀ (by positivity) (by positivity)]
  have : (2 : K) ^ 20 ≤ 2 ^ p := pow_le_pow_right₀ (by norm_num) hp
  linarith

theorem float_unit (p : Nat) (hp : 20 ≤ p) : ErrUnit (Rounding.float (K := K) p (by omega)) (1 / 2 ^ p) (1 - 1 / 2 ^ p)⁻¹ :=
  errUnit (float_error p (by omega)) (by positivity) (lt_of_le_of_lt (float_small p hp) (by norm_num))

omit [IsStrictOrderedRing K] [FloorRing K] in
theorem bound_nonneg [IsOrderedAddMonoid K] {c : Curve K} {M : K} (V : ValidCurve c) (hM : ∀ q ∈ c.cpts, Bounded M (Vec4.pos q)) : 0 ≤ M := by
  have hl := V.enough
  have hmem : ix c.cpts 0 ∈ c.cpts := mem_ix (by omega)
  exact (abs_nonneg _).trans (hM _ hmem).1

theorem decomposeLoop_near (p : Nat) (hp : 20 ≤ p) : ∀ (ks : List (Fp (Rounding.float (K := K) p (by omega)))) (temp : Curve (Fp (Rounding.float (K := K) p (by omega)))) (a b M : K),
    ValidCurve temp.exact → (∀ q ∈ temp.exact.cpts, q.w = 1) → (∀ q ∈ temp.exact.cpts, Bounded M (Vec4.pos q)) →
    minElement temp.knots = .ok temp.lo → maxElement temp.knots = .ok temp.hi → KnotRun (2 / 10 ^ 12) temp.degree temp.exact.knots a (ks.map Fp.val) b →
    ∃ l, decomposeLoop ks temp = .ok l ∧ l.length = ks.length + 1 ∧
      ∀ i, i ≤ ks.length → ∃ q lo hi, l[i]? = some q ∧ NeighboursAt (a :: (ks.map Fp.val ++ [b])) i lo hi ∧ a ≤ lo ∧ hi ≤ b ∧
        BezierNear temp.exact q lo hi (((1 - 1 / 2 ^ p)⁻¹ ^ (10 * temp.degree * (i + 1)) - 1) * M) ((1 - 1 / 2 ^ p)⁻¹ ^ (10 * temp.degree * (i + 1)) * M)
  | [], temp, a, b, M, V, hw, hM, hmin, hmax, R => by
    have ht : (0 : K) ≤ 2 / 10 ^ 12 := by positivity
    have H := float_unit (K := K) p hp
    obtain ⟨d1, d2, -, -⟩ := R.domain ht V.len
    have hk := R.bezier ht
    have hM0 := bound_nonneg V hM
    have d1 : ix temp.exact.knots temp.exact.degree = a := d1
    have ρ1 := H.one_le_pow (10 * temp.degree * (0 + 1))
    refine ⟨[temp], rfl, rfl, fun i hi => ?_⟩
    have : i = 0 := by simpa using hi
    subst this
    refine ⟨temp, a, b, rfl, ⟨rfl, rfl⟩, le_rfl, le_rfl, ⟨V, hw, fun x hx => ?_, run_interval ht R hmin hmax, rfl, ?_, hk, fun t => ?_, fun t h1 h2 => ?_⟩⟩
    · have hB : M ≤ (1 - 1 / 2 ^ p)⁻¹ ^ (10 * temp.degree * (0 + 1)) * M := le_mul_of_one_le_left hM0 ρ1
      exact ⟨(hM x hx).1.trans hB, (hM x hx).2.1.trans hB, (hM x hx).2.2.trans hB⟩
    · have := V.len
      rw [hk, List.length_append, List.length_replicate, List.length_replicate] at this
      have el : temp.exact.cpts.length = temp.cpts.length := by simp [Curve.exact]
      have ed : temp.exact.degree = temp.degree := rfl
      omega
    · unfold InDomain; rw [d1, d2]
    · have hd : InDomain temp.exact t := by unfold InDomain; rw [d1, d2]; exact ⟨h1, h2⟩
      have E := curve_eval_equal V one_ne_zero hw hd
      refine ⟨_, _, E, E, ?_, ?_, ?_⟩ <;> rw [sub_self, abs_zero] <;> exact mul_nonneg (by linarith) hM0
  | k :: ks, temp, a, b, M, V, hw, hM, hmin, hmax, R => by
    have ht : (0 : K) ≤ 2 / 10 ^ 12 := by positivity
    have hu := float_error (K := K) p (by omega)
    have hu0 : (0 : K) ≤ 1 / 2 ^ p := by positivity
    have hu1 := float_small (K := K) p hp
    have H := float_unit (K := K) p hp
    have el : temp.exact.cpts.length = temp.cpts.length := by simp [Curve.exact]
    have ed : temp.exact.degree = temp.degree := rfl
    obtain ⟨d1, d2, -, -⟩ := R.domain ht V.len
    rw [el] at d2
    obtain ⟨i1, i2⟩ := run_interval ht R hmin hmax
    rw [List.map_cons] at R
    obtain ⟨hclear, hcount, hak, hkb⟩ := R.clear ht
    have hW : EqualWeights temp.exact := ⟨1, one_pos, hw⟩
    have g1 : ix temp.exact.knots temp.degree < k.val := by rw [d1]; linarith
    have g2 : k.val < ix temp.exact.knots temp.cpts.length := by rw [d2]; linarith
    obtain ⟨x, y, ex, ey, hs, -, Nx, Ny, hM0, -, hdom, hex, hey, ⟨hkx, hky⟩, hone, ⟨mx1, mx2⟩, my1, my2⟩ := split_near hu hu0 hu1 temp V hW k g1 g2
      (by rw [i1]; exact hak) (by rw [i2]; linarith) hclear hcount M hM
    obtain ⟨wx, wy⟩ := C142_unit_weights p hp temp V hw k g1.le g2 hclear hcount x y hs
    obtain ⟨wx', wy'⟩ := hone 1 hw
    obtain ⟨-, _, -, -, -, ⟨_, _, hxx⟩, ⟨_, _, hyy⟩⟩ := split_inv hs
    have dx : x.degree = temp.degree := by rw [hxx]
    have dy : y.degree = temp.degree := by rw [hyy]
    have dx' : ex.degree = temp.degree := by rw [← Nx.degree, dx]
    have dy' : ey.degree = temp.degree := by rw [← Ny.degree, dy]
    obtain ⟨Vx, Dx, Bx, Ex⟩ := unit_near H hM0 Nx wx wx'
    obtain ⟨Vy, Dy, By, Ey⟩ := unit_near H hM0 Ny wy wy'
    rw [dx'] at Bx Ex
    rw [dy'] at By Ey
    have kx : x.exact.knots = ex.knots := Nx.knots
    have ky : y.exact.knots = ey.knots := Ny.knots
    have Ry : KnotRun (2 / 10 ^ 12) y.degree y.exact.knots k.val (ks.map Fp.val) b := by rw [dy, ky, hky]; exact R.right ht
    obtain ⟨l, hl, hlen, hall⟩ := decomposeLoop_near p hp ks y k.val b _ Vy wy By my1 my2 Ry
    rw [dy] at hall
    rw [R.left ht] at hkx
    rw [ed, d1, el, d2] at hdom
    refine ⟨x :: l, ?_, by simp [hlen], fun i hi => ?_⟩
    · rw [decomposeLoop, hs]
      simp only [Res.ok_bind]
      rw [hl]; rfl
    · cases i with
      | zero =>
        refine ⟨x, a, k.val, rfl, ⟨rfl, rfl⟩, le_rfl, by linarith, ⟨Vx, wx, ?_, ?_, dx, ?_, kx.trans hkx, fun t => (Dx t).trans (hdom t).1, fun t h1 h2 => ?_⟩⟩
        · rw [zero_add, mul_one]; exact Bx
        · have hm : ∀ z ∈ x.knots.map Fp.val, a ≤ z ∧ z ≤ k.val := by
            intro z hz
            rw [show x.knots.map Fp.val = _ from kx.trans hkx] at hz
            rcases List.mem_append.1 hz with hz | hz
            · rw [List.eq_of_mem_replicate hz]; exact ⟨le_rfl, by linarith⟩
            · rw [List.eq_of_mem_replicate hz]; exact ⟨by linarith, le_rfl⟩
          exact ⟨min_val mx1 (by rw [show x.knots.map Fp.val = _ from kx.trans hkx]; simp) fun z hz => (hm z hz).1,
            max_val mx2 (by rw [show x.knots.map Fp.val = _ from kx.trans hkx]; simp) fun z hz => (hm z hz).2⟩
        · have := Vx.len
          rw [kx, hkx, List.length_append, List.length_replicate, List.length_replicate] at this
          have elx : x.exact.cpts.length = x.cpts.length := by simp [Curve.exact]
          have edx : x.exact.degree = x.degree := rfl
          rw [ed]
          omega
        · have hd := (hdom t).1.2 ⟨h1, h2⟩
          obtain ⟨r, r', e1, e2, f⟩ := Ex t hd
          rw [hex t hd] at e2
          rw [zero_add, mul_one]
          exact ⟨r, r', e1, e2, f⟩
      | succ i =>
        obtain ⟨q, lo, hi', e1, e2, b1, b2, B⟩ := hall i (by simpa using hi)
        have pw : (1 - 1 / 2 ^ p : K)⁻¹ ^ (10 * temp.degree * (i + 1 + 1)) = (1 - 1 / 2 ^ p)⁻¹ ^ (10 * temp.degree * (i + 1)) * (1 - 1 / 2 ^ p)⁻¹ ^ (10 * temp.degree) := by
          rw [← pow_add]; congr 1
        have ydeg : y.exact.degree = temp.exact.degree := dy
        refine ⟨q, lo, hi', by simpa using e1, e2, by linarith, b2, ⟨B.valid, B.weights, ?_, B.interval, B.degree.trans dy, ?_, ?_, B.domain, fun t h1 h2 => ?_⟩⟩
        · rw [pw, mul_assoc]; exact B.bounded
        · rw [B.points, ydeg]
        · rw [B.knots, ydeg]
        · have hd := (hdom t).2.2 ⟨by linarith, by linarith⟩
          obtain ⟨r, r', f1, f2, f⟩ := B.near t h1 h2
          obtain ⟨s, s', g1, g2, g⟩ := Ey t hd
          rw [hey t hd] at g2
          obtain rfl : r' = s := Res.ok.inj (f2.symm.trans g1)
          have tri : ∀ {x y z : K}, |x - y| ≤ ((1 - 1 / 2 ^ p)⁻¹ ^ (10 * temp.degree * (i + 1)) - 1) * ((1 - 1 / 2 ^ p)⁻¹ ^ (10 * temp.degree) * M) →
              |y - z| ≤ ((1 - 1 / 2 ^ p)⁻¹ ^ (10 * temp.degree) - 1) * M →
              |x - z| ≤ ((1 - 1 / 2 ^ p)⁻¹ ^ (10 * temp.degree * (i + 1 + 1)) - 1) * M := by
            intro x y z h1 h2
            rw [pw]
            refine (abs_sub_le x y z).trans ((add_le_add h1 h2).trans (le_of_eq ?_))
            ring
          exact ⟨r, s', f1, g2, tri f.1 g.1, tri f.2.1 g.2.1, tri f.2.2 g.2.2⟩
/-- C143. `decompose` of a valid clamped curve with weights one and distinct knots `a, ks…, b`, more than 2e-12 apart, with all operations rounded to the nearest number of `p` binary
digits: it appends one curve per pair of neighbouring distinct knots, in order, with exactly these knots and with weights one; the piece at position `i` is the curve over its two knots up
to `20 (i + 1)` times degree rounding units of the largest coordinate, and evaluated with rounding up to `(20 (i + 1) + 28)` times degree plus 20 of them. -/
theorem C143_decompose (p : Nat) (hp : 20 ≤ p) (c : Curve (Fp (Rounding.float (K := K) p (by omega)))) (V : ValidCurve c.exact) (hw : ∀ q ∈ c.exact.cpts, q.w = 1)
    (M : K) (hM : ∀ q ∈ c.exact.cpts, Bounded M (Vec4.pos q)) (a b : K) (ks : List K) (R : KnotRun (2 / 10 ^ 12) c.degree c.exact.knots a ks b)
    (hn : 20 * c.degree * (ks.length + 1) ≤ 2 ^ p) (out : List (Curve (Fp _))) :
    ∃ l, c.decompose out = .ok (out ++ l) ∧ l.length = ks.length + 1 ∧
      ∀ i, i ≤ ks.length → ∃ q lo hi, l[i]? = some q ∧ NeighboursAt (a :: (ks ++ [b])) i lo hi ∧
        BezierNear c.exact q lo hi (20 * c.degree * (i + 1) / 2 ^ p * M) (2 * M) ∧
        ∀ t : Fp _, lo ≤ t.val → t.val ≤ hi → ∃ r r', q.evaluate t = .ok r ∧ c.exact.evaluate t.val = .ok r' ∧
          Within ((20 * c.degree * (i + 1) + 28 * c.degree + 20) / 2 ^ p * M) r r' := by
  have ht : (0 : K) ≤ 2 / 10 ^ 12 := by positivity
  have H := float_unit (K := K) p hp
  have hM0 := bound_nonneg V hM
  have hne : c.knots ≠ [] := by
    intro h
    have := V.len
    rw [show c.exact.knots = c.knots.map Fp.val from rfl, h] at this
    simp at this
  obtain ⟨lo, h1, -⟩ := minElement_ok hne
  obtain ⟨hi, h2, -⟩ := maxElement_ok hne
  have e : c.updateInterval = .ok { c with lo := lo, hi := hi } := by simp [Curve.updateInterval, h1, h2]
  have hu := unique_run ht R
  have hk : ((uniqueKnots c.knots []).tail.dropLast).map Fp.val = ks := by
    rw [List.map_dropLast, List.map_tail, hu, List.tail_cons, List.dropLast_concat]
  obtain ⟨l, hl, hlen, hall⟩ := decomposeLoop_near p hp ((uniqueKnots c.knots []).tail.dropLast) { c with lo := lo, hi := hi } a b M V hw hM h1 h2 (by rw [hk]; exact R)
  have hlk : ((uniqueKnots c.knots []).tail.dropLast).length = ks.length := by rw [← hk, List.length_map]
  rw [hlk] at hlen hall
  rw [hk] at hall
  refine ⟨l, ?_, hlen, fun i hi => ?_⟩
  · unfold Curve.decompose
    rw [e, Res.ok_bind]
    simp only
    rw [hl]
    rfl
  · obtain ⟨q, lo', hi', e1, e2, -, -, B⟩ := hall i hi
    have hn' : 2 * (10 * c.degree * (i + 1)) ≤ 2 ^ p := by
      refine le_trans ?_ hn
      have := Nat.mul_le_mul_left (20 * c.degree) (by omega : i + 1 ≤ ks.length + 1)
      calc 2 * (10 * c.degree * (i + 1)) = 20 * c.degree * (i + 1) := by ring
        _ ≤ _ := this
    have hp0 : (0 : K) < 2 ^ p := by positivity
    have hc : (2 * (10 * c.degree * (i + 1)) : K) * (1 / 2 ^ p) ≤ 1 := by
      have : ((2 * (10 * c.degree * (i + 1)) : Nat) : K) ≤ ((2 ^ p : Nat) : K) := Nat.cast_le.2 hn'
      push_cast at this
      rw [mul_one_div, div_le_one hp0]
      exact this
    have bd := H.pow_sub_one_le (10 * c.degree * (i + 1)) (2 * (10 * c.degree * (i + 1))) (by
      have k0 : (0 : K) ≤ ((10 * c.degree * (i + 1) : Nat) : K) := Nat.cast_nonneg _
      have := mul_le_mul_of_nonneg_left hc k0
      push_cast at this ⊢
      linarith)
    push_cast at bd
    have err : ((1 - 1 / 2 ^ p : K)⁻¹ ^ (10 * c.degree * (i + 1)) - 1) * M ≤ 20 * c.degree * (i + 1) / 2 ^ p * M := by
      refine mul_le_mul_of_nonneg_right (bd.trans (le_of_eq ?_)) hM0
      ring
    have big : (1 - 1 / 2 ^ p : K)⁻¹ ^ (10 * c.degree * (i + 1)) * M ≤ 2 * M := mul_le_mul_of_nonneg_right (by linarith) hM0
    have Bb : ∀ x ∈ q.exact.cpts, Bounded (2 * M) (Vec4.pos x) := fun x hx =>
      ⟨(B.bounded x hx).1.trans big, (B.bounded x hx).2.1.trans big, (B.bounded x hx).2.2.trans big⟩
    have near : ∀ t, lo' ≤ t → t ≤ hi' → ∃ r r', q.exact.evaluate t = .ok r ∧ c.exact.evaluate t = .ok r' ∧
        |r.x - r'.x| ≤ 20 * c.degree * (i + 1) / 2 ^ p * M ∧ |r.y - r'.y| ≤ 20 * c.degree * (i + 1) / 2 ^ p * M ∧ |r.z - r'.z| ≤ 20 * c.degree * (i + 1) / 2 ^ p * M := by
      intro t t1 t2
      obtain ⟨r, r', f1, f2, f3, f4, f5⟩ := B.near t t1 t2
      exact ⟨r, r', f1, f2, f3.trans err, f4.trans err, f5.trans err⟩
    refine ⟨q, lo', hi', e1, e2, ⟨B.valid, B.weights, Bb, B.interval, B.degree, B.points, B.knots, B.domain, near⟩, fun t t1 t2 => ?_⟩
    obtain ⟨r, r', f1, f2, f3, f4, f5⟩ := C121_curve_error (float_error (K := K) p (by omega)) (by positivity) ((float_small p hp).trans (by norm_num)) q B.valid
      (fun x hx => by rw [B.weights x hx]; exact one_pos) t ((B.domain _).2 ⟨t1, t2⟩) (2 * M) Bb
    obtain ⟨s, s', g1, g2, g3, g4, g5⟩ := near t.val t1 t2
    obtain rfl : r' = s := Res.ok.inj (f2.symm.trans g1)
    have dq : (q.degree : K) = c.degree := by
      have : q.degree = c.degree := B.degree
      rw [this]
    rw [dq] at f3 f4 f5
    have tri : ∀ {x y z : K}, |x - y| ≤ (14 * c.degree + 10) * (1 / 2 ^ p) * (2 * M) → |y - z| ≤ 20 * c.degree * (i + 1) / 2 ^ p * M →
        |x - z| ≤ (20 * c.degree * (i + 1) + 28 * c.degree + 20) / 2 ^ p * M := by
      intro x y z h1 h2
      refine (abs_sub_le x y z).trans ((add_le_add h1 h2).trans (le_of_eq ?_))
      ring
    exact ⟨r, s', f1, g2, tri f3 g3, tri f4 g4, tri f5 g5⟩

/-- C143. Nothing of the curve is lost: at every parameter of the domain some piece, evaluated in `double`, is within `2 ^ -40` times the largest coordinate, for curves with up to
thirty distinct inner knots. -/
theorem C143_covers_double (c : Curve (Fp (Rounding.float (K := K) 53 (by norm_num)))) (V : ValidCurve c.exact) (hw : ∀ q ∈ c.exact.cpts, q.w = 1)
    (M : K) (hM : ∀ q ∈ c.exact.cpts, Bounded M (Vec4.pos q)) (a b : K) (ks : List K) (R : KnotRun (2 / 10 ^ 12) c.degree c.exact.knots a ks b) (hn : ks.length ≤ 30)
    (out : List (Curve (Fp _))) :
    ∃ l, c.decompose out = .ok (out ++ l) ∧ ∀ t : Fp _, InDomain c.exact t.val →
      ∃ q ∈ l, ∃ r r', q.evaluate t = .ok r ∧ c.exact.evaluate t.val = .ok r' ∧ Within (1 / 2 ^ 40 * M) r r' := by
  have hp8 : c.degree ≤ 8 := V.deg_le
  have hM0 := bound_nonneg V hM
  obtain ⟨l, hl, hlen, hall⟩ := C143_decompose 53 (by norm_num) c V hw M hM a b ks R (le_trans (Nat.mul_le_mul (Nat.mul_le_mul_left 20 hp8) (by omega : ks.length + 1 ≤ 31)) (by norm_num)) out
  refine ⟨l, hl, fun t htd => ?_⟩
  obtain ⟨d1, d2, -, -⟩ := R.domain (by positivity) V.len
  have d1 : ix c.exact.knots c.exact.degree = a := d1
  unfold InDomain at htd
  rw [d1, d2] at htd
  obtain ⟨i, lo, hi, hi', e, h1, h2⟩ := neighbours_cover ks a b htd.1 htd.2
  obtain ⟨q, lo', hi'', e1, e2, -, g⟩ := hall i hi'
  have x1 : lo' = lo := Option.some.inj (e2.1.symm.trans e.1)
  have x2 : hi'' = hi := Option.some.inj (e2.2.symm.trans e.2)
  subst x1 x2
  obtain ⟨r, r', f1, f2, f3, f4, f5⟩ := g t h1 h2
  have hb : (20 * (c.degree : K) * (i + 1) + 28 * c.degree + 20) / 2 ^ 53 * M ≤ 1 / 2 ^ 40 * M := by
    refine mul_le_mul_of_nonneg_right ?_ hM0
    have : 20 * c.degree * (i + 1) + 28 * c.degree + 20 ≤ 2 ^ 13 := by
      have := Nat.mul_le_mul (Nat.mul_le_mul_left 20 hp8) (by omega : i + 1 ≤ 31)
      omega
    have : ((20 * c.degree * (i + 1) + 28 * c.degree + 20 : Nat) : K) ≤ ((2 ^ 13 : Nat) : K) := Nat.cast_le.2 this
    push_cast at this
    rw [div_le_div_iff₀ (by positivity) (by positivity)]
    norm_num at this ⊢
    linarith
  exact ⟨q, List.mem_of_getElem? e1, r, r', f1, f2, f3.trans hb, f4.trans hb, f5.trans hb⟩
end

/-- The quadratic curve of C26 has `double` coordinates and meets the hypotheses; it has three pieces. -/
example : demoCurve.rounded.exact = demoCurve ∧ ValidCurve demoCurve.rounded.exact ∧ (∀ q ∈ demoCurve.rounded.exact.cpts, q.w = 1) ∧
    (∀ q ∈ demoCurve.rounded.exact.cpts, Bounded 6 (Vec4.pos q)) ∧ KnotRun (2 / 10 ^ 12) demoCurve.rounded.degree demoCurve.rounded.exact.knots 0 [1, 2] 3 ∧
    20 * demoCurve.rounded.degree * 3 ≤ 2 ^ 53 := by
  have e : demoCurve.rounded.exact = demoCurve := by decide +kernel
  rw [e]
  refine ⟨rfl, demoCurve_valid, by decide +kernel, by unfold Bounded; decide +kernel, ⟨by unfold SortedKnots; decide +kernel, fun x => ?_, by decide +kernel, by decide +kernel,
    by decide +kernel, by decide +kernel⟩, by decide⟩
  simp only [demoCurve, List.mem_cons, List.cons_append, List.nil_append, List.not_mem_nil, or_false]
  tauto

end Cmm.Nurbs
