import Verif.Spec.RoundingSurfaceDecompose
import Verif.Props.RoundingSurfaceSplit
import Verif.Props.RoundingDecompose
import Verif.Lemmas.RoundingMinimize
/-!
C148: the error of decomposing surfaces into Bézier patches when every arithmetic operation rounds.
-/
namespace Cmm.Nurbs
variable {K : Type} [Field K] [LinearOrder K] [IsStrictOrderedRing K]

theorem ClosePart.trans {δ₁ δ₂ δ : K} {f g s : Surface K} {u0 u1 v0 v1 a b c d : K} (hf : ClosePart δ₁ f g u0 u1 v0 v1) (hg : ClosePart δ₂ g s a b c d) (h : δ₁ + δ₂ ≤ δ)
    (h1 : a ≤ u0) (h2 : u1 ≤ b) (h3 : c ≤ v0) (h4 : v1 ≤ d) : ClosePart δ f s u0 u1 v0 v1 := by
  obtain ⟨V, W, q1, q2, D⟩ := hf
  obtain ⟨-, -, d1, d2, E⟩ := hg
  refine ⟨V, W, q1.trans d1, q2.trans d2, fun x y => ⟨(D x y).1, fun hd => ?_⟩⟩
  obtain ⟨r, r', k1, k2, k3, k4, k5⟩ := (D x y).2 hd
  have hd' := (D x y).1.1 hd
  obtain ⟨p, p', l1, l2, l3, l4, l5⟩ := (E x y).2 ((E x y).1.2 ⟨⟨h1.trans hd'.1.1, hd'.1.2.trans h2⟩, h3.trans hd'.2.1, hd'.2.2.trans h4⟩)
  rw [k2] at l1
  obtain rfl := Res.ok.inj l1
  have tri : ∀ {x y z : K}, |x - y| ≤ δ₁ → |y - z| ≤ δ₂ → |x - z| ≤ δ := fun a b => (abs_sub_le _ _ _).trans ((add_le_add a b).trans h)
  exact ⟨r, p', k1, l2, tri k3 l3, tri k4 l4, tri k5 l5⟩

theorem ClosePart.mono {δ₁ δ : K} {f s : Surface K} {u0 u1 v0 v1 : K} (hf : ClosePart δ₁ f s u0 u1 v0 v1) (h : δ₁ ≤ δ) : ClosePart δ f s u0 u1 v0 v1 := by
  obtain ⟨V, W, q1, q2, D⟩ := hf
  refine ⟨V, W, q1, q2, fun x y => ⟨(D x y).1, fun hd => ?_⟩⟩
  obtain ⟨r, r', k1, k2, k3, k4, k5⟩ := (D x y).2 hd
  exact ⟨r, r', k1, k2, k3.trans h, k4.trans h, k5.trans h⟩

theorem ClosePart.self {δ : K} {s : Surface K} {u0 u1 v0 v1 : K} (S : ValidSurface s) (W : SurfUnit s) (h : 0 ≤ δ)
    (dom : ∀ a b, SurfInDomain s a b ↔ (u0 ≤ a ∧ a ≤ u1) ∧ (v0 ≤ b ∧ b ≤ v1)) : ClosePart δ s s u0 u1 v0 v1 := by
  have N : NetNear 0 s s := ⟨S, W, rfl, rfl, rfl, rfl, rfl, rfl, S.rows, S.cols, fun i j hi hj => by
    obtain ⟨r, g1, g2⟩ := S.cell_mem hi hj
    exact ⟨W r g1 _ g2, by simp, by simp, by simp⟩⟩
  exact N.part h rfl rfl dom fun _ _ _ => rfl

omit [IsStrictOrderedRing K] in
theorem Bounded.mono {M B : K} {q : Vec3 K} (h : Bounded M q) (hb : M ≤ B) : Bounded B q := ⟨h.1.trans hb, h.2.1.trans hb, h.2.2.trans hb⟩

theorem surf_bound_nonneg {s : Surface K} {M : K} (S : ValidSurface s) (hM : ∀ row ∈ s.cpts, ∀ q ∈ row, Bounded M (Vec4.pos q)) : 0 ≤ M := by
  have := S.knots_u.enough
  have := S.knots_v.enough
  obtain ⟨r, g1, g2⟩ := S.cell_mem (i := 0) (j := 0) (by omega) (by omega)
  exact (abs_nonneg _).trans (hM r g1 _ g2).1

theorem surf_has_bound (s : Surface K) : ∃ M, ∀ row ∈ s.cpts, ∀ q ∈ row, Bounded M (Vec4.pos q) := by
  generalize s.cpts = c
  have row : ∀ l : List (Vec4 K), ∃ M, ∀ q ∈ l, Bounded M (Vec4.pos q) := by
    intro l
    induction l with
    | nil => exact ⟨0, fun q hq => by simp at hq⟩
    | cons x l ih =>
      obtain ⟨M, hM⟩ := ih
      refine ⟨max M (max |x.x| (max |x.y| |x.z|)), fun q hq => ?_⟩
      rcases List.mem_cons.1 hq with rfl | hq
      · exact ⟨by simp [Vec4.pos], by simp [Vec4.pos], by simp [Vec4.pos]⟩
      · exact (hM q hq).mono (le_max_left _ _)
  induction c with
  | nil => exact ⟨0, fun r hr => by simp at hr⟩
  | cons r c ih =>
    obtain ⟨M, hM⟩ := ih
    obtain ⟨B, hB⟩ := row r
    refine ⟨max M B, fun r' hr q hq => ?_⟩
    rcases List.mem_cons.1 hr with rfl | hr
    · exact (hB q hq).mono (le_max_right _ _)
    · exact (hM r' hr q hq).mono (le_max_left _ _)

theorem innerKnots_run {R : Rounding K} {tol : K} {p : Nat} {U : List (Fp R)} {a b : K} {ks : List K} (ht : 0 ≤ tol) (h : KnotRun tol p (U.map Fp.val) a ks b) :
    (innerKnots U).map Fp.val = ks := by
  obtain ⟨h1, h2⟩ := h.lt ht
  have hu := unique_run ht h
  unfold innerKnots
  simp only
  generalize uniqueKnots U [] = l at hu
  have x1 : (ix l 0).val = a := by rw [← ix_knots_exact, hu]; rfl
  have x2 : (ix l (l.length - 1)).val = b := by
    rw [← ix_knots_exact, ← List.length_map (f := Fp.val), hu]
    simp [ix]
  have inj : ∀ x y : Fp R, x = y ↔ x.val = y.val := fun x y => ⟨fun h => by rw [h], fun h => Subtype.ext h⟩
  have e : (fun k : Fp R => decide (k ≠ ix l 0) && decide (k ≠ ix l (l.length - 1))) = (fun x : K => decide (x ≠ a) && decide (x ≠ b)) ∘ Fp.val := by
    funext k
    simp only [Function.comp, ne_eq, inj, x1, x2]
  rw [e, ← List.filter_map, hu, List.filter_cons_of_neg (by simp), List.filter_append, List.filter_eq_self.2, List.filter_cons_of_neg (by simp), List.filter_nil,
    List.append_nil]
  intro x hx
  simp [(h1 x hx).1.ne', (h1 x hx).2.ne]

section
variable [FloorRing K]

theorem tol_float (p : Nat) (hp : 20 ≤ p) : 0 ≤ (surfSplitTol : Fp (Rounding.float (K := K) p (by omega))).val ∧
    2 * (surfSplitTol : Fp (Rounding.float (K := K) p (by omega))).val ≤ 3 / 10 ^ 7 := by
  have hu := float_error (K := K) p (by omega)
  have H := float_unit (K := K) p hp
  have u1 := float_small (K := K) p hp
  have pw := pow_small hu (by positivity) u1 3 (by norm_num)
  have g := surfSplitTol_val H
  refine ⟨Close.nonneg H g, ?_⟩
  have g2 := g.2.1
  norm_num at pw g2 u1 ⊢
  linarith

theorem surfLoopU_near (p : Nat) (hp : 20 ≤ p) : ∀ (ks : List (Fp (Rounding.float (K := K) p (Nat.one_le_of_lt hp)))) (temp : Surface (Fp (Rounding.float (K := K) p (Nat.one_le_of_lt hp)))) (a b M : K),
    ValidSurface temp.exact → SurfUnit temp.exact → SurfIntervalOk temp.exact → (∀ row ∈ temp.exact.cpts, ∀ q ∈ row, Bounded M (Vec4.pos q)) →
    KnotRun (3 / 10 ^ 7) temp.du temp.exact.ku a (ks.map Fp.val) b →
    ∃ l, surfDecomposeLoop (fun t k => t.splitU k surfSplitTol) ks temp = .ok l ∧ l.length = ks.length + 1 ∧
      ∀ i, i ≤ ks.length → ∃ q lo hi, l[i]? = some q ∧ NeighboursAt (a :: (ks.map Fp.val ++ [b])) i lo hi ∧ a ≤ lo ∧ hi ≤ b ∧
        StripNearU (((1 + (10 * (temp.du : K) + 1) / 2 ^ p) ^ (i + 1) - 1) * M) ((1 + (10 * (temp.du : K) + 1) / 2 ^ p) ^ (i + 1) * M) temp.exact q.exact lo hi
  | [], temp, a, b, M, S, W, hI, hM, R => by
    have ht : (0 : K) ≤ 3 / 10 ^ 7 := by positivity
    obtain ⟨d1, d2, -, -⟩ := R.domain ht S.knots_u.len
    have hk := R.bezier ht
    have hM0 := surf_bound_nonneg S hM
    have e0 : (0 : K) ≤ (10 * (temp.du : K) + 1) / 2 ^ p := by positivity
    refine ⟨[temp], rfl, rfl, fun i hi => ?_⟩
    have : i = 0 := by simpa using hi
    subst this
    rw [zero_add, pow_one]
    have d1 : ix temp.exact.ku temp.exact.du = a := d1
    refine ⟨temp, a, b, rfl, ⟨rfl, rfl⟩, le_rfl, le_rfl, ⟨ClosePart.self S W ?_ fun x y => ?_, hI, rfl, hk, fun r hr x hx => (hM r hr x hx).mono ?_⟩⟩
    · rw [add_sub_cancel_left]; exact mul_nonneg e0 hM0
    · unfold SurfInDomain; rw [d1, d2]
    · rw [add_mul, one_mul]; exact le_add_of_nonneg_right (mul_nonneg e0 hM0)
  | k :: ks, temp, a, b, M, S, W, hI, hM, R => by
    have ht : (0 : K) ≤ 3 / 10 ^ 7 := by positivity
    obtain ⟨d1, d2, d3, d4⟩ := R.domain ht S.knots_u.len
    obtain ⟨-, -, iu0, iu1, -, -⟩ := Cmm.Csx.interval_eq hI
    rw [d3] at iu0
    rw [d4] at iu1
    have iu0 : temp.u0.val = a := iu0
    have iu1 : temp.u1.val = b := iu1
    have hM0 := surf_bound_nonneg S hM
    obtain ⟨t0, t1⟩ := tol_float (K := K) p hp
    rw [List.map_cons] at R
    obtain ⟨hclear, hcount, hak, hkb⟩ := R.clear ht
    obtain ⟨x, y, hs, Cx, Cy, -, ⟨hkx, hky⟩, kx, ky, Ix, Iy, Bxy⟩ := C147_split_u p hp temp S W k surfSplitTol t0 (by rw [d1]; linarith) (by rw [show temp.su = temp.exact.su from rfl, d2]; linarith)
      (by rw [iu0]; linarith) (by rw [iu1]; linarith) (clearOf_mono (by norm_num) hclear) hcount M hM
    have e0 : (0 : K) ≤ (10 * (temp.du : K) + 1) / 2 ^ p := by positivity
    rw [d1] at Cx
    rw [show temp.su = temp.exact.su from rfl, d2] at Cy
    have ydu : y.du = temp.du := Cy.2.2.1
    have ydv : y.dv = temp.dv := Cy.2.2.2.1
    have ekv : y.exact.kv = temp.exact.kv := by simp only [Surface.exact, ky]
    have esv : y.sv = temp.sv := by
      have h1 : y.exact.kv.length = y.sv + y.dv + 1 := Cy.1.knots_v.len
      have h2 : temp.exact.kv.length = temp.sv + temp.dv + 1 := S.knots_v.len
      rw [ekv] at h1
      omega
    have Ry : KnotRun (3 / 10 ^ 7) y.du y.exact.ku k.val (ks.map Fp.val) b := by rw [ydu, hky]; exact R.right ht
    obtain ⟨l, hl, hlen, hall⟩ := surfLoopU_near p hp ks y k.val b _ Cy.1 Cy.2.1 Iy (Bxy y (.inr rfl)) Ry
    rw [ydu] at hall
    rw [R.left ht] at hkx
    refine ⟨x :: l, ?_, by simp [hlen], fun i hi => ?_⟩
    · rw [surfDecomposeLoop, hs]
      simp only [Res.ok_bind]
      rw [hl]; rfl
    · cases i with
      | zero =>
        rw [zero_add, pow_one, add_sub_cancel_left, add_mul, one_mul]
        exact ⟨x, a, k.val, rfl, ⟨rfl, rfl⟩, le_rfl, by linarith, ⟨Cx, Ix, by simp only [Surface.exact, kx], hkx, Bxy x (.inl rfl)⟩⟩
      | succ i =>
        obtain ⟨q, lo, hi', e1, e2, b1, b2, B⟩ := hall i (by simpa using hi)
        have g : ClosePart _ q.exact y.exact lo hi' (ix y.exact.kv y.dv) (ix y.exact.kv y.sv) := B.close
        rw [ekv, ydv, esv] at g
        refine ⟨q, lo, hi', by simpa using e1, e2, by linarith, b2, ⟨g.trans Cy (le_of_eq ?_) b1 b2 le_rfl le_rfl, B.interval, B.other.trans ekv, ?_, fun r hr z hz => (B.bound r hr z hz).mono (le_of_eq ?_)⟩⟩
        · ring
        · rw [B.knots]; show List.replicate (y.du + 1) lo ++ List.replicate (y.du + 1) hi' = _; rw [ydu]; rfl
        · ring

theorem surfLoopV_near (p : Nat) (hp : 20 ≤ p) : ∀ (ks : List (Fp (Rounding.float (K := K) p (Nat.one_le_of_lt hp)))) (temp : Surface (Fp (Rounding.float (K := K) p (Nat.one_le_of_lt hp)))) (a b M : K),
    ValidSurface temp.exact → SurfUnit temp.exact → SurfIntervalOk temp.exact → (∀ row ∈ temp.exact.cpts, ∀ q ∈ row, Bounded M (Vec4.pos q)) →
    KnotRun (3 / 10 ^ 7) temp.dv temp.exact.kv a (ks.map Fp.val) b →
    ∃ l, surfDecomposeLoop (fun t k => t.splitV k surfSplitTol) ks temp = .ok l ∧ l.length = ks.length + 1 ∧
      ∀ i, i ≤ ks.length → ∃ q lo hi, l[i]? = some q ∧ NeighboursAt (a :: (ks.map Fp.val ++ [b])) i lo hi ∧ a ≤ lo ∧ hi ≤ b ∧
        StripNearV (((1 + (10 * (temp.dv : K) + 1) / 2 ^ p) ^ (i + 1) - 1) * M) ((1 + (10 * (temp.dv : K) + 1) / 2 ^ p) ^ (i + 1) * M) temp.exact q.exact lo hi
  | [], temp, a, b, M, S, W, hI, hM, R => by
    have ht : (0 : K) ≤ 3 / 10 ^ 7 := by positivity
    obtain ⟨d1, d2, -, -⟩ := R.domain ht S.knots_v.len
    have hk := R.bezier ht
    have hM0 := surf_bound_nonneg S hM
    have e0 : (0 : K) ≤ (10 * (temp.dv : K) + 1) / 2 ^ p := by positivity
    refine ⟨[temp], rfl, rfl, fun i hi => ?_⟩
    have : i = 0 := by simpa using hi
    subst this
    rw [zero_add, pow_one]
    have d1 : ix temp.exact.kv temp.exact.dv = a := d1
    refine ⟨temp, a, b, rfl, ⟨rfl, rfl⟩, le_rfl, le_rfl, ⟨ClosePart.self S W ?_ fun x y => ?_, hI, rfl, hk, fun r hr x hx => (hM r hr x hx).mono ?_⟩⟩
    · rw [add_sub_cancel_left]; exact mul_nonneg e0 hM0
    · unfold SurfInDomain; rw [d1, d2]
    · rw [add_mul, one_mul]; exact le_add_of_nonneg_right (mul_nonneg e0 hM0)
  | k :: ks, temp, a, b, M, S, W, hI, hM, R => by
    have ht : (0 : K) ≤ 3 / 10 ^ 7 := by positivity
    obtain ⟨d1, d2, d3, d4⟩ := R.domain ht S.knots_v.len
    obtain ⟨-, -, -, -, iu0, iu1⟩ := Cmm.Csx.interval_eq hI
    rw [d3] at iu0
    rw [d4] at iu1
    have iu0 : temp.v0.val = a := iu0
    have iu1 : temp.v1.val = b := iu1
    have hM0 := surf_bound_nonneg S hM
    obtain ⟨t0, t1⟩ := tol_float (K := K) p hp
    rw [List.map_cons] at R
    obtain ⟨hclear, hcount, hak, hkb⟩ := R.clear ht
    obtain ⟨x, y, hs, Cx, Cy, -, ⟨hkx, hky⟩, kx, ky, Ix, Iy, Bxy⟩ := C147_split_v p hp temp S W k surfSplitTol t0 (by rw [d1]; linarith) (by rw [show temp.sv = temp.exact.sv from rfl, d2]; linarith)
      (by rw [iu0]; linarith) (by rw [iu1]; linarith) (clearOf_mono (by norm_num) hclear) hcount M hM
    have e0 : (0 : K) ≤ (10 * (temp.dv : K) + 1) / 2 ^ p := by positivity
    rw [d1] at Cx
    rw [show temp.sv = temp.exact.sv from rfl, d2] at Cy
    have ydu : y.du = temp.du := Cy.2.2.1
    have ydv : y.dv = temp.dv := Cy.2.2.2.1
    have eku : y.exact.ku = temp.exact.ku := by simp only [Surface.exact, ky]
    have esu : y.su = temp.su := by
      have h1 : y.exact.ku.length = y.su + y.du + 1 := Cy.1.knots_u.len
      have h2 : temp.exact.ku.length = temp.su + temp.du + 1 := S.knots_u.len
      rw [eku] at h1
      omega
    have Ry : KnotRun (3 / 10 ^ 7) y.dv y.exact.kv k.val (ks.map Fp.val) b := by rw [ydv, hky]; exact R.right ht
    obtain ⟨l, hl, hlen, hall⟩ := surfLoopV_near p hp ks y k.val b _ Cy.1 Cy.2.1 Iy (Bxy y (.inr rfl)) Ry
    rw [ydv] at hall
    rw [R.left ht] at hkx
    refine ⟨x :: l, ?_, by simp [hlen], fun i hi => ?_⟩
    · rw [surfDecomposeLoop, hs]
      simp only [Res.ok_bind]
      rw [hl]; rfl
    · cases i with
      | zero =>
        rw [zero_add, pow_one, add_sub_cancel_left, add_mul, one_mul]
        exact ⟨x, a, k.val, rfl, ⟨rfl, rfl⟩, le_rfl, by linarith, ⟨Cx, Ix, by simp only [Surface.exact, kx], hkx, Bxy x (.inl rfl)⟩⟩
      | succ i =>
        obtain ⟨q, lo, hi', e1, e2, b1, b2, B⟩ := hall i (by simpa using hi)
        have g : ClosePart _ q.exact y.exact (ix y.exact.ku y.du) (ix y.exact.ku y.su) lo hi' := B.close
        rw [eku, ydu, esu] at g
        refine ⟨q, lo, hi', by simpa using e1, e2, by linarith, b2, ⟨g.trans Cy (le_of_eq ?_) le_rfl le_rfl b1 b2, B.interval, B.other.trans eku, ?_, fun r hr z hz => (B.bound r hr z hz).mono (le_of_eq ?_)⟩⟩
        · ring
        · rw [B.knots]; show List.replicate (y.dv + 1) lo ++ List.replicate (y.dv + 1) hi' = _; rw [ydv]; rfl
        · ring

omit [FloorRing K] in
/-- What `update_interval` stores. -/
theorem surf_updated {R : Rounding K} {s : Surface (Fp R)} (S : ValidSurface s.exact) :
    ∃ t : Surface (Fp R), s.updateInterval = .ok t ∧ SurfIntervalOk t.exact ∧ t.cpts = s.cpts ∧ t.du = s.du ∧ t.dv = s.dv ∧ t.su = s.su ∧ t.sv = s.sv ∧ t.ku = s.ku ∧ t.kv = s.kv ∧
      ValidSurface t.exact := by
  have hu : s.ku ≠ [] := fun e => S.knots_u.ne_nil (by simp [Surface.exact, e])
  have hv : s.kv ≠ [] := fun e => S.knots_v.ne_nil (by simp [Surface.exact, e])
  refine ⟨{ s with u0 := ix s.ku 0, u1 := ix s.ku (s.ku.length - 1), v0 := ix s.kv 0, v1 := ix s.kv (s.kv.length - 1) }, ?_, interval_of_ix hu hv rfl rfl rfl rfl, rfl, rfl, rfl, rfl, rfl, rfl,
    rfl, ⟨S.rows, S.cols, S.knots_u, S.knots_v⟩⟩
  unfold Surface.updateInterval
  rw [frontBack_any hu, Res.ok_bind, frontBack_any hv, Res.ok_bind]

/-- C148. `decompose(U)` of a valid clamped surface with weights one and distinct u knots `a, ks…, b` more than 3e-7 apart, with all operations rounded: it appends one strip per pair of
neighbouring distinct knots, in order, with exactly these knots, unchanged v knots, up-to-date intervals and weights one; the strip at position `i` is the surface over its two knots up to
`(1 + (10 d + 1) / 2 ^ p) ^ (i + 1) - 1` times the largest coordinate. -/
theorem C148_surface_u (p : Nat) (hp : 20 ≤ p) (s : Surface (Fp (Rounding.float (K := K) p (Nat.one_le_of_lt hp)))) (S : ValidSurface s.exact) (W : SurfUnit s.exact)
    (M : K) (hM : ∀ row ∈ s.exact.cpts, ∀ q ∈ row, Bounded M (Vec4.pos q)) (a b : K) (ks : List K) (R : KnotRun (3 / 10 ^ 7) s.du s.exact.ku a ks b) (out : List (Surface (Fp _))) :
    ∃ l, s.decomposeU out = .ok (out ++ l) ∧ l.length = ks.length + 1 ∧
      ∀ i, i ≤ ks.length → ∃ q lo hi, l[i]? = some q ∧ NeighboursAt (a :: (ks ++ [b])) i lo hi ∧
        StripNearU (((1 + (10 * (s.du : K) + 1) / 2 ^ p) ^ (i + 1) - 1) * M) ((1 + (10 * (s.du : K) + 1) / 2 ^ p) ^ (i + 1) * M) s.exact q.exact lo hi := by
  obtain ⟨t, ht, hI, hc, hdu, hdv, hsu, hsv, hku, hkv, T⟩ := surf_updated S
  have hk := innerKnots_run (tol := 3 / 10 ^ 7) (U := t.ku) (by positivity) (by rw [hku]; exact R)
  obtain ⟨l, hl, hlen, hall⟩ := surfLoopU_near p hp (innerKnots t.ku) t a b M T (by unfold SurfUnit Surface.exact; rw [hc]; exact W) hI (by unfold Surface.exact; rw [hc]; exact hM)
    (by rw [hk, hdu, show t.exact.ku = s.exact.ku by simp only [Surface.exact, hku]]; exact R)
  have hlk : (innerKnots t.ku).length = ks.length := by rw [← hk, List.length_map]
  rw [hlk] at hlen hall
  rw [hk, hdu] at hall
  refine ⟨l, ?_, hlen, fun i hi => ?_⟩
  · unfold Surface.decomposeU
    rw [ht, Res.ok_bind, hl]
    rfl
  · obtain ⟨q, lo, hi', e1, e2, -, -, B⟩ := hall i hi
    have ev : ∀ a b, t.exact.evaluate a b = s.exact.evaluate a b := by
      intro a b
      unfold Surface.evaluate Surface.exact
      simp only [hc, hdu, hdv, hsu, hsv, hku, hkv]
    obtain ⟨⟨b1, b2, b3, b4, b5⟩, B2, B3, B4, B5⟩ := B
    simp only [ev] at b5
    have f1 : t.exact.du = s.exact.du := hdu
    have f2 : t.exact.dv = s.exact.dv := hdv
    have f3 : t.exact.sv = s.exact.sv := hsv
    have f4 : t.exact.kv = s.exact.kv := by simp only [Surface.exact, hkv]
    rw [f4, f2, f3] at b5
    exact ⟨q, lo, hi', e1, e2, ⟨⟨b1, b2, b3.trans f1, b4.trans f2, b5⟩, B2, B3.trans f4, by rw [B4, f1], B5⟩⟩

/-- C148. The same in the other direction. -/
theorem C148_surface_v (p : Nat) (hp : 20 ≤ p) (s : Surface (Fp (Rounding.float (K := K) p (Nat.one_le_of_lt hp)))) (S : ValidSurface s.exact) (W : SurfUnit s.exact)
    (M : K) (hM : ∀ row ∈ s.exact.cpts, ∀ q ∈ row, Bounded M (Vec4.pos q)) (a b : K) (ks : List K) (R : KnotRun (3 / 10 ^ 7) s.dv s.exact.kv a ks b) (out : List (Surface (Fp _))) :
    ∃ l, s.decomposeV out = .ok (out ++ l) ∧ l.length = ks.length + 1 ∧
      ∀ i, i ≤ ks.length → ∃ q lo hi, l[i]? = some q ∧ NeighboursAt (a :: (ks ++ [b])) i lo hi ∧
        StripNearV (((1 + (10 * (s.dv : K) + 1) / 2 ^ p) ^ (i + 1) - 1) * M) ((1 + (10 * (s.dv : K) + 1) / 2 ^ p) ^ (i + 1) * M) s.exact q.exact lo hi := by
  obtain ⟨t, ht, hI, hc, hdu, hdv, hsu, hsv, hku, hkv, T⟩ := surf_updated S
  have hk := innerKnots_run (tol := 3 / 10 ^ 7) (U := t.kv) (by positivity) (by rw [hkv]; exact R)
  obtain ⟨l, hl, hlen, hall⟩ := surfLoopV_near p hp (innerKnots t.kv) t a b M T (by unfold SurfUnit Surface.exact; rw [hc]; exact W) hI (by unfold Surface.exact; rw [hc]; exact hM)
    (by rw [hk, hdv, show t.exact.kv = s.exact.kv by simp only [Surface.exact, hkv]]; exact R)
  have hlk : (innerKnots t.kv).length = ks.length := by rw [← hk, List.length_map]
  rw [hlk] at hlen hall
  rw [hk, hdv] at hall
  refine ⟨l, ?_, hlen, fun i hi => ?_⟩
  · unfold Surface.decomposeV
    rw [ht, Res.ok_bind, hl]
    rfl
  · obtain ⟨q, lo, hi', e1, e2, -, -, B⟩ := hall i hi
    have ev : ∀ a b, t.exact.evaluate a b = s.exact.evaluate a b := by
      intro a b
      unfold Surface.evaluate Surface.exact
      simp only [hc, hdu, hdv, hsu, hsv, hku, hkv]
    obtain ⟨⟨b1, b2, b3, b4, b5⟩, B2, B3, B4, B5⟩ := B
    simp only [ev] at b5
    have f1 : t.exact.du = s.exact.du := hdu
    have f2 : t.exact.dv = s.exact.dv := hdv
    have f3 : t.exact.su = s.exact.su := hsu
    have f4 : t.exact.ku = s.exact.ku := by simp only [Surface.exact, hku]
    rw [f4, f1, f3] at b5
    exact ⟨q, lo, hi', e1, e2, ⟨⟨b1, b2, b3.trans f1, b4.trans f2, b5⟩, B2, B3.trans f4, by rw [B4, f2], B5⟩⟩

theorem decomposeEach_near (p : Nat) (hp : 20 ≤ p) (a b : K) (ks : List K) : ∀ (items out : List (Surface (Fp (Rounding.float (K := K) p (Nat.one_le_of_lt hp))))),
    (∀ q ∈ items, ValidSurface q.exact ∧ SurfUnit q.exact ∧ KnotRun (3 / 10 ^ 7) q.dv q.exact.kv a ks b) →
    ∃ grid : List (List (Surface (Fp (Rounding.float (K := K) p (Nat.one_le_of_lt hp))))), decomposeEach items out = .ok (out ++ grid.flatten) ∧ grid.length = items.length ∧
      ∀ (i : Nat) (q : Surface (Fp (Rounding.float (K := K) p (Nat.one_le_of_lt hp)))), items[i]? = some q → ∃ row, grid[i]? = some row ∧ row.length = ks.length + 1 ∧
        ∀ M, (∀ r ∈ q.exact.cpts, ∀ x ∈ r, Bounded M (Vec4.pos x)) → ∀ j, j ≤ ks.length → ∃ r lo hi, row[j]? = some r ∧ NeighboursAt (a :: (ks ++ [b])) j lo hi ∧
          StripNearV (((1 + (10 * (q.dv : K) + 1) / 2 ^ p) ^ (j + 1) - 1) * M) ((1 + (10 * (q.dv : K) + 1) / 2 ^ p) ^ (j + 1) * M) q.exact r.exact lo hi
  | [], out, _ => ⟨[], by simp [decomposeEach], rfl, fun i q h => by simp at h⟩
  | item :: rest, out, h => by
    obtain ⟨S, W, R⟩ := h item (by simp)
    obtain ⟨B, hB⟩ := surf_has_bound item.exact
    obtain ⟨l, hl, hlen, -⟩ := C148_surface_v p hp item S W B hB a b ks R out
    obtain ⟨grid, hg, hgl, hga⟩ := decomposeEach_near p hp a b ks rest (out ++ l) fun q hq => h q (by simp [hq])
    refine ⟨l :: grid, ?_, by simp [hgl], fun i q hq => ?_⟩
    · rw [decomposeEach, hl, Res.ok_bind, hg, List.flatten_cons, List.append_assoc]
    · cases i with
      | zero =>
        have : item = q := by simpa using hq
        subst this
        refine ⟨l, rfl, hlen, fun M hM => ?_⟩
        obtain ⟨l', hl', -, hall⟩ := C148_surface_v p hp item S W M hM a b ks R out
        rw [hl] at hl'
        obtain rfl : l = l' := List.append_cancel_left (Res.ok.inj hl')
        exact hall
      | succ i => simpa using hga i q (by simpa using hq)

/-- C148. `decompose` of a valid surface with weights one that is clamped in both directions, with all operations rounded to nearest: it appends the grid of Bézier patches, row by row, one for
every pair of neighbouring distinct u knots and every pair of neighbouring distinct v knots, with exactly these knots, up-to-date intervals and weights one. The patch in row `i` and column `j` is
the surface there up to `(1 + (10 du + 1) / 2 ^ p) ^ (i + 1) (1 + (10 dv + 1) / 2 ^ p) ^ (j + 1) - 1` times the largest coordinate. -/
theorem C148_surface (p : Nat) (hp : 20 ≤ p) (s : Surface (Fp (Rounding.float (K := K) p (Nat.one_le_of_lt hp)))) (S : ValidSurface s.exact) (W : SurfUnit s.exact)
    (M : K) (hM : ∀ row ∈ s.exact.cpts, ∀ q ∈ row, Bounded M (Vec4.pos q)) (a b : K) (ks : List K) (Ru : KnotRun (3 / 10 ^ 7) s.du s.exact.ku a ks b)
    (c d : K) (ls : List K) (Rv : KnotRun (3 / 10 ^ 7) s.dv s.exact.kv c ls d) (out : List (Surface (Fp _))) :
    ∃ grid : List (List (Surface (Fp (Rounding.float (K := K) p (Nat.one_le_of_lt hp))))), s.decompose out = .ok (out ++ grid.flatten) ∧ grid.length = ks.length + 1 ∧
      ∀ i, i ≤ ks.length → ∃ row, grid[i]? = some row ∧ row.length = ls.length + 1 ∧
        ∀ j, j ≤ ls.length → ∃ q ulo uhi vlo vhi, row[j]? = some q ∧ NeighboursAt (a :: (ks ++ [b])) i ulo uhi ∧ NeighboursAt (c :: (ls ++ [d])) j vlo vhi ∧
          BezierPatchNear (((1 + (10 * (s.du : K) + 1) / 2 ^ p) ^ (i + 1) * (1 + (10 * (s.dv : K) + 1) / 2 ^ p) ^ (j + 1) - 1) * M)
            ((1 + (10 * (s.du : K) + 1) / 2 ^ p) ^ (i + 1) * (1 + (10 * (s.dv : K) + 1) / 2 ^ p) ^ (j + 1) * M) s.exact q.exact ulo uhi vlo vhi := by
  obtain ⟨l, hl, hlen, hall⟩ := C148_surface_u p hp s S W M hM a b ks Ru []
  have hdv : ∀ q : Surface (Fp (Rounding.float (K := K) p (Nat.one_le_of_lt hp))), q.exact.dv = s.exact.dv → q.dv = s.dv := fun _ h => h
  obtain ⟨grid, hg, hgl, hga⟩ := decomposeEach_near p hp c d ls l out (by
    intro q hq
    obtain ⟨i, hi, rfl⟩ := List.mem_iff_getElem.1 hq
    obtain ⟨q', lo, hi', e1, -, B⟩ := hall i (by omega)
    rw [List.getElem?_eq_getElem hi] at e1
    rw [Option.some.inj e1]
    exact ⟨B.close.1, B.close.2.1, by rw [B.other, hdv _ B.close.2.2.2.1]; exact Rv⟩)
  refine ⟨grid, ?_, hgl.trans hlen, fun i hi => ?_⟩
  · unfold Surface.decompose
    rw [hl, Res.ok_bind, List.nil_append, hg]
  · obtain ⟨g, ulo, uhi, e1, e2, B⟩ := hall i hi
    obtain ⟨row, r1, r2, r3⟩ := hga i g e1
    refine ⟨row, r1, r2, fun j hj => ?_⟩
    obtain ⟨q, vlo, vhi, f1, f2, C⟩ := r3 _ B.bound j hj
    rw [hdv _ B.close.2.2.2.1] at C
    have gdu : g.exact.du = s.exact.du := B.close.2.2.1
    have gdv : g.exact.dv = s.exact.dv := B.close.2.2.2.1
    have gsu : g.exact.su = s.exact.du + 1 := by
      have := B.close.1.knots_u.len
      rw [B.knots, gdu, List.length_append, List.length_replicate, List.length_replicate] at this
      omega
    have hq : q.exact.ku = List.replicate (s.exact.du + 1) ulo ++ List.replicate (s.exact.du + 1) uhi := C.other.trans B.knots
    have hqu : q.exact.du = s.exact.du := C.close.2.2.1.trans gdu
    have hqv : q.exact.dv = s.exact.dv := C.close.2.2.2.1.trans gdv
    have hk : q.exact.kv = List.replicate (s.exact.dv + 1) vlo ++ List.replicate (s.exact.dv + 1) vhi := by rw [C.knots, gdv]
    have hsu : q.exact.su = s.exact.du + 1 := by
      have := C.close.1.knots_u.len
      rw [hq, hqu, List.length_append, List.length_replicate, List.length_replicate] at this
      omega
    have hsv' : q.exact.sv = s.exact.dv + 1 := by
      have := C.close.1.knots_v.len
      rw [hk, hqv, List.length_append, List.length_replicate, List.length_replicate] at this
      omega
    have ends : ∀ (n : Nat) (x y : K), ix (List.replicate (n + 1) x ++ List.replicate (n + 1) y) n = x ∧
        ix (List.replicate (n + 1) x ++ List.replicate (n + 1) y) (n + 1) = y ∧
        ix (List.replicate (n + 1) x ++ List.replicate (n + 1) y) 0 = x ∧
        ix (List.replicate (n + 1) x ++ List.replicate (n + 1) y) ((List.replicate (n + 1) x ++ List.replicate (n + 1) y).length - 1) = y := by
      intro n x y
      refine ⟨?_, ?_, ?_, ?_⟩
      · simp [ix, List.getElem?_append]
      · simp [ix, List.getElem?_append]
      · simp [ix, List.getElem?_append]
      · simp [ix, List.getElem?_append]
    obtain ⟨x1, x2, x3, x4⟩ := ends s.exact.du ulo uhi
    obtain ⟨y1, y2, y3, y4⟩ := ends s.exact.dv vlo vhi
    obtain ⟨-, -, i1, i2, i3, i4⟩ := Cmm.Csx.interval_eq C.interval
    obtain ⟨-, v1, v2⟩ := neighbours_between (by positivity) Rv f2
    obtain ⟨d1, d2, -, -⟩ := Rv.domain (by positivity) S.knots_v.len
    have d1 : ix s.exact.kv s.exact.dv = c := d1
    have Cc := C.close
    rw [gdu, gsu, B.knots, x1, x2] at Cc
    have Bc := B.close
    rw [d1, d2] at Bc
    refine ⟨q, ulo, uhi, vlo, vhi, f1, e2, f2, ⟨Cc.trans Bc (le_of_eq ?_) le_rfl le_rfl v1 v2, ⟨by rw [i1, hq, x3], by rw [i2, hq, x4], by rw [i3, hk, y3], by rw [i4, hk, y4]⟩,
      ⟨hsu, hsv'⟩, hq, hk, fun r hr x hx => (C.bound r hr x hx).mono (le_of_eq ?_)⟩⟩
    · ring
    · ring

omit [FloorRing K] in
theorem growth_le {x : K} (hx : 0 ≤ x) : ∀ n : Nat, (1 + x) ^ n * (1 - n * x) ≤ 1
  | 0 => by simp
  | n + 1 => by
    have ih := growth_le hx n
    have h0 : 0 ≤ (1 + x) ^ n := by positivity
    have h1 : (1 + x) * (1 - (n + 1 : Nat) * x) ≤ 1 - n * x := by
      push_cast
      have : 0 ≤ ((n : K) + 1) * (x * x) := by positivity
      linarith
    calc (1 + x) ^ (n + 1) * (1 - (n + 1 : Nat) * x) = (1 + x) ^ n * ((1 + x) * (1 - (n + 1 : Nat) * x)) := by ring
      _ ≤ (1 + x) ^ n * (1 - n * x) := mul_le_mul_of_nonneg_left h1 h0
      _ ≤ 1 := ih

/-- C148. For `double` and up to a thousand rows and columns together: every point of the surface is on a patch up to `2 ^ -36` times the largest coordinate, every patch is nowhere further than
that from the surface, and no coordinate of a control point more than doubles. -/
theorem C148_double (s : Surface (Fp (Rounding.float (K := K) 53 (by norm_num)))) (S : ValidSurface s.exact) (W : SurfUnit s.exact)
    (M : K) (hM : ∀ row ∈ s.exact.cpts, ∀ q ∈ row, Bounded M (Vec4.pos q)) (a b : K) (ks : List K) (Ru : KnotRun (3 / 10 ^ 7) s.du s.exact.ku a ks b)
    (c d : K) (ls : List K) (Rv : KnotRun (3 / 10 ^ 7) s.dv s.exact.kv c ls d) (hn : ks.length + ls.length ≤ 998) (out : List (Surface (Fp _))) :
    ∃ l, s.decompose out = .ok (out ++ l) ∧ l.length = (ks.length + 1) * (ls.length + 1) ∧
      (∀ q ∈ l, ∃ ulo uhi vlo vhi, BezierPatchNear (1 / 2 ^ 36 * M) (2 * M) s.exact q.exact ulo uhi vlo vhi) ∧
      ∀ u v, SurfInDomain s.exact u v → ∃ q ∈ l, SurfInDomain q.exact u v ∧ ∃ r r', q.exact.evaluate u v = .ok r ∧ s.exact.evaluate u v = .ok r' ∧
        |r.x - r'.x| ≤ 1 / 2 ^ 36 * M ∧ |r.y - r'.y| ≤ 1 / 2 ^ 36 * M ∧ |r.z - r'.z| ≤ 1 / 2 ^ 36 * M := by
  have hM0 := surf_bound_nonneg S hM
  obtain ⟨grid, hg, hgl, hall⟩ := C148_surface 53 (by norm_num) s S W M hM a b ks Ru c d ls Rv out
  have hdu : (s.du : K) ≤ 8 := by
    have : s.du ≤ 8 := S.knots_u.deg_le
    exact_mod_cast this
  have hdv : (s.dv : K) ≤ 8 := by
    have : s.dv ≤ 8 := S.knots_v.deg_le
    exact_mod_cast this
  have gr : ∀ i j, i ≤ ks.length → j ≤ ls.length →
      (1 + (10 * (s.du : K) + 1) / 2 ^ 53) ^ (i + 1) * (1 + (10 * (s.dv : K) + 1) / 2 ^ 53) ^ (j + 1) - 1 ≤ 1 / 2 ^ 36 := by
    intro i j hi hj
    have e1 : (10 * (s.du : K) + 1) / 2 ^ 53 ≤ 81 / 2 ^ 53 := div_le_div_of_nonneg_right (by linarith) (by positivity)
    have e2 : (10 * (s.dv : K) + 1) / 2 ^ 53 ≤ 81 / 2 ^ 53 := div_le_div_of_nonneg_right (by linarith) (by positivity)
    have x1 : (1 + (10 * (s.du : K) + 1) / 2 ^ 53) ^ (i + 1) ≤ (1 + 81 / 2 ^ 53) ^ (i + 1) := pow_le_pow_left₀ (by positivity) (by linarith) _
    have x2 : (1 + (10 * (s.dv : K) + 1) / 2 ^ 53) ^ (j + 1) ≤ (1 + 81 / 2 ^ 53) ^ (j + 1) := pow_le_pow_left₀ (by positivity) (by linarith) _
    have x3 : (1 + (10 * (s.du : K) + 1) / 2 ^ 53) ^ (i + 1) * (1 + (10 * (s.dv : K) + 1) / 2 ^ 53) ^ (j + 1) ≤ (1 + 81 / 2 ^ 53) ^ 1000 :=
      calc _ ≤ (1 + 81 / 2 ^ 53 : K) ^ (i + 1) * (1 + 81 / 2 ^ 53) ^ (j + 1) := mul_le_mul x1 x2 (by positivity) (by positivity)
        _ = (1 + 81 / 2 ^ 53) ^ (i + 1 + (j + 1)) := (pow_add _ _ _).symm
        _ ≤ _ := pow_le_pow_right₀ (le_add_of_nonneg_right (by positivity)) (by omega)
    have x4 := growth_le (K := K) (x := 81 / 2 ^ 53) (by positivity) 1000
    generalize (1 + 81 / 2 ^ 53 : K) ^ 1000 = w at x3 x4
    generalize (1 + (10 * (s.du : K) + 1) / 2 ^ 53) ^ (i + 1) * (1 + (10 * (s.dv : K) + 1) / 2 ^ 53) ^ (j + 1) = z at x3 ⊢
    norm_num at x4 ⊢
    linarith
  have patch : ∀ i j, i ≤ ks.length → j ≤ ls.length → ∃ row q ulo uhi vlo vhi, grid[i]? = some row ∧ row[j]? = some q ∧ NeighboursAt (a :: (ks ++ [b])) i ulo uhi ∧
      NeighboursAt (c :: (ls ++ [d])) j vlo vhi ∧ BezierPatchNear (1 / 2 ^ 36 * M) (2 * M) s.exact q.exact ulo uhi vlo vhi := by
    intro i j hi hj
    obtain ⟨row, r1, -, r3⟩ := hall i hi
    obtain ⟨q, ulo, uhi, vlo, vhi, q1, q2, q3, B⟩ := r3 j hj
    have g := gr i j hi hj
    refine ⟨row, q, ulo, uhi, vlo, vhi, r1, q1, q2, q3, ⟨B.close.mono (mul_le_mul_of_nonneg_right g hM0), B.interval, B.size, B.knots_u, B.knots_v,
      fun r hr x hx => (B.bound r hr x hx).mono (mul_le_mul_of_nonneg_right ?_ hM0)⟩⟩
    have : (1 : K) / 2 ^ 36 ≤ 1 := by norm_num
    linarith
  refine ⟨grid.flatten, hg, ?_, fun q hq => ?_, fun u v huv => ?_⟩
  · have : ∀ row ∈ grid, row.length = ls.length + 1 := by
      intro row hr
      obtain ⟨i, hi, rfl⟩ := List.mem_iff_getElem.1 hr
      obtain ⟨row', r1, r2, -⟩ := hall i (by omega)
      rw [List.getElem?_eq_getElem hi] at r1
      rw [Option.some.inj r1, r2]
    rw [List.length_flatten, List.map_congr_left this, List.map_const', List.sum_replicate, hgl, smul_eq_mul]
  · obtain ⟨row, hr, hq⟩ := List.mem_flatten.1 hq
    obtain ⟨i, hi, rfl⟩ := List.mem_iff_getElem.1 hr
    obtain ⟨j, hj, rfl⟩ := List.mem_iff_getElem.1 hq
    obtain ⟨row', r1, r2, -⟩ := hall i (by omega)
    rw [List.getElem?_eq_getElem hi] at r1
    rw [← Option.some.inj r1] at r2
    obtain ⟨row', q, ulo, uhi, vlo, vhi, e1, e2, -, -, B⟩ := patch i j (by omega) (by omega)
    rw [List.getElem?_eq_getElem hi] at e1
    rw [← Option.some.inj e1, List.getElem?_eq_getElem hj] at e2
    rw [Option.some.inj e2]
    exact ⟨ulo, uhi, vlo, vhi, B⟩
  · obtain ⟨d1, d2, -, -⟩ := Ru.domain (by positivity) S.knots_u.len
    obtain ⟨d3, d4, -, -⟩ := Rv.domain (by positivity) S.knots_v.len
    have d1 : ix s.exact.ku s.exact.du = a := d1
    have d3 : ix s.exact.kv s.exact.dv = c := d3
    unfold SurfInDomain at huv
    rw [d1, d2, d3, d4] at huv
    obtain ⟨i, ulo, uhi, hi, n1, h1, h2⟩ := neighbours_cover ks a b huv.1.1 huv.1.2
    obtain ⟨j, vlo, vhi, hj, n2, h3, h4⟩ := neighbours_cover ls c d huv.2.1 huv.2.2
    obtain ⟨row, q, ulo', uhi', vlo', vhi', e1, e2, n3, n4, B⟩ := patch i j hi hj
    obtain rfl : ulo' = ulo := Option.some.inj (n3.1.symm.trans n1.1)
    obtain rfl : uhi' = uhi := Option.some.inj (n3.2.symm.trans n1.2)
    obtain rfl : vlo' = vlo := Option.some.inj (n4.1.symm.trans n2.1)
    obtain rfl : vhi' = vhi := Option.some.inj (n4.2.symm.trans n2.2)
    obtain ⟨-, -, -, -, D⟩ := B.close
    have hd := (D u v).1.2 ⟨⟨h1, h2⟩, h3, h4⟩
    exact ⟨q, List.mem_flatten.2 ⟨row, List.mem_of_getElem? e1, List.mem_of_getElem? e2⟩, hd, (D u v).2 hd⟩

omit [FloorRing K] in
/-- The middle of an interval as `subdivide()` computes it. -/
theorem half_sum_near {R : Rounding K} (F : Num.FormatOk R (1 / 2 ^ 53)) {L : K} (a b : Fp R) (ha : |a.val| ≤ L) (hb : |b.val| ≤ L) :
    |(1 / 2 * (b + a)).val - (a.val + b.val) / 2| ≤ 3 / 2 ^ 53 * L := by
  have e : (1 / 2 * (b + a)).val = R.rnd (1 / 2 * R.rnd (b.val + a.val)) := by
    show R.rnd ((1 / 2 : Fp R).val * R.rnd (b.val + a.val)) = _
    rw [F.half_val]
  rw [e]
  rw [abs_le] at ha hb
  have hL : 0 ≤ L := by linarith
  have h1 := F.err (b.val + a.val)
  have s1 : |b.val + a.val| ≤ 2 * L := by rw [abs_le]; constructor <;> linarith
  have h1' : |R.rnd (b.val + a.val) - (b.val + a.val)| ≤ 1 / 2 ^ 53 * (2 * L) := h1.trans (mul_le_mul_of_nonneg_left s1 (by norm_num))
  generalize R.rnd (b.val + a.val) = m at *
  rw [abs_le] at h1' s1
  have h2 := F.err (1 / 2 * m)
  have s2 : |1 / 2 * m| ≤ 2 * L := by
    rw [abs_le]
    norm_num at h1' ⊢
    constructor <;> linarith
  have h2' := h2.trans (mul_le_mul_of_nonneg_left s2 (by norm_num))
  rw [abs_le] at h2' ⊢
  constructor <;> linarith

/-- C147. `subdivide()` in `double`, on intervals longer than a millionth with ends up to a million: the parameters it computes are the middles of the intervals up to `3 / 2 ^ 53` times the larger
end, and unless one of them is too near to a knot, it returns the four quarters up to `2 ^ -45` times the largest coordinate. -/
theorem C147_subdivide_mid_double (s : Surface (Fp (Rounding.float (K := K) 53 (by norm_num)))) (S : ValidSurface s.exact) (hI : SurfIntervalOk s.exact)
    (hw : SurfUnit s.exact) (L : K) (hL : L ≤ 10 ^ 6) (h1 : |s.u0.val| ≤ L) (h2 : |s.u1.val| ≤ L) (h3 : |s.v0.val| ≤ L) (h4 : |s.v1.val| ≤ L)
    (hu : s.u0.val + 1 / 10 ^ 6 ≤ s.u1.val) (hv : s.v0.val + 1 / 10 ^ 6 ≤ s.v1.val)
    (M : K) (hM : ∀ row ∈ s.exact.cpts, ∀ q ∈ row, Bounded M (Vec4.pos q)) :
    ∃ um vm : K, |um - (s.u0.val + s.u1.val) / 2| ≤ 3 / 2 ^ 53 * L ∧ |vm - (s.v0.val + s.v1.val) / 2| ≤ 3 / 2 ^ 53 * L ∧
      (ix s.exact.ku s.du < um → um < ix s.exact.ku s.su → ix s.exact.kv s.dv < vm → vm < ix s.exact.kv s.sv → ClearOf (2 / 10 ^ 12) s.exact.ku um → ClearOf (2 / 10 ^ 12) s.exact.kv vm →
        s.exact.ku.count um ≤ s.du → s.exact.kv.count vm ≤ s.dv →
        ∃ a b c d, s.subdivide = .ok (a, b, c, d) ∧
          ClosePart (1 / 2 ^ 45 * M) a.exact s.exact (ix s.exact.ku s.du) um (ix s.exact.kv s.dv) vm ∧
          ClosePart (1 / 2 ^ 45 * M) b.exact s.exact (ix s.exact.ku s.du) um vm (ix s.exact.kv s.sv) ∧
          ClosePart (1 / 2 ^ 45 * M) c.exact s.exact um (ix s.exact.ku s.su) (ix s.exact.kv s.dv) vm ∧
          ClosePart (1 / 2 ^ 45 * M) d.exact s.exact um (ix s.exact.ku s.su) vm (ix s.exact.kv s.sv)) := by
  have F := Num.formatOk_float (K := K) 53 (by norm_num)
  have eu := half_sum_near F s.u0 s.u1 h1 h2
  have ev := half_sum_near F s.v0 s.v1 h3 h4
  refine ⟨_, _, eu, ev, fun g1 g2 g3 g4 g5 g6 g7 g8 => ?_⟩
  have small : 3 / 2 ^ 53 * L ≤ 1 / 10 ^ 8 := by
    refine (mul_le_mul_of_nonneg_left hL (by norm_num)).trans ?_
    norm_num
  rw [abs_le] at eu ev
  refine C147_subdivide_double s S hI hw _ _ g1 g2 g3 g4 ?_ ?_ ?_ ?_ g5 g6 g7 g8 M hM
  · norm_num at small hu ⊢ eu; linarith
  · norm_num at small hu ⊢ eu; linarith
  · norm_num at small hv ⊢ ev; linarith
  · norm_num at small hv ⊢ ev; linarith

end

/-- A surface with two strips meets the hypotheses. -/
example : let s := demoSurface.rounded.exact
    ValidSurface s ∧ SurfUnit s ∧ (∀ row ∈ s.cpts, ∀ q ∈ row, Bounded 10 (Vec4.pos q)) ∧
    KnotRun (3 / 10 ^ 7) s.du s.ku 0 [(Fp.round double (1 / 3)).val] 1 ∧ KnotRun (3 / 10 ^ 7) s.dv s.kv 0 [] 2 := by
  refine ⟨⟨rfl, by decide +kernel, ⟨by decide, by decide, by decide, rfl, by unfold SortedKnots; decide +kernel, by decide +kernel⟩,
   ⟨by decide, by decide, by decide, rfl, by unfold SortedKnots; decide +kernel, by decide +kernel⟩⟩, by unfold SurfUnit; decide +kernel, by unfold Bounded; decide +kernel,
   ⟨by unfold SortedKnots; decide +kernel, fun x => ?_, by decide +kernel, by decide +kernel, by decide +kernel, by decide +kernel⟩,
   ⟨by unfold SortedKnots; decide +kernel, fun x => ?_, by decide +kernel, by decide +kernel, by decide +kernel, by decide +kernel⟩⟩
  · have e : demoSurface.rounded.exact.ku = [0, 0, 0, (Fp.round double (1 / 3)).val, 1, 1, 1] := by decide +kernel
    rw [e]
    simp only [List.mem_cons, List.cons_append, List.nil_append, List.not_mem_nil, or_false]
    tauto
  · have e : demoSurface.rounded.exact.kv = [0, 0, 2, 2] := by decide +kernel
    rw [e]
    simp only [List.mem_cons, List.cons_append, List.nil_append, List.not_mem_nil, or_false]
    tauto

/-- The same surface can be halved in both directions: the middles 1/2 and 1 are clear of the knots. -/
example : let s := demoSurface.rounded.exact
    SurfIntervalOk s ∧ |s.u0| ≤ 2 ∧ |s.u1| ≤ 2 ∧ |s.v0| ≤ 2 ∧ |s.v1| ≤ 2 ∧ s.u0 + 1 / 10 ^ 6 ≤ s.u1 ∧ s.v0 + 1 / 10 ^ 6 ≤ s.v1 ∧
    (1 / 2 * (demoSurface.rounded.u1 + demoSurface.rounded.u0)).val = 1 / 2 ∧ (1 / 2 * (demoSurface.rounded.v1 + demoSurface.rounded.v0)).val = 1 ∧
    ClearOf (2 / 10 ^ 12) s.ku (1 / 2) ∧ ClearOf (2 / 10 ^ 12) s.kv 1 := by
  unfold SurfIntervalOk ClearOf
  decide +kernel

end Cmm.Nurbs
