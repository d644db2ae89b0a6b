import Verif.Props.RoundingSurface
import Verif.Props.RoundingSplit
import Verif.Lemmas.InsertConvex
/-!
C147: the error of `split_surface_u`, `split_surface_v` and `subdivide` on surfaces when every arithmetic operation rounds to the nearest number of `p` binary digits. `s.exact` is the
surface with the same numbers, treated without rounding.
-/
namespace Cmm.Nurbs

section any
variable {A : Type} [Arith A] [LinearOrder A]

omit [LinearOrder A] in
theorem frontBack_any {l : List A} (h : l ≠ []) : frontBack l = .ok (ix l 0, ix l (l.length - 1)) := by
  cases l with
  | nil => exact absurd rfl h
  | cons a l => rfl

omit [LinearOrder A] in
theorem make_any {cpts : List (List (Vec4 A))} {du dv su sv : Nat} {ku kv : List A} (h1 : cpts.length = su) (h2 : 0 < su)
    (h3 : ∀ r ∈ cpts, r.length = sv) (h4 : 0 < sv) (h5 : ku ≠ []) (h6 : kv ≠ []) :
    Surface.make cpts du dv ku kv = .ok ⟨cpts, du, dv, su, sv, ku, kv, ix ku 0, ix ku (ku.length - 1), ix kv 0, ix kv (kv.length - 1)⟩ := by
  match cpts with
  | [] => simp at h1; omega
  | [] :: _ => have := h3 [] (by simp); simp at this; omega
  | (a :: r) :: rest =>
    have e : (a :: r).length = sv := h3 _ (by simp)
    unfold Surface.make
    simp only
    rw [if_neg (by simpa using h5), Res.ok_bind, if_neg (by simpa using h6), Res.ok_bind]
    unfold Surface.updateInterval
    rw [frontBack_any (by exact h5), Res.ok_bind, frontBack_any (by exact h6), Res.ok_bind, h1, e]

omit [LinearOrder A] in
theorem cell_map_take_any {c : List (List (Vec4 A))} {n i j : Nat} (h : j < n) : cell (c.map fun r => r.take n) i j = cell c i j := by
  unfold cell
  rw [List.getD_eq_getElem?_getD, List.getD_eq_getElem?_getD, List.getElem?_map]
  cases c[i]? with
  | none => rfl
  | some r =>
    show (r.take n).getD j 0 = r.getD j 0
    rw [List.getD_eq_getElem?_getD, List.getElem?_take_of_lt h, ← List.getD_eq_getElem?_getD]

omit [LinearOrder A] in
theorem cell_map_drop_any {c : List (List (Vec4 A))} {n i j : Nat} : cell (c.map fun r => r.drop n) i j = cell c i (n + j) := by
  unfold cell
  rw [List.getD_eq_getElem?_getD, List.getD_eq_getElem?_getD, List.getElem?_map]
  cases c[i]? with
  | none => rfl
  | some r =>
    show (r.drop n).getD j 0 = r.getD (n + j) 0
    rw [List.getD_eq_getElem?_getD, List.getElem?_drop, ← List.getD_eq_getElem?_getD]

theorem splitU_any {s e : Surface A} {t tol : A} (hg : ¬(t ≤ s.u0 ∨ s.u1 ≤ t ∨ absA (t - s.u0) ≤ tol ∨ absA (t - s.u1) ≤ tol))
    (hs : findMultiplicity t s.ku ≤ s.du) (he : s.insertKnotU t (s.du - findMultiplicity t s.ku) = .ok e) {N J : Nat}
    (hN : findSpan (s.su - 1) s.du t (ix s.ku) - s.du + 1 + (s.du - findMultiplicity t s.ku) = N) (hJ : findSpan (e.su - 1) s.du t (ix e.ku) + 1 = J)
    (hl : N ≤ e.cpts.length) (hr : ∀ r ∈ e.cpts, r.length = s.sv) (hv : 0 < s.sv) (hk : s.kv ≠ []) :
    s.splitU t tol = .ok (⟨e.cpts.take N, s.du, s.dv, N, s.sv, e.ku.take J ++ [t], s.kv, ix (e.ku.take J ++ [t]) 0, ix (e.ku.take J ++ [t]) ((e.ku.take J ++ [t]).length - 1),
        ix s.kv 0, ix s.kv (s.kv.length - 1)⟩,
      ⟨e.cpts.drop (N - 1), s.du, s.dv, e.cpts.length - (N - 1), s.sv, List.replicate (s.du + 1) t ++ e.ku.drop J, s.kv, ix (List.replicate (s.du + 1) t ++ e.ku.drop J) 0,
        ix (List.replicate (s.du + 1) t ++ e.ku.drop J) ((List.replicate (s.du + 1) t ++ e.ku.drop J).length - 1), ix s.kv 0, ix s.kv (s.kv.length - 1)⟩) := by
  unfold Surface.splitU
  rw [if_neg hg]
  simp only
  rw [if_neg (not_lt.2 hs), he, Res.ok_bind]
  simp only [hN, hJ]
  rw [make_any (su := N) (sv := s.sv) (by rw [List.length_take]; omega) (by omega) (fun r h => hr r (List.mem_of_mem_take h)) hv (by simp) hk, Res.ok_bind,
    make_any (su := e.cpts.length - (N - 1)) (sv := s.sv) (by rw [List.length_drop]) (by omega) (fun r h => hr r (List.mem_of_mem_drop h)) hv (by simp) hk, Res.ok_bind]

theorem splitV_any {s e : Surface A} {t tol : A} (hg : ¬(t ≤ s.v0 ∨ s.v1 ≤ t ∨ absA (t - s.v0) ≤ tol ∨ absA (t - s.v1) ≤ tol))
    (hs : findMultiplicity t s.kv ≤ s.dv) (he : s.insertKnotV t (s.dv - findMultiplicity t s.kv) = .ok e) {N J n : Nat}
    (hN : findSpan (s.sv - 1) s.dv t (ix s.kv) - s.dv + 1 + (s.dv - findMultiplicity t s.kv) = N) (hJ : findSpan (e.sv - 1) s.dv t (ix e.kv) + 1 = J)
    (hl : N ≤ n) (hc : e.cpts.length = s.su) (hr : ∀ r ∈ e.cpts, r.length = n) (hu : 0 < s.su) (hk : s.ku ≠ []) :
    s.splitV t tol = .ok (⟨e.cpts.map fun r => r.take N, s.du, s.dv, s.su, N, s.ku, e.kv.take J ++ [t], ix s.ku 0, ix s.ku (s.ku.length - 1),
        ix (e.kv.take J ++ [t]) 0, ix (e.kv.take J ++ [t]) ((e.kv.take J ++ [t]).length - 1)⟩,
      ⟨e.cpts.map fun r => r.drop (N - 1), s.du, s.dv, s.su, n - (N - 1), s.ku, List.replicate (s.dv + 1) t ++ e.kv.drop J, ix s.ku 0, ix s.ku (s.ku.length - 1),
        ix (List.replicate (s.dv + 1) t ++ e.kv.drop J) 0,
        ix (List.replicate (s.dv + 1) t ++ e.kv.drop J) ((List.replicate (s.dv + 1) t ++ e.kv.drop J).length - 1)⟩) := by
  unfold Surface.splitV
  rw [if_neg hg]
  simp only
  rw [if_neg (not_lt.2 hs), he, Res.ok_bind, if_neg (by omega)]
  simp only [hN, hJ]
  rw [List.take_of_length_le (by omega)]
  rw [make_any (su := s.su) (sv := N) (by rw [List.length_map]; exact hc) hu (fun r h => by
      obtain ⟨r', h', rfl⟩ := List.mem_map.1 h
      rw [List.length_take, hr r' h']; omega) (by omega) hk (by simp), Res.ok_bind,
    make_any (su := s.su) (sv := n - (N - 1)) (by rw [List.length_map]; exact hc) hu (fun r h => by
      obtain ⟨r', h', rfl⟩ := List.mem_map.1 h
      rw [List.length_drop, hr r' h']) (by omega) hk (by simp), Res.ok_bind]

end any

variable {K : Type} [Field K] [LinearOrder K] [IsStrictOrderedRing K] {R : Rounding K} {u : K}

/-- The computed test for the ends of the interval. -/
theorem surf_guard_fp (hu : R.RelError u) (h0 : 0 ≤ u) (h1 : u ≤ 1 / 2 ^ 20) {lo hi t tol : Fp R} (htol : 0 ≤ tol.val) (hlo : lo.val + 2 * tol.val < t.val)
    (hhi : t.val < hi.val - 2 * tol.val) : ¬(t ≤ lo ∨ hi ≤ t ∨ absA (t - lo) ≤ tol ∨ absA (t - hi) ≤ tol) := by
  have H := errUnit hu h0 (lt_of_le_of_lt h1 (by norm_num))
  have pw := pow_small hu h0 h1 2 (by norm_num)
  set ρ := (1 - u)⁻¹ with hρ
  have ρ2 : ρ ^ 2 ≤ 2 := by
    norm_num at h1 pw
    linarith
  have low : ∀ x : K, |x| ≤ |R.rnd x| * ρ := by
    intro x
    have e1 := hu x
    have e2 := abs_add_le (x - R.rnd x) (R.rnd x)
    rw [sub_add_cancel, abs_sub_comm x] at e2
    have hpos : 0 < 1 - u := by norm_num at h1; linarith
    rw [hρ, ← div_eq_mul_inv, le_div_iff₀ hpos]
    linarith
  have key : ∀ x : K, ∀ y : Fp R, y.val = R.rnd x → absA y ≤ tol → |x| ≤ 2 * tol.val := by
    intro x y hy hle
    have hle : (absA y).val ≤ tol.val := hle
    have g1 := (absA_val H y).2.2
    rw [pow_one, hy] at g1
    have r0 := H.pos
    calc |x| ≤ |R.rnd x| * ρ := low x
      _ ≤ (ρ * (absA y).val) * ρ := mul_le_mul_of_nonneg_right g1 r0.le
      _ ≤ (ρ * tol.val) * ρ := mul_le_mul_of_nonneg_right (mul_le_mul_of_nonneg_left hle r0.le) r0.le
      _ = ρ ^ 2 * tol.val := by ring
      _ ≤ 2 * tol.val := mul_le_mul_of_nonneg_right ρ2 htol
  rintro (h | h | h | h)
  · have : t.val ≤ lo.val := h
    linarith
  · have : hi.val ≤ t.val := h
    linarith
  · have := key (t.val - lo.val) (t - lo) rfl h
    rw [abs_of_nonneg (by linarith)] at this
    linarith
  · have := key (t.val - hi.val) (t - hi) rfl h
    rw [abs_of_nonpos (by linarith)] at this
    linarith

theorem interval_of_ix {f : Surface (Fp R)} (hu : f.ku ≠ []) (hv : f.kv ≠ []) (h1 : f.u0 = ix f.ku 0) (h2 : f.u1 = ix f.ku (f.ku.length - 1)) (h3 : f.v0 = ix f.kv 0)
    (h4 : f.v1 = ix f.kv (f.kv.length - 1)) : SurfIntervalOk f.exact := by
  unfold SurfIntervalOk
  rw [surf_updateInterval (by simpa [Surface.exact] using hu) (by simpa [Surface.exact] using hv)]
  unfold Surface.exact
  simp only [ix_knots_exact, List.length_map, h1, h2, h3, h4]

theorem NetNear.part {δ δ' : K} {f e s : Surface K} (N : NetNear δ' f e) (hδ : δ' ≤ δ) (h1 : e.du = s.du) (h2 : e.dv = s.dv) {u0 u1 v0 v1 : K}
    (dom : ∀ a b, SurfInDomain e a b ↔ (u0 ≤ a ∧ a ≤ u1) ∧ (v0 ≤ b ∧ b ≤ v1)) (val : ∀ a b, SurfInDomain e a b → e.evaluate a b = s.evaluate a b) :
    ClosePart δ f s u0 u1 v0 v1 := by
  obtain ⟨F, wf, d1, d2, D⟩ := N.close
  refine ⟨F, wf, d1.trans h1, d2.trans h2, fun a b => ⟨(D a b).1.trans (dom a b), fun hd => ?_⟩⟩
  obtain ⟨r, r', g1, g2, g3, g4, g5⟩ := (D a b).2 ((D a b).1.1 hd)
  rw [val a b ((D a b).1.1 hd)] at g2
  exact ⟨r, r', g1, g2, g3.trans hδ, g4.trans hδ, g5.trans hδ⟩

theorem lerpClosed_bounded (M : K) : LerpClosed (fun q : Vec4 K => Bounded M (Vec4.pos q)) := by
  intro α a b h0 h1 ha hb
  have key : ∀ x y : K, |x| ≤ M → |y| ≤ M → |α * x + (1 - α) * y| ≤ M := by
    intro x y hx hy
    rw [abs_le] at hx hy ⊢
    have h2 : 0 ≤ 1 - α := by linarith
    have g1 := mul_le_mul_of_nonneg_left hx.1 h0
    have g2 := mul_le_mul_of_nonneg_left hx.2 h0
    have g3 := mul_le_mul_of_nonneg_left hy.1 h2
    have g4 := mul_le_mul_of_nonneg_left hy.2 h2
    constructor <;> linarith
  have e : ∀ x y : K, x * α + y * (1 - α) = α * x + (1 - α) * y := fun x y => by ring
  obtain ⟨a1, a2, a3⟩ := ha
  obtain ⟨b1, b2, b3⟩ := hb
  have ex : (lerp4 α a b).x = α * a.x + (1 - α) * b.x := by simp [lerp4]; ring
  have ey : (lerp4 α a b).y = α * a.y + (1 - α) * b.y := by simp [lerp4]; ring
  have ez : (lerp4 α a b).z = α * a.z + (1 - α) * b.z := by simp [lerp4]; ring
  refine ⟨?_, ?_, ?_⟩
  · show |(lerp4 α a b).x| ≤ M
    rw [ex]; exact key _ _ a1 b1
  · show |(lerp4 α a b).y| ≤ M
    rw [ey]; exact key _ _ a2 b2
  · show |(lerp4 α a b).z| ≤ M
    rw [ez]; exact key _ _ a3 b3

theorem NetNear.bounded {δ δ' M : K} {f e : Surface K} (N : NetNear δ' f e) (hδ : δ' ≤ δ) (hE : NetIn (fun q => Bounded M (Vec4.pos q)) e) :
    ∀ row ∈ f.cpts, ∀ q ∈ row, Bounded (M + δ) (Vec4.pos q) := by
  intro r hr q hq
  obtain ⟨i, hi, rfl⟩ := List.getElem_of_mem hr
  obtain ⟨j, hj, rfl⟩ := List.getElem_of_mem hq
  have hj' : j < e.sv := by rw [N.cols _ hr, N.sv] at hj; exact hj
  have hi' : i < e.su := by rw [N.rows, N.su] at hi; exact hi
  obtain ⟨-, g1, g2, g3⟩ := N.near i j hi' hj'
  obtain ⟨b1, b2, b3⟩ := NetIn.cell N.valid hE hi' hj'
  rw [cell_eq hi, ix_eq_getElem hj] at g1 g2 g3
  have key : ∀ x y : K, |x - y| ≤ δ' → |y| ≤ M → |x| ≤ M + δ := by
    intro x y h1 h2
    have := abs_add_le (x - y) y
    rw [sub_add_cancel] at this
    linarith
  exact ⟨key _ _ g1 b1, key _ _ g2 b2, key _ _ g3 b3⟩

/-- C147. `split_surface_u(t, tol)` on a surface with weights one, more than twice the tolerance inside the interval: two surfaces with weights exactly one, defined on the two sides of
the parameter, with fresh intervals, that share the control points on the seam, and neither is further from the given surface than `(10 d + 1) / 2 ^ p` times its largest coordinate. No coordinate becomes larger by more
than that. -/
theorem C147_split_u [FloorRing K] (p : Nat) (hp : 20 ≤ p) (s : Surface (Fp (Rounding.float (K := K) p (Nat.one_le_of_lt hp)))) (S : ValidSurface s.exact)
    (hw : SurfUnit s.exact) (t tol : Fp _) (htol : 0 ≤ tol.val) (ht1 : ix s.exact.ku s.du < t.val) (ht2 : t.val < ix s.exact.ku s.su)
    (hlo : s.u0.val + 2 * tol.val < t.val) (hhi : t.val < s.u1.val - 2 * tol.val)
    (hsep : ClearOf (2 / 10 ^ 12) s.exact.ku t.val) (hc : s.exact.ku.count t.val ≤ s.du)
    (M : K) (hM : ∀ row ∈ s.exact.cpts, ∀ q ∈ row, Bounded M (Vec4.pos q)) :
    ∃ a b, s.splitU t tol = .ok (a, b) ∧
      ClosePart ((10 * s.du + 1) / 2 ^ p * M) a.exact s.exact (ix s.exact.ku s.du) t.val (ix s.exact.kv s.dv) (ix s.exact.kv s.sv) ∧
      ClosePart ((10 * s.du + 1) / 2 ^ p * M) b.exact s.exact t.val (ix s.exact.ku s.su) (ix s.exact.kv s.dv) (ix s.exact.kv s.sv) ∧
      (∃ row, a.cpts.getLast? = some row ∧ b.cpts.head? = some row) ∧
      (a.exact.ku = s.exact.ku.filter (fun x => decide (x < t.val)) ++ List.replicate (s.du + 1) t.val ∧
        b.exact.ku = List.replicate (s.du + 1) t.val ++ s.exact.ku.filter (fun x => decide (t.val < x))) ∧
      a.kv = s.kv ∧ b.kv = s.kv ∧ SurfIntervalOk a.exact ∧ SurfIntervalOk b.exact ∧
      ∀ g, g = a ∨ g = b → ∀ row ∈ g.exact.cpts, ∀ q ∈ row, Bounded (M + (10 * s.du + 1) / 2 ^ p * M) (Vec4.pos q) := by
  have hsep1 : ClearOf (1 / 10 ^ 12) s.exact.ku t.val := fun x hx hne => lt_trans (by
    rw [div_lt_div_iff_of_pos_right (by positivity)]; norm_num) (hsep x hx hne)
  have hu1 := unit_small (K := K) p hp
  have hmul : findMultiplicity t s.ku = s.exact.ku.count t.val := multiplicity_float p hp hsep
  have hmule : findMultiplicity t.val s.exact.ku = s.exact.ku.count t.val := findMultiplicity_eq_count hsep1
  obtain ⟨k, m, hk, hm, A⟩ := S.knots_u.splitAt ht1 ht2 hsep1 hc
  have hpk := A.hpk
  have hkn := A.hkn
  have hps := A.hps
  have eu : ix s.exact.ku = fun i => (ix s.ku i).val := funext (ix_knots_exact s.ku)
  have hkc : findSpan (s.su - 1) s.du t (ix s.ku) = k := by rw [findSpan_val, ← eu]; exact hk
  have hmm : findMultiplicity t s.ku = m := by rw [hmul, ← hmule, hm]
  have hmd : m ≤ s.du := by rw [← hmm, hmul]; exact hc
  have x1 : s.exact.su = s.su := rfl
  have x2 : s.exact.sv = s.sv := rfl
  have x3 : s.exact.du = s.du := rfl
  have x4 : s.exact.dv = s.dv := rfl
  obtain ⟨f, e, hf, he, N, f1, f2, -, f4, -, -, -, -, e1, e2, e3, e4, -⟩ := insertU_near p hp s S hw t ht1.le ht2 hsep (s.du - m) (by omega) M hM
  have henv := S.knots_v.enough
  have hgc := surf_guard_fp (float_error (K := K) p (Nat.one_le_of_lt hp)) (by positivity) hu1 htol hlo hhi
  have hlo' : s.exact.u0 + tol.val < t.val := by show s.u0.val + _ < _; linarith
  have hhi' : t.val < s.exact.u1 - tol.val := by show _ < s.u1.val - _; linarith
  have hge := split_guard htol hlo' hhi'
  obtain ⟨ea, eb, hs, ⟨Va, -, a1, a2, a3⟩, ⟨Vb, -, b1, b2, b3⟩, da, db, va, vb, ka, kb⟩ := C33_split_u s.exact S t.val tol.val htol ht1 ht2 hlo' hhi' hsep1 hc
  have fl : f.cpts.length = s.su + (s.du - m) := by
    have := N.rows
    simp only [Surface.exact, List.length_map] at this
    rw [this, f1]
  have el : e.cpts.length = s.su + (s.du - m) := by rw [N.valid.rows, e3]
  have fr : ∀ r ∈ f.cpts, r.length = s.sv := by
    intro r hr
    have := N.cols (r.map exact4) (by simp only [Surface.exact, List.mem_map]; exact ⟨r, hr, rfl⟩)
    rw [List.length_map] at this
    rw [this]
    exact f2
  have er : ∀ r ∈ e.cpts, r.length = s.sv := fun r hr => by rw [N.valid.cols r hr, e4]
  have eJ : findSpan (f.su - 1) s.du t (ix f.ku) = findSpan (e.su - 1) s.du t.val (ix e.ku) := by
    rw [findSpan_val, f1, ← e3, ← N.ku]
    congr 1
    exact (funext (ix_knots_exact f.ku)).symm
  have hNe : findSpan (s.exact.su - 1) s.exact.du t.val (ix s.exact.ku) - s.exact.du + 1 + (s.exact.du - findMultiplicity t.val s.exact.ku) = k - m + 1 := by
    rw [hk, hm]; omega
  have hNc : findSpan (s.su - 1) s.du t (ix s.ku) - s.du + 1 + (s.du - findMultiplicity t s.ku) = k - m + 1 := by
    rw [hkc, hmm]; omega
  have kvne : s.kv ≠ [] := by
    intro h
    have := S.knots_v.len
    simp [Surface.exact, h] at this
  have hsc := splitU_any (tol := tol) hgc (by rw [hmm]; exact hmd) (by rw [hmm]; exact hf) (e := f) hNc (congrArg (· + 1) eJ) (by omega) fr (by omega) kvne
  have hse := splitU_any (s := s.exact) (tol := tol.val) (by simp only [absA_eq]; exact hge) (by rw [hm]; exact hmd) (by rw [hm]; exact he) hNe rfl (by omega) er
    (by omega) (by simpa [Surface.exact] using kvne)
  obtain ⟨ca, cb⟩ := splitU_closed (lerpClosed_bounded M) S hM ht1 ht2 hsep1 hc hs
  have hs := Res.ok.inj (hs.symm.trans hse)
  rw [Prod.mk.injEq] at hs
  have hM0 : 0 ≤ M := by
    obtain ⟨r, g1, g2⟩ := S.cell_mem (i := 0) (j := 0) (by omega) (by omega)
    exact (abs_nonneg _).trans (hM r g1 _ g2).1
  have hδ : (10 * ((s.du - m : Nat) : K) + 1) / 2 ^ p * M ≤ (10 * s.du + 1) / 2 ^ p * M := by
    refine mul_le_mul_of_nonneg_right (div_le_div_of_nonneg_right ?_ (by positivity)) hM0
    have : ((s.du - m : Nat) : K) ≤ s.du := Nat.cast_le.2 (Nat.sub_le _ _)
    linarith
  have fe : f.exact.cpts = f.cpts.map (·.map exact4) := rfl
  have fk : f.ku.map Fp.val = e.ku := N.ku
  generalize hA : (⟨f.cpts.take (k - m + 1), _, _, _, _, _, _, _, _, _, _⟩ : Surface (Fp (Rounding.float (K := K) p (Nat.one_le_of_lt hp)))) = ga at hsc
  generalize hB : (⟨f.cpts.drop (k - m + 1 - 1), _, _, _, _, _, _, _, _, _, _⟩ : Surface (Fp (Rounding.float (K := K) p (Nat.one_le_of_lt hp)))) = gb at hsc
  have Na : NetNear ((10 * ((s.du - m : Nat) : K) + 1) / 2 ^ p * M) ga.exact ea := by
    subst hA
    obtain rfl := hs.1
    refine ⟨Va, ?_, ?_, rfl, rfl, rfl, rfl, rfl, ?_, ?_, ?_⟩
    · exact fun r hr q hq => N.unit r (List.mem_of_mem_take hr) q hq
    · simp only [Surface.exact, List.map_append, List.map_take, fk, List.map_cons, List.map_nil]
    · simp only [Surface.exact, List.length_map, List.length_take]
      omega
    · intro r hr
      simp only [Surface.exact, List.mem_map] at hr
      obtain ⟨r', hr', rfl⟩ := hr
      rw [List.length_map]
      exact fr r' (List.mem_of_mem_take hr')
    · intro i j hi hj
      simp only [Surface.exact, List.map_take]
      simp only at hi hj
      rw [cell_take hi, cell_take hi]
      exact N.near i j (by omega) (by omega)
  have Nb : NetNear ((10 * ((s.du - m : Nat) : K) + 1) / 2 ^ p * M) gb.exact eb := by
    subst hB
    obtain rfl := hs.2
    refine ⟨Vb, ?_, ?_, rfl, rfl, rfl, ?_, rfl, ?_, ?_, ?_⟩
    · exact fun r hr q hq => N.unit r (List.mem_of_mem_drop hr) q hq
    · simp only [Surface.exact, List.map_append, List.map_drop, fk, List.map_replicate]
    · simp only [Surface.exact, fl, el]
    · simp only [Surface.exact, List.length_map, List.length_drop]
    · intro r hr
      simp only [Surface.exact, List.mem_map] at hr
      obtain ⟨r', hr', rfl⟩ := hr
      rw [List.length_map]
      exact fr r' (List.mem_of_mem_drop hr')
    · intro i j hi hj
      simp only [Surface.exact, List.map_drop]
      simp only at hi hj
      rw [cell_drop, cell_drop]
      exact N.near _ j (by omega) (by omega)
  refine ⟨ga, gb, hsc, Na.part hδ a1 a2 da va, Nb.part hδ b1 b2 db vb, ?_, ⟨?_, ?_⟩, by rw [← hA], by rw [← hB], ?_, ?_, ?_⟩
  · subst hA hB
    have hlt : k - m < f.cpts.length := by omega
    refine ⟨f.cpts[k - m], ?_, ?_⟩
    · simp only
      rw [List.getLast?_eq_getElem?, List.length_take, show min (k - m + 1) f.cpts.length - 1 = k - m by omega, List.getElem?_take_of_lt (by omega),
        List.getElem?_eq_getElem hlt]
    · simp only
      rw [List.head?_drop, Nat.add_sub_cancel, List.getElem?_eq_getElem hlt]
  · subst hA
    refine Eq.trans ?_ ka
    rw [hs.1]
    simp only [Surface.exact, List.map_append, List.map_take, fk, List.map_cons, List.map_nil]
  · subst hB
    refine Eq.trans ?_ kb
    rw [hs.2]
    simp only [Surface.exact, List.map_append, List.map_drop, fk, List.map_replicate]
  · subst hA
    exact interval_of_ix (by simp) kvne rfl rfl rfl rfl
  · subst hB
    exact interval_of_ix (by simp) kvne rfl rfl rfl rfl
  · rintro g (rfl | rfl)
    · exact Na.bounded hδ ca
    · exact Nb.bounded hδ cb

/-- C147. `split_surface_v(t, tol)`: the same in the other direction; two surfaces with weights exactly one, defined on the two sides of
the parameter, with fresh intervals, that share the control points on the seam, and neither is further from the given surface than `(10 d + 1) / 2 ^ p` times its largest coordinate. No coordinate becomes larger by more
than that. -/
theorem C147_split_v [FloorRing K] (p : Nat) (hp : 20 ≤ p) (s : Surface (Fp (Rounding.float (K := K) p (Nat.one_le_of_lt hp)))) (S : ValidSurface s.exact)
    (hw : SurfUnit s.exact) (t tol : Fp _) (htol : 0 ≤ tol.val) (ht1 : ix s.exact.kv s.dv < t.val) (ht2 : t.val < ix s.exact.kv s.sv)
    (hlo : s.v0.val + 2 * tol.val < t.val) (hhi : t.val < s.v1.val - 2 * tol.val)
    (hsep : ClearOf (2 / 10 ^ 12) s.exact.kv t.val) (hc : s.exact.kv.count t.val ≤ s.dv)
    (M : K) (hM : ∀ row ∈ s.exact.cpts, ∀ q ∈ row, Bounded M (Vec4.pos q)) :
    ∃ a b, s.splitV t tol = .ok (a, b) ∧
      ClosePart ((10 * s.dv + 1) / 2 ^ p * M) a.exact s.exact (ix s.exact.ku s.du) (ix s.exact.ku s.su) (ix s.exact.kv s.dv) t.val ∧
      ClosePart ((10 * s.dv + 1) / 2 ^ p * M) b.exact s.exact (ix s.exact.ku s.du) (ix s.exact.ku s.su) t.val (ix s.exact.kv s.sv) ∧
      a.cpts.map (·.getLast?) = b.cpts.map (·.head?) ∧
      (a.exact.kv = s.exact.kv.filter (fun x => decide (x < t.val)) ++ List.replicate (s.dv + 1) t.val ∧
        b.exact.kv = List.replicate (s.dv + 1) t.val ++ s.exact.kv.filter (fun x => decide (t.val < x))) ∧
      a.ku = s.ku ∧ b.ku = s.ku ∧ SurfIntervalOk a.exact ∧ SurfIntervalOk b.exact ∧
      ∀ g, g = a ∨ g = b → ∀ row ∈ g.exact.cpts, ∀ q ∈ row, Bounded (M + (10 * s.dv + 1) / 2 ^ p * M) (Vec4.pos q) := by
  have hsep1 : ClearOf (1 / 10 ^ 12) s.exact.kv t.val := fun x hx hne => lt_trans (by
    rw [div_lt_div_iff_of_pos_right (by positivity)]; norm_num) (hsep x hx hne)
  have hu1 := unit_small (K := K) p hp
  have hmul : findMultiplicity t s.kv = s.exact.kv.count t.val := multiplicity_float p hp hsep
  have hmule : findMultiplicity t.val s.exact.kv = s.exact.kv.count t.val := findMultiplicity_eq_count hsep1
  obtain ⟨k, m, hk, hm, A⟩ := S.knots_v.splitAt ht1 ht2 hsep1 hc
  have hpk := A.hpk
  have hkn := A.hkn
  have hps := A.hps
  have eu : ix s.exact.kv = fun i => (ix s.kv i).val := funext (ix_knots_exact s.kv)
  have hkc : findSpan (s.sv - 1) s.dv t (ix s.kv) = k := by rw [findSpan_val, ← eu]; exact hk
  have hmm : findMultiplicity t s.kv = m := by rw [hmul, ← hmule, hm]
  have hmd : m ≤ s.dv := by rw [← hmm, hmul]; exact hc
  have x1 : s.exact.sv = s.sv := rfl
  have x2 : s.exact.su = s.su := rfl
  have x3 : s.exact.dv = s.dv := rfl
  have x4 : s.exact.du = s.du := rfl
  obtain ⟨f, e, hf, he, N, f2, f1, -, -, -, e1, e2, e4, e3, -⟩ := insertV_near p hp s S hw t ht1.le ht2 hsep (s.dv - m) (by omega) M hM
  have henv := S.knots_u.enough
  have hgc := surf_guard_fp (float_error (K := K) p (Nat.one_le_of_lt hp)) (by positivity) hu1 htol hlo hhi
  have hlo' : s.exact.v0 + tol.val < t.val := by show s.v0.val + _ < _; linarith
  have hhi' : t.val < s.exact.v1 - tol.val := by show _ < s.v1.val - _; linarith
  have hge := split_guard htol hlo' hhi'
  obtain ⟨ea, eb, hs, ⟨Va, -, a1, a2, a3⟩, ⟨Vb, -, b1, b2, b3⟩, da, db, va, vb, ka, kb⟩ := C33_split_v s.exact S t.val tol.val htol ht1 ht2 hlo' hhi' hsep1 hc
  have fl : f.cpts.length = s.su := by
    have := N.rows
    simp only [Surface.exact, List.length_map] at this
    rw [this, f2]
  have el : e.cpts.length = s.su := by rw [N.valid.rows, e4]
  have fr : ∀ r ∈ f.cpts, r.length = s.sv + (s.dv - m) := by
    intro r hr
    have := N.cols (r.map exact4) (by simp only [Surface.exact, List.mem_map]; exact ⟨r, hr, rfl⟩)
    rw [List.length_map] at this
    rw [this]
    exact f1
  have er : ∀ r ∈ e.cpts, r.length = s.sv + (s.dv - m) := fun r hr => by rw [N.valid.cols r hr, e3]
  have eJ : findSpan (f.sv - 1) s.dv t (ix f.kv) = findSpan (e.sv - 1) s.dv t.val (ix e.kv) := by
    rw [findSpan_val, f1, ← e3, ← N.kv]
    congr 1
    exact (funext (ix_knots_exact f.kv)).symm
  have hNe : findSpan (s.exact.sv - 1) s.exact.dv t.val (ix s.exact.kv) - s.exact.dv + 1 + (s.exact.dv - findMultiplicity t.val s.exact.kv) = k - m + 1 := by
    rw [hk, hm]; omega
  have hNc : findSpan (s.sv - 1) s.dv t (ix s.kv) - s.dv + 1 + (s.dv - findMultiplicity t s.kv) = k - m + 1 := by
    rw [hkc, hmm]; omega
  have kvne : s.ku ≠ [] := by
    intro h
    have := S.knots_u.len
    simp [Surface.exact, h] at this
  have hsc := splitV_any (tol := tol) hgc (by rw [hmm]; exact hmd) (by rw [hmm]; exact hf) (e := f) hNc (congrArg (· + 1) eJ) (by omega) fl fr (by omega) kvne
  have hse := splitV_any (s := s.exact) (tol := tol.val) (by simp only [absA_eq]; exact hge) (by rw [hm]; exact hmd) (by rw [hm]; exact he) hNe rfl (by omega) el er
    (by omega) (by simpa [Surface.exact] using kvne)
  obtain ⟨ca, cb⟩ := splitV_closed (lerpClosed_bounded M) S hM ht1 ht2 hsep1 hc hs
  have hs := Res.ok.inj (hs.symm.trans hse)
  rw [Prod.mk.injEq] at hs
  have hM0 : 0 ≤ M := by
    obtain ⟨r, g1, g2⟩ := S.cell_mem (i := 0) (j := 0) (by omega) (by omega)
    exact (abs_nonneg _).trans (hM r g1 _ g2).1
  have hδ : (10 * ((s.dv - m : Nat) : K) + 1) / 2 ^ p * M ≤ (10 * s.dv + 1) / 2 ^ p * M := by
    refine mul_le_mul_of_nonneg_right (div_le_div_of_nonneg_right ?_ (by positivity)) hM0
    have : ((s.dv - m : Nat) : K) ≤ s.dv := Nat.cast_le.2 (Nat.sub_le _ _)
    linarith
  have fe : f.exact.cpts = f.cpts.map (·.map exact4) := rfl
  have fk : f.kv.map Fp.val = e.kv := N.kv
  generalize hA : (⟨f.cpts.map fun r => r.take (k - m + 1), _, _, _, _, _, _, _, _, _, _⟩ : Surface (Fp (Rounding.float (K := K) p (Nat.one_le_of_lt hp)))) = ga at hsc
  generalize hB : (⟨f.cpts.map fun r => r.drop (k - m + 1 - 1), _, _, _, _, _, _, _, _, _, _⟩ : Surface (Fp (Rounding.float (K := K) p (Nat.one_le_of_lt hp)))) = gb at hsc
  have Na : NetNear ((10 * ((s.dv - m : Nat) : K) + 1) / 2 ^ p * M) ga.exact ea := by
    subst hA
    obtain rfl := hs.1
    refine ⟨Va, ?_, rfl, ?_, rfl, rfl, rfl, rfl, ?_, ?_, ?_⟩
    · intro r hr q hq
      obtain ⟨r', hr', rfl⟩ := List.mem_map.1 hr
      exact N.unit r' hr' q (List.mem_of_mem_take hq)
    · simp only [Surface.exact, List.map_append, List.map_take, fk, List.map_cons, List.map_nil]
    · simp only [Surface.exact, List.length_map]
      exact fl
    · intro r hr
      simp only [Surface.exact, List.map_map, List.mem_map, Function.comp] at hr
      obtain ⟨r', hr', rfl⟩ := hr
      rw [List.length_map, List.length_take, fr r' hr']
      show min _ _ = k - m + 1
      omega
    · intro i j hi hj
      simp only at hi hj
      rw [cell_map_take hj, show cell (Surface.exact _).cpts i j = _ from cell_exact _ _ _]
      simp only
      rw [cell_map_take_any hj, ← show cell f.exact.cpts i j = _ from cell_exact _ _ _]
      exact N.near i j (by omega) (by omega)
  have Nb : NetNear ((10 * ((s.dv - m : Nat) : K) + 1) / 2 ^ p * M) gb.exact eb := by
    subst hB
    obtain rfl := hs.2
    refine ⟨Vb, ?_, rfl, ?_, rfl, rfl, rfl, rfl, ?_, ?_, ?_⟩
    · intro r hr q hq
      obtain ⟨r', hr', rfl⟩ := List.mem_map.1 hr
      exact N.unit r' hr' q (List.mem_of_mem_drop hq)
    · simp only [Surface.exact, List.map_append, List.map_drop, fk, List.map_replicate]
    · simp only [Surface.exact, List.length_map]
      exact fl
    · intro r hr
      simp only [Surface.exact, List.map_map, List.mem_map, Function.comp] at hr
      obtain ⟨r', hr', rfl⟩ := hr
      rw [List.length_map, List.length_drop, fr r' hr']
      rfl
    · intro i j hi hj
      simp only at hi hj
      rw [cell_map_drop, show cell (Surface.exact _).cpts i j = _ from cell_exact _ _ _]
      simp only
      rw [cell_map_drop_any, ← show cell f.exact.cpts i _ = _ from cell_exact _ _ _]
      exact N.near i _ (by omega) (by omega)
  refine ⟨ga, gb, hsc, Na.part hδ a1 a2 da va, Nb.part hδ b1 b2 db vb, ?_, ⟨?_, ?_⟩, by rw [← hA], by rw [← hB], ?_, ?_, ?_⟩
  · subst hA hB
    simp only [List.map_map]
    refine List.map_congr_left fun r hr => ?_
    have hlt : k - m < r.length := by rw [fr r hr]; omega
    simp only [Function.comp]
    rw [List.getLast?_eq_getElem?, List.length_take, show min (k - m + 1) r.length - 1 = k - m by omega, List.getElem?_take_of_lt (by omega),
      List.getElem?_eq_getElem hlt, List.head?_drop, Nat.add_sub_cancel, List.getElem?_eq_getElem hlt]
  · subst hA
    refine Eq.trans ?_ ka
    rw [hs.1]
    simp only [Surface.exact, List.map_append, List.map_take, fk, List.map_cons, List.map_nil]
  · subst hB
    refine Eq.trans ?_ kb
    rw [hs.2]
    simp only [Surface.exact, List.map_append, List.map_drop, fk, List.map_replicate]
  · subst hA
    exact interval_of_ix kvne (by simp) rfl rfl rfl rfl
  · subst hB
    exact interval_of_ix kvne (by simp) rfl rfl rfl rfl
  · rintro g (rfl | rfl)
    · exact Na.bounded hδ ca
    · exact Nb.bounded hδ cb

theorem surfSplitTol_val {ρ : K} (h : ErrUnit R u ρ) : Close ρ 3 (1 / 10 ^ 7) (surfSplitTol : Fp R).val := by
  have c1 : Close ρ 1 1 (R.rnd 1) := (Close.refl h (k := 0) zero_le_one).rnd h
  have c2 : Close ρ 1 (10 ^ 7) (R.rnd ((10 ^ 7 : Nat) : K)) := by
    have e : (10 ^ 7 : K) = ((10 ^ 7 : Nat) : K) := by norm_num
    rw [e]
    exact (Close.refl h (k := 0) (by positivity)).rnd h
  exact (c1.div h c2 (by positivity)).rnd h

theorem tol_double [FloorRing K] : 0 ≤ (surfSplitTol : Fp (Rounding.float (K := K) 53 (by norm_num))).val ∧
    2 * (surfSplitTol : Fp (Rounding.float (K := K) 53 (by norm_num))).val ≤ 3 / 10 ^ 7 := by
  have hu := float_error (K := K) 53 (by norm_num)
  have H := errUnit hu (by positivity) (by norm_num)
  have pw := pow_small hu (by positivity) (by norm_num) 3 (by norm_num)
  have g := surfSplitTol_val H
  refine ⟨Close.nonneg H g, ?_⟩
  have g2 := g.2.1
  norm_num at pw g2 ⊢
  linarith

/-- C147. `subdivide(umid, vmid)` in `double`: the four parts, in the order low-low, low-high, high-low, high-high, are defined exactly on the four quarters, and nowhere further from the
given surface than `2 ^ -45` times its largest coordinate. -/
theorem C147_subdivide_double [FloorRing K] (s : Surface (Fp (Rounding.float (K := K) 53 (by norm_num)))) (S : ValidSurface s.exact) (hI : SurfIntervalOk s.exact)
    (hw : SurfUnit s.exact) (um vm : Fp _) (hu1 : ix s.exact.ku s.du < um.val) (hu2 : um.val < ix s.exact.ku s.su) (hv1 : ix s.exact.kv s.dv < vm.val)
    (hv2 : vm.val < ix s.exact.kv s.sv) (hu3 : s.u0.val + 3 / 10 ^ 7 < um.val) (hu4 : um.val < s.u1.val - 3 / 10 ^ 7) (hv3 : s.v0.val + 3 / 10 ^ 7 < vm.val)
    (hv4 : vm.val < s.v1.val - 3 / 10 ^ 7) (hsu : ClearOf (2 / 10 ^ 12) s.exact.ku um.val) (hsv : ClearOf (2 / 10 ^ 12) s.exact.kv vm.val)
    (hcu : s.exact.ku.count um.val ≤ s.du) (hcv : s.exact.kv.count vm.val ≤ s.dv)
    (M : K) (hM : ∀ row ∈ s.exact.cpts, ∀ q ∈ row, Bounded M (Vec4.pos q)) :
    ∃ a b c d, s.subdivideAt um vm = .ok (a, b, c, d) ∧
      ClosePart (1 / 2 ^ 45 * M) a.exact s.exact (ix s.exact.ku s.du) um.val (ix s.exact.kv s.dv) vm.val ∧
      ClosePart (1 / 2 ^ 45 * M) b.exact s.exact (ix s.exact.ku s.du) um.val vm.val (ix s.exact.kv s.sv) ∧
      ClosePart (1 / 2 ^ 45 * M) c.exact s.exact um.val (ix s.exact.ku s.su) (ix s.exact.kv s.dv) vm.val ∧
      ClosePart (1 / 2 ^ 45 * M) d.exact s.exact um.val (ix s.exact.ku s.su) vm.val (ix s.exact.kv s.sv) := by
  obtain ⟨t0, t1⟩ := tol_double (K := K)
  set tol := (surfSplitTol : Fp (Rounding.float (K := K) 53 (by norm_num))) with htol
  obtain ⟨x, y, hs, Cx, Cy, -, -, kx, ky, Ix, Iy, Bxy⟩ := C147_split_u 53 (by norm_num) s S hw um tol t0 hu1 hu2 (by linarith) (by linarith) hsu hcu M hM
  obtain ⟨-, -, -, -, iv0, iv1⟩ := Cmm.Csx.interval_eq hI
  have hM0 : 0 ≤ M := by
    have := S.knots_u.enough
    have := S.knots_v.enough
    obtain ⟨r, g1, g2⟩ := S.cell_mem (i := 0) (j := 0) (by omega) (by omega)
    exact (abs_nonneg _).trans (hM r g1 _ g2).1
  have hdu : (s.du : K) ≤ 8 := by
    have : s.du ≤ 8 := S.knots_u.deg_le
    exact_mod_cast this
  have hdv : (s.dv : K) ≤ 8 := by
    have : s.dv ≤ 8 := S.knots_v.deg_le
    exact_mod_cast this
  have e1 : (10 * (s.du : K) + 1) / 2 ^ 53 * M ≤ 81 / 2 ^ 53 * M :=
    mul_le_mul_of_nonneg_right (div_le_div_of_nonneg_right (by linarith) (by positivity)) hM0
  have e2 : (10 * (s.dv : K) + 1) / 2 ^ 53 * (M + (10 * s.du + 1) / 2 ^ 53 * M) ≤ 82 / 2 ^ 53 * M := by
    calc (10 * (s.dv : K) + 1) / 2 ^ 53 * (M + (10 * s.du + 1) / 2 ^ 53 * M) ≤ 81 / 2 ^ 53 * (M + 81 / 2 ^ 53 * M) := by
          refine mul_le_mul (div_le_div_of_nonneg_right (by linarith) (by positivity)) (by linarith) ?_ (by positivity)
          exact add_nonneg hM0 (mul_nonneg (div_nonneg (by positivity) (by positivity)) hM0)
      _ = (81 / 2 ^ 53 * (1 + 81 / 2 ^ 53)) * M := by ring
      _ ≤ 82 / 2 ^ 53 * M := mul_le_mul_of_nonneg_right (by norm_num) hM0
  -- a half, split again
  have step : ∀ g : Surface (Fp (Rounding.float (K := K) 53 (by norm_num))), ∀ l h : K, ClosePart ((10 * s.du + 1) / 2 ^ 53 * M) g.exact s.exact l h (ix s.exact.kv s.dv) (ix s.exact.kv s.sv) →
      g.kv = s.kv → SurfIntervalOk g.exact → (∀ row ∈ g.exact.cpts, ∀ q ∈ row, Bounded (M + (10 * s.du + 1) / 2 ^ 53 * M) (Vec4.pos q)) → l ≤ h →
      ∃ a b, g.splitV vm tol = .ok (a, b) ∧ ClosePart (1 / 2 ^ 45 * M) a.exact s.exact l h (ix s.exact.kv s.dv) vm.val ∧
        ClosePart (1 / 2 ^ 45 * M) b.exact s.exact l h vm.val (ix s.exact.kv s.sv) := by
    intro g l h ⟨V, W, d1, d2, D⟩ hk I B hlh
    have ek : g.exact.kv = s.exact.kv := by simp only [Surface.exact, hk]
    have ed : g.dv = s.dv := d2
    have es : g.sv = s.sv := by
      have h1 : g.exact.kv.length = g.sv + g.dv + 1 := V.knots_v.len
      have h2 : s.exact.kv.length = s.sv + s.dv + 1 := S.knots_v.len
      rw [ek] at h1
      omega
    obtain ⟨-, -, -, -, j0, j1⟩ := Cmm.Csx.interval_eq I
    have g0 : g.v0.val = s.v0.val := by
      have h1 : g.v0.val = ix g.exact.kv 0 := j0
      have h2 : s.v0.val = ix s.exact.kv 0 := iv0
      rw [h1, h2, ek]
    have g1 : g.v1.val = s.v1.val := by
      have h1 : g.v1.val = ix g.exact.kv (g.exact.kv.length - 1) := j1
      have h2 : s.v1.val = ix s.exact.kv (s.exact.kv.length - 1) := iv1
      rw [h1, h2, ek]
    obtain ⟨a, b, hab, Ca, Cb, -⟩ := C147_split_v 53 (by norm_num) g V W vm tol t0 (by rw [ek, ed]; exact hv1) (by rw [ek, es]; exact hv2) (by rw [g0]; linarith) (by rw [g1]; linarith)
      (by rw [ek]; exact hsv) (by rw [ek, ed]; exact hcv) _ B
    have du : ix g.exact.ku g.du = l ∧ ix g.exact.ku g.su = h := by
      have hd := fun a b => (D a b).1
      unfold SurfInDomain at hd
      have m1 : ix g.exact.kv g.exact.dv ≤ vm.val ∧ vm.val ≤ ix g.exact.kv g.exact.sv := by
        rw [ek]
        exact ⟨by rw [d2]; exact hv1.le, by show vm.val ≤ ix s.exact.kv g.sv; rw [es]; exact hv2.le⟩
      have m2 : ix s.exact.kv s.dv ≤ vm.val ∧ vm.val ≤ ix s.exact.kv s.sv := ⟨hv1.le, hv2.le⟩
      have hx : ∀ a, (ix g.exact.ku g.exact.du ≤ a ∧ a ≤ ix g.exact.ku g.exact.su) ↔ (l ≤ a ∧ a ≤ h) := fun a =>
        ⟨fun w => ((hd a vm.val).1 ⟨w, m1⟩).1, fun w => ((hd a vm.val).2 ⟨w, m2⟩).1⟩
      have z1 := (hx l).2 ⟨le_rfl, hlh⟩
      have z2 := (hx h).2 ⟨hlh, le_rfl⟩
      have z3 := (hx (ix g.exact.ku g.exact.du)).1 ⟨le_rfl, z1.1.trans z1.2⟩
      have z4 := (hx (ix g.exact.ku g.exact.su)).1 ⟨z1.1.trans z1.2, le_rfl⟩
      exact ⟨le_antisymm z1.1 z3.1, le_antisymm z4.2 z2.2⟩
    rw [ek, ed, du.1, du.2] at Ca
    rw [ek, ed, es, du.1, du.2] at Cb
    have comb : ∀ q : Surface K, ∀ v0 v1, (ix s.exact.kv s.dv ≤ v0) → v1 ≤ ix s.exact.kv s.sv →
        ClosePart ((10 * (s.dv : K) + 1) / 2 ^ 53 * (M + (10 * s.du + 1) / 2 ^ 53 * M)) q g.exact l h v0 v1 → ClosePart (1 / 2 ^ 45 * M) q s.exact l h v0 v1 := by
      intro q v0 v1 w0 w1 ⟨Q, Wq, q1, q2, Dq⟩
      refine ⟨Q, Wq, q1.trans d1, q2.trans d2, fun a b => ⟨(Dq a b).1, fun hd => ?_⟩⟩
      obtain ⟨r, r', k1, k2, k3, k4, k5⟩ := (Dq a b).2 hd
      have hd' := (Dq a b).1.1 hd
      obtain ⟨p, p', l1, l2, l3, l4, l5⟩ := (D a b).2 ((D a b).1.2 ⟨hd'.1, w0.trans hd'.2.1, hd'.2.2.trans w1⟩)
      rw [k2] at l1
      obtain rfl := Res.ok.inj l1
      have fin : 82 / 2 ^ 53 * M + 81 / 2 ^ 53 * M ≤ 1 / 2 ^ 45 * M := by
        rw [← add_mul]
        exact mul_le_mul_of_nonneg_right (by norm_num) hM0
      have tri : ∀ x y z : K, |x - y| ≤ (10 * (s.dv : K) + 1) / 2 ^ 53 * (M + (10 * s.du + 1) / 2 ^ 53 * M) → |y - z| ≤ (10 * (s.du : K) + 1) / 2 ^ 53 * M → |x - z| ≤ 1 / 2 ^ 45 * M := by
        intro x y z h1 h2
        have := abs_sub_le x y z
        linarith
      exact ⟨r, p', k1, l2, tri _ _ _ k3 l3, tri _ _ _ k4 l4, tri _ _ _ k5 l5⟩
    exact ⟨a, b, hab, comb _ _ _ le_rfl hv2.le Ca, comb _ _ _ hv1.le le_rfl Cb⟩
  obtain ⟨a, b, h1, A1, A2⟩ := step x _ _ Cx kx Ix (Bxy x (.inl rfl)) hu1.le
  obtain ⟨c, d, h2, A3, A4⟩ := step y _ _ Cy ky Iy (Bxy y (.inr rfl)) hu2.le
  refine ⟨a, b, c, d, ?_, A1, A2, A3, A4⟩
  unfold Surface.subdivideAt
  rw [← htol, hs, Res.ok_bind]
  simp only
  rw [h1, Res.ok_bind, h2, Res.ok_bind]

/-- A surface, two parameters and a tolerance that meet all conditions. -/
example : let s := demoSurface.rounded.exact
    let a := (Fp.round double (1 / 10)).val
    let b := (Fp.round double (7 / 10)).val
    ValidSurface s ∧ SurfUnit s ∧ SurfIntervalOk s ∧ (ix s.ku s.du < a ∧ a < ix s.ku s.su) ∧ (ix s.kv s.dv < b ∧ b < ix s.kv s.sv) ∧
    (s.u0 + 3 / 10 ^ 7 < a ∧ a < s.u1 - 3 / 10 ^ 7) ∧ (s.v0 + 3 / 10 ^ 7 < b ∧ b < s.v1 - 3 / 10 ^ 7) ∧
    ClearOf (2 / 10 ^ 12) s.ku a ∧ ClearOf (2 / 10 ^ 12) s.kv b ∧ s.ku.count a ≤ s.du ∧ s.kv.count b ≤ s.dv ∧
    ∀ row ∈ s.cpts, ∀ q ∈ row, Bounded 10 (Vec4.pos q) := by
  refine ⟨⟨rfl, by decide +kernel, ⟨by decide, by decide, by decide, rfl, by unfold SortedKnots; decide +kernel, by decide +kernel⟩,
   ⟨by decide, by decide, by decide, rfl, by unfold SortedKnots; decide +kernel, by decide +kernel⟩⟩, by unfold SurfUnit; decide +kernel, ?_⟩
  unfold ClearOf Bounded SurfIntervalOk
  decide +kernel

end Cmm.Nurbs
