import Verif.Lemmas.Detect
import Verif.Spec.GaussMap
import Verif.Props.GaussMap
/-! Properties of bounding boxes under splitting: the box of every part is inside the box of the whole. -/
namespace Cmm.Nurbs
variable {K : Type} [Field K] [LinearOrder K] [IsStrictOrderedRing K]

/-- The bounding box of a surface is the smallest box with all its projected control points. -/
theorem C92_surface_box_least (s : Surface K) (S : ValidSurface s) :
    ∃ b, s.bbox = .ok b ∧ ∀ c, BoxLe b c ↔ ∀ r ∈ s.cpts, ∀ q ∈ r, InBox q.toVec3 c := by
  have hu := S.knots_u.enough
  have hv := S.knots_v.enough
  unfold Surface.bbox
  rw [if_neg (by rw [S.covered]; simp; omega)]
  refine ⟨_, rfl, fun c => ?_⟩
  rw [foldl_expand_spec]
  constructor
  · rintro ⟨-, h⟩ r hr q hq
    refine (inBox_iff _ _).mpr (h _ ?_)
    obtain ⟨i, hi, rfl⟩ := List.mem_iff_getElem.mp hr
    obtain ⟨j, hj, rfl⟩ := List.mem_iff_getElem.mp hq
    have hj' : j < s.sv := by rw [← S.cols _ hr]; exact hj
    refine List.mem_flatMap.mpr ⟨i, by rw [List.mem_range, ← S.rows]; exact hi, List.mem_map.mpr ⟨j, by simpa using hj', ?_⟩⟩
    rw [cell_eq hi, ix_eq_getElem hj]
  · intro h
    have key : ∀ i j, i < s.su → j < s.sv → InBox (cell s.cpts i j).toVec3 c := by
      intro i j hi hj
      have hi' : i < s.cpts.length := by rw [S.rows]; exact hi
      have hj' : j < s.cpts[i].length := by rw [S.cols _ (List.getElem_mem hi')]; exact hj
      rw [cell_eq hi', ix_eq_getElem hj']
      exact h _ (List.getElem_mem hi') _ (List.getElem_mem hj')
    refine ⟨(inBox_iff _ _).mp (key 0 0 (by omega) (by omega)), fun p hp => (inBox_iff _ _).mp ?_⟩
    obtain ⟨i, hi, hp⟩ := List.mem_flatMap.mp hp
    obtain ⟨j, hj, rfl⟩ := List.mem_map.mp hp
    exact key i j (by simpa using hi) (by simpa using hj)

/-- The bounding box of a curve is the smallest box with all its projected control points. -/
theorem C92_curve_box_least (c : Curve K) (hne : c.cpts ≠ []) :
    ∃ b, c.bbox = .ok b ∧ ∀ d, BoxLe b d ↔ ∀ q ∈ c.cpts, InBox q.toVec3 d := by
  unfold Curve.bbox
  match h : c.cpts with
  | [] => exact absurd h hne
  | p :: ps =>
    refine ⟨_, rfl, fun d => ?_⟩
    rw [← List.foldl_map (f := Vec4.toVec3) (g := AABB.expand), foldl_expand_spec]
    constructor
    · rintro ⟨-, h⟩ q hq
      exact (inBox_iff _ _).mpr (h _ (List.mem_map.mpr ⟨q, hq, rfl⟩))
    · intro h
      refine ⟨(inBox_iff _ _).mp (h p (by simp)), fun x hx => ?_⟩
      obtain ⟨q, hq, rfl⟩ := List.mem_map.mp hx
      exact (inBox_iff _ _).mp (h q hq)

theorem NetKept.box {s q : Surface K} (S : ValidSurface s) (Q : ValidSurface q) (hw : SurfPositive s) (h : NetKept s q) :
    SurfPositive q ∧ ∃ b c, s.bbox = .ok b ∧ q.bbox = .ok c ∧ BoxLe c b := by
  obtain ⟨b, eb, hb⟩ := C92_surface_box_least s S
  obtain ⟨c, ec, hc⟩ := C92_surface_box_least q Q
  obtain ⟨h1, h2, -⟩ := h hw
  exact ⟨h1, b, c, eb, ec, (hc b).2 (h2 b ((hb b).1 (BoxLe.refl b)))⟩

/-- Splitting a surface in the first direction: the parts have positive weights and their boxes are inside the box of the surface. -/
theorem C92_split_u (s : Surface K) (S : ValidSurface s) (hw : SurfPositive s) (t tol : K) (htol : 0 ≤ tol) (h1 : ix s.ku s.du < t)
    (h2 : t < ix s.ku s.su) (hlo : s.u0 + tol < t) (hhi : t < s.u1 - tol) (hsep : ClearOf (1 / 10 ^ 12) s.ku t)
    (hc : s.ku.count t ≤ s.du) :
    ∃ a b, s.splitU t tol = .ok (a, b) ∧ ∀ q, q = a ∨ q = b → SurfPositive q ∧ ∃ w x, s.bbox = .ok w ∧ q.bbox = .ok x ∧ BoxLe x w := by
  obtain ⟨a, b, e, A, B, -⟩ := C33_split_u s S t tol htol h1 h2 hlo hhi hsep hc
  obtain ⟨ka, kb⟩ := splitU_kept S h1 h2 hsep hc e
  refine ⟨a, b, e, ?_⟩
  rintro q (rfl | rfl)
  · exact ka.box S A.1 hw
  · exact kb.box S B.1 hw

/-- Splitting a surface in the second direction. -/
theorem C92_split_v (s : Surface K) (S : ValidSurface s) (hw : SurfPositive s) (t tol : K) (htol : 0 ≤ tol) (h1 : ix s.kv s.dv < t)
    (h2 : t < ix s.kv s.sv) (hlo : s.v0 + tol < t) (hhi : t < s.v1 - tol) (hsep : ClearOf (1 / 10 ^ 12) s.kv t)
    (hc : s.kv.count t ≤ s.dv) :
    ∃ a b, s.splitV t tol = .ok (a, b) ∧ ∀ q, q = a ∨ q = b → SurfPositive q ∧ ∃ w x, s.bbox = .ok w ∧ q.bbox = .ok x ∧ BoxLe x w := by
  obtain ⟨a, b, e, A, B, -⟩ := C33_split_v s S t tol htol h1 h2 hlo hhi hsep hc
  obtain ⟨ka, kb⟩ := splitV_kept S h1 h2 hsep hc e
  refine ⟨a, b, e, ?_⟩
  rintro q (rfl | rfl)
  · exact ka.box S A.1 hw
  · exact kb.box S B.1 hw

/-- Subdividing a surface: each of the four parts has positive weights and its box is inside the box of the surface. -/
theorem C92_subdivide (s : Surface K) (S : ValidSurface s) (hI : SurfIntervalOk s) (hw : SurfPositive s) (um vm : K)
    (hu1 : ix s.ku s.du < um) (hu2 : um < ix s.ku s.su) (hulo : s.u0 + 1 / 10 ^ 7 < um) (huhi : um < s.u1 - 1 / 10 ^ 7)
    (husep : ClearOf (1 / 10 ^ 12) s.ku um) (huc : s.ku.count um ≤ s.du)
    (hv1 : ix s.kv s.dv < vm) (hv2 : vm < ix s.kv s.sv) (hvlo : s.v0 + 1 / 10 ^ 7 < vm) (hvhi : vm < s.v1 - 1 / 10 ^ 7)
    (hvsep : ClearOf (1 / 10 ^ 12) s.kv vm) (hvc : s.kv.count vm ≤ s.dv) :
    ∃ a b c d, s.subdivideAt um vm = .ok (a, b, c, d) ∧
      ∀ q, q = a ∨ q = b ∨ q = c ∨ q = d → SurfPositive q ∧ ∃ w x, s.bbox = .ok w ∧ q.bbox = .ok x ∧ BoxLe x w := by
  obtain ⟨a, b, c, d, e, A, B, C, D⟩ := C33_subdivide_at s S hI um vm hu1 hu2 hulo huhi husep huc hv1 hv2 hvlo hvhi hvsep hvc
  obtain ⟨p, q, hs, ⟨Sp, Ip, dp1, dp2, kp⟩, ⟨Sq, Iq, dq1, dq2, kq⟩, -⟩ :=
    C33_split_u s S um (1 / 10 ^ 7) (by positivity) hu1 hu2 hulo huhi husep huc
  have svv : ∀ {s' : Surface K}, ValidSurface s' → s'.dv = s.dv → s'.kv = s.kv → s'.sv = s.sv := by
    intro s' S' hd' hk'
    have h1 := S'.knots_v.len
    have h2 := S.knots_v.len
    rw [hk', hd'] at h1; omega
  obtain ⟨np, nq⟩ := splitU_kept S hu1 hu2 husep huc hs
  have e' := e
  unfold Surface.subdivideAt at e'
  rw [surfSplitTol_eq, hs, Res.ok_bind] at e'
  obtain ⟨⟨a', b'⟩, ea, e'⟩ := Csx.ok_of_bind e'
  obtain ⟨⟨c', d'⟩, ec, e'⟩ := Csx.ok_of_bind e'
  cases e'
  obtain ⟨na, nb⟩ := splitV_kept Sp (by rw [kp, dp2]; exact hv1) (by rw [kp, svv Sp dp2 kp]; exact hv2) (by rw [kp]; exact hvsep)
    (by rw [kp, dp2]; exact hvc) ea
  obtain ⟨nc, nd⟩ := splitV_kept Sq (by rw [kq, dq2]; exact hv1) (by rw [kq, svv Sq dq2 kq]; exact hv2) (by rw [kq]; exact hvsep)
    (by rw [kq, dq2]; exact hvc) ec
  refine ⟨_, _, _, _, e, ?_⟩
  rintro x (rfl | rfl | rfl | rfl)
  · exact (np.trans na).box S A.1 hw
  · exact (np.trans nb).box S B.1 hw
  · exact (nq.trans nc).box S C.1 hw
  · exact (nq.trans nd).box S D.1 hw

/-- A surface with unequal weights that meets the hypotheses. -/
example : SurfPositive weightedSurface ∧ SurfIntervalOk weightedSurface ∧ ix weightedSurface.ku weightedSurface.du < 1 / 2 ∧
    1 / 2 < ix weightedSurface.ku weightedSurface.su ∧ weightedSurface.u0 + 1 / 10 ^ 7 < 1 / 2 ∧ 1 / 2 < weightedSurface.u1 - 1 / 10 ^ 7 ∧
    ClearOf (1 / 10 ^ 12) weightedSurface.ku (1 / 2) ∧ weightedSurface.ku.count (1 / 2) ≤ weightedSurface.du := by
  unfold SurfPositive SurfIntervalOk ClearOf; decide +kernel

omit [IsStrictOrderedRing K] in
theorem updateInterval_cpts {c d : Curve K} (h : c.updateInterval = .ok d) : d.cpts = c.cpts := by
  unfold Curve.updateInterval at h
  obtain ⟨lo, -, h⟩ := Csx.ok_of_bind h
  obtain ⟨hi, -, h⟩ := Csx.ok_of_bind h
  rw [← Res.ok.inj h]

omit [IsStrictOrderedRing K] in
theorem ofKnots_cpts {l : List (Vec4 K)} {p : Nat} {U : List K} {b : Bool} {d : Curve K} (h : Curve.ofKnots l p U b = .ok d) :
    d.cpts = l ∧ l ≠ [] := by
  unfold Curve.ofKnots at h
  obtain ⟨c, h1, h⟩ := Csx.ok_of_bind h
  split at h
  · cases h
  · next hne =>
    rw [← Res.ok.inj h]
    exact ⟨updateInterval_cpts h1, by simpa using hne⟩

omit [IsStrictOrderedRing K] in
theorem normalizeKnots_cpts {c d : Curve K} (h : c.normalizeKnots = .ok d) : d.cpts = c.cpts := by
  unfold Curve.normalizeKnots at h
  obtain ⟨k, -, h⟩ := Csx.ok_of_bind h
  have := updateInterval_cpts h
  exact this

/-- The control points of the parts are among those after knot insertion, which are in every convex set with those of the curve. -/
theorem curve_split_closed {C : Vec4 K → Prop} (hC : LerpClosed C) {c : Curve K} (V : ValidCurve c) (h : ∀ q ∈ c.cpts, C q) {u : K}
    (h1 : ix c.knots c.degree < u) (h2 : u < ix c.knots c.cpts.length) (hsep : ClearOf (1 / 10 ^ 12) c.knots u)
    (hc : c.knots.count u ≤ c.degree) {n : Bool} {a b : Curve K} (e : c.split u n = .ok (a, b)) :
    (a.cpts ≠ [] ∧ ∀ q ∈ a.cpts, C q) ∧ (b.cpts ≠ [] ∧ ∀ q ∈ b.cpts, C q) := by
  obtain ⟨k, s, hk, hs, hpk, hkn, k1, k2, hsk, hm, hlt⟩ := ValidKnots.insertion V (le_of_lt h1) h2 hsep
  have hcnt := findMultiplicity_eq_count hsep
  have hlen := V.len
  have hen := V.enough
  have hcne : c.cpts ≠ [] := by intro h; rw [h] at hen; simp at hen
  have hkne : c.knots ≠ [] := by intro h; rw [h] at hlen; simp at hlen
  obtain ⟨lo0, hi0, h0, _⟩ := ofKnots_ok (p := c.degree) (b := c.periodic) hcne hkne
  have V0 : ValidCurve (⟨c.cpts, c.degree, c.knots, c.periodic, lo0, hi0⟩ : Curve K) := V
  obtain ⟨junk, lo1, hi1, he, _⟩ := insertKnot_ok V0 (u := u) (count := c.degree - s) hk hpk hkn (by
    rw [show findMultiplicity u (⟨c.cpts, c.degree, c.knots, c.periodic, lo0, hi0⟩ : Curve K).knots = s from hs]
    change c.degree - s + s ≤ c.degree; omega)
  simp only [hs] at he
  set Q := (List.range (c.cpts.length + (c.degree - s))).map
    (insArray lerp4 c.degree (ix c.knots) (ix c.cpts) u (c.degree - s) s k junk) with hQ
  have hQC : ∀ q ∈ Q, C q := by
    intro q hq
    obtain ⟨x, hx, rfl⟩ := List.mem_map.mp hq
    exact insArray_closed hC hpk (by omega) hkn (knots_mono V hkn) k1 (le_of_lt k2) (fun r hr => h _ (mem_ix hr)) x (by simpa using hx)
  unfold Curve.split at e
  split at e
  · cases e
  simp only [hs] at e
  rw [if_neg (by omega), h0, Res.ok_bind, he, Res.ok_bind] at e
  obtain ⟨c1, e1, e⟩ := Csx.ok_of_bind e
  obtain ⟨c2, e2, e⟩ := Csx.ok_of_bind e
  obtain ⟨f1, g1⟩ := ofKnots_cpts e1
  obtain ⟨f2, g2⟩ := ofKnots_cpts e2
  rw [← f1] at g1
  rw [← f2] at g2
  have r1 : ∀ q ∈ c1.cpts, C q := fun q hq => hQC q (List.mem_of_mem_take (by rw [f1] at hq; exact hq))
  have r2 : ∀ q ∈ c2.cpts, C q := fun q hq => hQC q (List.mem_of_mem_drop (by rw [f2] at hq; exact hq))
  cases n
  · obtain ⟨rfl, rfl⟩ := Prod.mk.inj (Res.ok.inj e)
    exact ⟨⟨g1, r1⟩, g2, r2⟩
  · simp only [if_true] at e
    obtain ⟨n1, m1, e⟩ := Csx.ok_of_bind e
    obtain ⟨n2, m2, e⟩ := Csx.ok_of_bind e
    obtain ⟨rfl, rfl⟩ := Prod.mk.inj (Res.ok.inj e)
    rw [normalizeKnots_cpts m1, normalizeKnots_cpts m2]
    exact ⟨⟨g1, r1⟩, g2, r2⟩

/-- Splitting a curve, with or without normalizing: the parts have positive weights and their boxes are inside the box of the curve.
(`C30_split_reproduces` gives when the split succeeds.) -/
theorem C92_curve_split (c : Curve K) (V : ValidCurve c) (hw : PositiveWeights c) (u : K) (h1 : ix c.knots c.degree < u)
    (h2 : u < ix c.knots c.cpts.length) (hsep : ClearOf (1 / 10 ^ 12) c.knots u) (hc : c.knots.count u ≤ c.degree) (n : Bool)
    (a b : Curve K) (e : c.split u n = .ok (a, b)) :
    ∀ q, q = a ∨ q = b → PositiveWeights q ∧ ∃ w x, c.bbox = .ok w ∧ q.bbox = .ok x ∧ BoxLe x w := by
  have hen := V.enough
  have hcne : c.cpts ≠ [] := by intro h; rw [h] at hen; simp at hen
  obtain ⟨w, ew, fw⟩ := C92_curve_box_least c hcne
  have inw := (fw w).1 (BoxLe.refl w)
  obtain ⟨⟨na, A⟩, nb, B⟩ := curve_split_closed (lerpClosed_box w) V (fun q hq => ⟨hw q hq, inw q hq⟩) h1 h2 hsep hc e
  rintro q (rfl | rfl)
  · obtain ⟨x, ex, fx⟩ := C92_curve_box_least _ na
    exact ⟨fun q hq => (A q hq).1, w, x, ew, ex, (fx w).2 fun q hq => (A q hq).2⟩
  · obtain ⟨x, ex, fx⟩ := C92_curve_box_least _ nb
    exact ⟨fun q hq => (B q hq).1, w, x, ew, ex, (fx w).2 fun q hq => (B q hq).2⟩

example : PositiveWeights demoCurve ∧ ∃ a b, demoCurve.split 1 true = .ok (a, b) ∧ a.cpts.length = 3 ∧ b.cpts.length = 4 := by
  refine ⟨by unfold PositiveWeights; decide +kernel,
    ⟨[⟨0, 0, 0, 1⟩, ⟨1, 2, 0, 1⟩, ⟨2, 5 / 2, 1 / 2, 1⟩], 2, [0, 0, 0, 1, 1, 1], false, 0, 1⟩,
    ⟨[⟨2, 5 / 2, 1 / 2, 1⟩, ⟨3, 3, 1, 1⟩, ⟨4, 0, 2, 1⟩, ⟨6, 1, 0, 1⟩], 2, [0, 0, 0, 1 / 2, 1, 1, 1], false, 0, 1⟩,
    by decide +kernel, rfl, rfl⟩

/-- Without positive weights the claim fails: splitting this line, whose weights have opposite signs, leaves its box. -/
theorem C92_negative_weight_counterexample :
    let c : Curve ℚ := ⟨[⟨0, 0, 0, 1⟩, ⟨1, 0, 0, -1 / 2⟩], 1, [0, 0, 1, 1], false, 0, 1⟩
    ∃ a b w x, c.split (1 / 2) false = .ok (a, b) ∧ c.bbox = .ok w ∧ a.bbox = .ok x ∧ ¬ BoxLe x w := by
  refine ⟨⟨[⟨0, 0, 0, 1⟩, ⟨1 / 2, 0, 0, 1 / 4⟩], 1, [0, 0, 1 / 2, 1 / 2], false, 0, 1 / 2⟩,
    ⟨[⟨1 / 2, 0, 0, 1 / 4⟩, ⟨1, 0, 0, -1 / 2⟩], 1, [1 / 2, 1 / 2, 1, 1], false, 1 / 2, 1⟩, ⟨⟨-2, 0, 0⟩, ⟨0, 0, 0⟩⟩, ⟨⟨0, 0, 0⟩, ⟨2, 0, 0⟩⟩,
    by decide +kernel, by decide +kernel, by decide +kernel, ?_⟩
  unfold BoxLe; decide +kernel

end Cmm.Nurbs
