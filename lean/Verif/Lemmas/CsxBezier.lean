import Verif.Lemmas.Csx
import Verif.Lemmas.CcxBezier
import Verif.Props.Curve
import Verif.Props.Surface
/-! Pieces of Bézier curves and surfaces. -/
namespace Cmm.Csx
open Cmm.Nurbs Cmm.Ccx
variable {K : Type} [Field K] [LinearOrder K] [IsStrictOrderedRing K]

omit [IsStrictOrderedRing K] in
theorem filter_lo {p : Nat} {lo hi t : K} (h1 : lo < t) (h2 : t < hi) :
    (List.replicate (p + 1) lo ++ List.replicate (p + 1) hi).filter (fun x => decide (x < t)) = List.replicate (p + 1) lo := by
  rw [List.filter_append, List.filter_replicate_of_pos (by simpa using h1), List.filter_replicate_of_neg (by simpa using le_of_lt h2), List.append_nil]

omit [IsStrictOrderedRing K] in
theorem filter_hi {p : Nat} {lo hi t : K} (h1 : lo < t) (h2 : t < hi) :
    (List.replicate (p + 1) lo ++ List.replicate (p + 1) hi).filter (fun x => decide (t < x)) = List.replicate (p + 1) hi := by
  rw [List.filter_append, List.filter_replicate_of_neg (by simpa using le_of_lt h1), List.filter_replicate_of_pos (by simpa using h2), List.nil_append]

omit [IsStrictOrderedRing K] in
theorem count_inner {p : Nat} {lo hi t : K} (h1 : lo < t) (h2 : t < hi) :
    (List.replicate (p + 1) lo ++ List.replicate (p + 1) hi).count t = 0 := by
  rw [List.count_eq_zero]
  intro h
  rcases List.mem_append.1 h with h | h
  · exact absurd (List.eq_of_mem_replicate h) (ne_of_gt h1)
  · exact absurd (List.eq_of_mem_replicate h) (ne_of_lt h2)

omit [IsStrictOrderedRing K] in
theorem clear_inner {p : Nat} {lo hi t tol : K} (h1 : tol < |t - lo|) (h2 : tol < |t - hi|) :
    ClearOf tol (List.replicate (p + 1) lo ++ List.replicate (p + 1) hi) t := by
  intro x hx _
  rcases List.mem_append.1 hx with h | h
  · rw [List.eq_of_mem_replicate h]; exact h1
  · rw [List.eq_of_mem_replicate h]; exact h2

/-- A Bézier curve with equal weights. -/
structure CurveBez (c : Curve K) : Prop where
  valid : ValidCurve c
  weights : EqualWeights c
  interval : IntervalOk c
  bezier : IsBezier c

theorem CurveBez.dom {c : Curve K} (B : CurveBez c) : ix c.knots c.degree = c.lo ∧ ix c.knots c.cpts.length = c.hi := by
  obtain ⟨kn, len⟩ := B.bezier
  constructor
  · rw [kn, ix_bezier _ (by omega), if_pos (le_refl _)]
  · rw [len, kn, ix_bezier _ (by omega), if_neg (by omega)]

theorem ends {x : Curve K} {p : Nat} {l r : K} (I : IntervalOk x) (hlr : l < r)
    (hx : x.knots = List.replicate (p + 1) l ++ List.replicate (p + 1) r) : x.lo = l ∧ x.hi = r := by
  obtain ⟨⟨a1, a2⟩, a3, a4⟩ := interval_facts I
  rw [hx] at a1 a2 a3 a4
  constructor
  · apply le_antisymm
    · exact a2 _ (List.mem_append_left _ (by simp))
    · rcases List.mem_append.1 a1 with h | h <;> rw [List.eq_of_mem_replicate h]; exact le_of_lt hlr
  · apply le_antisymm
    · rcases List.mem_append.1 a3 with h | h <;> rw [List.eq_of_mem_replicate h]; exact le_of_lt hlr
    · exact a4 _ (List.mem_append_right _ (by simp))

/-- `x` is a Bézier piece of the curve `c` with the same points. -/
def CurvePiece (c x : Curve K) : Prop :=
  CurveBez x ∧ c.lo ≤ x.lo ∧ x.hi ≤ c.hi ∧ ∀ t, x.lo ≤ t → t ≤ x.hi → x.evaluate t = c.evaluate t

theorem CurveBez.split_full {c a b : Curve K} {t : K} (B : CurveBez c) (h : c.split t false = .ok (a, b)) :
    (∀ x ∈ [a, b], CurvePiece c x) ∧ (a.lo = c.lo ∧ a.hi = t ∧ b.lo = t ∧ b.hi = c.hi) ∧
      ∀ w, (∀ q ∈ c.cpts, q.w = w) → ∀ x ∈ [a, b], ∀ q ∈ x.cpts, q.w = w := by
  obtain ⟨dlo, dhi⟩ := B.dom
  have kn := B.bezier.1
  have hg : ¬ (t ≤ c.lo ∨ c.hi ≤ t ∨ absA (t - c.lo) ≤ splitTol ∨ absA (t - c.hi) ≤ splitTol) := by
    intro hg
    unfold Curve.split at h
    rw [if_pos hg] at h
    cases h
  simp only [not_or, not_le] at hg
  obtain ⟨g1, g2, g3, g4⟩ := hg
  rw [splitTol_eq, absA_eq] at g3 g4
  have g3' := g3
  have g4' := g4
  rw [abs_of_pos (by linarith)] at g3'
  rw [abs_of_neg (by linarith)] at g4'
  obtain ⟨a', b', e, ⟨Va, wa, Ia, da⟩, ⟨Vb, wb, Ib, db⟩, hd, ea, eb, ⟨ka, kb⟩, hww⟩ :=
    C30_split_reproduces c B.valid B.weights t (by rw [dlo]; exact g1) (by rw [dhi]; exact g2) (by linarith) (by linarith)
      (by rw [kn]; exact clear_inner g3 g4) (by rw [kn, count_inner g1 g2]; omega)
  rw [h] at e
  cases e
  rw [kn, filter_lo g1 g2] at ka
  rw [kn, filter_hi g1 g2] at kb
  obtain ⟨la, ha⟩ := ends Ia g1 ka
  obtain ⟨lb, hb⟩ := ends Ib g2 kb
  have lena : a.cpts.length = a.degree + 1 := by
    have h1 : a.knots.length = a.cpts.length + a.degree + 1 := Va.len
    rw [ka, List.length_append, List.length_replicate, List.length_replicate] at h1; omega
  have lenb : b.cpts.length = b.degree + 1 := by
    have h1 : b.knots.length = b.cpts.length + b.degree + 1 := Vb.len
    rw [kb, List.length_append, List.length_replicate, List.length_replicate] at h1; omega
  have Ba : CurveBez a := ⟨Va, wa, Ia, by rw [la, ha, da]; exact ka, lena⟩
  have Bb : CurveBez b := ⟨Vb, wb, Ib, by rw [lb, hb, db]; exact kb, lenb⟩
  refine ⟨?_, ⟨la, ha, lb, hb⟩, fun w hq x hx => ?_⟩
  swap
  · simp only [List.mem_cons, List.not_mem_nil, or_false] at hx
    rcases hx with rfl | rfl
    · exact (hww w hq).1
    · exact (hww w hq).2
  intro x hx
  simp only [List.mem_cons, List.not_mem_nil, or_false] at hx
  rcases hx with rfl | rfl
  · refine ⟨Ba, le_of_eq la.symm, by rw [ha]; exact le_of_lt g2, fun s h1 h2 => ea s ?_⟩
    unfold InDomain; rw [Ba.dom.1, Ba.dom.2]; exact ⟨h1, h2⟩
  · refine ⟨Bb, by rw [lb]; exact le_of_lt g1, le_of_eq hb, fun s h1 h2 => eb s ?_⟩
    unfold InDomain; rw [Bb.dom.1, Bb.dom.2]; exact ⟨h1, h2⟩

theorem CurveBez.split {c a b : Curve K} {t : K} (B : CurveBez c) (h : c.split t false = .ok (a, b)) :
    ∀ x ∈ [a, b], CurvePiece c x := (B.split_full h).1

theorem CurvePiece.trans {c x y : Curve K} (h1 : CurvePiece c x) (h2 : CurvePiece x y) : CurvePiece c y := by
  obtain ⟨_, l1, r1, e1⟩ := h1
  obtain ⟨B, l2, r2, e2⟩ := h2
  exact ⟨B, le_trans l1 l2, le_trans r2 r1, fun t a b => (e2 t a b).trans (e1 t (le_trans l2 a) (le_trans b r2))⟩

/-- A Bézier surface. -/
structure SurfBez (s : Surface K) : Prop where
  valid : ValidSurface s
  interval : SurfIntervalOk s
  bezier : IsBezierSurf s

theorem SurfBez.dom {s : Surface K} (B : SurfBez s) : (ix s.ku s.du = s.u0 ∧ ix s.ku s.su = s.u1) ∧ (ix s.kv s.dv = s.v0 ∧ ix s.kv s.sv = s.v1) := by
  obtain ⟨ku, lu, kv, lv⟩ := B.bezier
  refine ⟨⟨?_, ?_⟩, ?_, ?_⟩
  · rw [ku, ix_bezier _ (by omega), if_pos (le_refl _)]
  · rw [lu, ku, ix_bezier _ (by omega), if_neg (by omega)]
  · rw [kv, ix_bezier _ (by omega), if_pos (le_refl _)]
  · rw [lv, kv, ix_bezier _ (by omega), if_neg (by omega)]

/-- `x` is a Bézier piece of the surface `s` with the same points. -/
def SurfPiece (s x : Surface K) : Prop :=
  SurfBez x ∧ (s.u0 ≤ x.u0 ∧ x.u1 ≤ s.u1) ∧ (s.v0 ≤ x.v0 ∧ x.v1 ≤ s.v1) ∧
    ∀ u v, x.u0 ≤ u → u ≤ x.u1 → x.v0 ≤ v → v ≤ x.v1 → x.evaluate u v = s.evaluate u v

theorem SurfPiece.trans {c x y : Surface K} (h1 : SurfPiece c x) (h2 : SurfPiece x y) : SurfPiece c y := by
  obtain ⟨_, ⟨l1, r1⟩, ⟨b1, t1⟩, e1⟩ := h1
  obtain ⟨B, ⟨l2, r2⟩, ⟨b2, t2⟩, e2⟩ := h2
  exact ⟨B, ⟨le_trans l1 l2, le_trans r2 r1⟩, ⟨le_trans b1 b2, le_trans t2 t1⟩, fun u v a b c d =>
    (e2 u v a b c d).trans (e1 u v (le_trans l2 a) (le_trans b r2) (le_trans b2 c) (le_trans d t2))⟩

omit [LinearOrder K] [IsStrictOrderedRing K] in
theorem bezier_ends {p : Nat} (lo hi : K) : ix (List.replicate (p + 1) lo ++ List.replicate (p + 1) hi) 0 = lo ∧
    ix (List.replicate (p + 1) lo ++ List.replicate (p + 1) hi) ((List.replicate (p + 1) lo ++ List.replicate (p + 1) hi).length - 1) = hi := by
  constructor
  · rw [ix_bezier _ (by omega), if_pos (Nat.zero_le _)]
  · rw [List.length_append, List.length_replicate, List.length_replicate, ix_bezier _ (by omega), if_neg (by omega)]

theorem SurfBez.of {x : Surface K} {ul ur vl vr : K} (V : ValidSurface x) (I : SurfIntervalOk x)
    (hu : x.ku = List.replicate (x.du + 1) ul ++ List.replicate (x.du + 1) ur) (hv : x.kv = List.replicate (x.dv + 1) vl ++ List.replicate (x.dv + 1) vr) :
    SurfBez x ∧ (x.u0 = ul ∧ x.u1 = ur) ∧ (x.v0 = vl ∧ x.v1 = vr) := by
  obtain ⟨_, _, a0, a1, b0, b1⟩ := interval_eq I
  have e1 := bezier_ends (p := x.du) ul ur
  have e2 := bezier_ends (p := x.dv) vl vr
  rw [← hu] at e1
  rw [← hv] at e2
  have c0 := a0.trans e1.1
  have c1 := a1.trans e1.2
  have d0 := b0.trans e2.1
  have d1 := b1.trans e2.2
  refine ⟨⟨V, I, by rw [c0, c1]; exact hu, ?_, by rw [d0, d1]; exact hv, ?_⟩, ⟨c0, c1⟩, ⟨d0, d1⟩⟩
  · have h1 := V.knots_u.len
    rw [hu, List.length_append, List.length_replicate, List.length_replicate] at h1; omega
  · have h1 := V.knots_v.len
    rw [hv, List.length_append, List.length_replicate, List.length_replicate] at h1; omega

theorem SurfBez.splitU_full {s a b : Surface K} {t : K} (B : SurfBez s) (h : s.splitU t surfSplitTol = .ok (a, b)) :
    (SurfPiece s a ∧ SurfPiece s b) ∧ (s.u0 < t ∧ t < s.u1) ∧ (surfSplitTol < |t - s.u0| ∧ surfSplitTol < |t - s.u1|) ∧
      (a.u0 = s.u0 ∧ a.u1 = t ∧ b.u0 = t ∧ b.u1 = s.u1) ∧
      (a.v0 = s.v0 ∧ a.v1 = s.v1 ∧ b.v0 = s.v0 ∧ b.v1 = s.v1) := by
  obtain ⟨⟨dlo, dhi⟩, dlo', dhi'⟩ := B.dom
  have kn := B.bezier.1
  have kn' := B.bezier.2.2.1
  have hg : ¬ (t ≤ s.u0 ∨ s.u1 ≤ t ∨ |t - s.u0| ≤ surfSplitTol ∨ |t - s.u1| ≤ surfSplitTol) := by
    intro hg
    rw [(C33_split_throws s t surfSplitTol).1 hg] at h
    cases h
  simp only [not_or, not_le] at hg
  obtain ⟨g1, g2, g3, g4⟩ := hg
  have g3' := g3
  have g4' := g4
  rw [abs_of_pos (by linarith)] at g3'
  rw [abs_of_neg (by linarith)] at g4'
  have htol : (1 / 10 ^ 12 : K) ≤ surfSplitTol := by rw [surfSplitTol_eq]; norm_num
  have htol0 : (0 : K) ≤ surfSplitTol := by rw [surfSplitTol_eq]; norm_num
  obtain ⟨a', b', e, ⟨Va, Ia, da1, da2, kva⟩, ⟨Vb, Ib, db1, db2, kvb⟩, hda, hdb, ea, eb, ka, kb⟩ :=
    C33_split_u s B.valid t surfSplitTol htol0 (by rw [dlo]; exact g1) (by rw [dhi]; exact g2) (by linarith) (by linarith)
      (by rw [kn]; exact clear_inner (lt_of_le_of_lt htol g3) (lt_of_le_of_lt htol g4)) (by rw [kn, count_inner g1 g2]; omega)
  rw [h] at e
  cases e
  rw [kn, filter_lo g1 g2] at ka
  rw [kn, filter_hi g1 g2] at kb
  obtain ⟨Ba, ⟨a0, a1⟩, a2, a3⟩ := SurfBez.of Va Ia (by rw [ka, da1]) (by rw [kva, kn', da2])
  obtain ⟨Bb, ⟨b0, b1⟩, b2, b3⟩ := SurfBez.of Vb Ib (by rw [kb, db1]) (by rw [kvb, kn', db2])
  refine ⟨⟨?_, ?_⟩, ⟨g1, g2⟩, ⟨g3, g4⟩, ⟨a0, a1, b0, b1⟩, ⟨a2, a3, b2, b3⟩⟩
  · refine ⟨Ba, ⟨le_of_eq a0.symm, by rw [a1]; exact le_of_lt g2⟩, ⟨le_of_eq a2.symm, le_of_eq a3⟩, fun u v h1 h2 h3 h4 => ea u v ?_⟩
    unfold SurfInDomain; rw [Ba.dom.1.1, Ba.dom.1.2, Ba.dom.2.1, Ba.dom.2.2]; exact ⟨⟨h1, h2⟩, h3, h4⟩
  · refine ⟨Bb, ⟨by rw [b0]; exact le_of_lt g1, le_of_eq b1⟩, ⟨le_of_eq b2.symm, le_of_eq b3⟩, fun u v h1 h2 h3 h4 => eb u v ?_⟩
    unfold SurfInDomain; rw [Bb.dom.1.1, Bb.dom.1.2, Bb.dom.2.1, Bb.dom.2.2]; exact ⟨⟨h1, h2⟩, h3, h4⟩

theorem SurfBez.splitU {s a b : Surface K} {t : K} (B : SurfBez s) (h : s.splitU t surfSplitTol = .ok (a, b)) :
    ∀ x ∈ [a, b], SurfPiece s x := by
  obtain ⟨⟨h1, h2⟩, -⟩ := B.splitU_full h
  intro x hx
  simp only [List.mem_cons, List.not_mem_nil, or_false] at hx
  rcases hx with rfl | rfl
  · exact h1
  · exact h2

theorem SurfBez.splitV_full {s a b : Surface K} {t : K} (B : SurfBez s) (h : s.splitV t surfSplitTol = .ok (a, b)) :
    (SurfPiece s a ∧ SurfPiece s b) ∧ (s.v0 < t ∧ t < s.v1) ∧ (surfSplitTol < |t - s.v0| ∧ surfSplitTol < |t - s.v1|) ∧
      (a.v0 = s.v0 ∧ a.v1 = t ∧ b.v0 = t ∧ b.v1 = s.v1) ∧
      (a.u0 = s.u0 ∧ a.u1 = s.u1 ∧ b.u0 = s.u0 ∧ b.u1 = s.u1) := by
  obtain ⟨⟨dlo', dhi'⟩, dlo, dhi⟩ := B.dom
  have kn' := B.bezier.1
  have kn := B.bezier.2.2.1
  have hg : ¬ (t ≤ s.v0 ∨ s.v1 ≤ t ∨ |t - s.v0| ≤ surfSplitTol ∨ |t - s.v1| ≤ surfSplitTol) := by
    intro hg
    rw [(C33_split_throws s t surfSplitTol).2 hg] at h
    cases h
  simp only [not_or, not_le] at hg
  obtain ⟨g1, g2, g3, g4⟩ := hg
  have g3' := g3
  have g4' := g4
  rw [abs_of_pos (by linarith)] at g3'
  rw [abs_of_neg (by linarith)] at g4'
  have htol : (1 / 10 ^ 12 : K) ≤ surfSplitTol := by rw [surfSplitTol_eq]; norm_num
  have htol0 : (0 : K) ≤ surfSplitTol := by rw [surfSplitTol_eq]; norm_num
  obtain ⟨a', b', e, ⟨Va, Ia, da1, da2, kva⟩, ⟨Vb, Ib, db1, db2, kvb⟩, hda, hdb, ea, eb, ka, kb⟩ :=
    C33_split_v s B.valid t surfSplitTol htol0 (by rw [dlo]; exact g1) (by rw [dhi]; exact g2) (by linarith) (by linarith)
      (by rw [kn]; exact clear_inner (lt_of_le_of_lt htol g3) (lt_of_le_of_lt htol g4)) (by rw [kn, count_inner g1 g2]; omega)
  rw [h] at e
  cases e
  rw [kn, filter_lo g1 g2] at ka
  rw [kn, filter_hi g1 g2] at kb
  obtain ⟨Ba, ⟨a0, a1⟩, a2, a3⟩ := SurfBez.of Va Ia (by rw [kva, kn', da1]) (by rw [ka, da2])
  obtain ⟨Bb, ⟨b0, b1⟩, b2, b3⟩ := SurfBez.of Vb Ib (by rw [kvb, kn', db1]) (by rw [kb, db2])
  refine ⟨⟨?_, ?_⟩, ⟨g1, g2⟩, ⟨g3, g4⟩, ⟨a2, a3, b2, b3⟩, ⟨a0, a1, b0, b1⟩⟩
  · refine ⟨Ba, ⟨le_of_eq a0.symm, le_of_eq a1⟩, ⟨le_of_eq a2.symm, by rw [a3]; exact le_of_lt g2⟩, fun u v h1 h2 h3 h4 => ea u v ?_⟩
    unfold SurfInDomain; rw [Ba.dom.1.1, Ba.dom.1.2, Ba.dom.2.1, Ba.dom.2.2]; exact ⟨⟨h1, h2⟩, h3, h4⟩
  · refine ⟨Bb, ⟨le_of_eq b0.symm, le_of_eq b1⟩, ⟨by rw [b2]; exact le_of_lt g1, le_of_eq b3⟩, fun u v h1 h2 h3 h4 => eb u v ?_⟩
    unfold SurfInDomain; rw [Bb.dom.1.1, Bb.dom.1.2, Bb.dom.2.1, Bb.dom.2.2]; exact ⟨⟨h1, h2⟩, h3, h4⟩

theorem SurfBez.splitV {s a b : Surface K} {t : K} (B : SurfBez s) (h : s.splitV t surfSplitTol = .ok (a, b)) :
    ∀ x ∈ [a, b], SurfPiece s x := by
  obtain ⟨⟨h1, h2⟩, -⟩ := B.splitV_full h
  intro x hx
  simp only [List.mem_cons, List.not_mem_nil, or_false] at hx
  rcases hx with rfl | rfl
  · exact h1
  · exact h2

theorem SurfBez.subdivide {s q1 q2 q3 q4 : Surface K} {u v : K} (B : SurfBez s) (h : s.subdivideAt u v = .ok (q1, q2, q3, q4)) :
    ∀ x ∈ [q1, q2, q3, q4], SurfPiece s x := by
  unfold Surface.subdivideAt at h
  obtain ⟨⟨a, b⟩, h1, h⟩ := ok_of_bind h
  obtain ⟨⟨a1, a2⟩, h2, h⟩ := ok_of_bind h
  obtain ⟨⟨b1, b2⟩, h3, h⟩ := ok_of_bind h
  cases h
  have A := B.splitU h1
  have Pa := A a (by simp)
  have Pb := A b (by simp)
  have Ha := Pa.1.splitV h2
  have Hb := Pb.1.splitV h3
  intro x hx
  simp only [List.mem_cons, List.not_mem_nil, or_false] at hx
  rcases hx with rfl | rfl | rfl | rfl
  · exact Pa.trans (Ha _ (by simp))
  · exact Pa.trans (Ha _ (by simp))
  · exact Pb.trans (Hb _ (by simp))
  · exact Pb.trans (Hb _ (by simp))

theorem searched_pieces {c c' : Curve K} {s s' : Surface K} (Bc : CurveBez c) (Bs : SurfBez s) (h : Searched c s c' s') :
    CurvePiece c c' ∧ SurfPiece s s' := by
  induction h with
  | self => exact ⟨⟨Bc, le_refl _, le_refl _, fun _ _ _ => rfl⟩, ⟨Bs, ⟨le_refl _, le_refl _⟩, ⟨le_refl _, le_refl _⟩, fun _ _ _ _ _ _ => rfl⟩⟩
  | part _ h1 h2 hx hy ih => exact ⟨ih.1.trans (ih.1.1.split h1 _ hx), ih.2.trans (ih.2.1.subdivide h2 _ hy)⟩

theorem genuine_of_piece {c c' : Curve K} {s s' : Surface K} {sqrt : K → K} {tol : K} {h : Hit K} (Pc : CurvePiece c c') (Ps : SurfPiece s s')
    (g : Genuine sqrt tol c' s' h) : Genuine sqrt tol c s h := by
  obtain ⟨⟨t0, t1⟩, ⟨u0, u1⟩, ⟨v0, v1⟩, ec, q, es, hd⟩ := g
  obtain ⟨_, l1, l2, e1⟩ := Pc
  obtain ⟨_, ⟨m1, m2⟩, ⟨n1, n2⟩, e2⟩ := Ps
  exact ⟨⟨le_trans l1 t0, le_trans t1 l2⟩, ⟨le_trans m1 u0, le_trans u1 m2⟩, ⟨le_trans n1 v0, le_trans v1 n2⟩,
    (e1 _ t0 t1).symm.trans ec, q, (e2 _ _ u0 u1 v0 v1).symm.trans es, hd⟩

end Cmm.Csx
