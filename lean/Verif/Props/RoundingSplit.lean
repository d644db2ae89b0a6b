import Verif.Props.RoundingInsert
/-!
C142: the error of `split` when every arithmetic operation rounds. `c.exact` is the curve with the same numbers, treated without rounding.
-/
namespace Cmm.Nurbs

section any
variable {A : Type} [Arith A] [LinearOrder A]

omit [Arith A] [LinearOrder A] in
theorem ok_of_bind {α β : Type} {x : Res α} {f : α → Res β} {r : β} (h : x >>= f = .ok r) : ∃ a, x = .ok a ∧ f a = .ok r := by
  cases x with
  | ok a => exact ⟨a, rfl, h⟩
  | throws => cases h
  | ub => cases h

theorem ofKnots_any {cpts : List (Vec4 A)} {U : List A} {p : Nat} {b : Bool} (hc : cpts ≠ []) (hU : U ≠ []) :
    ∃ lo hi, Curve.ofKnots cpts p U b = .ok ⟨cpts, p, U, b, lo, hi⟩ ∧ minElement U = .ok lo ∧ maxElement U = .ok hi := by
  cases U with
  | nil => exact absurd rfl hU
  | cons a l =>
    cases cpts with
    | nil => exact absurd rfl hc
    | cons q r => exact ⟨_, _, rfl, rfl, rfl⟩

theorem ofKnots_inv {cpts : List (Vec4 A)} {U : List A} {p : Nat} {b : Bool} {c : Curve A} (h : Curve.ofKnots cpts p U b = .ok c) :
    cpts ≠ [] ∧ U ≠ [] ∧ ∃ lo hi, c = ⟨cpts, p, U, b, lo, hi⟩ := by
  cases U with
  | nil => cases h
  | cons a l =>
    cases cpts with
    | nil => cases h
    | cons q r => exact ⟨by simp, by simp, _, _, (Res.ok.inj h).symm⟩

theorem insertKnot_interval (c : Curve A) (lo hi t : A) (r : Nat) : (⟨c.cpts, c.degree, c.knots, c.periodic, lo, hi⟩ : Curve A).insertKnot t r = c.insertKnot t r := rfl

/-- The number of control points of the first piece. -/
def splitPts (c : Curve A) (t : A) : Nat :=
  findSpan c.cpts.length c.degree t (ix c.knots) - c.degree + 1 + (c.degree - findMultiplicity t c.knots)

/-- The number of knots of the curve with inserted knots that the first piece takes over. -/
def splitKnots (c e : Curve A) (t : A) : Nat := findSpan e.cpts.length c.degree t (ix e.knots) + 1

theorem split_inv {c a b : Curve A} {t : A} (h : c.split t false = .ok (a, b)) :
    findMultiplicity t c.knots ≤ c.degree ∧ ∃ e, c.insertKnot t (c.degree - findMultiplicity t c.knots) = .ok e ∧
      e.cpts.take (splitPts c t) ≠ [] ∧ e.cpts.drop (splitPts c t - 1) ≠ [] ∧
      (∃ lo hi, a = ⟨e.cpts.take (splitPts c t), c.degree, e.knots.take (splitKnots c e t) ++ [t], false, lo, hi⟩) ∧
      ∃ lo hi, b = ⟨e.cpts.drop (splitPts c t - 1), c.degree, List.replicate (c.degree + 1) t ++ e.knots.drop (splitKnots c e t), false, lo, hi⟩ := by
  unfold Curve.split at h
  split at h
  · cases h
  · simp only at h
    split at h
    · cases h
    · rename_i hm
      refine ⟨not_lt.1 hm, ?_⟩
      obtain ⟨t0, e0, h⟩ := ok_of_bind h
      obtain ⟨e, e1, h⟩ := ok_of_bind h
      obtain ⟨a', e2, h⟩ := ok_of_bind h
      obtain ⟨b', e3, h⟩ := ok_of_bind h
      simp only [Bool.false_eq_true, if_false, Res.ok.injEq, Prod.mk.injEq] at h
      obtain ⟨rfl, rfl⟩ := h
      obtain ⟨-, -, lo, hi, rfl⟩ := ofKnots_inv e0
      rw [insertKnot_interval] at e1
      obtain ⟨n1, -, a1⟩ := ofKnots_inv e2
      obtain ⟨n2, -, b1⟩ := ofKnots_inv e3
      exact ⟨e, e1, n1, n2, a1, b1⟩

theorem split_any {c e : Curve A} {t : A} (hg : ¬(t ≤ c.lo ∨ c.hi ≤ t ∨ absA (t - c.lo) ≤ splitTol ∨ absA (t - c.hi) ≤ splitTol))
    (hs : findMultiplicity t c.knots ≤ c.degree) (hc : c.cpts ≠ []) (hU : c.knots ≠ []) (he : c.insertKnot t (c.degree - findMultiplicity t c.knots) = .ok e)
    (n1 : e.cpts.take (splitPts c t) ≠ []) (n2 : e.cpts.drop (splitPts c t - 1) ≠ []) :
    ∃ l1 h1 l2 h2, c.split t false = .ok (⟨e.cpts.take (splitPts c t), c.degree, e.knots.take (splitKnots c e t) ++ [t], false, l1, h1⟩,
      ⟨e.cpts.drop (splitPts c t - 1), c.degree, List.replicate (c.degree + 1) t ++ e.knots.drop (splitKnots c e t), false, l2, h2⟩) ∧
      (minElement (e.knots.take (splitKnots c e t) ++ [t]) = .ok l1 ∧ maxElement (e.knots.take (splitKnots c e t) ++ [t]) = .ok h1) ∧
      minElement (List.replicate (c.degree + 1) t ++ e.knots.drop (splitKnots c e t)) = .ok l2 ∧
      maxElement (List.replicate (c.degree + 1) t ++ e.knots.drop (splitKnots c e t)) = .ok h2 := by
  obtain ⟨lo, hi, e0, -⟩ := ofKnots_any (p := c.degree) (b := c.periodic) hc hU
  obtain ⟨l1, h1, e1, x1⟩ := ofKnots_any (p := c.degree) (b := false) n1 (U := e.knots.take (splitKnots c e t) ++ [t]) (by simp)
  obtain ⟨l2, h2, e2, x2⟩ := ofKnots_any (p := c.degree) (b := false) n2 (U := List.replicate (c.degree + 1) t ++ e.knots.drop (splitKnots c e t)) (by simp)
  refine ⟨l1, h1, l2, h2, ?_, x1, x2⟩
  unfold Curve.split
  rw [if_neg hg]
  simp only
  rw [if_neg (not_lt.2 hs), e0, Res.ok_bind, insertKnot_interval, he, Res.ok_bind]
  unfold splitPts splitKnots at *
  rw [e1, Res.ok_bind, e2, Res.ok_bind]
  simp

end any

variable {K : Type} [Field K] [LinearOrder K] [IsStrictOrderedRing K] {R : Rounding K} {u : K}

theorem split_guard_fp (hu : R.RelError u) (h0 : 0 ≤ u) (h1 : u ≤ 1 / 2 ^ 20) {c : Curve (Fp R)} {t : Fp R} (hlo : c.lo.val + 2 / 10 ^ 12 < t.val) (hhi : t.val < c.hi.val - 2 / 10 ^ 12) :
    ¬(t ≤ c.lo ∨ c.hi ≤ t ∨ absA (t - c.lo) ≤ splitTol ∨ absA (t - c.hi) ≤ splitTol) := by
  have H := errUnit hu h0 (lt_of_le_of_lt h1 (by norm_num))
  have pw := pow_small hu h0 h1 5 (by norm_num)
  set ρ := (1 - u)⁻¹ with hρ
  have k : (0 : K) < 2 / 10 ^ 12 := by positivity
  have ts : Close ρ 3 (1 / 10 ^ 12) (splitTol : Fp R).val := multTol_val H
  have ρ5 : ρ ^ 5 < 2 := by
    norm_num at h1 pw
    linarith
  have key : ∀ x : Fp R, 2 / 10 ^ 12 < |x.val| * ρ → ¬ absA x ≤ splitTol := by
    intro x hx hle
    have hle : (absA x).val ≤ (splitTol : Fp R).val := hle
    have g := absA_val H x
    have g1 := g.2.2
    rw [pow_one] at g1
    have g2 := ts.2.1
    have r0 := H.pos
    have r3 := H.pow_pos 3
    have : |x.val| * ρ ≤ ρ ^ 5 * (1 / 10 ^ 12) := by
      calc |x.val| * ρ ≤ (ρ * (absA x).val) * ρ := mul_le_mul_of_nonneg_right g1 r0.le
        _ ≤ (ρ * (ρ ^ 3 * (1 / 10 ^ 12))) * ρ := by
          refine mul_le_mul_of_nonneg_right (mul_le_mul_of_nonneg_left (hle.trans g2) r0.le) r0.le
        _ = _ := by ring
    have : ρ ^ 5 * (1 / 10 ^ 12) ≤ 2 * (1 / 10 ^ 12) := mul_le_mul_of_nonneg_right ρ5.le (by positivity)
    linarith
  have low : ∀ x : K, |x| ≤ |R.rnd x| * ρ := by
    intro x
    have e1 := hu x
    have e2 := abs_add_le (x - R.rnd x) (R.rnd x)
    rw [sub_add_cancel, abs_sub_comm x] at e2
    have hpos : 0 < 1 - u := by norm_num at h1; linarith
    rw [hρ, ← div_eq_mul_inv, le_div_iff₀ hpos]
    linarith
  have hl : c.lo.val ≤ t.val := by linarith
  have hh : t.val ≤ c.hi.val := by linarith
  rintro (h | h | h | h)
  · have : t.val ≤ c.lo.val := h
    linarith
  · have : c.hi.val ≤ t.val := h
    linarith
  · refine key _ (lt_of_lt_of_le ?_ (low _)) h
    rw [abs_of_nonneg (by linarith)]
    linarith
  · refine key _ (lt_of_lt_of_le ?_ (low _)) h
    rw [abs_of_nonpos (by linarith)]
    linarith

/-- The curve `e`, with the same positive weights everywhere, and its computed counterpart `a`: the same knots, and control points with small errors. -/
structure PieceNear (u M : K) (a : Curve (Fp R)) (e : Curve K) : Prop where
  valid : ValidCurve e
  weights : EqualWeights e
  degree : a.degree = e.degree
  knots : a.knots.map Fp.val = e.knots
  length : a.cpts.length = e.cpts.length
  near : ∀ x < e.cpts.length, Close (1 - u)⁻¹ (20 * e.degree) (ix e.cpts x).w (ix a.cpts x).w.val ∧ Near (1 - u)⁻¹ (10 * e.degree) M (ix e.cpts x).x (ix a.cpts x).x.val ∧
        Near (1 - u)⁻¹ (10 * e.degree) M (ix e.cpts x).y (ix a.cpts x).y.val ∧ Near (1 - u)⁻¹ (10 * e.degree) M (ix e.cpts x).z (ix a.cpts x).z.val

theorem near_piece (hu : R.RelError u) (h0 : 0 ≤ u) (h1 : u ≤ 1 / 2 ^ 20) {a : Curve (Fp R)} {e : Curve K} {M : K} (hM0 : 0 ≤ M) (N : PieceNear u M a e) :
    ValidCurve a.exact ∧ PositiveWeights a.exact ∧ (∀ s, InDomain a.exact s ↔ InDomain e s) ∧
      ∀ s : Fp R, InDomain e s.val → ∃ r r', a.evaluate s = .ok r ∧ e.evaluate s.val = .ok r' ∧ Within ((74 * e.degree + 10) * u * M) r r' := by
  obtain ⟨V, hw, hd, hk, hl, hP⟩ := N
  have H := errUnit hu h0 (lt_of_le_of_lt h1 (by norm_num))
  have hp8 : e.degree ≤ 8 := V.deg_le
  obtain ⟨w, hw0, hweq⟩ := hw
  have bfin := pow_small hu h0 h1 (14 * e.degree + 9 + 2 * (20 * e.degree + 10 * e.degree)) (by omega)
  push_cast at bfin
  have fin : ((1 - u)⁻¹ ^ (14 * e.degree + 9 + 2 * (20 * e.degree + 10 * e.degree)) - 1) * M ≤ (74 * e.degree + 10) * u * M :=
    mul_le_mul_of_nonneg_right (by linarith) hM0
  have el : a.exact.cpts.length = e.cpts.length := by rw [← hl]; simp [Curve.exact]
  have ek : a.exact.knots = e.knots := hk
  have ed : a.exact.degree = e.degree := hd
  refine ⟨?_, ?_, ?_, ?_⟩
  · show ValidKnots a.exact.cpts.length a.exact.degree a.exact.knots
    rw [ek, ed, el]
    exact V
  · intro q hq
    obtain ⟨x, hx, rfl⟩ := List.getElem_of_mem hq
    have hx' : x < e.cpts.length := by rw [← el]; exact hx
    rw [← ix_eq_getElem, show ix a.exact.cpts x = exact4 (ix a.cpts x) from ix_cpts_exact _ _]
    refine (hP x hx').1.pos H ?_
    rw [hweq _ (mem_ix hx')]
    exact hw0
  · intro s
    unfold InDomain
    rw [ek, ed, el]
  · intro s hs
    obtain ⟨r, r', g1, g2, g3⟩ := curve_near H a e V (fun q hq => by rw [hweq q hq]; exact hw0) (M := M) hd hk hl hP s hs
    exact ⟨r, r', g1, g2, g3.1.trans fin, g3.2.1.trans fin, g3.2.2.trans fin⟩

/-- What is known about the pieces of `split`, compared with an exact split. -/
theorem split_near (hu : R.RelError u) (h0 : 0 ≤ u) (h1 : u ≤ 1 / 2 ^ 20) (c : Curve (Fp R)) (V : ValidCurve c.exact)
    (hw : EqualWeights c.exact) (t : Fp R) (ht1 : ix c.exact.knots c.degree < t.val) (ht2 : t.val < ix c.exact.knots c.cpts.length)
    (hlo : c.lo.val + 2 / 10 ^ 12 < t.val) (hhi : t.val < c.hi.val - 2 / 10 ^ 12)
    (hsep : ClearOf (2 / 10 ^ 12) c.exact.knots t.val) (hc : c.exact.knots.count t.val ≤ c.degree)
    (M : K) (hM : ∀ q ∈ c.exact.cpts, Bounded M (Vec4.pos q)) :
    ∃ a b ea eb, c.split t false = .ok (a, b) ∧ c.exact.split t.val false = .ok (ea, eb) ∧ PieceNear u M a ea ∧ PieceNear u M b eb ∧ 0 ≤ M ∧
      (∃ q, a.cpts.getLast? = some q ∧ b.cpts.head? = some q) ∧
      (∀ s, (InDomain ea s ↔ ix c.exact.knots c.exact.degree ≤ s ∧ s ≤ t.val) ∧ (InDomain eb s ↔ t.val ≤ s ∧ s ≤ ix c.exact.knots c.exact.cpts.length)) ∧
      (∀ s, InDomain ea s → ea.evaluate s = c.exact.evaluate s) ∧ (∀ s, InDomain eb s → eb.evaluate s = c.exact.evaluate s) ∧
      (ea.knots = c.exact.knots.filter (fun x => decide (x < t.val)) ++ List.replicate (c.degree + 1) t.val ∧
        eb.knots = List.replicate (c.degree + 1) t.val ++ c.exact.knots.filter (fun x => decide (t.val < x))) ∧
      (∀ w, (∀ q ∈ c.exact.cpts, q.w = w) → (∀ q ∈ ea.cpts, q.w = w) ∧ (∀ q ∈ eb.cpts, q.w = w)) ∧
      (minElement a.knots = .ok a.lo ∧ maxElement a.knots = .ok a.hi) ∧ minElement b.knots = .ok b.lo ∧ maxElement b.knots = .ok b.hi := by

  have H := errUnit hu h0 (lt_of_le_of_lt h1 (by norm_num))
  have pw := pow_small hu h0 h1
  have el : c.exact.cpts.length = c.cpts.length := by simp [Curve.exact]
  have ed : c.exact.degree = c.degree := rfl
  have hp8 : c.degree ≤ 8 := V.deg_le
  have htol : (1 / 10 ^ 12 : K) < 2 / 10 ^ 12 := by rw [div_lt_div_iff_of_pos_right (by positivity)]; norm_num
  have hsep1 : ClearOf (1 / 10 ^ 12) c.exact.knots t.val := fun x hx hne => lt_trans htol (hsep x hx hne)
  have hmul : findMultiplicity t c.knots = c.exact.knots.count t.val :=
    findMultiplicity_val H (by have := pw 5 (by omega); norm_num at this h1 ⊢; linarith) hsep
  have hmule : findMultiplicity t.val c.exact.knots = c.exact.knots.count t.val := findMultiplicity_eq_count hsep1
  have hmm : findMultiplicity t c.knots = findMultiplicity t.val c.exact.knots := by rw [hmul, hmule]
  obtain ⟨ea, eb, hs, ⟨Va, Wa, -, da⟩, ⟨Vb, Wb, -, db⟩, hdom, hea, heb, ⟨hka, hkb⟩, hone⟩ := C30_split_reproduces c.exact V hw t.val (by rw [ed]; exact ht1)
    (by rw [el]; exact ht2) (lt_trans (by show c.lo.val + _ < c.lo.val + _; linarith) hlo) (lt_trans hhi (by show c.hi.val - _ < c.hi.val - _; linarith)) hsep1 hc
  obtain ⟨c', e, h', he, Ve, we, hkn', q3, de, q4, hl', hle, hev, hM0, hn⟩ := insertion_near hu h0 h1 c V hw t ht1.le ht2 hsep
    (c.degree - findMultiplicity t c.knots) (by rw [hmul]; omega) M hM
  obtain ⟨-, e2, he2, n1, n2, ⟨la, ha, rfl⟩, ⟨lb, hb, rfl⟩⟩ := split_inv hs
  have : e2 = e := by
    rw [ed, ← hmm, he] at he2
    exact (Res.ok.inj he2).symm
  subst this
  have hcn : c.cpts ≠ [] := by
    intro h
    have := V.enough
    rw [el, h] at this
    simp at this
  have hUn : c.knots ≠ [] := by
    intro h
    have := V.len
    rw [show c.exact.knots = c.knots.map Fp.val from rfl, h] at this
    simp at this
  have eP : splitPts c t = splitPts c.exact t.val := by
    unfold splitPts
    rw [hmm, el, findSpan_val, ed, show ix c.exact.knots = fun i => (ix c.knots i).val from funext (ix_knots_exact c.knots)]
  have eK : splitKnots c c' t = splitKnots c.exact e2 t.val := by
    unfold splitKnots
    rw [hl', hle, findSpan_val, ed, ← hkn', show ix (c'.knots.map Fp.val) = fun i => (ix c'.knots i).val from funext (ix_knots_exact c'.knots)]
  set n := splitPts c.exact t.val with hnn
  set m := splitKnots c.exact e2 t.val with hmm'
  have ll : c'.cpts.length = e2.cpts.length := by rw [hl', hle]
  have npos : 0 < n := by rw [hnn]; unfold splitPts; omega
  have nle : n ≤ e2.cpts.length := by
    by_contra hcon
    exact n2 (List.drop_eq_nil_of_le (by omega))
  have m1 : c'.cpts.take n ≠ [] := by
    intro h
    exact n1 (by rw [List.take_eq_nil_iff] at h ⊢; exact h.imp id fun h => List.length_eq_zero_iff.1 (by rw [← ll, h]; rfl))
  have m2 : c'.cpts.drop (n - 1) ≠ [] := by
    intro h
    exact n2 (by rw [List.drop_eq_nil_iff] at h ⊢; rw [← ll]; exact h)
  obtain ⟨l1, hh1, l2, hh2, hsp, hia, hib⟩ := split_any (split_guard_fp hu h0 h1 hlo hhi) (by rw [hmul]; exact hc) hcn hUn h' (by rw [eP]; exact m1) (by rw [eP]; exact m2)
  rw [eP, eK] at hsp
  rw [eK] at hia hib
  have ka : (c'.knots.take m ++ [t]).map Fp.val = e2.knots.take m ++ [t.val] := by rw [List.map_append, List.map_take, hkn']; rfl
  have kb : (List.replicate (c.degree + 1) t ++ c'.knots.drop m).map Fp.val = List.replicate (c.degree + 1) t.val ++ e2.knots.drop m := by
    rw [List.map_append, List.map_drop, hkn', List.map_replicate]
  have lenA : (c'.cpts.take n).length = (e2.cpts.take n).length := by simp [ll]
  have lenB : (c'.cpts.drop (n - 1)).length = (e2.cpts.drop (n - 1)).length := by simp [ll]
  have nearA : ∀ x < (e2.cpts.take n).length, Close (1 - u)⁻¹ (20 * c.degree) (ix (e2.cpts.take n) x).w (ix (c'.cpts.take n) x).w.val ∧
      Near (1 - u)⁻¹ (10 * c.degree) M (ix (e2.cpts.take n) x).x (ix (c'.cpts.take n) x).x.val ∧
      Near (1 - u)⁻¹ (10 * c.degree) M (ix (e2.cpts.take n) x).y (ix (c'.cpts.take n) x).y.val ∧
      Near (1 - u)⁻¹ (10 * c.degree) M (ix (e2.cpts.take n) x).z (ix (c'.cpts.take n) x).z.val := by
    intro x hx
    have hx' : x < n := by rw [List.length_take] at hx; omega
    rw [ix_take hx', ix_take hx']
    obtain ⟨g1, g2, g3, g4, -⟩ := hn x (by rw [← hle]; omega)
    exact ⟨g1.mono H (by omega), g2.mono H (by omega), g3.mono H (by omega), g4.mono H (by omega)⟩
  have nearB : ∀ x < (e2.cpts.drop (n - 1)).length, Close (1 - u)⁻¹ (20 * c.degree) (ix (e2.cpts.drop (n - 1)) x).w (ix (c'.cpts.drop (n - 1)) x).w.val ∧
      Near (1 - u)⁻¹ (10 * c.degree) M (ix (e2.cpts.drop (n - 1)) x).x (ix (c'.cpts.drop (n - 1)) x).x.val ∧
      Near (1 - u)⁻¹ (10 * c.degree) M (ix (e2.cpts.drop (n - 1)) x).y (ix (c'.cpts.drop (n - 1)) x).y.val ∧
      Near (1 - u)⁻¹ (10 * c.degree) M (ix (e2.cpts.drop (n - 1)) x).z (ix (c'.cpts.drop (n - 1)) x).z.val := by
    intro x hx
    rw [List.length_drop] at hx
    rw [ix_drop, ix_drop]
    obtain ⟨g1, g2, g3, g4, -⟩ := hn (n - 1 + x) (by rw [← hle]; omega)
    exact ⟨g1.mono H (by omega), g2.mono H (by omega), g3.mono H (by omega), g4.mono H (by omega)⟩
  refine ⟨_, _, _, _, hsp, hs, ⟨Va, Wa, rfl, ka, lenA, nearA⟩, ⟨Vb, Wb, rfl, kb, lenB, nearB⟩, hM0, ?_, hdom, hea, heb, ⟨hka, hkb⟩, hone, hia, hib⟩
  have hlt : n - 1 < c'.cpts.length := by omega
  refine ⟨c'.cpts[n - 1], ?_, ?_⟩
  · show (c'.cpts.take n).getLast? = _
    rw [List.getLast?_eq_getElem?, List.length_take, Nat.min_eq_left (by omega), List.getElem?_take_of_lt (by omega), List.getElem?_eq_getElem hlt]
  · show (c'.cpts.drop (n - 1)).head? = _
    rw [List.head?_drop, List.getElem?_eq_getElem hlt]

/-- C142. `split` of a curve whose weights are all equal, at a parameter more than 2e-12 from the ends and from every knot different from it: it returns two valid curves
with the knots below and above the parameter, the same degree and positive weights; the last control point of the first is the first one of the second, number for number; and each,
evaluated with rounding on its part of the domain, is the original curve up to `(74 p + 10) u` times the largest coordinate of the control points. -/
theorem C142_split_error (hu : R.RelError u) (h0 : 0 ≤ u) (h1 : u ≤ 1 / 2 ^ 20) (c : Curve (Fp R)) (V : ValidCurve c.exact)
    (hw : EqualWeights c.exact) (t : Fp R) (ht1 : ix c.exact.knots c.degree < t.val) (ht2 : t.val < ix c.exact.knots c.cpts.length)
    (hlo : c.lo.val + 2 / 10 ^ 12 < t.val) (hhi : t.val < c.hi.val - 2 / 10 ^ 12)
    (hsep : ClearOf (2 / 10 ^ 12) c.exact.knots t.val) (hc : c.exact.knots.count t.val ≤ c.degree)
    (M : K) (hM : ∀ q ∈ c.exact.cpts, Bounded M (Vec4.pos q)) :
    ∃ a b, c.split t false = .ok (a, b) ∧
      (ValidCurve a.exact ∧ PositiveWeights a.exact ∧ a.degree = c.degree ∧ a.exact.knots = c.exact.knots.filter (fun x => decide (x < t.val)) ++ List.replicate (c.degree + 1) t.val) ∧
      (ValidCurve b.exact ∧ PositiveWeights b.exact ∧ b.degree = c.degree ∧ b.exact.knots = List.replicate (c.degree + 1) t.val ++ c.exact.knots.filter (fun x => decide (t.val < x))) ∧
      (∃ q, a.cpts.getLast? = some q ∧ b.cpts.head? = some q) ∧
      (∀ s, (InDomain a.exact s ↔ ix c.exact.knots c.degree ≤ s ∧ s ≤ t.val) ∧ (InDomain b.exact s ↔ t.val ≤ s ∧ s ≤ ix c.exact.knots c.cpts.length)) ∧
      (∀ s : Fp R, InDomain a.exact s.val → ∃ r r', a.evaluate s = .ok r ∧ c.exact.evaluate s.val = .ok r' ∧ Within ((74 * c.degree + 10) * u * M) r r') ∧
      (∀ s : Fp R, InDomain b.exact s.val → ∃ r r', b.evaluate s = .ok r ∧ c.exact.evaluate s.val = .ok r' ∧ Within ((74 * c.degree + 10) * u * M) r r') := by
  have el : c.exact.cpts.length = c.cpts.length := by simp [Curve.exact]
  obtain ⟨a, b, ea, eb, hsp, hs, Na, Nb, hM0, hq, hdom, hea, heb, ⟨hka, hkb⟩, -⟩ := split_near hu h0 h1 c V hw t ht1 ht2 hlo hhi hsep hc M hM
  obtain ⟨-, _, -, -, -, ⟨_, _, ha⟩, ⟨_, _, hb⟩⟩ := split_inv hsp
  have da : a.degree = c.degree := by rw [ha]
  have db : b.degree = c.degree := by rw [hb]
  have da' : ea.degree = c.degree := by rw [← Na.degree, da]
  have db' : eb.degree = c.degree := by rw [← Nb.degree, db]
  obtain ⟨A1, A2, A3, A4⟩ := near_piece hu h0 h1 hM0 Na
  obtain ⟨B1, B2, B3, B4⟩ := near_piece hu h0 h1 hM0 Nb
  rw [da'] at A4
  rw [db'] at B4
  refine ⟨a, b, hsp, ⟨A1, A2, da, Na.knots.trans hka⟩, ⟨B1, B2, db, Nb.knots.trans hkb⟩, hq, fun s => ⟨?_, ?_⟩, fun s hs => ?_, fun s hs => ?_⟩
  · rw [A3, (hdom s).1]; rfl
  · rw [B3, (hdom s).2, el]
  · rw [A3] at hs
    obtain ⟨r, r', g1, g2, g3⟩ := A4 s hs
    rw [hea _ hs] at g2
    exact ⟨r, r', g1, g2, g3⟩
  · rw [B3] at hs
    obtain ⟨r, r', g1, g2, g3⟩ := B4 s hs
    rw [heb _ hs] at g2
    exact ⟨r, r', g1, g2, g3⟩

/-- C142. For `double` rounded to nearest and every degree, both pieces are within `2 ^ -43` times the largest coordinate of the control points from the original, so that they
meet at the parameter of the split up to twice that. -/
theorem C142_split_double [FloorRing K] (c : Curve (Fp (Rounding.float (K := K) 53 (by norm_num)))) (V : ValidCurve c.exact)
    (hw : EqualWeights c.exact) (t : Fp _) (ht1 : ix c.exact.knots c.degree < t.val) (ht2 : t.val < ix c.exact.knots c.cpts.length)
    (hlo : c.lo.val + 2 / 10 ^ 12 < t.val) (hhi : t.val < c.hi.val - 2 / 10 ^ 12)
    (hsep : ClearOf (2 / 10 ^ 12) c.exact.knots t.val) (hc : c.exact.knots.count t.val ≤ c.degree)
    (M : K) (hM : ∀ q ∈ c.exact.cpts, Bounded M (Vec4.pos q)) :
    ∃ a b, c.split t false = .ok (a, b) ∧
      (∀ s : Fp _, ix c.exact.knots c.degree ≤ s.val → s.val ≤ t.val → ∃ r r', a.evaluate s = .ok r ∧ c.exact.evaluate s.val = .ok r' ∧ Within (1 / 2 ^ 43 * M) r r') ∧
      (∀ s : Fp _, t.val ≤ s.val → s.val ≤ ix c.exact.knots c.cpts.length → ∃ r r', b.evaluate s = .ok r ∧ c.exact.evaluate s.val = .ok r' ∧ Within (1 / 2 ^ 43 * M) r r') ∧
      ∃ r r', a.evaluate t = .ok r ∧ b.evaluate t = .ok r' ∧ |r.x.val - r'.x.val| ≤ 1 / 2 ^ 42 * M ∧ |r.y.val - r'.y.val| ≤ 1 / 2 ^ 42 * M ∧ |r.z.val - r'.z.val| ≤ 1 / 2 ^ 42 * M := by
  obtain ⟨a, b, h, -, -, -, hd, ga, gb⟩ := C142_split_error (float_error 53 _) (by norm_num) (by norm_num) c V hw t ht1 ht2 hlo hhi hsep hc M hM
  have hp : c.degree ≤ 8 := V.deg_le
  have h8 : (c.degree : K) ≤ 8 := by exact_mod_cast hp
  have hM0 : 0 ≤ M := by
    have hl := V.enough
    have hmem : ix c.exact.cpts 0 ∈ c.exact.cpts := mem_ix (by omega)
    exact (abs_nonneg _).trans (hM _ hmem).1
  have hb : (74 * (c.degree : K) + 10) * (1 / 2 ^ 53) * M ≤ 1 / 2 ^ 43 * M := by
    refine mul_le_mul_of_nonneg_right ?_ hM0
    norm_num
    linarith
  have A : ∀ s : Fp _, ix c.exact.knots c.degree ≤ s.val → s.val ≤ t.val → ∃ r r', a.evaluate s = .ok r ∧ c.exact.evaluate s.val = .ok r' ∧ Within (1 / 2 ^ 43 * M) r r' := by
    intro s s1 s2
    obtain ⟨r, r', e1, e2, h1, h2, h3⟩ := ga s ((hd _).1.2 ⟨s1, s2⟩)
    exact ⟨r, r', e1, e2, h1.trans hb, h2.trans hb, h3.trans hb⟩
  have B : ∀ s : Fp _, t.val ≤ s.val → s.val ≤ ix c.exact.knots c.cpts.length → ∃ r r', b.evaluate s = .ok r ∧ c.exact.evaluate s.val = .ok r' ∧ Within (1 / 2 ^ 43 * M) r r' := by
    intro s s1 s2
    obtain ⟨r, r', e1, e2, h1, h2, h3⟩ := gb s ((hd _).2.2 ⟨s1, s2⟩)
    exact ⟨r, r', e1, e2, h1.trans hb, h2.trans hb, h3.trans hb⟩
  refine ⟨a, b, h, A, B, ?_⟩
  obtain ⟨r, r', e1, e2, h1, h2, h3⟩ := A t ht1.le le_rfl
  obtain ⟨q, q', f1, f2, k1, k2, k3⟩ := B t le_rfl ht2.le
  rw [e2] at f2
  obtain rfl : r' = q' := Res.ok.inj f2
  have tri : ∀ {x y z : K}, |x - z| ≤ 1 / 2 ^ 43 * M → |y - z| ≤ 1 / 2 ^ 43 * M → |x - y| ≤ 1 / 2 ^ 42 * M := by
    intro x y z g1 g2
    have : |x - y| ≤ |x - z| + |y - z| := by
      rw [abs_sub_comm y z]; exact abs_sub_le x z y
    have e : (1 / 2 ^ 42 : K) * M = 1 / 2 ^ 43 * M + 1 / 2 ^ 43 * M := by norm_num; ring
    linarith
  exact ⟨r, q, e1, f1, tri h1 k1, tri h2 k2, tri h3 k3⟩

/-- C142. With weights one and rounding to the nearest number of `p` binary digits, all weights of both pieces are exactly one, so that they can be split again. -/
theorem C142_unit_weights [FloorRing K] (p : Nat) (hp : 20 ≤ p) (c : Curve (Fp (Rounding.float (K := K) p (by omega)))) (V : ValidCurve c.exact)
    (hw : ∀ q ∈ c.exact.cpts, q.w = 1) (t : Fp _) (ht1 : ix c.exact.knots c.degree ≤ t.val) (ht2 : t.val < ix c.exact.knots c.cpts.length)
    (hsep : ClearOf (2 / 10 ^ 12) c.exact.knots t.val) (hc : c.exact.knots.count t.val ≤ c.degree) (a b) (h : c.split t false = .ok (a, b)) :
    (∀ q ∈ a.exact.cpts, q.w = 1) ∧ (∀ q ∈ b.exact.cpts, q.w = 1) := by
  obtain ⟨hm, e, he, -, -, ⟨_, _, rfl⟩, ⟨_, _, rfl⟩⟩ := split_inv h
  have hu1 : (1 : K) / 2 ^ p ≤ 1 / 2 ^ 20 := by
    rw [div_le_div_iff₀ (by positivity) (by positivity)]
    have : (2 : K) ^ 20 ≤ 2 ^ p := pow_le_pow_right₀ (by norm_num) hp
    linarith
  have hu := float_error (K := K) p (by omega)
  have H := errUnit hu (by positivity) (lt_of_le_of_lt hu1 (by norm_num))
  have hmul : findMultiplicity t c.knots = c.exact.knots.count t.val :=
    findMultiplicity_val H (by have := pow_small hu (by positivity) hu1 5 (by omega); norm_num at this hu1 ⊢; linarith) hsep
  obtain ⟨M, hM⟩ : ∃ M, ∀ q ∈ c.exact.cpts, Bounded M (Vec4.pos q) := by
    generalize c.exact.cpts = l
    induction l with
    | nil => exact ⟨0, by simp⟩
    | cons q l ih =>
      obtain ⟨M, hM⟩ := ih
      have m1 : M ≤ max M (max |(Vec4.pos q).x| (max |(Vec4.pos q).y| |(Vec4.pos q).z|)) := le_max_left _ _
      refine ⟨max M (max |(Vec4.pos q).x| (max |(Vec4.pos q).y| |(Vec4.pos q).z|)), fun q' hq' => ?_⟩
      rcases List.mem_cons.1 hq' with rfl | hq'
      · refine ⟨le_trans ?_ (le_max_right _ _), le_trans ?_ (le_max_right _ _), le_trans ?_ (le_max_right _ _)⟩
        · exact le_max_left _ _
        · exact (le_max_left _ _).trans (le_max_right _ _)
        · exact (le_max_right _ _).trans (le_max_right _ _)
      · exact ⟨(hM _ hq').1.trans m1, (hM _ hq').2.1.trans m1, (hM _ hq').2.2.trans m1⟩
  obtain ⟨c', h', -, W, -⟩ := C127_unit_weights p hp c V hw t ht1 ht2 hsep (c.degree - findMultiplicity t c.knots) (by rw [hmul]; omega) M hM
  obtain rfl : e = c' := by rw [he] at h'; exact Res.ok.inj h'
  have W' : ∀ q ∈ e.cpts, (exact4 q).w = 1 := fun q hq => W _ (List.mem_map_of_mem hq)
  constructor
  · intro q hq
    obtain ⟨q', hq', rfl⟩ := List.mem_map.1 hq
    exact W' _ (List.mem_of_mem_take hq')
  · intro q hq
    obtain ⟨q', hq', rfl⟩ := List.mem_map.1 hq
    exact W' _ (List.mem_of_mem_drop hq')

/-- The quadratic curve of C26 has `double` coordinates and meets the hypotheses, for the `double` nearest to 0.1, which is not a knot, and for 1, which is. -/
example : ∀ x ∈ [Fp.round double (1 / 10), Fp.round double 1], demoCurve.rounded.exact = demoCurve ∧ ValidCurve demoCurve.rounded.exact ∧ EqualWeights demoCurve.rounded.exact ∧
    ix demoCurve.rounded.exact.knots demoCurve.degree < x.val ∧ x.val < ix demoCurve.rounded.exact.knots demoCurve.cpts.length ∧
    demoCurve.rounded.lo.val + 2 / 10 ^ 12 < x.val ∧ x.val < demoCurve.rounded.hi.val - 2 / 10 ^ 12 ∧
    ClearOf (2 / 10 ^ 12) demoCurve.rounded.exact.knots x.val ∧ demoCurve.rounded.exact.knots.count x.val ≤ demoCurve.degree ∧
    (∀ q ∈ demoCurve.rounded.exact.cpts, q.w = 1) ∧ ∀ q ∈ demoCurve.rounded.exact.cpts, Bounded 6 (Vec4.pos q) := by
  have e : demoCurve.rounded.exact = demoCurve := by decide +kernel
  intro x hx
  rw [e]
  refine ⟨rfl, demoCurve_valid, demoCurve_equal, ?_⟩
  revert x
  unfold ClearOf Bounded
  decide +kernel

end Cmm.Nurbs
