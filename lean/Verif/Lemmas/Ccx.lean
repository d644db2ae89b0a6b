import Verif.Spec.Ccx
import Verif.Props.Curve
import Verif.Props.AABB
import Verif.Spec.Newton
import Mathlib.Tactic.FieldSimp
/-! Halving curves: what the pieces of `ccx` are. -/
namespace Cmm.Ccx
open Cmm.Nurbs
variable {K : Type} [Field K] [LinearOrder K] [IsStrictOrderedRing K]

omit [IsStrictOrderedRing K] in
theorem interval_facts {c : Curve K} (h : IntervalOk c) : (c.lo ∈ c.knots ∧ ∀ x ∈ c.knots, c.lo ≤ x) ∧ (c.hi ∈ c.knots ∧ ∀ x ∈ c.knots, x ≤ c.hi) := by
  unfold IntervalOk Curve.updateInterval at h
  have hne : c.knots ≠ [] := by
    intro e; rw [e] at h; cases h
  obtain ⟨m, h1, h1', h1''⟩ := minElement_ok hne
  obtain ⟨M, h2, h2', h2''⟩ := maxElement_ok hne
  rw [h1, Res.ok_bind, h2, Res.ok_bind] at h
  have e1 : m = c.lo := congrArg Curve.lo (Res.ok.inj h)
  have e2 : M = c.hi := congrArg Curve.hi (Res.ok.inj h)
  subst e1 e2
  exact ⟨⟨h1', h1''⟩, ⟨h2', h2''⟩⟩

/-- A piece of `c` after halving: part `k` of `2 ^ n`. -/
structure Piece (c : Curve K) (n k : Nat) (p : Curve K) : Prop where
  valid : ValidCurve p
  unit : ∀ q ∈ p.cpts, q.w = 1
  interval : IntervalOk p
  deg : p.degree = c.degree
  hk : k < 2 ^ n
  lo : p.lo = cut c n k
  hi : p.hi = cut c n (k + 1)
  domlo : ix p.knots p.degree = p.lo
  domhi : ix p.knots p.cpts.length = p.hi
  mem : ∀ x ∈ p.knots, x ∈ c.knots ∨ x = p.lo ∨ x = p.hi
  cnt : ∀ x, p.lo < x → x < p.hi → p.knots.count x = c.knots.count x
  eval : ∀ t, p.lo ≤ t → t ≤ p.hi → p.evaluate t = c.evaluate t

theorem dom_lt {p : Curve K} (V : ValidCurve p) : ix p.knots p.degree < ix p.knots p.cpts.length := by
  have hl := V.len
  have he := V.enough
  exact lt_of_le_of_lt (ValidKnots.mono V _ (p.cpts.length - 1) (by omega) (by omega)) V.last_span

theorem Piece.lt {c : Curve K} {n k : Nat} {p : Curve K} (h : Piece c n k p) : p.lo < p.hi := by
  rw [← h.domlo, ← h.domhi]; exact dom_lt h.valid

theorem piece_self {N : Nat} {c : Curve K} (h : Halvable N c) : Piece c 0 0 c := by
  obtain ⟨⟨f1, f2⟩, f3, f4⟩ := interval_facts h.interval
  have hl := h.valid.len
  have he := h.valid.enough
  have hmem : ∀ i, i < c.knots.length → ix c.knots i ∈ c.knots := fun i hi => mem_ix hi
  have first : ix c.knots c.degree = c.lo := by
    apply le_antisymm
    · rw [← h.clamped.1 0 (by omega)]
      obtain ⟨i, hi, e⟩ := List.getElem_of_mem f1
      rw [← e, ← ix_eq_getElem hi]
      exact ValidKnots.mono h.valid _ _ (by omega) (by omega)
    · exact f2 _ (hmem _ (by omega))
  have last : ix c.knots c.cpts.length = c.hi := by
    apply le_antisymm
    · exact f4 _ (hmem _ (by omega))
    · rw [← h.clamped.2 (c.cpts.length + c.degree) (by omega) (by omega)]
      obtain ⟨i, hi, e⟩ := List.getElem_of_mem f3
      rw [← e, ← ix_eq_getElem hi]
      exact ValidKnots.mono h.valid _ _ (by omega) (by omega)
  exact ⟨h.valid, h.unit, h.interval, rfl, by simp, by simp [cut], by simp [cut], first, last, fun x hx => Or.inl hx, fun _ _ _ => rfl, fun _ _ _ => rfl⟩

theorem cut_even (c : Curve K) (n k : Nat) : cut c (n + 1) (2 * k) = cut c n k := by
  unfold cut
  rw [pow_succ]
  push_cast
  field_simp

theorem cut_succ_mid (c : Curve K) (n k : Nat) : cut c (n + 1) (2 * k + 1) = (cut c n (k + 1) - cut c n k) * (1 / 2) + cut c n k := by
  unfold cut
  rw [pow_succ]
  push_cast
  field_simp
  ring

theorem cut_even_succ (c : Curve K) (n k : Nat) : cut c (n + 1) (2 * k + 1 + 1) = cut c n (k + 1) := by
  rw [show 2 * k + 1 + 1 = 2 * (k + 1) by omega, cut_even]

/-- Two division points of a level are at least the level's width apart. -/
theorem cut_sub (c : Curve K) (n k l : Nat) : cut c n k - cut c n l = (c.hi - c.lo) / 2 ^ n * ((k : K) - l) := by
  unfold cut; field_simp; ring

omit [Field K] [IsStrictOrderedRing K] in
theorem dom_iff_eq {a b x y : K} (hab : a ≤ b) (hxy : x ≤ y) (h : ∀ t, (a ≤ t ∧ t ≤ b) ↔ (x ≤ t ∧ t ≤ y)) : a = x ∧ b = y := by
  have h1 := (h a).1 ⟨le_refl _, hab⟩
  have h2 := (h x).2 ⟨le_refl _, hxy⟩
  have h3 := (h b).1 ⟨hab, le_refl _⟩
  have h4 := (h y).2 ⟨hxy, le_refl _⟩
  exact ⟨le_antisymm h2.1 h1.1, le_antisymm h3.2 h4.2⟩

/-- The middle of a piece is a parameter at which it can be split. -/
theorem Piece.cuttable {N : Nat} {c : Curve K} (H : Halvable N c) {n k : Nat} {p : Curve K} (h : Piece c n k p) (hn : n + 1 ≤ N) :
    ∀ u, u = (p.hi - p.lo) * (1 / 2) + p.lo → u = cut c (n + 1) (2 * k + 1) ∧ p.lo + 1 / 10 ^ 12 < u ∧ u < p.hi - 1 / 10 ^ 12 ∧
      ClearOf (1 / 10 ^ 12) p.knots u ∧ p.knots.count u ≤ p.degree := by
  intro u hu
  have hlt := h.lt
  have hue : u = cut c (n + 1) (2 * k + 1) := by rw [cut_succ_mid, hu, h.lo, h.hi]
  have hk2 : 2 * k + 1 ≤ 2 ^ (n + 1) := by have := h.hk; rw [pow_succ]; omega
  have hclear := H.clear (n + 1) hn (2 * k + 1) hk2
  rw [← hue] at hclear
  obtain ⟨⟨c1, c2⟩, c3, c4⟩ := interval_facts H.interval
  have hcw : c.lo < c.hi := by
    have h0 := piece_self H
    exact h0.lt
  -- the width of the next level exceeds the tolerance
  have hwidth : 1 / 10 ^ 12 < (c.hi - c.lo) / 2 ^ (n + 1) := by
    have h0 := H.clear (n + 1) hn 1 (Nat.one_le_two_pow) c.lo c1 (by
      unfold cut
      have : 0 < (c.hi - c.lo) * ((1 : Nat) : K) / 2 ^ (n + 1) := by
        have := sub_pos.2 hcw
        push_cast; positivity
      intro e; linarith)
    have e : cut c (n + 1) 1 - c.lo = (c.hi - c.lo) / 2 ^ (n + 1) := by unfold cut; push_cast; ring
    rw [e, abs_of_pos (by have := sub_pos.2 hcw; positivity)] at h0
    exact h0
  have hul : u - p.lo = (c.hi - c.lo) / 2 ^ (n + 1) := by
    rw [hue, h.lo, ← cut_even c n k, cut_sub]; push_cast; ring
  have huh : p.hi - u = (c.hi - c.lo) / 2 ^ (n + 1) := by
    rw [hue, h.hi, ← cut_even_succ c n k, cut_sub]; push_cast; ring
  have hlo : p.lo + 1 / 10 ^ 12 < u := by linarith
  have hhi : u < p.hi - 1 / 10 ^ 12 := by linarith
  have htol : (0 : K) < 1 / 10 ^ 12 := by positivity
  have hsep : ClearOf (1 / 10 ^ 12) p.knots u := by
    intro x hx hne
    rcases h.mem x hx with hx | rfl | rfl
    · exact hclear x hx hne
    · rw [abs_of_pos (by linarith)]; linarith
    · rw [abs_of_neg (by linarith)]; linarith
  have hcnt : p.knots.count u ≤ p.degree := by
    rw [h.cnt u (by linarith) (by linarith), h.deg]
    have e1 : c.lo ≤ p.lo := by
      rw [h.lo]; unfold cut
      have : 0 ≤ (c.hi - c.lo) * (k : K) / 2 ^ n := by have := sub_pos.2 hcw; positivity
      linarith
    have e2 : p.hi ≤ c.hi := by
      rw [h.hi]
      have : c.hi = cut c n (2 ^ n) := by unfold cut; push_cast; field_simp; ring
      rw [this, ← sub_nonneg, cut_sub]
      have := sub_pos.2 hcw
      have h2 : ((k + 1 : Nat) : K) ≤ ((2 ^ n : Nat) : K) := Nat.cast_le.2 h.hk
      exact mul_nonneg (by positivity) (by linarith)
    exact H.mult u (by linarith) (by linarith)
  exact ⟨hue, hlo, hhi, hsep, hcnt⟩

/-- Halving a piece gives two pieces of the next level. -/
theorem Piece.halve {N : Nat} {c : Curve K} (H : Halvable N c) {n k : Nat} {p : Curve K} (h : Piece c n k p) (hn : n + 1 ≤ N) :
    ∃ a b, p.split ((p.hi - p.lo) * (1 / 2) + p.lo) false = .ok (a, b) ∧ Piece c (n + 1) (2 * k) a ∧ Piece c (n + 1) (2 * k + 1) b := by
  set u := (p.hi - p.lo) * (1 / 2) + p.lo with hu
  have hlt := h.lt
  obtain ⟨hue, hlo, hhi, hsep, hcnt⟩ := h.cuttable H hn u hu
  have htol : (0 : K) < 1 / 10 ^ 12 := by positivity
  obtain ⟨a, b, hsplit, ⟨Va, _, Ia, da⟩, ⟨Vb, _, Ib, db⟩, hdom, ea, eb, ⟨ka, kb⟩, hw⟩ :=
    C30_split_reproduces p h.valid ⟨1, one_pos, h.unit⟩ u (by rw [h.domlo]; linarith) (by rw [h.domhi]; linarith) hlo hhi hsep hcnt
  obtain ⟨wa, wb⟩ := hw 1 h.unit
  obtain ⟨⟨p1, p2⟩, p3, p4⟩ := interval_facts h.interval
  obtain ⟨⟨a1, a2⟩, a3, a4⟩ := interval_facts Ia
  obtain ⟨⟨b1, b2⟩, b3, b4⟩ := interval_facts Ib
  have da' : ix a.knots a.degree = p.lo ∧ ix a.knots a.cpts.length = u := by
    refine dom_iff_eq (le_of_lt (dom_lt Va)) (by linarith) fun t => ?_
    have := (hdom t).1
    rw [h.domlo] at this
    exact this
  have db' : ix b.knots b.degree = u ∧ ix b.knots b.cpts.length = p.hi := by
    refine dom_iff_eq (le_of_lt (dom_lt Vb)) (by linarith) fun t => ?_
    have := (hdom t).2
    rw [h.domhi] at this
    exact this
  have mema : ∀ x ∈ a.knots, (x ∈ p.knots ∧ x < u) ∨ x = u := by
    intro x hx
    rw [ka] at hx
    rcases List.mem_append.1 hx with hx | hx
    · exact Or.inl ⟨(List.mem_filter.1 hx).1, of_decide_eq_true (List.mem_filter.1 hx).2⟩
    · exact Or.inr (List.eq_of_mem_replicate hx)
  have memb : ∀ x ∈ b.knots, (x ∈ p.knots ∧ u < x) ∨ x = u := by
    intro x hx
    rw [kb] at hx
    rcases List.mem_append.1 hx with hx | hx
    · exact Or.inr (List.eq_of_mem_replicate hx)
    · exact Or.inl ⟨(List.mem_filter.1 hx).1, of_decide_eq_true (List.mem_filter.1 hx).2⟩
  have inka : ∀ i, i < a.knots.length → ix a.knots i ∈ a.knots := fun i hi => mem_ix hi
  have inkb : ∀ i, i < b.knots.length → ix b.knots i ∈ b.knots := fun i hi => mem_ix hi
  have la := Va.len
  have lea := Va.enough
  have lb := Vb.len
  have leb := Vb.enough
  have dpa := Va.deg_pos
  have dpb := Vb.deg_pos
  have alo : a.lo = p.lo := by
    apply le_antisymm
    · rw [← da'.1]; exact a2 _ (inka _ (by omega))
    · rcases mema _ a1 with hx | hx
      · exact p2 _ hx.1
      · rw [hx]; linarith
  have ahi : a.hi = u := by
    apply le_antisymm
    · rcases mema _ a3 with hx | hx
      · exact le_of_lt hx.2
      · exact le_of_eq hx
    · rw [← da'.2]; exact a4 _ (inka _ (by omega))
  have blo : b.lo = u := by
    apply le_antisymm
    · have := b2 _ (inkb b.degree (by omega))
      rw [db'.1] at this; exact this
    · rcases memb _ b1 with hx | hx
      · exact le_of_lt hx.2
      · exact le_of_eq hx.symm
  have bhi : b.hi = p.hi := by
    apply le_antisymm
    · rcases memb _ b3 with hx | hx
      · exact p4 _ hx.1
      · rw [hx]; linarith
    · have := b4 _ (inkb b.cpts.length (by omega))
      rw [db'.2] at this; exact this
  refine ⟨a, b, hsplit, ?_, ?_⟩
  · refine ⟨Va, wa, Ia, da.trans h.deg, by have := h.hk; rw [pow_succ]; omega, by rw [alo, cut_even, h.lo], by rw [ahi, hue],
      by rw [da'.1, alo], by rw [da'.2, ahi], ?_, ?_, ?_⟩
    · intro x hx
      rcases mema x hx with ⟨hx, _⟩ | hx
      · rcases h.mem x hx with hx | hx | hx
        · exact Or.inl hx
        · right; left; rw [hx, alo]
        · rename_i hlt'
          rw [hx] at hlt'; linarith
      · right; right; rw [hx, ahi]
    · intro x h1 h2
      rw [alo] at h1
      rw [ahi] at h2
      rw [ka, List.count_append, List.count_filter (p := fun x => decide (x < u)) (decide_eq_true h2), List.count_replicate, if_neg (by simpa using ne_of_gt h2), Nat.add_zero]
      exact h.cnt x h1 (by linarith)
    · intro t h1 h2
      rw [alo] at h1
      rw [ahi] at h2
      rw [ea t (by unfold InDomain; rw [da'.1, da'.2]; exact ⟨h1, h2⟩)]
      exact h.eval t h1 (by linarith)
  · refine ⟨Vb, wb, Ib, db.trans h.deg, by have := h.hk; rw [pow_succ]; omega, by rw [blo, hue], by rw [bhi, cut_even_succ, h.hi],
      by rw [db'.1, blo], by rw [db'.2, bhi], ?_, ?_, ?_⟩
    · intro x hx
      rcases memb x hx with ⟨hx, hxu⟩ | hx
      · rcases h.mem x hx with hx | hx | hx
        · exact Or.inl hx
        · rw [hx] at hxu; linarith
        · right; right; rw [hx, bhi]
      · right; left; rw [hx, blo]
    · intro x h1 h2
      rw [blo] at h1
      rw [bhi] at h2
      rw [kb, List.count_append, List.count_filter (p := fun x => decide (u < x)) (decide_eq_true h1), List.count_replicate, if_neg (by simpa using ne_of_lt h1), Nat.zero_add]
      exact h.cnt x (by linarith) h2
    · intro t h1 h2
      rw [blo] at h1
      rw [bhi] at h2
      rw [eb t (by unfold InDomain; rw [db'.1, db'.2]; exact ⟨h1, h2⟩)]
      exact h.eval t (by linarith) h2

/-- The box of a piece holds its part of the curve. -/
theorem Piece.box {c : Curve K} {n k : Nat} {p : Curve K} (h : Piece c n k p) :
    ∃ b, p.bbox = .ok b ∧ ValidBox b ∧ ∀ t, InPart c n k t → ∃ r, c.evaluate t = .ok r ∧ InBox r b := by
  obtain ⟨b, hb, hin⟩ := C27_own_box_unit_weights p h.valid h.unit
  have key : ∀ t, InPart c n k t → ∃ r, c.evaluate t = .ok r ∧ InBox r b := by
    intro t ht
    unfold InPart at ht
    rw [← h.lo, ← h.hi] at ht
    obtain ⟨r, hr, hb⟩ := hin t (by unfold InDomain; rw [h.domlo, h.domhi]; exact ht)
    rw [h.eval t ht.1 ht.2] at hr
    exact ⟨r, hr, hb⟩
  refine ⟨b, hb, ?_, key⟩
  obtain ⟨r, _, hr⟩ := key (cut c n k) ⟨le_refl _, by rw [← h.lo, ← h.hi]; exact le_of_lt h.lt⟩
  unfold InBox at hr
  unfold ValidBox
  obtain ⟨h1, h2, h3, h4, h5, h6⟩ := hr
  exact ⟨le_trans h1 h2, le_trans h3 h4, le_trans h5 h6⟩

/-- Points of a box are at most its diagonal apart. -/
theorem inBox_dist {P Q : Vec3 K} {b : AABB K} (hP : InBox P b) (hQ : InBox Q b) : (P - Q).sqLength ≤ (b.max - b.min).sqLength := by
  obtain ⟨p1, p2, p3, p4, p5, p6⟩ := hP
  obtain ⟨q1, q2, q3, q4, q5, q6⟩ := hQ
  simp only [Vec3.sqLength, Vec3.sub_x, Vec3.sub_y, Vec3.sub_z]
  have key : ∀ x y lo hi : K, lo ≤ x → x ≤ hi → lo ≤ y → y ≤ hi → (x - y) * (x - y) ≤ (hi - lo) * (hi - lo) := by
    intro x y lo hi h1 h2 h3 h4
    nlinarith [mul_nonneg (sub_nonneg.2 h1) (sub_nonneg.2 h3), mul_nonneg (sub_nonneg.2 h2) (sub_nonneg.2 h4),
      mul_nonneg (sub_nonneg.2 h1) (sub_nonneg.2 h4), mul_nonneg (sub_nonneg.2 h2) (sub_nonneg.2 h3)]
  linarith [key P.x Q.x _ _ p1 p2 q1 q2, key P.y Q.y _ _ p3 p4 q3 q4, key P.z Q.z _ _ p5 p6 q5 q6]

theorem dist_two {P X Q : Vec3 K} {d : K} (h1 : (P - X).sqLength < d ^ 2) (h2 : (X - Q).sqLength < d ^ 2) : (P - Q).sqLength < (2 * d) ^ 2 := by
  simp only [Vec3.sqLength, Vec3.sub_x, Vec3.sub_y, Vec3.sub_z] at *
  nlinarith [sq_nonneg (P.x - X.x - (X.x - Q.x)), sq_nonneg (P.y - X.y - (X.y - Q.y)), sq_nonneg (P.z - X.z - (X.z - Q.z))]

theorem sqLength_nonneg (a : Vec3 K) : 0 ≤ a.sqLength := by
  simp only [Vec3.sqLength]; nlinarith [mul_self_nonneg a.x, mul_self_nonneg a.y, mul_self_nonneg a.z]

theorem small_spec {sqrt : K → K} (hs : Newton.IsSqrt sqrt) (hs0 : sqrt 0 = 0) {tol : K} {b : AABB K} :
    small sqrt tol b = true ↔ 0 < tol ∧ (b.max - b.min).sqLength < tol ^ 2 := by
  unfold small
  rw [decide_eq_true_eq]
  rcases eq_or_lt_of_le (sqLength_nonneg (b.max - b.min)) with h | h
  · rw [← h, hs0]
    exact ⟨fun h => ⟨h, by positivity⟩, fun h => h.1⟩
  · obtain ⟨s1, s2⟩ := hs _ h
    constructor
    · intro hl
      exact ⟨lt_trans s1 hl, by nlinarith⟩
    · rintro ⟨h1, h2⟩
      by_contra hc
      nlinarith [not_lt.1 hc]

/-! ### The search -/

omit [IsStrictOrderedRing K] [LinearOrder K] [Field K] in
theorem andThen_step {A B : Type} {x : Option (Res A)} {f : A → Option (Res B)} {P : A → Prop} {Q : B → Prop}
    (h : x = none ∨ ∃ a, x = some (.ok a) ∧ P a) (g : ∀ a, P a → f a = none ∨ ∃ b, f a = some (.ok b) ∧ Q b) :
    andThen x f = none ∨ ∃ b, andThen x f = some (.ok b) ∧ Q b := by
  rcases h with h | ⟨a, h, ha⟩
  · left; rw [h]; rfl
  · rw [h]; exact g a ha

/-- What a call adds to the list of reports. -/
def Adds (tol : K) (c1 c2 : Curve K) (acc res : List (K × K)) : Prop :=
  ∃ new, res = acc ++ new ∧ (∀ r ∈ new, Genuine tol c1 c2 r) ∧ (acc.IsChain (Apart tol) → res.IsChain (Apart tol))

omit [IsStrictOrderedRing K] in
theorem Adds.refl (tol : K) (c1 c2 : Curve K) (acc : List (K × K)) : Adds tol c1 c2 acc acc :=
  ⟨[], by simp, by simp, id⟩

omit [IsStrictOrderedRing K] in
theorem Adds.trans {tol : K} {c1 c2 : Curve K} {x y z : List (K × K)} (h : Adds tol c1 c2 x y) (g : Adds tol c1 c2 y z) : Adds tol c1 c2 x z := by
  obtain ⟨n1, e1, g1, k1⟩ := h
  obtain ⟨n2, e2, g2, k2⟩ := g
  refine ⟨n1 ++ n2, by rw [e2, e1, List.append_assoc], ?_, fun hc => k2 (k1 hc)⟩
  intro r hr
  rcases List.mem_append.1 hr with hr | hr
  · exact g1 r hr
  · exact g2 r hr

/-- Every common point of the two parts is accounted for. -/
def Covers (tol : K) (c1 c2 : Curve K) (n k l : Nat) (res : List (K × K)) : Prop :=
  ∀ s t P, InPart c1 n k s → InPart c2 n l t → c1.evaluate s = .ok P → c2.evaluate t = .ok P → ∃ r ∈ res, Accounts tol c1 c2 r s t

omit [IsStrictOrderedRing K] in
theorem Covers.mono {tol : K} {c1 c2 : Curve K} {n k l : Nat} {x y : List (K × K)} (h : Covers tol c1 c2 n k l x) (g : Adds tol c1 c2 x y) :
    Covers tol c1 c2 n k l y := by
  obtain ⟨new, e, _⟩ := g
  intro s t P h1 h2 h3 h4
  obtain ⟨r, hr, ha⟩ := h s t P h1 h2 h3 h4
  exact ⟨r, by rw [e]; exact List.mem_append_left _ hr, ha⟩

theorem inPart_halves {c : Curve K} {n k : Nat} {t : K} (h : InPart c n k t) : InPart c (n + 1) (2 * k) t ∨ InPart c (n + 1) (2 * k + 1) t := by
  unfold InPart at *
  rw [cut_even, cut_even_succ]
  rcases le_total t (cut c (n + 1) (2 * k + 1)) with ht | ht
  · exact Or.inl ⟨h.1, ht⟩
  · exact Or.inr ⟨ht, h.2⟩

theorem Covers.of_halves {tol : K} {c1 c2 : Curve K} {n k l : Nat} {res : List (K × K)} (h1 : Covers tol c1 c2 (n + 1) (2 * k) (2 * l) res)
    (h2 : Covers tol c1 c2 (n + 1) (2 * k + 1) (2 * l + 1) res) (h3 : Covers tol c1 c2 (n + 1) (2 * k) (2 * l + 1) res)
    (h4 : Covers tol c1 c2 (n + 1) (2 * k + 1) (2 * l) res) : Covers tol c1 c2 n k l res := by
  intro s t P hs ht e1 e2
  rcases inPart_halves hs with hs | hs <;> rcases inPart_halves ht with ht | ht
  · exact h1 s t P hs ht e1 e2
  · exact h3 s t P hs ht e1 e2
  · exact h4 s t P hs ht e1 e2
  · exact h2 s t P hs ht e1 e2

theorem report_spec {tol : K} (ht : 0 < tol) {c1 c2 : Curve K} {n k l : Nat} (hc : CloseParts tol c1 c2 n k l) (acc : List (K × K)) :
    Adds tol c1 c2 acc (report tol acc (middle c1 n k) (middle c2 n l)) ∧ Covers tol c1 c2 n k l (report tol acc (middle c1 n k) (middle c2 n l)) := by
  have hg : Genuine tol c1 c2 (middle c1 n k, middle c2 n l) := ⟨n, k, l, hc, rfl⟩
  have hself : ∀ s t, InPart c1 n k s → InPart c2 n l t → Accounts tol c1 c2 (middle c1 n k, middle c2 n l) s t := by
    intro s t hs ht'
    exact ⟨n, k, l, hc, hs, ht', by simp [le_of_lt ht], by simp [le_of_lt ht]⟩
  have happend : Covers tol c1 c2 n k l (acc ++ [(middle c1 n k, middle c2 n l)]) :=
    fun s t P hs ht' _ _ => ⟨_, List.mem_append_right _ (List.mem_singleton.2 rfl), hself s t hs ht'⟩
  unfold report
  cases hl : acc.getLast? with
  | none =>
    have : acc = [] := List.getLast?_eq_none_iff.1 hl
    subst this
    exact ⟨⟨[_], rfl, by simpa using hg, fun _ => by simp⟩, happend⟩
  | some q =>
    simp only
    change Adds tol c1 c2 acc (if |q.1 - middle c1 n k| ≤ tol ∧ |q.2 - middle c2 n l| ≤ tol then _ else _) ∧
      Covers tol c1 c2 n k l (if |q.1 - middle c1 n k| ≤ tol ∧ |q.2 - middle c2 n l| ≤ tol then _ else _)
    by_cases hq : |q.1 - middle c1 n k| ≤ tol ∧ |q.2 - middle c2 n l| ≤ tol
    · rw [if_pos hq]
      refine ⟨Adds.refl _ _ _ _, fun s t P hs ht' _ _ => ⟨q, List.mem_of_getLast? hl, n, k, l, hc, hs, ht', hq.1, hq.2⟩⟩
    · rw [if_neg hq]
      refine ⟨⟨[_], rfl, by simpa using hg, fun h => ?_⟩, happend⟩
      refine List.isChain_append.2 ⟨h, by simp, ?_⟩
      intro x hx y hy
      rw [hl] at hx
      simp only [Option.mem_def, Option.some.injEq, List.head?_cons] at hx hy
      subst hx hy
      exact hq

/-- Boxes that meet and are both smaller than `tol` hold close parts. -/
theorem closeParts_of {tol : K} {c1 c2 : Curve K} {n k l : Nat} {p q : Curve K} (hp : Piece c1 n k p) (hq : Piece c2 n l q) {b1 b2 : AABB K}
    (e1 : p.bbox = .ok b1) (e2 : q.bbox = .ok b2) (hi : b1.intersects b2 = true) (s1 : (b1.max - b1.min).sqLength < tol ^ 2)
    (s2 : (b2.max - b2.min).sqLength < tol ^ 2) : CloseParts tol c1 c2 n k l := by
  obtain ⟨b1', f1, v1, h1⟩ := hp.box
  obtain ⟨b2', f2, v2, h2⟩ := hq.box
  rw [e1] at f1
  rw [e2] at f2
  cases f1
  cases f2
  obtain ⟨X, x1, x2⟩ := (C08_intersects_iff_common_point b1 b2 v1 v2).1 hi
  refine ⟨hp.hk, hq.hk, ?_, ?_, ?_⟩
  · intro s s' hs hs' P P' eP eP'
    obtain ⟨r, er, hr⟩ := h1 s hs
    obtain ⟨r', er', hr'⟩ := h1 s' hs'
    rw [eP] at er; rw [eP'] at er'
    cases er; cases er'
    exact lt_of_le_of_lt (inBox_dist hr hr') s1
  · intro s s' hs hs' P P' eP eP'
    obtain ⟨r, er, hr⟩ := h2 s hs
    obtain ⟨r', er', hr'⟩ := h2 s' hs'
    rw [eP] at er; rw [eP'] at er'
    cases er; cases er'
    exact lt_of_le_of_lt (inBox_dist hr hr') s2
  · intro s t hs ht P Q eP eQ
    obtain ⟨r, er, hr⟩ := h1 s hs
    obtain ⟨r', er', hr'⟩ := h2 t ht
    rw [eP] at er; rw [eQ] at er'
    cases er; cases er'
    exact dist_two (lt_of_le_of_lt (inBox_dist hr x1) s1) (lt_of_le_of_lt (inBox_dist x2 hr') s2)

omit [IsStrictOrderedRing K] [LinearOrder K] [Field K] in
theorem andThen_mono {A B : Type} {x x' : Option (Res A)} {f f' : A → Option (Res B)} {r : Res B} (h : andThen x f = some r)
    (hx : ∀ y, x = some y → x' = some y) (hf : ∀ a, f a = some r → f' a = some r) : andThen x' f' = some r := by
  match x, hx, h with
  | some (.ok a), hx, h => rw [hx _ rfl]; exact hf a h
  | some .throws, hx, h => rw [hx _ rfl]; exact h
  | some .ub, hx, h => rw [hx _ rfl]; exact h

omit [IsStrictOrderedRing K] in
theorem ccx_succ {sqrt : K → K} {tol : K} : ∀ fuel c1 c2 acc r, ccx sqrt tol fuel c1 c2 acc = some r → ccx sqrt tol (fuel + 1) c1 c2 acc = some r := by
  intro fuel
  induction fuel with
  | zero => intro _ _ _ _ h; exact absurd h (by simp [ccx])
  | succ fuel ih =>
    intro c1 c2 acc r h
    rw [ccx] at h ⊢
    match h1 : c1.bbox, h2 : c2.bbox with
    | .ok b1, .ok b2 =>
      rw [h1, h2] at h
      simp only at h ⊢
      split at h
      · rename_i hi
        rw [if_pos hi]
        split at h
        · rename_i hsm
          rw [if_pos hsm]; exact h
        · rename_i hsm
          rw [if_neg hsm]
          refine andThen_mono h (fun _ h => h) fun s1 h => andThen_mono h (fun _ h => h) fun s2 h => andThen_mono h (ih _ _ _) fun r1 h =>
            andThen_mono h (ih _ _ _) fun r2 h => andThen_mono h (ih _ _ _) fun r3 h => ih _ _ _ _ h
      · rename_i hi
        rw [if_neg hi]; exact h
    | .throws, _ => rw [h1] at h; exact h
    | .ub, _ => rw [h1] at h; exact h
    | .ok _, .throws => rw [h1, h2] at h; exact h
    | .ok _, .ub => rw [h1, h2] at h; exact h

theorem search {sqrt : K → K} (hs : Newton.IsSqrt sqrt) (hs0 : sqrt 0 = 0) {tol : K} {N : Nat} {c1 c2 : Curve K} (H1 : Halvable N c1) (H2 : Halvable N c2) :
    ∀ fuel n k l p q acc, Piece c1 n k p → Piece c2 n l q → n + fuel ≤ N →
      ccx sqrt tol fuel p q acc = none ∨
        ∃ res, ccx sqrt tol fuel p q acc = some (.ok res) ∧ Adds tol c1 c2 acc res ∧ Covers tol c1 c2 n k l res := by
  intro fuel
  induction fuel with
  | zero => intros; left; rfl
  | succ fuel ih =>
    intro n k l p q acc hp hq hn
    obtain ⟨b1, e1, v1, i1⟩ := hp.box
    obtain ⟨b2, e2, v2, i2⟩ := hq.box
    rw [ccx, e1, e2]
    simp only
    by_cases hi : b1.intersects b2 = true
    · rw [if_pos hi]
      by_cases hsm : (small sqrt tol b1 && small sqrt tol b2) = true
      · rw [if_pos hsm]
        right
        rw [Bool.and_eq_true, small_spec hs hs0, small_spec hs hs0] at hsm
        have hc := closeParts_of hp hq e1 e2 hi hsm.1.2 hsm.2.2
        have m1 : 1 / 2 * (p.lo + p.hi) = middle c1 n k := by rw [hp.lo, hp.hi]; unfold middle; ring
        have m2 : 1 / 2 * (q.lo + q.hi) = middle c2 n l := by rw [hq.lo, hq.hi]; unfold middle; ring
        rw [m1, m2]
        exact ⟨_, rfl, report_spec hsm.1.1 hc acc⟩
      · rw [if_neg hsm]
        obtain ⟨a1, d1, sp1, pa1, pd1⟩ := hp.halve H1 (by omega)
        obtain ⟨a2, d2, sp2, pa2, pd2⟩ := hq.halve H2 (by omega)
        rw [sp1, sp2]
        simp only [andThen]
        refine andThen_step (ih (n + 1) (2 * k) (2 * l) a1 a2 acc pa1 pa2 (by omega)) fun r1 h1 => ?_
        refine andThen_step (ih (n + 1) (2 * k + 1) (2 * l + 1) d1 d2 r1 pd1 pd2 (by omega)) fun r2 h2 => ?_
        refine andThen_step (ih (n + 1) (2 * k) (2 * l + 1) a1 d2 r2 pa1 pd2 (by omega)) fun r3 h3 => ?_
        rcases ih (n + 1) (2 * k + 1) (2 * l) d1 a2 r3 pd1 pa2 (by omega) with h | ⟨r4, h, h4⟩
        · exact Or.inl h
        · right
          refine ⟨r4, h, ((h1.1.trans h2.1).trans h3.1).trans h4.1, Covers.of_halves ?_ ?_ ?_ h4.2⟩
          · exact h1.2.mono ((h2.1.trans h3.1).trans h4.1)
          · exact h2.2.mono (h3.1.trans h4.1)
          · exact h3.2.mono h4.1
    · rw [if_neg hi]
      right
      refine ⟨acc, rfl, Adds.refl _ _ _ _, ?_⟩
      intro s t P hs' ht eP eQ
      exfalso
      apply hi
      obtain ⟨r, er, hr⟩ := i1 s hs'
      obtain ⟨r', er', hr'⟩ := i2 t ht
      rw [eP] at er; rw [eQ] at er'
      cases er; cases er'
      exact (C08_intersects_iff_common_point b1 b2 v1 v2).2 ⟨P, hr, hr'⟩

end Cmm.Ccx
