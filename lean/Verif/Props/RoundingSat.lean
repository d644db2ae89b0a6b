import Verif.Props.RoundingRelationship
/-!
`SAT2D` in `double`: edge normals, projections and their quotients are rounded.
-/
namespace Cmm.Sep
open Cmm.Geom Cmm.Num
variable {K : Type} [Field K] [LinearOrder K] [IsStrictOrderedRing K]

private theorem satLoop_true {A : Type} [Arith A] [LinearOrder A] {big : A} {ins : List (Vec2 A) → Vec2 A → Bool} {a b : List (Vec2 A)} :
    ∀ (ns set : List (Vec2 A)), satLoop big ins a b ns set = .ok true → ∃ n ∈ ns, apart big a b n = true
  | [], _, h => by simp [satLoop] at h
  | n :: ns, set, h => by
    unfold satLoop at h
    split at h
    · obtain ⟨m, hm, k⟩ := satLoop_true ns set h
      exact ⟨m, List.mem_cons_of_mem _ hm, k⟩
    · split at h
      · rename_i k
        exact ⟨n, by simp, k⟩
      · split at h
        · cases h
        · obtain ⟨m, hm, k⟩ := satLoop_true ns _ h
          exact ⟨m, List.mem_cons_of_mem _ hm, k⟩

private theorem satLoop_false {A : Type} [Arith A] [LinearOrder A] {big : A} {ins : List (Vec2 A) → Vec2 A → Bool} {a b : List (Vec2 A)} (N : List (Vec2 A)) :
    ∀ (ns set : List (Vec2 A)), (∀ n ∈ ns, n ∈ N ∧ n.sqLength ≠ 0) → (∀ n ∈ set, n ∈ N ∧ apart big a b n = false) → satLoop big ins a b ns set ≠ .ok true →
      ∀ n ∈ ns, ∃ m ∈ N, (m = n ∨ tolEq m n = true) ∧ apart big a b m = false
  | [], _, _, _, _ => by simp
  | n :: ns, set, hN, hs, h => by
    have hN' : ∀ n ∈ ns, n ∈ N ∧ n.sqLength ≠ 0 := fun m hm => hN m (List.mem_cons_of_mem _ hm)
    unfold satLoop at h
    intro m hm
    split at h
    · rename_i hc
      rcases List.mem_cons.1 hm with rfl | hm
      · unfold contains at hc
        rw [List.any_eq_true] at hc
        obtain ⟨e, he, ht⟩ := hc
        exact ⟨e, (hs e he).1, Or.inr ht, (hs e he).2⟩
      · exact satLoop_false N ns set hN' hs h m hm
    · split at h
      · exact absurd rfl h
      · rename_i hap
        rw [Bool.not_eq_true] at hap
        rw [if_neg (hN n (by simp)).2] at h
        rcases List.mem_cons.1 hm with rfl | hm
        · exact ⟨m, (hN m (by simp)).1, Or.inl rfl, hap⟩
        · refine satLoop_false N ns _ hN' (fun k hk => ?_) h m hm
          split at hk
          · rcases List.mem_cons.1 hk with rfl | hk
            · exact ⟨(hN k (by simp)).1, hap⟩
            · exact hs k hk
          · exact hs k hk

section
variable {R : Rounding K} {u : K}

private theorem rnd_pos (F : FormatOk R u) (hu : u < 1) {x : K} (h : 0 < x) : 0 < R.rnd x := by
  have := (abs_le.1 (F.err x)).1
  rw [abs_of_pos h] at this
  nlinarith

private theorem rnd_ne (F : FormatOk R u) (hu : u < 1) {x : K} (h : x ≠ 0) : R.rnd x ≠ 0 := by
  intro h0
  have := F.err x
  rw [h0, zero_sub, abs_neg] at this
  have := abs_pos.2 h
  nlinarith

private theorem rnd_nonneg {x : K} (h : 0 ≤ x) : 0 ≤ R.rnd x := by
  have := R.mono 0 x h
  rwa [R.zero] at this

/-- The rounded squared length of the normal of an edge is positive. -/
private theorem normal_pos (F : FormatOk R u) (hu : u < 1) {p q : Vec2 (Fp R)} (h : p ≠ q) :
    0 < ((⟨q.y - p.y, p.x - q.x⟩ : Vec2 (Fp R)).dot ⟨q.y - p.y, p.x - q.x⟩).val := by
  show 0 < R.rnd (R.rnd (R.rnd (q.y.val - p.y.val) * R.rnd (q.y.val - p.y.val)) + R.rnd (R.rnd (p.x.val - q.x.val) * R.rnd (p.x.val - q.x.val)))
  apply rnd_pos F hu
  by_cases hy : q.y.val - p.y.val = 0
  · have hx : p.x.val - q.x.val ≠ 0 := fun hx => h (Vec2.ext (Subtype.ext (sub_eq_zero.1 hx)) (Subtype.ext (sub_eq_zero.1 hy).symm))
    exact add_pos_of_nonneg_of_pos (rnd_nonneg (mul_self_nonneg _)) (rnd_pos F hu (mul_self_pos.2 (rnd_ne F hu hx)))
  · exact add_pos_of_pos_of_nonneg (rnd_pos F hu (mul_self_pos.2 (rnd_ne F hu hy))) (rnd_nonneg (mul_self_nonneg _))

/-- The rounded position. -/
private theorem sat_near (F : FormatOk R u) (hu : u ≤ 1 / 2 ^ 53) {p q v : Vec2 (Fp R)} (hp : |p.x.val| ≤ 100 ∧ |p.y.val| ≤ 100) (hq : |q.x.val| ≤ 100 ∧ |q.y.val| ≤ 100)
    (hv : |v.x.val| ≤ 100 ∧ |v.y.val| ≤ 100) : |(v.dot ⟨q.y - p.y, p.x - q.x⟩).val + along p q v| ≤ 14 / 10 ^ 12 := by
  have h0 := F.nonneg
  have d : ∀ x y : K, |x| ≤ 100 → |y| ≤ 100 → |x - y| ≤ 200 := fun x y hx hy => (abs_sub _ _).trans (by linarith)
  have a1 : Num.Near u 1 (q.y - p.y).val (q.y.val - p.y.val) 200 := (Num.Near.refl (d _ _ hq.2 hp.2)).rnd F.err h0
  have a2 : Num.Near u 1 (p.x - q.x).val (p.x.val - q.x.val) 200 := (Num.Near.refl (d _ _ hp.1 hq.1)).rnd F.err h0
  have m1 := ((Num.Near.refl (u := u) hv.1).mul a1).rnd F.err h0
  have m2 := ((Num.Near.refl (u := u) hv.2).mul a2).rnd F.err h0
  have m := ((m1.add m2).rnd F.err h0).2
  have e : along p q v = -(v.x.val * (q.y.val - p.y.val) + v.y.val * (p.x.val - q.x.val)) := by unfold along; ring
  rw [e, ← sub_eq_add_neg]
  refine le_trans m ?_
  have : (1 + u) ^ (0 + 1 + 1 + 1) ≤ (1 + 1 / 2 ^ 53) ^ (0 + 1 + 1 + 1) := pow_le_pow_left₀ (by linarith) (by linarith) _
  calc ((1 + u) ^ (0 + 1 + 1 + 1) - 1) * (100 * 200 + 100 * 200) ≤ ((1 + 1 / 2 ^ 53) ^ (0 + 1 + 1 + 1) - 1) * (100 * 200 + 100 * 200) :=
        mul_le_mul_of_nonneg_right (by linarith) (by norm_num)
    _ ≤ 14 / 10 ^ 12 := by norm_num

omit [IsStrictOrderedRing K] in
private theorem project_fp (big : Fp R) (poly : List (Vec2 (Fp R))) {n : Vec2 (Fp R)} (hn : n.dot n ≠ 0) :
    polygonProject big poly n = poly.foldl (fun m p => (min m.1 (p.dot n / n.dot n), max m.2 (p.dot n / n.dot n))) (big, -big) := by
  unfold polygonProject
  congr 1
  funext m p
  unfold projection
  rw [if_neg hn]

private theorem quot_lt {x y N : Fp R} (hN : 0 < N.val) (h : x / N < y / N) : x.val < y.val := by
  by_contra hc
  refine absurd h (not_lt.2 ?_)
  show R.rnd (y.val / N.val) ≤ R.rnd (x.val / N.val)
  exact R.mono _ _ ((div_le_div_iff_of_pos_right hN).2 (not_lt.1 hc))

private theorem apart_fp {big : Fp R} {a b : List (Vec2 (Fp R))} {n : Vec2 (Fp R)} (hn : 0 < (n.dot n).val) (h : apart big a b n = true) :
    (∀ v ∈ a, ∀ w ∈ b, (v.dot n).val < (w.dot n).val) ∨ ∀ v ∈ a, ∀ w ∈ b, (w.dot n).val < (v.dot n).val := by
  have hz : n.dot n ≠ 0 := fun h0 => by
    rw [h0] at hn
    have : (0 : Fp R).val = 0 := R.zero
    rw [this] at hn
    exact lt_irrefl _ hn
  unfold apart swapIntervals at h
  rw [project_fp _ _ hz, project_fp _ _ hz] at h
  obtain ⟨h1, h2, -, -, -, -⟩ := fold_minmax (fun p : Vec2 (Fp R) => p.dot n / n.dot n) a (big, -big)
  obtain ⟨g1, g2, -, -, -, -⟩ := fold_minmax (fun p : Vec2 (Fp R) => p.dot n / n.dot n) b (big, -big)
  dsimp only at h
  split at h
  · right
    intro p hpa q hqb
    exact quot_lt hn (lt_of_le_of_lt (g2 q hqb) (lt_of_lt_of_le (of_decide_eq_true h) (h1 p hpa)))
  · left
    intro p hpa q hqb
    exact quot_lt hn (lt_of_le_of_lt (h2 p hpa) (lt_of_lt_of_le (of_decide_eq_true h) (g1 q hqb)))

private theorem tolEq_self (F : FormatOk R u) (hu : u < 1) (p : Vec2 (Fp R)) : tolEq p p = true := by
  have z : ∀ x : Fp R, Nurbs.absA (x - x) < 1 / ((2 ^ 52 : Nat) : Fp R) := by
    intro x
    have e : x - x = 0 := Subtype.ext (by show R.rnd (x.val - x.val) = R.rnd 0; rw [sub_self])
    have e2 : (-0 : Fp R) = 0 := Subtype.ext (by show R.rnd (-(R.rnd 0)) = R.rnd 0; rw [R.zero, neg_zero, R.zero])
    rw [e, Nurbs.absA, e2, max_self]
    show R.rnd 0 < R.rnd (R.rnd 1 / R.rnd ((2 ^ 52 : Nat) : K))
    rw [R.zero]
    exact rnd_pos F hu (div_pos (rnd_pos F hu one_pos) (rnd_pos F hu (by positivity)))
  unfold tolEq
  rw [decide_eq_true (z p.x), decide_eq_true (z p.y)]
  rfl

private theorem c152_sound (F : FormatOk R u) (hu : u ≤ 1 / 2 ^ 53) (big : Fp R) (ins : List (Vec2 (Fp R)) → Vec2 (Fp R) → Bool) (a b : List (Vec2 (Fp R)))
    (hb : ∀ p, p ∈ a ∨ p ∈ b → |p.x.val| ≤ 100 ∧ |p.y.val| ≤ 100) (hr : NoRepeat (tested a b) ∨ a.length < 2 ∧ b.length < 2) (h : sat2d big ins a b = .ok true) :
    (∃ p q, a = [p] ∧ b = [q] ∧ p ≠ q) ∨ ∃ p q, IsEdge (tested a b) p q ∧
      ((∀ v ∈ a, ∀ w ∈ b, along p q v < along p q w + 3 / 10 ^ 11) ∨ ∀ v ∈ a, ∀ w ∈ b, along p q w < along p q v + 3 / 10 ^ 11) := by
  have hu1 : u < 1 := lt_of_le_of_lt hu (by norm_num)
  have ha : a ≠ [] := by rintro rfl; simp [sat2d] at h
  have hb0 : b ≠ [] := by rintro rfl; cases a <;> simp [sat2d] at h
  rcases sat2d_loop big ins a b ha hb0 with ⟨p, q, rfl, rfl, e⟩ | ⟨hl, e⟩
  · refine Or.inl ⟨p, q, rfl, rfl, ?_⟩
    rintro rfl
    rw [e, tolEq_self F hu1] at h
    cases h
  · rw [e] at h
    obtain ⟨n, hn, hap⟩ := satLoop_true _ _ h
    have hr' : NoRepeat (tested a b) := by
      rcases hr with hr | ⟨h1, h2⟩
      · exact hr
      · omega
    unfold normals at hn
    obtain ⟨⟨p, q⟩, he, rfl⟩ := List.mem_map.1 hn
    have he := edges_iff.1 he
    have mem : ∀ v, v ∈ tested a b → v ∈ a ∨ v ∈ b := fun v hv => by
      unfold tested at hv
      split at hv
      · exact Or.inr hv
      · exact Or.inl hv
    have hpq : (|p.x.val| ≤ 100 ∧ |p.y.val| ≤ 100) ∧ |q.x.val| ≤ 100 ∧ |q.y.val| ≤ 100 := by
      obtain ⟨i, _, h1, h2⟩ := he
      exact ⟨hb _ (mem _ (List.mem_of_getElem? h1)), hb _ (mem _ (List.mem_of_getElem? h2))⟩
    have near := fun v hv => abs_le.1 (sat_near F hu hpq.1 hpq.2 (hb v hv))
    refine Or.inr ⟨p, q, he, ?_⟩
    rcases apart_fp (normal_pos F hu1 (hr' p q he)) hap with k | k
    · right
      intro v hv w hw
      have := k v hv w hw
      have n1 := near v (Or.inl hv)
      have n2 := near w (Or.inr hw)
      norm_num at n1 n2 ⊢
      linarith [n1.1, n1.2, n2.1, n2.2]
    · left
      intro v hv w hw
      have := k v hv w hw
      have n1 := near v (Or.inl hv)
      have n2 := near w (Or.inr hw)
      norm_num at n1 n2 ⊢
      linarith [n1.1, n1.2, n2.1, n2.2]

/-- The rounded square of the normal of an edge that is not tiny. -/
private theorem normal_large (F : FormatOk R u) (hu : u ≤ 1 / 2 ^ 53) {p q : Vec2 (Fp R)} (h : 1 / 10 ^ 100 ≤ |q.x.val - p.x.val| ∨ 1 / 10 ^ 100 ≤ |q.y.val - p.y.val|) :
    1 / 10 ^ 202 ≤ ((⟨q.y - p.y, p.x - q.x⟩ : Vec2 (Fp R)).dot ⟨q.y - p.y, p.x - q.x⟩).val := by
  have low : ∀ x : K, |x| / 2 ≤ |R.rnd x| := fun x => by
    have h1 := F.err x
    have h2 := abs_sub_abs_le_abs_sub x (R.rnd x)
    rw [abs_sub_comm x] at h2
    have h3 : u * |x| ≤ 1 / 2 * |x| := mul_le_mul_of_nonneg_right (hu.trans (by norm_num)) (abs_nonneg _)
    linarith
  have low' : ∀ x : K, 0 ≤ x → x / 2 ≤ R.rnd x := fun x hx => by
    have := low x
    rwa [abs_of_nonneg hx, abs_of_nonneg (rnd_nonneg hx)] at this
  have one : ∀ x : K, 1 / 10 ^ 100 ≤ |x| → 2 / 10 ^ 202 ≤ R.rnd (R.rnd x * R.rnd x) := fun x hx => by
    refine le_trans ?_ (low' _ (mul_self_nonneg _))
    have h1 : 1 / 10 ^ 100 / 2 ≤ |R.rnd x| := le_trans (by linarith) (low x)
    have h2 := mul_le_mul h1 h1 (by positivity) (abs_nonneg _)
    rw [abs_mul_abs_self] at h2
    norm_num at h2 ⊢
    linarith
  show 1 / 10 ^ 202 ≤ R.rnd (R.rnd (R.rnd (q.y.val - p.y.val) * R.rnd (q.y.val - p.y.val)) + R.rnd (R.rnd (p.x.val - q.x.val) * R.rnd (p.x.val - q.x.val)))
  have z1 := rnd_nonneg (R := R) (mul_self_nonneg (R.rnd (q.y.val - p.y.val)))
  have z2 := rnd_nonneg (R := R) (mul_self_nonneg (R.rnd (p.x.val - q.x.val)))
  refine le_trans ?_ (low' _ (add_nonneg z1 z2))
  rcases h with h | h
  · have := one (p.x.val - q.x.val) (by rwa [abs_sub_comm])
    linarith
  · have := one (q.y.val - p.y.val) h
    linarith

/-- The test of a normal along which there is a gap. -/
private theorem apart_gap (F : FormatOk R u) (hu : u ≤ 1 / 2 ^ 53) {big : Fp R} (hbig : 10 ^ 250 ≤ big.val) {a b : List (Vec2 (Fp R))} (ha : a ≠ []) (hb0 : b ≠ [])
    (hb : ∀ p, p ∈ a ∨ p ∈ b → |p.x.val| ≤ 100 ∧ |p.y.val| ≤ 100) {n : Vec2 (Fp R)} (hx : |n.x.val| ≤ 201) (hy : |n.y.val| ≤ 201) (hN : 1 / 10 ^ 202 ≤ (n.dot n).val)
    (h : (∀ v ∈ a, ∀ w ∈ b, v.x.val * n.x.val + v.y.val * n.y.val + 4 / 10 ^ 11 ≤ w.x.val * n.x.val + w.y.val * n.y.val) ∨
      ∀ v ∈ a, ∀ w ∈ b, w.x.val * n.x.val + w.y.val * n.y.val + 4 / 10 ^ 11 ≤ v.x.val * n.x.val + v.y.val * n.y.val) : apart big a b n = true := by
  have h0 := F.nonneg
  have hp : 0 < (n.dot n).val := lt_of_lt_of_le (by positivity) hN
  have hz : n.dot n ≠ 0 := fun h0 => by
    rw [h0] at hp
    have : (0 : Fp R).val = 0 := R.zero
    rw [this] at hp
    exact lt_irrefl _ hp
  have near : ∀ v, v ∈ a ∨ v ∈ b → |(v.dot n).val - (v.x.val * n.x.val + v.y.val * n.y.val)| ≤ 9 / 10 ^ 12 ∧ |(v.dot n).val| ≤ 40201 := fun v hv => by
    have m1 := ((Num.Near.refl (u := u) (hb v hv).1).mul (Num.Near.refl (u := u) hx)).rnd F.err h0
    have m2 := ((Num.Near.refl (u := u) (hb v hv).2).mul (Num.Near.refl (u := u) hy)).rnd F.err h0
    have m := (m1.add m2).rnd F.err h0
    have c : |(v.dot n).val - (v.x.val * n.x.val + v.y.val * n.y.val)| ≤ 9 / 10 ^ 12 := by
      refine le_trans m.2 ?_
      have : (1 + u) ^ (0 + 0 + 1 + 1) ≤ (1 + 1 / 2 ^ 53) ^ (0 + 0 + 1 + 1) := pow_le_pow_left₀ (by linarith) (by linarith) _
      calc ((1 + u) ^ (0 + 0 + 1 + 1) - 1) * (100 * 201 + 100 * 201) ≤ ((1 + 1 / 2 ^ 53) ^ (0 + 0 + 1 + 1) - 1) * (100 * 201 + 100 * 201) :=
            mul_le_mul_of_nonneg_right (by linarith) (by norm_num)
        _ ≤ 9 / 10 ^ 12 := by norm_num
    refine ⟨c, ?_⟩
    have m3 := m.1
    have t := abs_add_le ((v.dot n).val - (v.x.val * n.x.val + v.y.val * n.y.val)) (v.x.val * n.x.val + v.y.val * n.y.val)
    rw [sub_add_cancel] at t
    norm_num at c m3
    linarith
  have range : ∀ v, v ∈ a ∨ v ∈ b → -big ≤ v.dot n / n.dot n ∧ v.dot n / n.dot n ≤ big := fun v hv => by
    have k : |(v.dot n / n.dot n : Fp R).val| ≤ big.val := by
      have q : |(v.dot n).val / (n.dot n).val| ≤ 40201 * 10 ^ 202 := by
        rw [abs_div, abs_of_pos hp, div_le_iff₀ hp]
        have := mul_le_mul_of_nonneg_left hN (by positivity : (0 : K) ≤ 40201 * 10 ^ 202)
        refine (near v hv).2.trans (le_trans ?_ this)
        norm_num
      have e := F.err ((v.dot n).val / (n.dot n).val)
      have t := abs_add_le (R.rnd ((v.dot n).val / (n.dot n).val) - (v.dot n).val / (n.dot n).val) ((v.dot n).val / (n.dot n).val)
      rw [sub_add_cancel] at t
      have e2 : u * |(v.dot n).val / (n.dot n).val| ≤ 1 * |(v.dot n).val / (n.dot n).val| := mul_le_mul_of_nonneg_right (hu.trans (by norm_num)) (abs_nonneg _)
      show |R.rnd ((v.dot n).val / (n.dot n).val)| ≤ big.val
      have num : (2 * (40201 * 10 ^ 202) : K) ≤ 10 ^ 250 := by norm_num
      linarith
    have ng : (-big : Fp R).val = -big.val := F.neg _ big.2
    constructor
    · show (-big : Fp R).val ≤ (v.dot n / n.dot n : Fp R).val
      rw [ng]
      exact (abs_le.1 k).1
    · exact (abs_le.1 k).2
  have less : ∀ v w, v ∈ a ∨ v ∈ b → w ∈ a ∨ w ∈ b → v.x.val * n.x.val + v.y.val * n.y.val + 4 / 10 ^ 11 ≤ w.x.val * n.x.val + w.y.val * n.y.val →
      v.dot n / n.dot n < w.dot n / n.dot n := fun v w hv hw hg => by
    obtain ⟨v1, v2⟩ := near v hv
    obtain ⟨w1, w2⟩ := near w hw
    have v1 := abs_le.1 v1
    have w1 := abs_le.1 w1
    show R.rnd ((v.dot n).val / (n.dot n).val) < R.rnd ((w.dot n).val / (n.dot n).val)
    have e1 := (abs_le.1 (F.err ((v.dot n).val / (n.dot n).val))).2
    have e2 := (abs_le.1 (F.err ((w.dot n).val / (n.dot n).val))).1
    rw [abs_div, abs_of_pos hp] at e1 e2
    have k1 : u * |(v.dot n).val| ≤ 1 / 2 ^ 53 * 40201 := mul_le_mul hu v2 (abs_nonneg _) (by positivity)
    have k2 : u * |(w.dot n).val| ≤ 1 / 2 ^ 53 * 40201 := mul_le_mul hu w2 (abs_nonneg _) (by positivity)
    have key : (v.dot n).val + u * |(v.dot n).val| < (w.dot n).val - u * |(w.dot n).val| := by
      norm_num at v1 w1 hg k1 k2
      linarith [v1.1, v1.2, w1.1, w1.2]
    have := (div_lt_div_iff_of_pos_right hp).2 key
    rw [add_div, sub_div, mul_div_assoc, mul_div_assoc] at this
    linarith
  obtain ⟨⟨p1, m1, e1⟩, ⟨p2, m2, e2⟩⟩ := max_attained ha (fun v : Vec2 (Fp R) => v.dot n / n.dot n) (big, -big) (fun v hv => range v (Or.inl hv))
  obtain ⟨⟨q1, k1, f1⟩, ⟨q2, k2, f2⟩⟩ := max_attained hb0 (fun v : Vec2 (Fp R) => v.dot n / n.dot n) (big, -big) (fun v hv => range v (Or.inr hv))
  unfold apart swapIntervals
  rw [project_fp _ _ hz, project_fp _ _ hz, e2, f2]
  dsimp only
  rcases h with h | h
  · rw [if_neg (not_lt.2 (less p2 q2 (Or.inl m2) (Or.inr k2) (h p2 m2 q2 k2)).le)]
    dsimp only
    rw [e2, f1]
    exact decide_eq_true (less p2 q1 (Or.inl m2) (Or.inr k1) (h p2 m2 q1 k1))
  · rw [if_pos (less q2 p2 (Or.inr k2) (Or.inl m2) (h p2 m2 q2 k2))]
    dsimp only
    rw [f2, e1]
    exact decide_eq_true (less q2 p1 (Or.inr k2) (Or.inl m1) (h p1 m1 q2 k2))

/-- Normals that are equal for `operator==`. -/
private theorem tolEq_near (F : FormatOk R u) (hu : u ≤ 1 / 2 ^ 53) {m n : Vec2 (Fp R)} (h : tolEq m n = true) : |m.x.val - n.x.val| ≤ 2 / 10 ^ 15 ∧ |m.y.val - n.y.val| ≤ 2 / 10 ^ 15 := by
  have e : (1 / ((2 ^ 52 : Nat) : Fp R)).val ≤ 1 / 10 ^ 15 := by
    show R.rnd (R.rnd 1 / R.rnd ((2 ^ 52 : Nat) : K)) ≤ _
    have o := F.nat 1 le_rfl (by norm_num)
    rw [Nat.cast_one] at o
    rw [o, Nat.cast_pow, Nat.cast_ofNat]
    have b1 := (abs_le.1 (F.err (2 ^ 52))).1
    rw [abs_of_pos (by norm_num : (0 : K) < 2 ^ 52)] at b1
    have n0 : 2 ^ 51 ≤ R.rnd (2 ^ 52) := by
      have : u * 2 ^ 52 ≤ 1 / 2 ^ 53 * 2 ^ 52 := mul_le_mul_of_nonneg_right hu (by positivity)
      norm_num at this b1 ⊢
      linarith
    have n1 : 1 / R.rnd (2 ^ 52) ≤ 1 / 2 ^ 51 := one_div_le_one_div_of_le (by positivity) n0
    have n2 : 0 ≤ 1 / R.rnd (2 ^ 52) := div_nonneg zero_le_one (le_trans (by positivity) n0)
    have b2 := (abs_le.1 (F.err (1 / R.rnd (2 ^ 52)))).2
    rw [abs_of_nonneg n2] at b2
    have : u * (1 / R.rnd (2 ^ 52)) ≤ 1 / 2 ^ 53 * (1 / 2 ^ 51) := mul_le_mul hu n1 n2 (by positivity)
    norm_num at this b2 n1 ⊢
    linarith
  have one : ∀ x y : Fp R, Nurbs.absA (x - y) < 1 / ((2 ^ 52 : Nat) : Fp R) → |x.val - y.val| ≤ 2 / 10 ^ 15 := fun x y hl => by
    have l : (Nurbs.absA (x - y)).val < (1 / ((2 ^ 52 : Nat) : Fp R)).val := hl
    rw [Hull2d.absA_fp F] at l
    have d := F.err (x.val - y.val)
    have t := abs_sub_abs_le_abs_sub (x.val - y.val) (R.rnd (x.val - y.val))
    rw [abs_sub_comm (x.val - y.val) (R.rnd _)] at t
    have d2 : u * |x.val - y.val| ≤ 1 / 2 * |x.val - y.val| := mul_le_mul_of_nonneg_right (hu.trans (by norm_num)) (abs_nonneg _)
    have l : |R.rnd (x.val - y.val)| < 1 / 10 ^ 15 := lt_of_lt_of_le l e
    norm_num at l ⊢
    linarith
  unfold tolEq at h
  rw [Bool.and_eq_true, decide_eq_true_eq, decide_eq_true_eq] at h
  exact ⟨one _ _ h.1, one _ _ h.2⟩

private theorem c152_gap (F : FormatOk R u) (hu : u ≤ 1 / 2 ^ 53) (big : Fp R) (hbig : 10 ^ 250 ≤ big.val) (ins : List (Vec2 (Fp R)) → Vec2 (Fp R) → Bool) (a b : List (Vec2 (Fp R)))
    (ha : a ≠ []) (hb0 : b ≠ []) (hl : 2 ≤ a.length ∨ 2 ≤ b.length) (hb : ∀ p, p ∈ a ∨ p ∈ b → |p.x.val| ≤ 100 ∧ |p.y.val| ≤ 100)
    (hr : ∀ p q, IsEdge (tested a b) p q → 1 / 10 ^ 100 ≤ |q.x.val - p.x.val| ∨ 1 / 10 ^ 100 ≤ |q.y.val - p.y.val|) (p q : Vec2 (Fp R)) (he : IsEdge (tested a b) p q)
    (h : (∀ v ∈ a, ∀ w ∈ b, along p q v + 5 / 10 ^ 11 ≤ along p q w) ∨ ∀ v ∈ a, ∀ w ∈ b, along p q w + 5 / 10 ^ 11 ≤ along p q v) : sat2d big ins a b = .ok true := by
  rcases sat2d_loop big ins a b ha hb0 with ⟨p, q, rfl, rfl, e⟩ | ⟨-, e⟩
  · simp at hl
  rw [e]
  by_contra hc
  have mem : ∀ v, v ∈ tested a b → v ∈ a ∨ v ∈ b := fun v hv => by
    unfold tested at hv
    split at hv
    · exact Or.inr hv
    · exact Or.inl hv
  have bd : ∀ p q, IsEdge (tested a b) p q → (|p.x.val| ≤ 100 ∧ |p.y.val| ≤ 100) ∧ |q.x.val| ≤ 100 ∧ |q.y.val| ≤ 100 := fun p q he => by
    obtain ⟨i, _, h1, h2⟩ := he
    exact ⟨hb _ (mem _ (List.mem_of_getElem? h1)), hb _ (mem _ (List.mem_of_getElem? h2))⟩
  have edge : ∀ n ∈ normals (tested a b), ∃ p q, IsEdge (tested a b) p q ∧ n = ⟨q.y - p.y, p.x - q.x⟩ := fun n hn => by
    unfold normals at hn
    obtain ⟨⟨p, q⟩, he, rfl⟩ := List.mem_map.1 hn
    exact ⟨p, q, edges_iff.1 he, rfl⟩
  obtain ⟨m, hm, hmn, hap⟩ := satLoop_false (normals (tested a b)) (normals (tested a b)) [] (fun n hn => ⟨hn, by
      obtain ⟨p, q, he, rfl⟩ := edge n hn
      have := normal_large F hu (hr p q he)
      intro h0
      unfold Vec2.sqLength at h0
      rw [h0] at this
      have z : (0 : Fp R).val = 0 := R.zero
      rw [z] at this
      exact absurd this (not_le.2 (by positivity))⟩) (by simp) hc ⟨q.y - p.y, p.x - q.x⟩ (List.mem_map.2 ⟨(p, q), edges_iff.2 he, rfl⟩)
  have sm : ∀ x y : Fp R, |x.val| ≤ 100 → |y.val| ≤ 100 → |(x - y).val - (x.val - y.val)| ≤ 23 / 10 ^ 15 := fun x y hx hy => by
    have d : |x.val - y.val| ≤ 200 := (abs_sub _ _).trans (by linarith)
    refine (F.err _).trans ((mul_le_mul hu d (abs_nonneg _) (by positivity)).trans (by norm_num))
  have close : |m.x.val - (q.y - p.y).val| ≤ 2 / 10 ^ 15 ∧ |m.y.val - (p.x - q.x).val| ≤ 2 / 10 ^ 15 := by
    rcases hmn with rfl | ht
    · show |(q.y - p.y).val - (q.y - p.y).val| ≤ _ ∧ |(p.x - q.x).val - (p.x - q.x).val| ≤ _
      rw [sub_self, sub_self, abs_zero]
      constructor <;> positivity
    · exact tolEq_near F hu ht
  obtain ⟨bp, bq⟩ := bd p q he
  have cx : |m.x.val - (q.y.val - p.y.val)| ≤ 25 / 10 ^ 15 := by
    have t := abs_add_le (m.x.val - (q.y - p.y).val) ((q.y - p.y).val - (q.y.val - p.y.val))
    rw [sub_add_sub_cancel] at t
    have s1 := sm q.y p.y bq.2 bp.2
    have c1 := close.1
    norm_num at s1 c1 ⊢
    linarith
  have cy : |m.y.val - (p.x.val - q.x.val)| ≤ 25 / 10 ^ 15 := by
    have t := abs_add_le (m.y.val - (p.x - q.x).val) ((p.x - q.x).val - (p.x.val - q.x.val))
    rw [sub_add_sub_cancel] at t
    have s1 := sm p.x q.x bp.1 bq.1
    have c1 := close.2
    norm_num at s1 c1 ⊢
    linarith
  have al : ∀ v, v ∈ a ∨ v ∈ b → |(v.x.val * m.x.val + v.y.val * m.y.val) + along p q v| ≤ 5 / 10 ^ 12 := fun v hv => by
    have e : (v.x.val * m.x.val + v.y.val * m.y.val) + along p q v = v.x.val * (m.x.val - (q.y.val - p.y.val)) + v.y.val * (m.y.val - (p.x.val - q.x.val)) := by
      unfold along; ring
    rw [e]
    refine (abs_add_le _ _).trans ?_
    rw [abs_mul, abs_mul]
    have h1 := mul_le_mul (hb v hv).1 cx (abs_nonneg _) (by norm_num)
    have h2 := mul_le_mul (hb v hv).2 cy (abs_nonneg _) (by norm_num)
    norm_num at h1 h2 ⊢
    linarith
  obtain ⟨p', q', he', rfl⟩ := edge m hm
  obtain ⟨bp', bq'⟩ := bd p' q' he'
  have big' : ∀ x y : Fp R, |x.val| ≤ 100 → |y.val| ≤ 100 → |(x - y).val| ≤ 201 := fun x y hx hy => by
    have d : |x.val - y.val| ≤ 200 := (abs_sub _ _).trans (by linarith)
    have t := abs_add_le ((x - y).val - (x.val - y.val)) (x.val - y.val)
    rw [sub_add_cancel] at t
    have := sm x y hx hy
    norm_num at this
    linarith
  rw [apart_gap F hu hbig ha hb0 hb (big' _ _ bq'.2 bp'.2) (big' _ _ bp'.1 bq'.1) (normal_large F hu (hr p' q' he'))] at hap
  · cases hap
  · rcases h with h | h
    · right
      intro v hv w hw
      have g := h v hv w hw
      have a1 := abs_le.1 (al v (Or.inl hv))
      have a2 := abs_le.1 (al w (Or.inr hw))
      norm_num at g a1 a2 ⊢
      linarith [a1.1, a1.2, a2.1, a2.2]
    · left
      intro v hv w hw
      have g := h v hv w hw
      have a1 := abs_le.1 (al v (Or.inl hv))
      have a2 := abs_le.1 (al w (Or.inr hw))
      norm_num at g a1 a2 ⊢
      linarith [a1.1, a1.2, a2.1, a2.2]

end

variable [FloorRing K]

/-- **C152**: in `double`, with coordinates up to 100 and no edge of the tested polygon shorter than `1e-100`, `SAT2D` returns true if in the direction normal to some edge of that polygon
there is a gap of at least `5e-11` divided by the length of the edge. This holds for every order and content of the hash set. -/
theorem C152_gap_double (big : Fp (Rounding.float (K := K) 53 Nat.one_le_ofNat)) (hbig : 10 ^ 250 ≤ big.val)
    (ins : List (Vec2 (Fp (Rounding.float (K := K) 53 Nat.one_le_ofNat))) → Vec2 (Fp (Rounding.float (K := K) 53 Nat.one_le_ofNat)) → Bool)
    (a b : List (Vec2 (Fp (Rounding.float (K := K) 53 Nat.one_le_ofNat)))) (ha : a ≠ []) (hb0 : b ≠ []) (hl : 2 ≤ a.length ∨ 2 ≤ b.length)
    (hb : ∀ p, p ∈ a ∨ p ∈ b → |p.x.val| ≤ 100 ∧ |p.y.val| ≤ 100)
    (hr : ∀ p q, IsEdge (tested a b) p q → 1 / 10 ^ 100 ≤ |q.x.val - p.x.val| ∨ 1 / 10 ^ 100 ≤ |q.y.val - p.y.val|)
    (h : ∃ p q, IsEdge (tested a b) p q ∧
      ((∀ v ∈ a, ∀ w ∈ b, along p q v + 5 / 10 ^ 11 ≤ along p q w) ∨ ∀ v ∈ a, ∀ w ∈ b, along p q w + 5 / 10 ^ 11 ≤ along p q v)) :
    sat2d big ins a b = .ok true := by
  obtain ⟨p, q, he, h⟩ := h
  exact c152_gap (formatOk_float 53 (by norm_num)) le_rfl big hbig ins a b ha hb0 hl hb hr p q he h

/-- **C152**: in `double`, with coordinates up to 100 and no vertex repeated in succession in the polygon whose edges are tested, `SAT2D` returns true only for two different points, or
if in the direction normal to some edge of that polygon the polygons overlap by less than `3e-11` divided by the length of the edge. This holds for every order and content of the hash set. -/
theorem C152_sat2d_double (big : Fp (Rounding.float (K := K) 53 Nat.one_le_ofNat))
    (ins : List (Vec2 (Fp (Rounding.float (K := K) 53 Nat.one_le_ofNat))) → Vec2 (Fp (Rounding.float (K := K) 53 Nat.one_le_ofNat)) → Bool)
    (a b : List (Vec2 (Fp (Rounding.float (K := K) 53 Nat.one_le_ofNat)))) (hb : ∀ p, p ∈ a ∨ p ∈ b → |p.x.val| ≤ 100 ∧ |p.y.val| ≤ 100)
    (hr : NoRepeat (tested a b) ∨ a.length < 2 ∧ b.length < 2) (h : sat2d big ins a b = .ok true) :
    (∃ p q, a = [p] ∧ b = [q] ∧ p ≠ q) ∨ ∃ p q, IsEdge (tested a b) p q ∧
      ((∀ v ∈ a, ∀ w ∈ b, along p q v < along p q w + 3 / 10 ^ 11) ∨ ∀ v ∈ a, ∀ w ∈ b, along p q w < along p q v + 3 / 10 ^ 11) :=
  c152_sound (formatOk_float 53 (by norm_num)) le_rfl big ins a b hb hr h

/-- A point with the given coordinates, rounded to `double`. -/
private def dp (x y : ℚ) : Vec2 (Fp (Rounding.float (K := ℚ) 53 Nat.one_le_ofNat)) := ⟨Fp.round _ x, Fp.round _ y⟩

/-- The largest `double`. -/
private def bigD : Fp (Rounding.float (K := ℚ) 53 Nat.one_le_ofNat) := Fp.round _ (2 ^ 1024 - 2 ^ 971)

-- Two triangles that are apart.
example : sat2d bigD (fun _ _ => true) [dp 0 0, dp (1 / 10) 0, dp 0 (1 / 10)] [dp 1 1, dp (12 / 10) 1, dp 1 (12 / 10)] = .ok true ∧
    NoRepeat (tested [dp 0 0, dp (1 / 10) 0, dp 0 (1 / 10)] [dp 1 1, dp (12 / 10) 1, dp 1 (12 / 10)]) := by
  refine ⟨by decide +kernel, fun p q he => ?_⟩
  have key : ∀ e ∈ edges [dp 0 0, dp (1 / 10) 0, dp 0 (1 / 10)], e.1.x ≠ e.2.x ∨ e.1.y ≠ e.2.y := by decide +kernel
  have := key (p, q) (edges_iff.2 he)
  rintro rfl
  simp at this

-- They meet the hypotheses of the theorem on gaps, with the edge between the second and the third point.
example : 10 ^ 250 ≤ bigD.val ∧ (∀ p ∈ [dp 0 0, dp (1 / 10) 0, dp 0 (1 / 10)] ++ [dp 1 1, dp (12 / 10) 1, dp 1 (12 / 10)], |p.x.val| ≤ 100 ∧ |p.y.val| ≤ 100) ∧
    (∀ e ∈ edges [dp 0 0, dp (1 / 10) 0, dp 0 (1 / 10)], 1 / 10 ^ 100 ≤ |e.2.x.val - e.1.x.val| ∨ 1 / 10 ^ 100 ≤ |e.2.y.val - e.1.y.val|) ∧
    ∀ v ∈ [dp 0 0, dp (1 / 10) 0, dp 0 (1 / 10)], ∀ w ∈ [dp 1 1, dp (12 / 10) 1, dp 1 (12 / 10)],
      along (dp (1 / 10) 0) (dp 0 (1 / 10)) w + 5 / 10 ^ 11 ≤ along (dp (1 / 10) 0) (dp 0 (1 / 10)) v := by decide +kernel

/-- **C152**: the slack is needed. The middle of the first edge of the first triangle is a corner of the second triangle, so that they meet; in `double` the answer of `SAT2D` is that
they are separated, whatever the hash set does. -/
theorem C152_meet_counterexample :
    ∃ a b : List (Vec2 (Fp (Rounding.float (K := ℚ) 53 Nat.one_le_ofNat))), (∀ p, p ∈ a ∨ p ∈ b → |p.x.val| ≤ 100 ∧ |p.y.val| ≤ 100) ∧ NoRepeat (tested a b) ∧
      (∃ p, InHull2 (a.map Hull2d.value) p ∧ InHull2 (b.map Hull2d.value) p) ∧ ∀ ins, sat2d bigD ins a b = .ok true := by
  refine ⟨[dp (17334773350 / 2 ^ 32) (18387350950 / 2 ^ 32), dp (9077679622 / 2 ^ 32) (288245974 / 2 ^ 32), dp 0 6],
    [dp (13206226486 / 2 ^ 32) (9337798462 / 2 ^ 32), dp 8 2, dp 6 (-2)], ?_, ?_, ?_, fun ins => ?_⟩
  · have : ∀ p ∈ [dp (17334773350 / 2 ^ 32) (18387350950 / 2 ^ 32), dp (9077679622 / 2 ^ 32) (288245974 / 2 ^ 32), dp 0 6] ++
      [dp (13206226486 / 2 ^ 32) (9337798462 / 2 ^ 32), dp 8 2, dp 6 (-2)], |p.x.val| ≤ 100 ∧ |p.y.val| ≤ 100 := by decide +kernel
    exact fun p hp => this p (List.mem_append.2 hp)
  · intro p q he
    have key : ∀ e ∈ edges [dp (17334773350 / 2 ^ 32) (18387350950 / 2 ^ 32), dp (9077679622 / 2 ^ 32) (288245974 / 2 ^ 32), dp 0 6], e.1.x ≠ e.2.x ∨ e.1.y ≠ e.2.y := by
      decide +kernel
    have := key (p, q) (edges_iff.2 he)
    rintro rfl
    simp at this
  · refine ⟨⟨13206226486 / 2 ^ 32, 9337798462 / 2 ^ 32⟩, ⟨[1 / 2, 1 / 2, 0], rfl, by decide +kernel, by decide +kernel, by decide +kernel, by decide +kernel⟩,
      ⟨[1, 0, 0], rfl, by decide +kernel, by decide +kernel, by decide +kernel, by decide +kernel⟩⟩
  · have k : ∀ a b : List (Vec2 (Fp (Rounding.float (K := ℚ) 53 Nat.one_le_ofNat))), ∀ n ns, apart bigD a b n = true → satLoop bigD ins a b (n :: ns) [] = .ok true := by
      intro a b n ns h
      unfold satLoop
      rw [if_neg (by simp [contains]), if_pos h]
    exact k _ _ _ _ (by decide +kernel)

end Cmm.Sep
