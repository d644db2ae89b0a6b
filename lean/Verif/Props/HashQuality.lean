import Verif.Props.Hash
/-!
How well the hash functions separate keys (C84).
-/
namespace Cmm.Hash
open Cmm.Newton (IsSqrt)
variable {K : Type} [Field K] [LinearOrder K] [IsStrictOrderedRing K] [FloorRing K]

theorem ofInt_inj {x y : Int} (hx : -2 ^ 62 ≤ x ∧ x < 2 ^ 62) (hy : -2 ^ 62 ≤ y ∧ y < 2 ^ 62)
    (h : BitVec.ofInt 64 x = BitVec.ofInt 64 y) : x = y := by
  have := congrArg BitVec.toInt h
  rw [BitVec.toInt_ofInt, BitVec.toInt_ofInt, Int.bmod_eq_of_le (by omega) (by omega),
    Int.bmod_eq_of_le (by omega) (by omega)] at this
  exact this

theorem mul_odd_inj {c d : BitVec 64} (h : c * d = 1) {x y : BitVec 64} (e : x * c = y * c) : x = y := by
  have := congrArg (· * d) e
  simp only [BitVec.mul_assoc, h] at this
  simpa using this

theorem xor_left_cancel {a b c : BitVec 64} (h : a ^^^ b = a ^^^ c) : b = c := by
  have := congrArg (a ^^^ ·) h
  simpa [← BitVec.xor_assoc] using this

theorem xor_right_cancel {a b c : BitVec 64} (h : b ^^^ a = c ^^^ a) : b = c := by
  rw [BitVec.xor_comm b, BitVec.xor_comm c] at h
  exact xor_left_cancel h

/-- A 32 bit integer. -/
def IsInt (x : Int) : Prop := -2147483648 ≤ x ∧ x ≤ 2147483647

/-- **C84**: spatial keys that differ in exactly one coordinate have different hashes. -/
theorem C84_key_separates (a b : PointKey) (h : keyHash a = keyHash b) :
    (IsInt a.x → IsInt b.x → a.y = b.y → a.z = b.z → a = b) ∧ (IsInt a.y → IsInt b.y → a.x = b.x → a.z = b.z → a = b) ∧
    (IsInt a.z → IsInt b.z → a.x = b.x → a.y = b.y → a = b) := by
  obtain ⟨ax, ay, az⟩ := a
  obtain ⟨bx, by', bz⟩ := b
  simp only [keyHash] at h
  unfold IsInt
  refine ⟨?_, ?_, ?_⟩
  · rintro ha hb rfl rfl
    have h := mul_odd_inj (c := 73856093) (d := 13527148788247330805) (by decide) (xor_right_cancel (xor_right_cancel h))
    rw [ofInt_inj (by simp only at ha; omega) (by simp only at hb; omega) h]
  · rintro ha hb rfl rfl
    have h := mul_odd_inj (c := 19349663) (d := 18071728105226623839) (by decide) (xor_left_cancel (xor_right_cancel h))
    rw [ofInt_inj (by simp only at ha; omega) (by simp only at hb; omega) h]
  · rintro ha hb rfl rfl
    have h := mul_odd_inj (c := 83492791) (d := 15891622691044724231) (by decide) (xor_left_cancel h)
    rw [ofInt_inj (by simp only at ha; omega) (by simp only at hb; omega) h]

theorem toInt_isInt {x : K} {r : Int} (h : toInt x = .ok r) : IsInt r := by
  unfold toInt at h
  dsimp only at h
  generalize (if 0 ≤ x then ⌊x⌋ else ⌈x⌉) = n at h
  unfold IsInt
  split at h
  · rename_i hr
    rwa [← Res.ok.inj h]
  · cases h

theorem shift_inj {x y : Int} (hx : IsInt x) (hy : IsInt y) {n : Nat} (hn : n = 1 ∨ n = 2)
    (h : hashInt x <<< n = hashInt y <<< n) : x = y := by
  unfold hashInt at h
  unfold IsInt at hx hy
  rw [BitVec.shiftLeft_eq_mul_twoPow, BitVec.shiftLeft_eq_mul_twoPow] at h
  rcases hn with rfl | rfl
  · rw [show BitVec.twoPow 64 1 = BitVec.ofInt 64 2 by decide, ← BitVec.ofInt_mul, ← BitVec.ofInt_mul] at h
    have := ofInt_inj (by omega) (by omega) h
    omega
  · rw [show BitVec.twoPow 64 2 = BitVec.ofInt 64 4 by decide, ← BitVec.ofInt_mul, ← BitVec.ofInt_mul] at h
    have := ofInt_inj (by omega) (by omega) h
    omega

theorem hashInt_inj {x y : Int} (hx : IsInt x) (hy : IsInt y) (h : hashInt x = hashInt y) : x = y := by
  unfold IsInt at hx hy
  exact ofInt_inj (by omega) (by omega) h

/-- **C84**: vectors with equal hashes and quantised keys that agree in all coordinates but one are equal keys. -/
theorem C84_vec3_separates (a b : Vec3 K) (k : BitVec 64) (ha : vec3Hash a = .ok k) (hb : vec3Hash b = .ok k)
    (h : (quantize a.y decimals = quantize b.y decimals ∧ quantize a.z decimals = quantize b.z decimals) ∨
      (quantize a.x decimals = quantize b.x decimals ∧ quantize a.z decimals = quantize b.z decimals) ∨
      (quantize a.x decimals = quantize b.x decimals ∧ quantize a.y decimals = quantize b.y decimals)) :
    vec3Equal a b = .ok true := by
  obtain ⟨x, e1, ha⟩ := ok_of_bind ha
  obtain ⟨y, e2, ha⟩ := ok_of_bind ha
  obtain ⟨z, e3, ha⟩ := ok_of_bind ha
  obtain ⟨x', e1', hb⟩ := ok_of_bind hb
  obtain ⟨y', e2', hb⟩ := ok_of_bind hb
  obtain ⟨z', e3', hb⟩ := ok_of_bind hb
  have hk := (Res.ok.inj ha).trans (Res.ok.inj hb).symm
  rw [vec3Equal_iff]
  rw [e1, e2, e3, e1', e2', e3'] at h
  rcases h with ⟨h1, h2⟩ | ⟨h1, h2⟩ | ⟨h1, h2⟩
  · have h1 := Res.ok.inj h1; have h2 := Res.ok.inj h2
    subst h1 h2
    have := hashInt_inj (toInt_isInt e1) (toInt_isInt e1') (xor_right_cancel (xor_right_cancel hk))
    subst this
    exact ⟨x, y, z, e1, e1', e2, e2', e3, e3'⟩
  · have h1 := Res.ok.inj h1; have h2 := Res.ok.inj h2
    subst h1 h2
    have := shift_inj (toInt_isInt e2) (toInt_isInt e2') (.inl rfl) (xor_left_cancel (xor_right_cancel hk))
    subst this
    exact ⟨x, y, z, e1, e1', e2, e2', e3, e3'⟩
  · have h1 := Res.ok.inj h1; have h2 := Res.ok.inj h2
    subst h1 h2
    have := shift_inj (toInt_isInt e3) (toInt_isInt e3') (.inr rfl) (xor_left_cancel hk)
    subst this
    exact ⟨x, y, z, e1, e1', e2, e2', e3, e3'⟩

/-- **C84**: the same for plane vectors. -/
theorem C84_vec2_separates (a b : Vec2 K) (k : BitVec 64) (ha : vec2Hash a = .ok k) (hb : vec2Hash b = .ok k)
    (h : quantize a.y decimals = quantize b.y decimals ∨ quantize a.x decimals = quantize b.x decimals) : vec2Equal a b = .ok true := by
  obtain ⟨x, e1, ha⟩ := ok_of_bind ha
  obtain ⟨y, e2, ha⟩ := ok_of_bind ha
  obtain ⟨x', e1', hb⟩ := ok_of_bind hb
  obtain ⟨y', e2', hb⟩ := ok_of_bind hb
  have hk := (Res.ok.inj ha).trans (Res.ok.inj hb).symm
  rw [vec2Equal_iff]
  rw [e1, e2, e1', e2'] at h
  rcases h with h1 | h1
  · have h1 := Res.ok.inj h1
    subst h1
    have := hashInt_inj (toInt_isInt e1) (toInt_isInt e1') (xor_right_cancel hk)
    subst this
    exact ⟨x, y, e1, e1', e2, e2'⟩
  · have h1 := Res.ok.inj h1
    subst h1
    have := shift_inj (toInt_isInt e2) (toInt_isInt e2') (.inl rfl) (xor_left_cancel hk)
    subst this
    exact ⟨x, y, e1, e1', e2, e2'⟩

omit [IsStrictOrderedRing K] in
/-- **C84**: the hash of a pair of numbers depends on the first one only: all pairs with the same first number collide. -/
theorem C84_pair_counterexample (x y z : K) : pairHash (x, y) = pairHash (x, z) := rfl

theorem xor_shuffle {a b c d : BitVec 64} (h : a ^^^ b = c ^^^ d) : a ^^^ c = b ^^^ d := by
  have e : a = c ^^^ d ^^^ b := by rw [← h, BitVec.xor_assoc, BitVec.xor_self, BitVec.xor_zero]
  rw [e, BitVec.xor_comm, ← BitVec.xor_assoc, ← BitVec.xor_assoc, BitVec.xor_self, BitVec.zero_xor, BitVec.xor_comm]

theorem eq_zero_of_shift {d : BitVec 64} {n : Nat} (hn : 0 < n) (h : d = d <<< n) : d = 0#64 := by
  have key : ∀ i, d.getLsbD i = false := by
    intro i
    induction i using Nat.strong_induction_on with
    | _ i ih =>
      rw [h, BitVec.getLsbD_shiftLeft]
      by_cases hi : i < n
      · simp [hi]
      · rw [ih (i - n) (by omega)]; simp
  exact BitVec.eq_of_getLsbD_eq fun i _ => by rw [key]; simp

theorem eq_of_swap {a b : BitVec 64} {n : Nat} (hn : 0 < n) (h : a ^^^ b <<< n = b ^^^ a <<< n) : a = b := by
  have h1 := xor_shuffle h
  rw [← BitVec.shiftLeft_xor_distrib, BitVec.xor_comm b a] at h1
  have h2 := eq_zero_of_shift hn h1
  calc a = a ^^^ b ^^^ b := by rw [BitVec.xor_assoc, BitVec.xor_self, BitVec.xor_zero]
    _ = b := by rw [h2]; exact BitVec.zero_xor

/-- **C84**: exchanging two coordinates changes the hash unless their keys agree. -/
theorem C84_swap (x y z : K) :
    (∀ k, vec2Hash ⟨x, y⟩ = .ok k → vec2Hash ⟨y, x⟩ = .ok k → quantize x decimals = quantize y decimals) ∧
    (∀ k, vec3Hash ⟨x, y, z⟩ = .ok k → vec3Hash ⟨y, x, z⟩ = .ok k → quantize x decimals = quantize y decimals) ∧
    (∀ k, vec3Hash ⟨x, y, z⟩ = .ok k → vec3Hash ⟨x, z, y⟩ = .ok k → quantize y decimals = quantize z decimals) ∧
    (∀ k, vec3Hash ⟨x, y, z⟩ = .ok k → vec3Hash ⟨z, y, x⟩ = .ok k → quantize x decimals = quantize z decimals) := by
  refine ⟨fun k ha hb => ?_, fun k ha hb => ?_, fun k ha hb => ?_, fun k ha hb => ?_⟩
  · obtain ⟨a, e1, ha⟩ := ok_of_bind ha
    obtain ⟨b, e2, ha⟩ := ok_of_bind ha
    simp only [vec2Hash, e1, e2, Res.ok_bind] at hb
    have hk := (Res.ok.inj ha).trans (Res.ok.inj hb).symm
    rw [e1, e2, hashInt_inj (toInt_isInt e1) (toInt_isInt e2) (eq_of_swap (by omega) hk)]
  all_goals
    obtain ⟨a, e1, ha⟩ := ok_of_bind ha
    obtain ⟨b, e2, ha⟩ := ok_of_bind ha
    obtain ⟨c, e3, ha⟩ := ok_of_bind ha
    simp only [vec3Hash, e1, e2, e3, Res.ok_bind] at hb
    have hk := (Res.ok.inj ha).trans (Res.ok.inj hb).symm
  · rw [e1, e2, hashInt_inj (toInt_isInt e1) (toInt_isInt e2) (eq_of_swap (n := 1) (by omega) (xor_right_cancel hk))]
  · rw [BitVec.xor_assoc, BitVec.xor_assoc] at hk
    have hk := xor_left_cancel hk
    rw [show hashInt c <<< 2 = (hashInt c <<< 1) <<< 1 by rw [← BitVec.shiftLeft_add], show hashInt b <<< 2 = (hashInt b <<< 1) <<< 1 by
      rw [← BitVec.shiftLeft_add]] at hk
    rw [e2, e3, shift_inj (toInt_isInt e2) (toInt_isInt e3) (.inl rfl) (eq_of_swap (by omega) hk)]
  · rw [BitVec.xor_assoc, BitVec.xor_assoc, BitVec.xor_comm (hashInt b <<< 1), BitVec.xor_comm (hashInt b <<< 1), ← BitVec.xor_assoc,
      ← BitVec.xor_assoc] at hk
    rw [e1, e3, hashInt_inj (toInt_isInt e1) (toInt_isInt e3) (eq_of_swap (n := 2) (by omega) (xor_right_cancel hk))]

example : (∃ k, vec3Hash (⟨1, 2, 3⟩ : Vec3 ℚ) = .ok k) ∧ vec3Hash (⟨1, 2, 3⟩ : Vec3 ℚ) ≠ vec3Hash (⟨2, 1, 3⟩ : Vec3 ℚ) :=
  ⟨⟨_, (by decide +kernel : vec3Hash (⟨1, 2, 3⟩ : Vec3 ℚ) = .ok 135#64)⟩, by decide +kernel⟩

/-- **C84**: pairs with equal hashes have the same quantised first number. -/
theorem C84_pair_first_partial (a b : K × K) (k : BitVec 64) (ha : pairHash a = .ok k) (hb : pairHash b = .ok k) :
    ∃ r, quantize a.1 decimals = .ok r ∧ quantize b.1 decimals = .ok r := by
  unfold pairHash at ha hb
  obtain ⟨x, e1, ha⟩ := ok_of_bind ha
  obtain ⟨x2, e2, ha⟩ := ok_of_bind ha
  obtain ⟨y, f1, hb⟩ := ok_of_bind hb
  obtain ⟨y2, f2, hb⟩ := ok_of_bind hb
  have := Res.ok.inj (e1.symm.trans e2)
  subst this
  have := Res.ok.inj (f1.symm.trans f2)
  subst this
  have hk := (Res.ok.inj ha).trans (Res.ok.inj hb).symm
  have hd : (hashInt x ^^^ hashInt y) = (hashInt x ^^^ hashInt y) <<< 1 := by
    rw [BitVec.shiftLeft_xor_distrib]
    exact xor_shuffle hk
  rw [BitVec.shiftLeft_eq_mul_twoPow, show BitVec.twoPow 64 1 = 1#64 + 1#64 by decide, BitVec.mul_add, BitVec.mul_one] at hd
  have h0 : hashInt x ^^^ hashInt y = 0 := by
    generalize hashInt x ^^^ hashInt y = d at hd
    have := congrArg (fun t => t - d) hd
    rw [BitVec.add_sub_cancel, BitVec.sub_self] at this
    exact this.symm
  have := hashInt_inj (toInt_isInt e1) (toInt_isInt f1) (BitVec.xor_eq_zero_iff.1 h0)
  subst this
  exact ⟨x, e1, f1⟩

/-- Truncated fifteenfold coordinates of a unit vector: the first is never twice the second. -/
theorem trunc_ne (u : Vec2 K) (hu : u.dot u = 1) (x y : Int) (hx : quantize u.x decimals = .ok x) (hy : quantize u.y decimals = .ok y) :
    x ≠ 2 * y ∧ -15 ≤ x ∧ x ≤ 15 ∧ -15 ≤ y ∧ y ≤ 15 := by
  unfold quantize decimals at hx hy
  push_cast at hx hy
  have hs : (u.x * 15) ^ 2 + (u.y * 15) ^ 2 = 225 := by
    simp only [Vec2.dot] at hu
    linear_combination 225 * hu
  generalize u.x * 15 = X at hx hs
  generalize u.y * 15 = Y at hy hs
  obtain ⟨a1, a2, a3, a4⟩ := toInt_spec hx
  obtain ⟨b1, b2, b3, b4⟩ := toInt_spec hy
  have bX : -15 ≤ X ∧ X ≤ 15 := by constructor <;> nlinarith [sq_nonneg Y]
  have bY : -15 ≤ Y ∧ Y ≤ 15 := by constructor <;> nlinarith [sq_nonneg X]
  have bound : ∀ (Z : K) (z : Int), (0 ≤ Z → (z : K) ≤ Z ∧ Z < z + 1) → (Z < 0 → (z : K) - 1 < Z ∧ Z ≤ z) → (Z ≤ 0 → z ≤ 0) → (0 ≤ Z → 0 ≤ z) →
      -15 ≤ Z ∧ Z ≤ 15 → -15 ≤ z ∧ z ≤ 15 := by
    intro Z z c1 c2 c3 c4 ⟨l, h⟩
    rcases le_or_gt 0 Z with hz | hz
    · have := (c1 hz).1
      have h15 : (z : K) ≤ ((15 : Int) : K) := by push_cast; linarith
      exact ⟨by have := c4 hz; omega, Int.cast_le.1 h15⟩
    · have := (c2 hz).2
      have h15 : ((-15 : Int) : K) ≤ (z : K) := by push_cast; linarith
      exact ⟨Int.cast_le.1 h15, by have := c3 hz.le; omega⟩
  refine ⟨?_, (bound X x a1 a2 a3 a4 bX).1, (bound X x a1 a2 a3 a4 bX).2, (bound Y y b1 b2 b3 b4 bY).1, (bound Y y b1 b2 b3 b4 bY).2⟩
  rintro rfl
  push_cast at a1 a2
  rcases le_or_gt 0 X with hX | hX <;> rcases le_or_gt 0 Y with hY | hY
  · obtain ⟨p1, p2⟩ := a1 hX
    obtain ⟨q1, q2⟩ := b1 hY
    have hy0 : (0 : K) ≤ y := by exact_mod_cast b4 hY
    have hm : y ≤ 6 := by
      by_contra hm
      have : (7 : K) ≤ y := by exact_mod_cast (show (7 : Int) ≤ y by omega)
      nlinarith
    have hm : (y : K) ≤ 6 := by exact_mod_cast hm
    nlinarith
  · have e : y = 0 := by have := a4 hX; have := b3 hY.le; omega
    subst e
    have := a1 hX; have := b2 hY
    push_cast at *
    nlinarith
  · have e : y = 0 := by have := a3 hX.le; have := b4 hY; omega
    subst e
    have := a2 hX; have := b1 hY
    push_cast at *
    nlinarith
  · obtain ⟨p1, p2⟩ := a2 hX
    obtain ⟨q1, q2⟩ := b2 hY
    have hy0 : (y : K) ≤ 0 := by exact_mod_cast b3 hY.le
    have hm : -6 ≤ y := by
      by_contra hm
      have : (y : K) ≤ -7 := by exact_mod_cast (show y ≤ (-7 : Int) by omega)
      nlinarith
    have hm : -6 ≤ (y : K) := by exact_mod_cast hm
    nlinarith

theorem xor_ne {x y : Int} (h : x ≠ 2 * y) (hx : -15 ≤ x ∧ x ≤ 15) (hy : -15 ≤ y ∧ y ≤ 15) :
    (BitVec.ofInt 32 x ^^^ (BitVec.ofInt 32 y <<< 1)).toInt ≠ 0 := by
  intro e
  have e : BitVec.ofInt 32 x ^^^ (BitVec.ofInt 32 y <<< 1) = 0 := BitVec.eq_of_toInt_eq (by simpa using e)
  have e := BitVec.xor_eq_zero_iff.1 e
  rw [BitVec.shiftLeft_eq_mul_twoPow, show BitVec.twoPow 32 1 = BitVec.ofInt 32 2 by decide, ← BitVec.ofInt_mul] at e
  have := congrArg BitVec.toInt e
  rw [BitVec.toInt_ofInt, BitVec.toInt_ofInt, Int.bmod_eq_of_le (by omega) (by omega),
    Int.bmod_eq_of_le (by omega) (by omega)] at this
  omega

/-- **C84**: every direction has the hash 1, so that all directions share one bucket. -/
theorem C84_normal_counterexample (sqrt : K → K) (hs : IsSqrt sqrt) (h0 : sqrt 0 = 0) (a : Vec2 K) (ha : a ≠ ⟨0, 0⟩) :
    normalHash sqrt a = .ok 1 := by
  have hd : 0 < a.dot a := by
    obtain ⟨x, y⟩ := a
    simp only [Vec2.dot]
    rcases eq_or_ne x 0 with rfl | hx
    · have : y ≠ 0 := fun h => ha (by rw [h])
      have := mul_self_pos.2 this
      nlinarith
    · have := mul_self_pos.2 hx
      nlinarith [mul_self_nonneg y]
  have hl : sqrt (a.dot a) ≠ 0 := by
    intro h
    have := (hs _ hd).1
    rw [h] at this
    exact lt_irrefl _ this
  have hu : unit sqrt a = .ok ⟨a.x / sqrt (a.dot a), a.y / sqrt (a.dot a)⟩ := if_neg hl
  have hu1 := (unit_spec hs hu h0).1
  generalize (⟨a.x / sqrt (a.dot a), a.y / sqrt (a.dot a)⟩ : Vec2 K) = u at hu hu1
  have hu2 : (⟨-u.x, -u.y⟩ : Vec2 K).dot ⟨-u.x, -u.y⟩ = 1 := by rw [← hu1]; simp [Vec2.dot]
  have bnd : ∀ c d : K, c * c + d * d = 1 → ∃ r, quantize c decimals = .ok r := by
    intro c d h
    rcases quantize_cases c with e | e
    · exfalso
      unfold quantize decimals at e
      rw [toInt_ub] at e
      push_cast at e
      rcases e with e | e <;> nlinarith [mul_self_nonneg d]
    · exact e
  obtain ⟨x, hx⟩ := bnd u.x u.y hu1
  obtain ⟨y, hy⟩ := bnd u.y u.x (by rw [add_comm]; exact hu1)
  obtain ⟨x1, hx1⟩ := bnd (-u.x) (-u.y) hu2
  obtain ⟨y1, hy1⟩ := bnd (-u.y) (-u.x) (by rw [add_comm]; exact hu2)
  obtain ⟨n1, n2, n3, n4, n5⟩ := trunc_ne u hu1 x y hx hy
  obtain ⟨m1, m2, m3, m4, m5⟩ := trunc_ne ⟨-u.x, -u.y⟩ hu2 x1 y1 hx1 hy1
  have e1 := xor_ne n1 ⟨n2, n3⟩ ⟨n4, n5⟩
  have e2 := xor_ne m1 ⟨m2, m3⟩ ⟨m4, m5⟩
  unfold normalHash
  simp only [hu, hx, hy, hx1, hy1, Res.ok_bind, Res.pure_eq]
  rw [if_neg]
  intro h
  rcases max_choice (BitVec.ofInt 32 x ^^^ (BitVec.ofInt 32 y <<< 1)).toInt (BitVec.ofInt 32 x1 ^^^ (BitVec.ofInt 32 y1 <<< 1)).toInt with e | e
  · exact e1 (e.symm.trans h)
  · exact e2 (e.symm.trans h)

example : normalHash Real.sqrt ⟨3, 4⟩ = .ok 1 := C84_normal_counterexample _ Geom.real_isSqrt Real.sqrt_zero _ (by simp)
example : vec3Hash (⟨1, 2, 3⟩ : Vec3 ℚ) ≠ vec3Hash (⟨1, 2, 4⟩ : Vec3 ℚ) := by decide +kernel
/-- Differing in two coordinates is not enough. -/
example : vec2Hash (⟨0, 1⟩ : Vec2 ℚ) = vec2Hash (⟨2, 0⟩ : Vec2 ℚ) := by decide +kernel

end Cmm.Hash
