import Verif.Model.Removal
import Verif.Lemmas.Refine
import Verif.Lemmas.Csx
import Mathlib.Tactic.FieldSimp
/-! Lemmas about knot removal. -/
namespace Cmm.Nurbs
variable {K : Type}

theorem atI_eq {α : Type} {l : List α} {i : Int} {v : α} (m : Nat) (hi : i = m) (h : l[m]? = some v) : atI l i = .ok v := by
  subst hi
  rw [atI, if_neg (by omega), Int.toNat_natCast, h]

theorem setI_eq {α : Type} {l : List α} {i : Int} {v : α} (m : Nat) (hi : i = m) (h : m < l.length) : setI l i v = .ok (l.set m v) := by
  subst hi
  rw [setI, if_neg (by omega), Int.toNat_natCast]

variable [Field K] [LinearOrder K] [IsStrictOrderedRing K]

omit [LinearOrder K] [IsStrictOrderedRing K] in
theorem unblendLeft_lerp {α : K} (h : α ≠ 0) (a b : Vec4 K) : unblendLeft α (lerp4 α a b) b = a := by
  show (⟨(a.x * α + b.x * (1 - α) - (1 - α) * b.x) / α, (a.y * α + b.y * (1 - α) - (1 - α) * b.y) / α, (a.z * α + b.z * (1 - α) - (1 - α) * b.z) / α,
    (a.w * α + b.w * (1 - α) - (1 - α) * b.w) / α⟩ : Vec4 K) = ⟨a.x, a.y, a.z, a.w⟩
  congr 1 <;> · field_simp; ring

omit [LinearOrder K] [IsStrictOrderedRing K] in
theorem unblendRight_lerp {α : K} (h : 1 - α ≠ 0) (a b : Vec4 K) : unblendRight α (lerp4 α a b) a = b := by
  show (⟨(a.x * α + b.x * (1 - α) - α * a.x) / (1 - α), (a.y * α + b.y * (1 - α) - α * a.y) / (1 - α), (a.z * α + b.z * (1 - α) - α * a.z) / (1 - α),
    (a.w * α + b.w * (1 - α) - α * a.w) / (1 - α)⟩ : Vec4 K) = ⟨b.x, b.y, b.z, b.w⟩
  congr 1 <;> · field_simp; ring

theorem within_self {tol : K} (h : 0 ≤ tol) (a : Vec4 K) : within tol a a = true := by
  simp [within, h, sq_nonneg]

/-- The points `Q` come from the points `P` by inserting `u`, and the removal works on the places `f` to `f + D`. -/
structure RemData (p : Nat) (W : List K) (Q : List (Vec4 K)) (u : K) (f D : Nat) (P : Nat → Vec4 K) : Prop where
  hf : 1 ≤ f
  hD : D + 2 < 2 * p + 1
  hQ : f + D + 1 < Q.length
  hW : f + D + p + 1 < W.length
  low : ∀ m < f, Q[m]? = some (P m)
  high : ∀ m, f + D < m → m < Q.length → Q[m]? = some (P (m - 1))
  mid : ∀ m, f ≤ m → m ≤ f + D → Q[m]? = some (lerp4 ((u - ix W m) / (ix W (m + p + 1) - ix W m)) (P m) (P (m - 1)))
  a0 : ∀ m, f ≤ m → m ≤ f + D → (u - ix W m) / (ix W (m + p + 1) - ix W m) ≠ 0
  a1 : ∀ m, f ≤ m → m ≤ f + D → 1 - (u - ix W m) / (ix W (m + p + 1) - ix W m) ≠ 0

/-- The values in `temp` after `c` rounds. -/
structure RemInv (p f D : Nat) (P : Nat → Vec4 K) (c : Nat) (temp : List (Vec4 K)) : Prop where
  len : temp.length = 2 * p + 1
  left : ∀ idx ≤ c, 2 * idx ≤ D + 1 → temp[idx]? = some (P (f - 1 + idx))
  right : ∀ idx, D + 2 ≤ idx + c → idx ≤ D + 2 → temp[idx]? = some (P (f + idx - 2))

omit [LinearOrder K] [IsStrictOrderedRing K] in
theorem alphaI_eq {u : K} {p : Nat} {W : List K} {m : Nat} {i : Int} (hi : i = m) (h : m + p + 1 < W.length) :
    removalAlphaI u p W 0 i = .ok ((u - ix W m) / (ix W (m + p + 1) - ix W m)) := by
  rw [removalAlphaI, atI_eq m hi (List.getElem?_eq_getElem (by omega)), Res.ok_bind,
    atI_eq (m + p + 1) (by subst hi; push_cast; ring) (List.getElem?_eq_getElem h), Res.ok_bind, ix_eq_getElem, ix_eq_getElem]

omit [LinearOrder K] [IsStrictOrderedRing K] in
theorem alphaJ_eq {u : K} {p : Nat} {W : List K} {m : Nat} {i : Int} (hi : i = m) (h : m + p + 1 < W.length) :
    removalAlphaJ u p W 0 i = .ok ((u - ix W m) / (ix W (m + p + 1) - ix W m)) := by
  rw [removalAlphaJ, atI_eq m (by subst hi; push_cast; ring) (List.getElem?_eq_getElem (by omega)), Res.ok_bind,
    atI_eq (m + p + 1) (by subst hi; push_cast; ring) (List.getElem?_eq_getElem h), Res.ok_bind, ix_eq_getElem, ix_eq_getElem]

omit [LinearOrder K] [IsStrictOrderedRing K] in
theorem remCompute_inv {p : Nat} {W : List K} {Q : List (Vec4 K)} {u : K} {f D : Nat} {P : Nat → Vec4 K} (R : RemData p W Q u f D P) :
    ∀ (fuel c : Nat) (temp : List (Vec4 K)), RemInv p f D P c temp → D < 2 * (fuel + c) → 2 * c ≤ D + 2 →
      ∃ (c' : Nat) (temp' : List (Vec4 K)), remCompute p W Q u 0 fuel ⟨f + c, f + D - c, 1 + c, D + 1 - c, temp⟩ = .ok ⟨f + c', f + D - c', 1 + c', D + 1 - c', temp'⟩ ∧
        RemInv p f D P c' temp' ∧ D < 2 * c' ∧ 2 * c' ≤ D + 2 := by
  have hf := R.hf
  have hD := R.hD
  have hQ := R.hQ
  have hW := R.hW
  intro fuel
  induction fuel with
  | zero => intro c temp I h1 h2; exact ⟨c, temp, rfl, I, by omega, h2⟩
  | succ fuel ih =>
    intro c temp I h1 h2
    have hlen := I.len
    rw [remCompute]
    by_cases hc : 2 * c ≤ D
    · rw [if_pos (by dsimp only; push_cast; omega)]
      dsimp only
      rw [alphaI_eq (m := f + c) (by push_cast; ring) (by omega), Res.ok_bind, alphaJ_eq (m := f + D - c) (by omega) (by omega), Res.ok_bind,
        atI_eq (f + c) (by push_cast; ring) (R.mid _ (by omega) (by omega)), Res.ok_bind,
        atI_eq c (by ring) (I.left c le_rfl (by omega)), Res.ok_bind,
        setI_eq (c + 1) (by push_cast; ring) (by omega), Res.ok_bind,
        atI_eq (f + D - c) (by omega) (R.mid _ (by omega) (by omega)), Res.ok_bind,
        atI_eq (D + 2 - c) (by omega) (v := P (f + D - c)) (by
          rw [List.getElem?_set_ne (by omega), I.right _ (by omega) (by omega)]
          congr 2; omega), Res.ok_bind,
        setI_eq (D + 1 - c) (by omega) (by rw [List.length_set]; omega), Res.ok_bind]
      rw [show f - 1 + c = f + c - 1 by omega, unblendLeft_lerp (R.a0 _ (by omega) (by omega)), unblendRight_lerp (R.a1 _ (by omega) (by omega))]
      have e1 : (f : Int) + c + 1 = f + ((c + 1 : Nat) : Int) := by push_cast; ring
      have e2 : (f : Int) + D - c - 1 = f + D - ((c + 1 : Nat) : Int) := by push_cast; ring
      have e3 : (1 : Int) + c + 1 = 1 + ((c + 1 : Nat) : Int) := by push_cast; ring
      have e4 : (D : Int) + 1 - c - 1 = D + 1 - ((c + 1 : Nat) : Int) := by push_cast; ring
      rw [e1, e2, e3, e4]
      apply ih _ _ _ (by omega) (by omega)
      refine ⟨by simp [hlen], fun idx h3 h4 => ?_, fun idx h3 h4 => ?_⟩
      · rw [List.getElem?_set_ne (by omega)]
        by_cases h5 : idx = c + 1
        · subst h5
          rw [List.getElem?_set_self (by omega)]
          congr 2; omega
        · rw [List.getElem?_set_ne (by omega), I.left idx (by omega) h4]
      · by_cases h5 : idx = D + 1 - c
        · subst h5
          rw [List.getElem?_set_self (by rw [List.length_set]; omega)]
          congr 2; omega
        · rw [List.getElem?_set_ne (by omega), List.getElem?_set_ne (by omega), I.right idx (by omega) h4]
    · rw [if_neg (by dsimp only; push_cast; omega)]
      exact ⟨c, temp, rfl, I, by omega, h2⟩

/-- The points after the removal, before the resize. -/
def remResult (Q : List (Vec4 K)) (P : Nat → Vec4 K) (f D c m : Nat) : Option (Vec4 K) :=
  if f ≤ m ∧ m < f + c then some (P m) else if f + D < m + c ∧ m ≤ f + D then some (P (m - 1)) else Q[m]?

omit [LinearOrder K] [IsStrictOrderedRing K] in
theorem remCopy_inv {p : Nat} {W : List K} {Q : List (Vec4 K)} {u : K} {f D : Nat} {P : Nat → Vec4 K} (R : RemData p W Q u f D P) {c0 : Nat}
    {temp : List (Vec4 K)} (I : RemInv p f D P c0 temp) (hc0 : D < 2 * c0) :
    ∀ (fuel c : Nat) (new : List (Vec4 K)), new.length = Q.length → (∀ m, new[m]? = remResult Q P f D c m) → D ≤ 2 * (fuel + c) → 2 * c ≤ D + 1 →
      ∃ (new' : List (Vec4 K)) (c' : Nat), remCopy (f : Int) 0 temp fuel (f + c) (f + D - c) new = .ok new' ∧ new'.length = Q.length ∧ (∀ m, new'[m]? = remResult Q P f D c' m) ∧
        D ≤ 2 * c' ∧ 2 * c' ≤ D + 1 := by
  have hf := R.hf
  have hD := R.hD
  have hQ := R.hQ
  intro fuel
  induction fuel with
  | zero => intro c new h1 h2 h3 h4; exact ⟨new, c, rfl, h1, h2, by omega, h4⟩
  | succ fuel ih =>
    intro c new h1 h2 h3 h4
    rw [remCopy]
    by_cases hc : 2 * c < D
    · rw [if_pos (by push_cast; omega)]
      rw [atI_eq (c + 1) (by push_cast; ring) (I.left (c + 1) (by omega) (by omega)), Res.ok_bind, setI_eq (f + c) (by push_cast; ring) (by omega), Res.ok_bind,
        atI_eq (D + 1 - c) (by omega) (I.right (D + 1 - c) (by omega) (by omega)), Res.ok_bind,
        setI_eq (f + D - c) (by omega) (by rw [List.length_set]; omega), Res.ok_bind]
      have e1 : (f : Int) + c + 1 = f + ((c + 1 : Nat) : Int) := by push_cast; ring
      have e2 : (f : Int) + D - c - 1 = f + D - ((c + 1 : Nat) : Int) := by push_cast; ring
      rw [e1, e2]
      refine ih _ _ (by simpa using h1) (fun m => ?_) (by omega) (by omega)
      by_cases m1 : m = f + D - c
      · subst m1
        rw [List.getElem?_set_self (by rw [List.length_set]; omega), remResult, if_neg (by omega), if_pos (by omega)]
        congr 2; omega
      · rw [List.getElem?_set_ne (by omega)]
        by_cases m2 : m = f + c
        · subst m2
          rw [List.getElem?_set_self (by omega), remResult, if_pos (by omega)]
          congr 2; omega
        · rw [List.getElem?_set_ne (by omega), h2, remResult, remResult]
          by_cases m3 : f ≤ m ∧ m < f + c
          · rw [if_pos m3, if_pos (by omega)]
          · have m5 : ¬ (f ≤ m ∧ m < f + (c + 1)) := by omega
            by_cases m4 : f + D < m + c ∧ m ≤ f + D
            · have m6 : f + D < m + (c + 1) ∧ m ≤ f + D := by omega
              simp only [if_neg m3, if_neg m5, if_pos m4, if_pos m6]
            · have m6 : ¬ (f + D < m + (c + 1) ∧ m ≤ f + D) := by omega
              simp only [if_neg m3, if_neg m5, if_neg m4, if_neg m6]
    · rw [if_neg (by push_cast; omega)]
      exact ⟨new, c, rfl, h1, h2, by omega, h4⟩

/-- One round of the removal. -/
theorem remRounds_one {p : Nat} {W : List K} {Q : List (Vec4 K)} {u tol : K} {f D : Nat} {P : Nat → Vec4 K} (R : RemData p W Q u f D P) (htol : 0 ≤ tol)
    {temp : List (Vec4 K)} (ht : temp.length = 2 * p + 1) :
    ∃ new, remRounds p W Q u tol 1 0 f (f + D) temp Q = .ok new ∧ new.length = Q.length ∧
      ∀ m, new[m]? = if Q.length ≤ m then none else if 2 * m < f + (f + D) then some (P m) else if 2 * m = f + (f + D) then Q[m]? else some (P (m - 1)) := by
  have hf := R.hf
  have hD := R.hD
  have hQ := R.hQ
  rw [remRounds, atI_eq (f - 1) (by omega) (R.low _ (by omega)), Res.ok_bind, setI_eq (i := 0) 0 (by simp) (by omega), Res.ok_bind,
    atI_eq (f + D + 1) (by push_cast; ring) (R.high _ (by omega) (by omega)), Res.ok_bind,
    setI_eq (D + 2) (by push_cast; ring) (by rw [List.length_set]; omega), Res.ok_bind]
  have I0 : RemInv p f D P 0 ((temp.set 0 (P (f - 1))).set (D + 2) (P (f + D + 1 - 1))) := by
    refine ⟨by simpa using ht, fun idx h1 _ => ?_, fun idx h1 h2 => ?_⟩
    · obtain rfl : idx = 0 := by omega
      rw [List.getElem?_set_ne (by omega), List.getElem?_set_self (by omega)]; rfl
    · obtain rfl : idx = D + 2 := by omega
      rw [List.getElem?_set_self (by rw [List.length_set]; omega)]
      congr 2
  obtain ⟨c, temp', e, I, hc1, hc2⟩ := remCompute_inv R (D + 1) 0 _ I0 (by omega) (by omega)
  have ee : ((f : Int) + D - f + 1).toNat = D + 1 := by omega
  have es : (⟨(f : Int), (f : Int) + D, 1, (f : Int) + D - f + 1, (temp.set 0 (P (f - 1))).set (D + 2) (P (f + D + 1 - 1))⟩ : RemState K) =
      ⟨f + (0 : Nat), f + D - (0 : Nat), 1 + (0 : Nat), D + 1 - (0 : Nat), (temp.set 0 (P (f - 1))).set (D + 2) (P (f + D + 1 - 1))⟩ := by
    congr 1 <;> (push_cast; ring)
  rw [ee, es, e, Res.ok_bind]
  have hflag : remFlag p W Q u tol 0 ⟨f + c, f + D - c, 1 + c, D + 1 - c, temp'⟩ = .ok true := by
    rw [remFlag, if_pos (by dsimp only; push_cast; omega)]
    dsimp only
    have hcl : c < temp'.length := by rw [I.len]; omega
    by_cases ho : 2 * c ≤ D + 1
    · rw [atI_eq c (by ring) (I.left c le_rfl ho), Res.ok_bind, atI_eq (D + 2 - c) (by omega) (I.right (D + 2 - c) (by omega) (by omega)), Res.ok_bind]
      rw [show f - 1 + c = f + (D + 2 - c) - 2 by omega, within_self htol]
    · rw [atI_eq c (by ring) (List.getElem?_eq_getElem hcl), Res.ok_bind, atI_eq c (by omega) (List.getElem?_eq_getElem hcl), Res.ok_bind, within_self htol]
  rw [hflag, Res.ok_bind, if_pos rfl]
  obtain ⟨new, c', e', hl, hn, d1, d2⟩ := remCopy_inv R I hc1 D 0 Q rfl (fun m => by
    rw [remResult, if_neg (by omega), if_neg (by omega)]) (by omega) (by omega)
  have e1 : ((f : Int) + D - f).toNat = D := by omega
  simp only [Nat.cast_zero, add_zero, sub_zero] at e'
  rw [e1, e', Res.ok_bind]
  refine ⟨new, rfl, hl, fun m => ?_⟩
  by_cases h0 : Q.length ≤ m
  · rw [if_pos h0, List.getElem?_eq_none (by omega)]
  · rw [if_neg h0, hn, remResult]
    by_cases h1 : 2 * m < f + (f + D)
    · rw [if_pos h1]
      by_cases h2 : f ≤ m
      · rw [if_pos (by omega)]
      · rw [if_neg (by omega), if_neg (by omega), R.low m (by omega)]
    · rw [if_neg h1]
      by_cases h2 : 2 * m = f + (f + D)
      · rw [if_pos h2, if_neg (by omega), if_neg (by omega)]
      · rw [if_neg h2]
        by_cases h3 : m ≤ f + D
        · rw [if_neg (by omega), if_pos (by omega)]
        · rw [if_neg (by omega), if_neg (by omega), R.high m (by omega) (by omega)]

end Cmm.Nurbs
