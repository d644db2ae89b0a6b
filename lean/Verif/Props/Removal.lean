import Verif.Lemmas.Removal
import Verif.Props.Outcomes
import Verif.Spec.Newton
import Mathlib.Data.Rat.Floor
/-! C97: knot removal. -/
namespace Cmm.Nurbs
variable {K : Type} [Field K] [LinearOrder K] [IsStrictOrderedRing K]

/-- C97, the part that holds: a knot `u` inside the domain, of multiplicity `s < p`, is inserted once and then removed. The call returns as many points as the
curve had at first. Those before the middle of the changed places are the points of that curve. What is missing: at the middle the inserted curve's point may
remain, and all later points are displaced by one place (the loop that moves them up is not there), so the last point is lost. -/
theorem C97_after_insertion_partial {p : Nat} {U : List K} {P Q : List (Vec4 K)} {u tol : K} {s k : Nat} {init : Nat → Vec4 K}
    (hlen : U.length = P.length + p + 1) (hU : SortedKnots U) (hpn : p < P.length)
    (hu1 : ix U p ≤ u) (hu2 : u < ix U P.length) (hsep : ClearOf (1 / 10 ^ 12) U u) (htol : 0 ≤ tol)
    (hs : s = U.count u) (hsp : s < p) (hk : k = findSpan (P.length - 1) p u (ix U)) (hQ : knotInsertion p (ix U) P u 1 s k init = .ok Q) :
    ∃ R, knotRemoval p (knotInsertionKv U u k 1) Q u tol 1 = .ok R ∧ R.length = P.length ∧
      ∀ m < P.length, ix R m = if 2 * m + p + s < 2 * k + 1 then ix P m else if 2 * m + p + s = 2 * k + 1 then ix Q m else ix P (m - 1) := by
  have hm : ∀ a b, a ≤ b → b < U.length → ix U a ≤ ix U b := fun a b h h' => ix_mono hU h h'
  have hpk : p ≤ k := hk ▸ findSpan_ge (P.length - 1) p u (ix U)
  have hkn : k < P.length := by
    have := findSpan_le (n := P.length - 1) (by omega) u (ix U) (p := p)
    omega
  have hk1 : ix U k ≤ u := hk ▸ findSpan_knot_le u (ix U) hu1 (hk ▸ hpk) (le_refl _) (n := P.length - 1)
  have hk2 : u < ix U (k + 1) := by
    rcases Nat.eq_or_lt_of_le (show k ≤ P.length - 1 by omega) with h | h
    · rw [h, Nat.sub_add_cancel (by omega)]; exact hu2
    · rw [hk] at h ⊢; exact findSpan_lt u (ix U) h
  have hlt : ∀ m, m ≤ k - s → ix U m < u := by
    intro m hmk
    by_contra hc
    have hc := not_lt.mp hc
    have := count_ge_of_run (V := U) (x := u) (m := k - s) (len := s + 1) (fun r hr =>
      le_antisymm ((hm (k - s + r) k (by omega) (by omega)).trans hk1) (hc.trans (hm m (k - s + r) (by omega) (by omega)))) (by omega)
    omega
  rw [knotInsertion] at hQ
  split at hQ
  · simp at hQ
  simp only [Res.ok.injEq] at hQ
  have hQl : Q.length = P.length + 1 := by rw [← hQ]; simp
  have hQm : ∀ m < P.length + 1, Q[m]? = some (if m ≤ k - p then ix P m else if m ≤ k - s then lerp4 ((u - ix U m) / (ix U (m + p) - ix U m)) (ix P m) (ix P (m - 1))
      else ix P (m - 1)) := by
    intro m h
    rw [← hQ, List.getElem?_map, List.getElem?_range h, Option.map_some, insArray_spec lerp4 hpk (by omega)]
    congr 1
    by_cases c1 : m ≤ k - p
    · rw [if_pos c1, if_pos c1]
    rw [if_neg c1, if_neg c1]
    by_cases c2 : m ≤ k - s
    · rw [if_pos c2]
      by_cases c3 : m ≤ k - p + 1
      · obtain rfl : m = k - p + 1 := by omega
        rw [if_pos c3, show k - p + 1 - (k - p) = 1 by omega]
        rfl
      · rw [if_neg c3]
        by_cases c4 : m < k - s
        · rw [if_pos c4]; rfl
        · obtain rfl : m = k - s := by omega
          rw [if_neg c4, if_pos (by omega), show k - s + 1 - (k - s) = 1 by omega]
          rfl
    · rw [if_neg c2, if_neg (by omega), if_neg (by omega), if_neg (by omega)]
  have hWl : (knotInsertionKv U u k 1).length = P.length + p + 2 := by rw [knotInsertionKv_eq _ _ _ _ (by omega)]; simp; omega
  have hWi := ix_insKnots (U := U) (u := u) (k := k) (num := 1) (by omega)
  obtain ⟨hc1, hc2⟩ := C24_multiplicity_exact u U k 1 hsep (by omega)
  have hspan : findSpan (Q.length - 1) p u (ix (knotInsertionKv U u k 1)) = k + 1 := by
    rw [hWi]
    apply findSpan_eq (by omega) (by omega)
    · intro j _ hj
      rw [insKnots]
      by_cases c1 : j ≤ k
      · rw [if_pos c1]; exact (hm j k c1 (by omega)).trans hk1
      · rw [if_neg c1, if_pos hj]
    · intro _
      rw [insKnots, if_neg (by omega), if_neg (by omega)]
      exact hk2
  have hWlow : ∀ m ≤ k, ix (knotInsertionKv U u k 1) m = ix U m := fun m h => by rw [hWi, insKnots, if_pos h]
  have hWhigh : ∀ m, k < m → ix (knotInsertionKv U u k 1) (m + 1) = ix U m := fun m h => by
    rw [hWi, insKnots, if_neg (by omega), if_neg (by omega), Nat.add_sub_cancel]
  have R : RemData p (knotInsertionKv U u k 1) Q u (k + 1 - p) (p - 1 - s) (ix P) := by
    refine ⟨by omega, by omega, by omega, by omega, fun m h => ?_, fun m h1 h2 => ?_, fun m h1 h2 => ?_, fun m h1 h2 => ?_, fun m h1 h2 => ?_⟩
    · rw [hQm m (by omega), if_pos (by omega)]
    · rw [hQm m (by omega), if_neg (by omega), if_neg (by omega)]
    · rw [hQm m (by omega), if_neg (by omega), if_pos (by omega), hWlow m (by omega), hWhigh (m + p) (by omega)]
    · rw [hWlow m (by omega), hWhigh (m + p) (by omega)]
      have d1 := hlt m (by omega)
      have d2 := hk2.trans_le (hm (k + 1) (m + p) (by omega) (by omega))
      exact div_ne_zero (sub_ne_zero.mpr (ne_of_gt d1)) (sub_ne_zero.mpr (ne_of_gt (d1.trans d2)))
    · rw [hWlow m (by omega), hWhigh (m + p) (by omega)]
      have d1 := hlt m (by omega)
      have d2 := hk2.trans_le (hm (k + 1) (m + p) (by omega) (by omega))
      have d3 : ix U (m + p) - ix U m ≠ 0 := sub_ne_zero.mpr (ne_of_gt (d1.trans d2))
      rw [one_sub_div d3]
      exact div_ne_zero (by rw [sub_sub_sub_cancel_right]; exact sub_ne_zero.mpr (ne_of_gt d2)) d3
  obtain ⟨new, e, hnl, hn⟩ := remRounds_one R htol (temp := List.replicate (2 * p + 1) ⟨0, 0, 0, 0⟩) (by simp)
  rw [knotRemoval, if_neg (by
    intro h
    rw [List.isEmpty_iff.mp h] at hQl
    simp at hQl)]
  dsimp only
  rw [hspan, hc2, hc1, ← hs]
  have e1 : ((k + 1 : Nat) : Int) - p = ((k + 1 - p : Nat) : Int) := by omega
  have e2 : ((k + 1 : Nat) : Int) - ((s + 1 : Nat) : Int) = ((k + 1 - p : Nat) : Int) + ((p - 1 - s : Nat) : Int) := by omega
  rw [e1, e2, e, Res.ok_bind, if_neg (by omega)]
  refine ⟨_, rfl, by rw [List.length_take]; omega, fun m h => ?_⟩
  rw [ix, List.getD_eq_getElem?_getD, List.getElem?_take, if_pos (by omega), hn, if_neg (by omega)]
  by_cases c1 : 2 * m + p + s < 2 * k + 1
  · rw [if_pos c1, if_pos (by omega)]; rfl
  · rw [if_neg c1, if_neg (by omega)]
    by_cases c2 : 2 * m + p + s = 2 * k + 1
    · rw [if_pos c2, if_pos (by omega)]; rfl
    · rw [if_neg c2, if_neg (by omega)]; rfl

/-- The curve of the counterexamples: the knots. -/
def remDemoKnots : List ℚ := [0, 0, 0, 1, 2, 2, 2]
/-- The curve of the counterexamples: the control points. -/
def remDemo : List (Vec4 ℚ) := [⟨0, 0, 0, 1⟩, ⟨1, 3, 0, 1⟩, ⟨2, 5, 0, 1⟩, ⟨3, 7, 0, 1⟩]

/-- C97 fails: inserting the knot `1/2` into this curve and removing it does not give the curve back. The last control point, the end of the curve, is lost. -/
theorem C97_roundtrip_counterexample : ∃ Q, knotInsertion 2 (ix remDemoKnots) remDemo (1/2) 1 0 2 (fun _ => 0) = .ok Q ∧
    knotRemoval 2 (knotInsertionKv remDemoKnots (1/2) 2 1) Q (1/2) 0 1 = .ok [⟨0, 0, 0, 1⟩, ⟨1, 3, 0, 1⟩, ⟨1, 3, 0, 1⟩, ⟨2, 5, 0, 1⟩] :=
  ⟨[⟨0, 0, 0, 1⟩, ⟨1/2, 3/2, 0, 1⟩, ⟨5/4, 7/2, 0, 1⟩, ⟨2, 5, 0, 1⟩, ⟨3, 7, 0, 1⟩], by decide +kernel, by decide +kernel⟩

/-- C97 fails: a knot at which the curve has a corner is not refused with tolerance zero; the call returns one point fewer. -/
theorem C97_not_removable_counterexample :
    knotRemoval (K := ℚ) 1 [0, 0, 1, 2, 2] [⟨0, 0, 0, 1⟩, ⟨1, 5, 0, 1⟩, ⟨2, 0, 0, 1⟩] 1 0 1 = .ok [⟨0, 0, 0, 1⟩, ⟨1, 5, 0, 1⟩] := by decide +kernel

omit [LinearOrder K] [IsStrictOrderedRing K] in
theorem setI_ok {α : Type} {l l' : List α} {i : Int} {v : α} (h : setI l i v = .ok l') : l'.length = l.length ∧ ∀ m : Nat, (m : Int) ≠ i → l'[m]? = l[m]? := by
  rw [setI] at h
  split at h
  · simp at h
  · simp only [Res.ok.injEq] at h
    subst h
    refine ⟨by simp, fun m hm => ?_⟩
    rw [List.getElem?_set_ne (by omega)]

omit [LinearOrder K] [IsStrictOrderedRing K] [Field K] in
theorem remCopy_ok {first : Int} {t : Nat} {temp : List (Vec4 K)} : ∀ (fuel : Nat) (i j : Int) (new new' : List (Vec4 K)),
    remCopy first t temp fuel i j new = .ok new' → new'.length = new.length ∧ ∀ m : Nat, (m : Int) < i ∨ j < m → new'[m]? = new[m]? := by
  intro fuel
  induction fuel with
  | zero => intro i j new new' h; simp only [remCopy, Res.ok.injEq] at h; subst h; exact ⟨rfl, fun _ _ => rfl⟩
  | succ fuel ih =>
    intro i j new new' h
    rw [remCopy] at h
    split at h
    · rename_i hc
      obtain ⟨a, -, h⟩ := Csx.ok_of_bind h
      obtain ⟨n1, h1, h⟩ := Csx.ok_of_bind h
      obtain ⟨b, -, h⟩ := Csx.ok_of_bind h
      obtain ⟨n2, h2, h⟩ := Csx.ok_of_bind h
      obtain ⟨l1, g1⟩ := setI_ok h1
      obtain ⟨l2, g2⟩ := setI_ok h2
      obtain ⟨l3, g3⟩ := ih _ _ _ _ h
      refine ⟨by omega, fun m hm => ?_⟩
      rw [g3 m (by omega), g2 m (by omega), g1 m (by omega)]
    · simp only [Res.ok.injEq] at h; subst h; exact ⟨rfl, fun _ _ => rfl⟩

theorem remRounds_ok {p : Nat} {W : List K} {Q : List (Vec4 K)} {u tol : K} : ∀ (count t : Nat) (first last : Int) (temp new new' : List (Vec4 K)),
    remRounds p W Q u tol count t first last temp new = .ok new' →
      new'.length = new.length ∧ ∀ m : Nat, (m : Int) + count ≤ first ∨ last + count ≤ m → new'[m]? = new[m]? := by
  intro count
  induction count with
  | zero => intro t first last temp new new' h; simp only [remRounds, Res.ok.injEq] at h; subst h; exact ⟨rfl, fun _ _ => rfl⟩
  | succ count ih =>
    intro t first last temp new new' h
    rw [remRounds] at h
    obtain ⟨_, -, h⟩ := Csx.ok_of_bind h
    obtain ⟨_, -, h⟩ := Csx.ok_of_bind h
    obtain ⟨_, -, h⟩ := Csx.ok_of_bind h
    obtain ⟨_, -, h⟩ := Csx.ok_of_bind h
    obtain ⟨s, -, h⟩ := Csx.ok_of_bind h
    obtain ⟨flag, -, h⟩ := Csx.ok_of_bind h
    cases flag with
    | false =>
      simp only [Bool.false_eq_true, if_false, Res.ok_bind] at h
      obtain ⟨l, g⟩ := ih _ _ _ _ _ _ h
      exact ⟨l, fun m hm => g m (by push_cast at hm; omega)⟩
    | true =>
      simp only [if_true] at h
      obtain ⟨n1, h1, h⟩ := Csx.ok_of_bind h
      obtain ⟨l1, g1⟩ := remCopy_ok _ _ _ _ _ h1
      obtain ⟨l, g⟩ := ih _ _ _ _ _ _ h
      exact ⟨by omega, fun m hm => by push_cast at hm; rw [g m (by omega), g1 m (by omega)]⟩

/-- C97, the part that holds of every call that returns: the number of points falls by `num`, and the points outside the places `r - p - num + 1` to
`r - s + num - 1` keep their values, where `r` is the knot span and `s` the multiplicity of `u`. -/
theorem C97_shape_partial {p : Nat} {W : List K} {Q R : List (Vec4 K)} {u tol : K} {num : Nat} (h : knotRemoval p W Q u tol num = .ok R) :
    R.length + num = Q.length ∧ ∀ m < R.length, m + p + num ≤ findSpan (Q.length - 1) p u (ix W) ∨
      findSpan (Q.length - 1) p u (ix W) + num ≤ m + findMultiplicity u W → R[m]? = Q[m]? := by
  rw [knotRemoval] at h
  split at h
  · simp at h
  · dsimp only at h
    obtain ⟨new, h1, h⟩ := Csx.ok_of_bind h
    obtain ⟨l, g⟩ := remRounds_ok _ _ _ _ _ _ _ h1
    split at h
    · simp at h
    · simp only [Res.ok.injEq] at h
      subst h
      rw [List.length_take]
      refine ⟨by omega, fun m hm h2 => ?_⟩
      rw [List.getElem?_take, if_pos (by omega), g m (by omega)]

omit [IsStrictOrderedRing K] in
/-- C97: in the first knot span the removal reads before the control points. -/
theorem C97_first_span_undefined {p : Nat} {W : List K} {Q : List (Vec4 K)} {u tol : K} {num : Nat} (hn : 1 ≤ num)
    (h : findSpan (Q.length - 1) p u (ix W) = p) : knotRemoval p W Q u tol num = .ub := by
  obtain ⟨num, rfl⟩ : ∃ n, num = n + 1 := ⟨num - 1, by omega⟩
  rw [knotRemoval]
  split
  · rfl
  · dsimp only
    rw [h, remRounds, atI, if_pos (by omega)]
    rfl

omit [IsStrictOrderedRing K] in
/-- C97: removing a knot no times gives the points back. -/
theorem C97_zero {p : Nat} {W : List K} {Q : List (Vec4 K)} {u tol : K} (h : Q ≠ []) : knotRemoval p W Q u tol 0 = .ok Q := by
  rw [knotRemoval, if_neg (by simpa using h)]
  dsimp only
  rw [remRounds, Res.ok_bind, if_neg (by omega), Nat.sub_zero, List.take_length]

omit [LinearOrder K] [IsStrictOrderedRing K] [Field K] in
theorem atI_ne_throws {α : Type} (l : List α) (i : Int) : atI l i ≠ .throws := by
  rw [atI]
  split
  · simp
  · split <;> simp

omit [LinearOrder K] [IsStrictOrderedRing K] [Field K] in
theorem setI_ne_throws {α : Type} (l : List α) (i : Int) (v : α) : setI l i v ≠ .throws := by
  rw [setI]
  split <;> simp

omit [LinearOrder K] [IsStrictOrderedRing K] in
theorem remCompute_ne_throws {p : Nat} {W : List K} {Q : List (Vec4 K)} {u : K} {t : Nat} : ∀ (fuel : Nat) (s : RemState K), remCompute p W Q u t fuel s ≠ .throws := by
  intro fuel
  induction fuel with
  | zero => intro s; simp [remCompute]
  | succ fuel ih =>
    intro s
    rw [remCompute]
    refine ite_ne_throws (fun _ => ?_) (fun _ => by simp)
    refine bind_ne_throws (bind_ne_throws (atI_ne_throws _ _) fun _ _ => bind_ne_throws (atI_ne_throws _ _) fun _ _ => by simp) fun _ _ => ?_
    refine bind_ne_throws (bind_ne_throws (atI_ne_throws _ _) fun _ _ => bind_ne_throws (atI_ne_throws _ _) fun _ _ => by simp) fun _ _ => ?_
    refine bind_ne_throws (atI_ne_throws _ _) fun _ _ => bind_ne_throws (atI_ne_throws _ _) fun _ _ => bind_ne_throws (setI_ne_throws _ _ _) fun _ _ => ?_
    exact bind_ne_throws (atI_ne_throws _ _) fun _ _ => bind_ne_throws (atI_ne_throws _ _) fun _ _ => bind_ne_throws (setI_ne_throws _ _ _) fun _ _ => ih _

omit [LinearOrder K] [IsStrictOrderedRing K] [Field K] in
theorem remCopy_ne_throws {first : Int} {t : Nat} {temp : List (Vec4 K)} : ∀ (fuel : Nat) (i j : Int) (new : List (Vec4 K)), remCopy first t temp fuel i j new ≠ .throws := by
  intro fuel
  induction fuel with
  | zero => intro i j new; simp [remCopy]
  | succ fuel ih =>
    intro i j new
    rw [remCopy]
    refine ite_ne_throws (fun _ => ?_) (fun _ => by simp)
    exact bind_ne_throws (atI_ne_throws _ _) fun _ _ => bind_ne_throws (setI_ne_throws _ _ _) fun _ _ => bind_ne_throws (atI_ne_throws _ _) fun _ _ =>
      bind_ne_throws (setI_ne_throws _ _ _) fun _ _ => ih _ _ _

omit [IsStrictOrderedRing K] in
theorem remFlag_ne_throws {p : Nat} {W : List K} {Q : List (Vec4 K)} {u tol : K} {t : Nat} (s : RemState K) : remFlag p W Q u tol t s ≠ .throws := by
  rw [remFlag]
  refine ite_ne_throws (fun _ => ?_) fun _ => ?_
  · exact bind_ne_throws (atI_ne_throws _ _) fun _ _ => bind_ne_throws (atI_ne_throws _ _) fun _ _ => by simp
  · refine bind_ne_throws (bind_ne_throws (atI_ne_throws _ _) fun _ _ => bind_ne_throws (atI_ne_throws _ _) fun _ _ => by simp) fun _ _ => ?_
    exact bind_ne_throws (atI_ne_throws _ _) fun _ _ => bind_ne_throws (atI_ne_throws _ _) fun _ _ => bind_ne_throws (atI_ne_throws _ _) fun _ _ => by simp

omit [IsStrictOrderedRing K] in
theorem remRounds_ne_throws {p : Nat} {W : List K} {Q : List (Vec4 K)} {u tol : K} : ∀ (count t : Nat) (first last : Int) (temp new : List (Vec4 K)),
    remRounds p W Q u tol count t first last temp new ≠ .throws := by
  intro count
  induction count with
  | zero => intro t first last temp new; simp [remRounds]
  | succ count ih =>
    intro t first last temp new
    rw [remRounds]
    refine bind_ne_throws (atI_ne_throws _ _) fun _ _ => bind_ne_throws (setI_ne_throws _ _ _) fun _ _ => bind_ne_throws (atI_ne_throws _ _) fun _ _ =>
      bind_ne_throws (setI_ne_throws _ _ _) fun _ _ => bind_ne_throws (remCompute_ne_throws _ _) fun _ _ => bind_ne_throws (remFlag_ne_throws _) fun _ _ => ?_
    refine ite_ne_throws (fun _ => bind_ne_throws (remCopy_ne_throws _ _ _ _) fun _ _ => ih _ _ _ _ _) fun _ => ?_
    rw [Res.ok_bind]
    exact ih _ _ _ _ _

theorem remRounds_room {p : Nat} {W : List K} {Q : List (Vec4 K)} {u tol : K} : ∀ (count t : Nat) (first last : Int) (temp new new' : List (Vec4 K)),
    remRounds p W Q u tol count t first last temp new = .ok new' → count = 0 ∨ (count : Int) ≤ first := by
  intro count
  induction count with
  | zero => intros; exact .inl rfl
  | succ count ih =>
    intro t first last temp new new' h
    rw [remRounds] at h
    obtain ⟨_, h0, h⟩ := Csx.ok_of_bind h
    obtain ⟨_, -, h⟩ := Csx.ok_of_bind h
    obtain ⟨_, -, h⟩ := Csx.ok_of_bind h
    obtain ⟨_, -, h⟩ := Csx.ok_of_bind h
    obtain ⟨s, -, h⟩ := Csx.ok_of_bind h
    obtain ⟨flag, -, h⟩ := Csx.ok_of_bind h
    have hf : 0 ≤ first - 1 := by
      by_contra hc
      rw [atI, if_pos (by omega)] at h0
      simp at h0
    right
    cases flag with
    | false =>
      simp only [Bool.false_eq_true, if_false, Res.ok_bind] at h
      have := ih _ _ _ _ _ _ h
      push_cast; omega
    | true =>
      simp only [if_true] at h
      obtain ⟨n1, h1, h⟩ := Csx.ok_of_bind h
      have := ih _ _ _ _ _ _ h
      push_cast; omega

/-- C97: the resize to a negative size, which would throw, is never reached: with more removals than there is room for, the points before the first one
are read earlier. A call that returns has removed at most `n - 1 - p` of the `n` points, or none. -/
theorem C97_never_throws {p : Nat} {W : List K} {Q : List (Vec4 K)} {u tol : K} {num : Nat} :
    knotRemoval p W Q u tol num ≠ .throws ∧ (∀ R, knotRemoval p W Q u tol num = .ok R → num = 0 ∨ num + p + 1 ≤ Q.length) := by
  have key : ∀ new, remRounds p W Q u tol num 0 (findSpan (Q.length - 1) p u (ix W) - p) (findSpan (Q.length - 1) p u (ix W) - findMultiplicity u W)
        (List.replicate (2 * p + 1) ⟨0, 0, 0, 0⟩) Q = .ok new → Q ≠ [] → num = 0 ∨ num + p + 1 ≤ Q.length := by
    intro new hr hq
    have hq : 0 < Q.length := List.length_pos_iff.2 hq
    rcases remRounds_room _ _ _ _ _ _ _ hr with h0 | h1
    · exact .inl h0
    · by_cases hp : p ≤ Q.length - 1
      · have := findSpan_le hp u (ix W)
        right; omega
      · have hs : findSpan (Q.length - 1) p u (ix W) = p := by
          rw [findSpan, scanSpan]
          rw [if_neg (by omega)]
          omega
        rw [hs] at h1
        left; omega
  rw [knotRemoval]
  split
  · simp
  · rename_i hq
    have hq : Q ≠ [] := by simpa using hq
    dsimp only
    rcases hr : remRounds p W Q u tol num 0 (findSpan (Q.length - 1) p u (ix W) - p) (findSpan (Q.length - 1) p u (ix W) - findMultiplicity u W)
        (List.replicate (2 * p + 1) ⟨0, 0, 0, 0⟩) Q with x | _ | _
    · have := key x hr hq
      have hl := (remRounds_ok _ _ _ _ _ _ _ hr).1
      rw [Res.ok_bind, if_neg (by omega)]
      exact ⟨by simp, fun R _ => this⟩
    · exact absurd hr (remRounds_ne_throws _ _ _ _ _ _)
    · rw [Res.ub_bind]; simp

example : ∃ R, knotRemoval 2 (knotInsertionKv remDemoKnots (1/2) 2 1) [⟨0, 0, 0, 1⟩, ⟨1/2, 3/2, 0, 1⟩, ⟨5/4, 7/2, 0, 1⟩, ⟨2, 5, 0, 1⟩, ⟨3, 7, 0, 1⟩] (1/2 : ℚ) 0 1 = .ok R :=
  ⟨[⟨0, 0, 0, 1⟩, ⟨1, 3, 0, 1⟩, ⟨1, 3, 0, 1⟩, ⟨2, 5, 0, 1⟩], by decide +kernel⟩

omit [IsStrictOrderedRing K] in
/-- C97: on a polyline (degree 1), removing a value that is not a knot writes past the scratch points. -/
theorem C97_no_knot_undefined {W : List K} {Q : List (Vec4 K)} {u tol : K} {num : Nat} (h0 : findMultiplicity u W = 0) (hn : 1 ≤ num) :
    knotRemoval 1 W Q u tol num = .ub := by
  obtain ⟨num, rfl⟩ : ∃ n, num = n + 1 := ⟨num - 1, by omega⟩
  rw [knotRemoval]
  split
  · rfl
  · dsimp only
    rw [h0, remRounds]
    generalize findSpan (Q.length - 1) 1 u (ix W) = r
    rcases e0 : atI Q ((r : Int) - (1 : Nat) - 1) with p0 | _ | _
    · rw [Res.ok_bind, setI, if_neg (by simp), Res.ok_bind]
      rcases e1 : atI Q ((r : Int) - (0 : Nat) + 1) with p1 | _ | _
      · rw [Res.ok_bind, setI, if_pos (by simp)]
        rfl
      · exact absurd e1 (atI_ne_throws _ _)
      · rfl
    · exact absurd e0 (atI_ne_throws _ _)
    · rfl

example : findMultiplicity (1/2 : ℚ) [0, 0, 1, 2, 2] = 0 ∧ knotRemoval 1 [0, 0, 1, 2, 2] [⟨0, 0, 0, 1⟩, ⟨1, 0, 0, 1⟩, ⟨1, 1, 0, 1⟩] (3/2 : ℚ) 0 1 = .ub := by
  decide +kernel

/-- C97: the tolerance test is the comparison of the Euclidean distance of all four coordinates with the tolerance. -/
theorem C97_tolerance {sqrt : K → K} (h0 : sqrt 0 = 0) (hs : Newton.IsSqrt sqrt) (tol : K) (a b : Vec4 K) :
    within tol a b = true ↔ sqrt ((a.x - b.x) * (a.x - b.x) + (a.y - b.y) * (a.y - b.y) + (a.z - b.z) * (a.z - b.z) + (a.w - b.w) * (a.w - b.w)) ≤ tol := by
  have e : (a.x - b.x) ^ 2 + (a.y - b.y) ^ 2 + (a.z - b.z) ^ 2 + (a.w - b.w) ^ 2 =
      (a.x - b.x) * (a.x - b.x) + (a.y - b.y) * (a.y - b.y) + (a.z - b.z) * (a.z - b.z) + (a.w - b.w) * (a.w - b.w) := by ring
  have hd : 0 ≤ (a.x - b.x) * (a.x - b.x) + (a.y - b.y) * (a.y - b.y) + (a.z - b.z) * (a.z - b.z) + (a.w - b.w) * (a.w - b.w) :=
    add_nonneg (add_nonneg (add_nonneg (mul_self_nonneg _) (mul_self_nonneg _)) (mul_self_nonneg _)) (mul_self_nonneg _)
  rw [within, decide_eq_true_eq, e]
  generalize (a.x - b.x) * (a.x - b.x) + (a.y - b.y) * (a.y - b.y) + (a.z - b.z) * (a.z - b.z) + (a.w - b.w) * (a.w - b.w) = D at hd
  rcases hd.eq_or_lt with rfl | hd
  · rw [h0]
    exact ⟨fun h => h.1, fun h => ⟨h, sq_nonneg _⟩⟩
  · obtain ⟨h1, h2⟩ := hs D hd
    constructor
    · rintro ⟨h3, h4⟩
      by_contra hc
      push Not at hc
      nlinarith
    · intro h
      exact ⟨h1.le.trans h, by nlinarith⟩

/-- The hypotheses of `C97_after_insertion_partial` can be met, with a middle point (degree 3) and without one. -/
example : ∃ Q R, knotInsertion 2 (ix remDemoKnots) remDemo (1/2) 1 0 2 (fun _ => 0) = .ok Q ∧
    knotRemoval 2 (knotInsertionKv remDemoKnots (1/2) 2 1) Q (1/2) 0 1 = .ok R ∧ ix R 1 = ix remDemo 1 := by
  have hQ : knotInsertion 2 (ix remDemoKnots) remDemo (1/2) 1 0 2 (fun _ => 0) =
      .ok [⟨0, 0, 0, 1⟩, ⟨1/2, 3/2, 0, 1⟩, ⟨5/4, 7/2, 0, 1⟩, ⟨2, 5, 0, 1⟩, ⟨3, 7, 0, 1⟩] := by decide +kernel
  obtain ⟨R, h1, h2, h3⟩ := C97_after_insertion_partial (U := remDemoKnots) (P := remDemo) (p := 2) (u := 1/2) (tol := 0) (s := 0) (k := 2) (by decide)
    (by unfold SortedKnots; decide +kernel) (by decide) (by decide +kernel) (by decide +kernel) (by unfold ClearOf; decide +kernel) le_rfl (by decide +kernel)
    (by decide) (by decide +kernel) hQ
  exact ⟨_, R, hQ, h1, by rw [h3 1 (by decide), if_pos (by decide)]⟩

/-- Degree 3, where the middle point of the inserted curve stays. -/
example : knotRemoval (K := ℚ) 3 (knotInsertionKv [0, 0, 0, 0, 1, 2, 2, 2, 2] (1/2) 3 1)
    [⟨0, 0, 0, 1⟩, ⟨1/2, 1, 0, 1⟩, ⟨5/4, 9/4, 0, 1⟩, ⟨9/4, 13/4, 0, 1⟩, ⟨3, 4, 0, 1⟩, ⟨4, 4, 0, 1⟩] (1/2) 0 1 =
    .ok [⟨0, 0, 0, 1⟩, ⟨1, 2, 0, 1⟩, ⟨5/4, 9/4, 0, 1⟩, ⟨2, 3, 0, 1⟩, ⟨3, 4, 0, 1⟩] := by decide +kernel

/-- The hypotheses of `C97_shape_partial` can be met with two removals. -/
example : ∃ R, knotRemoval (K := ℚ) 2 [0, 0, 0, 1, 2, 2, 3, 3, 3] [⟨0, 0, 0, 1⟩, ⟨1, 2, 0, 1⟩, ⟨2, 3, 0, 1⟩, ⟨3, 4, 0, 1⟩, ⟨4, 4, 0, 1⟩, ⟨5, 4, 0, 1⟩] 2 1 2 = .ok R :=
  ⟨[⟨0, 0, 0, 1⟩, ⟨1, 2, 0, 1⟩, ⟨5/2, 7/2, 0, 1⟩, ⟨3, 4, 0, 1⟩], by decide +kernel⟩

/-- The tolerance: the two estimates lie √17 apart, so the points change with tolerance 5 and stay with tolerance 4. One of them is dropped in both cases. -/
example : knotRemoval (K := ℚ) 2 [0, 0, 0, 1, 2, 2, 2] [⟨0, 0, 0, 1⟩, ⟨1, 3, 0, 1⟩, ⟨2, 5, 0, 1⟩, ⟨3, 0, 0, 1⟩] 1 5 1 =
      .ok [⟨0, 0, 0, 1⟩, ⟨2, 6, 0, 1⟩, ⟨1, 10, 0, 1⟩] ∧
    knotRemoval (K := ℚ) 2 [0, 0, 0, 1, 2, 2, 2] [⟨0, 0, 0, 1⟩, ⟨1, 3, 0, 1⟩, ⟨2, 5, 0, 1⟩, ⟨3, 0, 0, 1⟩] 1 4 1 =
      .ok [⟨0, 0, 0, 1⟩, ⟨1, 3, 0, 1⟩, ⟨2, 5, 0, 1⟩] := by decide +kernel

/-- The hypotheses of `C97_first_span_undefined` can be met. -/
example : knotRemoval (K := ℚ) 2 remDemoKnots remDemo (1/2) 0 1 = .ub := C97_first_span_undefined le_rfl (by decide +kernel)

end Cmm.Nurbs
