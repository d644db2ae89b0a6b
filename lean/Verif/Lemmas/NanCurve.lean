import Verif.Spec.NanCurve
import Verif.Lemmas.Nan
import Verif.Lemmas.Knots
import Verif.Model.Surface
/-! Lemmas on curves whose numbers may be NaN. -/
namespace Cmm.Nurbs
variable {K : Type}

section arith
variable [Arith K]

@[simp] theorem num_add (a b : K) : (Dbl.num a + Dbl.num b : Dbl K) = .num (a + b) := rfl
@[simp] theorem num_sub (a b : K) : (Dbl.num a - Dbl.num b : Dbl K) = .num (a - b) := rfl
@[simp] theorem num_mul (a b : K) : (Dbl.num a * Dbl.num b : Dbl K) = .num (a * b) := rfl
@[simp] theorem num_div (a b : K) : (Dbl.num a / Dbl.num b : Dbl K) = .num (a / b) := rfl
@[simp] theorem nan_add (a : Dbl K) : (Dbl.nan + a : Dbl K) = .nan := by cases a <;> rfl
@[simp] theorem add_nan (a : Dbl K) : (a + Dbl.nan : Dbl K) = .nan := by cases a <;> rfl
@[simp] theorem nan_sub (a : Dbl K) : (Dbl.nan - a : Dbl K) = .nan := by cases a <;> rfl
@[simp] theorem sub_nan (a : Dbl K) : (a - Dbl.nan : Dbl K) = .nan := by cases a <;> rfl
@[simp] theorem nan_mul (a : Dbl K) : (Dbl.nan * a : Dbl K) = .nan := by cases a <;> rfl
@[simp] theorem mul_nan (a : Dbl K) : (a * Dbl.nan : Dbl K) = .nan := by cases a <;> rfl
@[simp] theorem nan_div (a : Dbl K) : (Dbl.nan / a : Dbl K) = .nan := by cases a <;> rfl
@[simp] theorem div_nan (a : Dbl K) : (a / Dbl.nan : Dbl K) = .nan := by cases a <;> rfl
@[simp] theorem neg_nan : (-Dbl.nan : Dbl K) = .nan := rfl
theorem dbl_zero : (0 : Dbl K) = .num 0 := rfl
theorem dbl_one : (1 : Dbl K) = .num 1 := rfl

theorem add_eq_nan (a b : Dbl K) : a + b = .nan ↔ a = .nan ∨ b = .nan := by cases a <;> cases b <;> simp
theorem mul_eq_nan (a b : Dbl K) : a * b = .nan ↔ a = .nan ∨ b = .nan := by cases a <;> cases b <;> simp
theorem div_eq_nan (a b : Dbl K) : a / b = .nan ↔ a = .nan ∨ b = .nan := by cases a <;> cases b <;> simp

theorem basisInner_num (U : Nat → K) (V : Nat → Dbl K) (i : Nat) (t : K) (j : Nat) (hV : ∀ x, i + 1 ≤ x + j → x ≤ i + j → V x = .num (U x)) (hij : j ≤ i) :
    ∀ (ns : List K) (r : Nat) (saved : K), r + ns.length = j →
      basisInner V i (.num t) j r (.num saved) (ns.map .num) = (basisInner U i t j r saved ns).map .num := by
  intro ns
  induction ns with
  | nil => intro r saved _; rfl
  | cons n ns ih =>
    intro r saved hr
    simp only [List.length_cons] at hr
    simp only [List.map_cons, basisInner]
    rw [hV (i + (r + 1)) (by omega) (by omega), hV (i + 1 - (j - r)) (by omega) (by omega)]
    simp only [num_sub, num_add, num_div, num_mul]
    rw [ih (r + 1) _ (by omega)]

theorem basisInner_len (U : Nat → K) (i : Nat) (u : K) (j : Nat) : ∀ (ns : List K) (r : Nat) (saved : K),
    (basisInner U i u j r saved ns).length = ns.length + 1 := by
  intro ns
  induction ns with
  | nil => intros; rfl
  | cons n ns ih => intro r saved; simp only [basisInner, List.length_cons, ih]

theorem basisFuns_len (i : Nat) (u : K) (U : Nat → K) (p : Nat) : (basisFuns i u U p).length = p + 1 := by
  induction p with
  | zero => rfl
  | succ p ih => rw [basisFuns, basisInner_len, ih]

theorem basisFuns_num (U : Nat → K) (V : Nat → Dbl K) (i : Nat) (t : K) (p : Nat) (hp : p ≤ i)
    (hV : ∀ x, i + 1 ≤ x + p → x ≤ i + p → V x = .num (U x)) : basisFuns i (.num t) V p = (basisFuns i t U p).map .num := by
  induction p with
  | zero => rfl
  | succ p ih =>
    rw [basisFuns, basisFuns, ih (by omega) (fun x h1 h2 => hV x (by omega) (by omega)), dbl_zero,
      basisInner_num U V i t (p + 1) hV hp _ 0 0 (by rw [basisFuns_len]; omega)]

/-- Once all values are NaN they stay so. -/
theorem basisInner_nan (V : Nat → Dbl K) (i : Nat) (u : Dbl K) (j : Nat) : ∀ (ns : List (Dbl K)) (r : Nat) (saved : Dbl K),
    (∀ x ∈ ns, x = .nan) → ns ≠ [] → ∀ x ∈ basisInner V i u j r saved ns, x = .nan := by
  intro ns
  induction ns with
  | nil => intro _ _ _ h; exact absurd rfl h
  | cons n ns ih =>
    intro r saved hn _ x hx
    have h0 := hn n (List.mem_cons_self ..)
    subst h0
    simp only [basisInner, nan_div, mul_nan, add_nan, List.mem_cons] at hx
    rcases hx with rfl | hx
    · rfl
    · cases ns with
      | nil => simpa [basisInner] using hx
      | cons n' ns' => exact ih (r + 1) _ (fun y hy => hn y (List.mem_cons_of_mem _ hy)) (by simp) x hx

/-- A NaN parameter, or a NaN as the first knot after the span, makes all basis values NaN. -/
theorem basisFuns_nan (V : Nat → Dbl K) (i : Nat) (u : Dbl K) (h : u = .nan ∨ V (i + 1) = .nan) (p : Nat) (hp : 1 ≤ p) :
    ∀ x ∈ basisFuns i u V p, x = .nan := by
  obtain ⟨p, rfl⟩ : ∃ q, p = q + 1 := ⟨p - 1, by omega⟩
  clear hp
  induction p with
  | zero =>
    intro x hx
    have e : V (i + 1) - u = .nan := by rcases h with h | h <;> simp [h]
    simp only [basisFuns, basisInner, Nat.zero_add, e, nan_add, div_nan, mul_nan, add_nan, List.mem_cons, List.not_mem_nil, or_false, or_self] at hx
    exact hx
  | succ p ih =>
    rw [basisFuns]
    exact basisInner_nan _ _ _ _ _ _ _ ih (by rw [ne_eq, ← List.length_eq_zero_iff, basisFuns_len]; omega)

theorem curveAcc_num (P : Nat → Vec4 K) (Q : Nat → Vec4 (Dbl K)) : ∀ (ns : List K) (k : Nat) (sw : K) (res : Vec3 K),
    (∀ i < ns.length, Q (k + i) = (P (k + i)).dbl) →
    curveAcc Q (ns.map .num) k (.num sw) res.dbl = (.num (curveAcc P ns k sw res).1, (curveAcc P ns k sw res).2.dbl) := by
  intro ns
  induction ns with
  | nil => intros; rfl
  | cons n ns ih =>
    intro k sw res h
    have h0 := h 0 (by simp)
    simp only [Nat.add_zero] at h0
    have hr := ih (k + 1) (sw + n * (P k).w) ⟨res.x + n * (P k).w * (P k).x, res.y + n * (P k).w * (P k).y, res.z + n * (P k).w * (P k).z⟩
      (fun i hi => by have := h (i + 1) (by simpa using hi); rwa [← Nat.add_assoc, Nat.add_right_comm] at this)
    simp only [List.map_cons, curveAcc, h0, Vec4.dbl, Vec3.dbl, num_mul, num_add] at hr ⊢
    exact hr

/-- Which sums are NaN: those with a NaN operand. -/
theorem curveAcc_nan (Q : Nat → Vec4 (Dbl K)) : ∀ (ns : List K) (k : Nat) (sw : Dbl K) (res : Vec3 (Dbl K)),
    let a := curveAcc Q (ns.map .num) k sw res
    (a.1 = .nan ↔ sw = .nan ∨ ∃ i < ns.length, (Q (k + i)).w = .nan) ∧
    (a.2.x = .nan ↔ res.x = .nan ∨ ∃ i < ns.length, (Q (k + i)).w = .nan ∨ (Q (k + i)).x = .nan) ∧
    (a.2.y = .nan ↔ res.y = .nan ∨ ∃ i < ns.length, (Q (k + i)).w = .nan ∨ (Q (k + i)).y = .nan) ∧
    (a.2.z = .nan ↔ res.z = .nan ∨ ∃ i < ns.length, (Q (k + i)).w = .nan ∨ (Q (k + i)).z = .nan) := by
  intro ns
  have key : ∀ (F : Nat → Prop) (k m : Nat), (∃ i < m + 1, F (k + i)) ↔ F k ∨ ∃ i < m, F (k + 1 + i) := by
    intro F k m
    constructor
    · rintro ⟨i, hi, hF⟩
      cases i with
      | zero => exact .inl hF
      | succ i => exact .inr ⟨i, by omega, by rwa [Nat.add_right_comm]⟩
    · rintro (h | ⟨i, hi, hF⟩)
      · exact ⟨0, by omega, h⟩
      · exact ⟨i + 1, by omega, by rwa [← Nat.add_assoc, Nat.add_right_comm]⟩
  induction ns with
  | nil => intro k sw res; simp [curveAcc]
  | cons n ns ih =>
    intro k sw res
    simp only [List.map_cons, curveAcc, List.length_cons]
    obtain ⟨h1, h2, h3, h4⟩ := ih (k + 1) (sw + .num n * (Q k).w)
      ⟨res.x + .num n * (Q k).w * (Q k).x, res.y + .num n * (Q k).w * (Q k).y, res.z + .num n * (Q k).w * (Q k).z⟩
    simp only [add_eq_nan, mul_eq_nan, reduceCtorEq, false_or] at h1 h2 h3 h4
    rw [h1, h2, h3, h4, key (fun i => (Q i).w = .nan), key (fun i => (Q i).w = .nan ∨ (Q i).x = .nan),
      key (fun i => (Q i).w = .nan ∨ (Q i).y = .nan), key (fun i => (Q i).w = .nan ∨ (Q i).z = .nan)]
    simp only [or_assoc, and_true]

/-- Only NaN basis values: only NaN sums. -/
theorem curveAcc_all (Q : Nat → Vec4 (Dbl K)) : ∀ (ns : List (Dbl K)) (k : Nat) (sw : Dbl K) (res : Vec3 (Dbl K)), (∀ x ∈ ns, x = .nan) →
    (ns = [] → res = allNan) → (curveAcc Q ns k sw res).2 = allNan := by
  intro ns
  induction ns with
  | nil => intro k sw res _ h; exact h rfl
  | cons n ns ih =>
    intro k sw res h _
    have h0 := h n (List.mem_cons_self ..)
    subst h0
    simp only [curveAcc, nan_mul, add_nan]
    exact ih _ _ _ (fun x hx => h x (List.mem_cons_of_mem _ hx)) (fun _ => rfl)

/-- The result of `curve_point` is NaN in all coordinates for a NaN parameter or a NaN knot right after the span. -/
theorem curvePointAt_nan (V : Nat → Dbl K) (Q : Nat → Vec4 (Dbl K)) (k p : Nat) (u : Dbl K) (hp : 1 ≤ p) (h : u = .nan ∨ V (k + 1) = .nan) :
    curvePointAt k p V Q u = allNan := by
  unfold curvePointAt
  simp only
  rw [curveAcc_all Q _ _ _ _ (basisFuns_nan V k u h p hp) (fun e => by
    have := basisFuns_len k u V p
    rw [e] at this
    simp at this)]
  simp [allNan, Vec3.sdiv]

end arith

section span
variable [LE K] [DecidableLE K]

theorem scanSpan_to (U : Nat → K) (u : K) (stop m : Nat) : ∀ d s, s + d = m → m ≤ stop → (∀ j, s ≤ j → j < m → U j ≤ u) → (m < stop → ¬ U m ≤ u) →
    scanSpan U u stop s = m := by
  intro d
  induction d with
  | zero =>
    intro s hs hm _ h2
    rw [scanSpan, if_neg]
    · omega
    · rintro ⟨a, b⟩
      have : s = m := by omega
      subst this
      exact h2 a b
  | succ d ih =>
    intro s hs hm h1 h2
    rw [scanSpan, if_pos ⟨by omega, h1 s (le_refl _) (by omega)⟩]
    exact ih (s + 1) (by omega) hm (fun j hj => h1 j (by omega)) h2

theorem scanSpan_between (U : Nat → K) (u : K) (stop s : Nat) (h : s ≤ stop) : s ≤ scanSpan U u stop s ∧ scanSpan U u stop s ≤ stop := by
  induction s using scanSpan.induct U u stop with
  | case1 s hs ih =>
    rw [scanSpan, if_pos hs]
    have := ih (by omega)
    omega
  | case2 s hs =>
    rw [scanSpan, if_neg hs]
    omega

theorem findSpan_between (n p : Nat) (u : K) (U : Nat → K) (h : p ≤ n) : p ≤ findSpan n p u U ∧ findSpan n p u U ≤ n := by
  have := scanSpan_between U u (n + 1) (p + 1) (by omega)
  rw [findSpan]
  omega

/-- A NaN parameter, or a NaN as the first knot that is looked at, ends the search at the first span. -/
theorem findSpan_nan (n p : Nat) (u : Dbl K) (V : Nat → Dbl K) (h : u = .nan ∨ V (p + 1) = .nan) : findSpan n p u V = p := by
  have e : ¬ V (p + 1) ≤ u := by rcases h with h | h <;> simp [h]
  rw [findSpan, scanSpan, if_neg (fun x => e x.2)]
  omega
end span

/-- The span found among doubles of which those looked at are numbers. -/
theorem findSpan_num [LinearOrder K] (n p : Nat) (t : K) (U : Nat → K) (V : Nat → Dbl K) (hp : p ≤ n)
    (h : ∀ j, p + 1 ≤ j → j ≤ findSpan n p t U + 1 → j ≤ n → V j = .num (U j)) : findSpan n p (.num t) V = findSpan n p t U := by
  obtain ⟨s1, s2, -, s3, s4⟩ := scanSpan_spec U t (n + 1) (p + 1)
  have e : findSpan n p t U + 1 = scanSpan U t (n + 1) (p + 1) := by rw [findSpan]; omega
  rw [e] at h
  have : scanSpan V (.num t) (n + 1) (p + 1) = scanSpan U t (n + 1) (p + 1) := by
    refine scanSpan_to V _ _ _ (scanSpan U t (n + 1) (p + 1) - (p + 1)) _ (by omega) (by omega) ?_ ?_
    · intro j h1 h2
      rw [h j h1 h2.le (by omega)]
      exact s3 j h1 h2
    · intro hlt
      rw [h _ s1 (le_refl _) (by omega)]
      exact not_le.2 (s4 hlt)
  rw [findSpan, this, findSpan]

theorem acc4_all [Arith K] (g : Nat → Vec4 (Dbl K)) (ns : List (Dbl K)) (hne : ns ≠ []) (h : (∀ x ∈ ns, x = .nan) ∨ ∀ k, g k = ⟨.nan, .nan, .nan, .nan⟩) :
    ∀ k a, acc4 g ns k a = ⟨.nan, .nan, .nan, .nan⟩ := by
  induction ns with
  | nil => exact absurd rfl hne
  | cons n ns ih =>
    intro k a
    have e : a + (g k).smul n = ⟨.nan, .nan, .nan, .nan⟩ := by
      show (⟨a.x + (g k).x * n, a.y + (g k).y * n, a.z + (g k).z * n, a.w + (g k).w * n⟩ : Vec4 (Dbl K)) = _
      rcases h with h | h
      · rw [h n (List.mem_cons_self ..)]; simp
      · rw [h]; simp
    rw [acc4, e]
    cases ns with
    | nil => rfl
    | cons n' ns' => exact ih (by simp) (h.imp (fun h x hx => h x (List.mem_cons_of_mem _ hx)) id) _ _

end Cmm.Nurbs
