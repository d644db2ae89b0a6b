import Verif.Lemmas.Knots
import Verif.Spec.BSpline
/-! Polar forms (blossoms) of B-spline pieces: the tool behind knot insertion, splitting and evaluation. -/
namespace Cmm.Nurbs
variable {K : Type}

section dot
variable [Field K]

/-- Weighted sum of `g k, g (k+1), …` with the weights of the list. -/
def dotL : List K → (Nat → K) → Nat → K
  | [], _, _ => 0
  | a :: as, g, k => a * g k + dotL as g (k + 1)

theorem dotL_congr (l : List K) {g h : Nat → K} {k : Nat} (H : ∀ r, r < l.length → g (k + r) = h (k + r)) :
    dotL l g k = dotL l h k := by
  induction l generalizing k with
  | nil => rfl
  | cons a l ih =>
    have h0 := H 0 (by simp)
    rw [Nat.add_zero] at h0
    rw [dotL, dotL, h0, ih (fun r hr => by
      have := H (r + 1) (by simpa using hr)
      rwa [← Nat.add_assoc, Nat.add_right_comm] at this)]

theorem dotL_shift (l : List K) (g : Nat → K) (k : Nat) : dotL l g k = dotL l (fun r => g (k + r)) 0 := by
  suffices h : ∀ (l : List K) (a b : Nat), dotL l (fun r => g (a + r)) b = dotL l g (a + b) from (h l k 0).symm ▸ rfl
  intro l
  induction l with
  | nil => intros; rfl
  | cons x l ih => intro a b; rw [dotL, dotL, ih]; rfl

theorem dotL_const (l : List K) (c : K) (k : Nat) : dotL l (fun _ => c) k = l.sum * c := by
  induction l generalizing k with
  | nil => simp [dotL]
  | cons a l ih => rw [dotL, ih]; simp; ring

theorem dotL_add (l : List K) (g h : Nat → K) (k : Nat) :
    dotL l (fun r => g r + h r) k = dotL l g k + dotL l h k := by
  induction l generalizing k with
  | nil => simp [dotL]
  | cons a l ih => rw [dotL, dotL, dotL, ih]; ring

theorem dotL_mul (l : List K) (g : Nat → K) (c : K) (k : Nat) : dotL l (fun r => c * g r) k = c * dotL l g k := by
  induction l generalizing k with
  | nil => simp [dotL]
  | cons a l ih => rw [dotL, dotL, ih]; ring

theorem basisInner_length (U : Nat → K) (i : Nat) (u : K) (j r : Nat) (saved : K) (ns : List K) :
    (basisInner U i u j r saved ns).length = ns.length + 1 := by
  induction ns generalizing r saved with
  | nil => rfl
  | cons n ns ih => simp [basisInner, ih]

theorem basisFuns_length (i : Nat) (u : K) (U : Nat → K) (p : Nat) : (basisFuns i u U p).length = p + 1 := by
  induction p with
  | zero => rfl
  | succ p ih => rw [basisFuns, basisInner_length, ih]

theorem dotL_basisInner (U : Nat → K) (i : Nat) (u : K) (j r : Nat) (saved : K) (ns : List K) (g : Nat → K) :
    dotL (basisInner U i u j r saved ns) g r = saved * g r +
      dotL ns (fun r' => ((U (i + (r' + 1)) - u) * g r' + (u - U (i + 1 - (j - r'))) * g (r' + 1)) /
        ((U (i + (r' + 1)) - u) + (u - U (i + 1 - (j - r'))))) r := by
  induction ns generalizing r saved with
  | nil => simp [basisInner, dotL]
  | cons n ns ih =>
    rw [basisInner, dotL, ih, dotL]
    ring

end dot

/-! ### Segments of a sequence -/

/-- `U a, …, U (a + len - 1)`. -/
def seg (U : Nat → K) (a len : Nat) : List K := (List.range len).map fun r => U (a + r)

@[simp] theorem seg_length (U : Nat → K) (a len : Nat) : (seg U a len).length = len := by simp [seg]

@[simp] theorem seg_zero (U : Nat → K) (a : Nat) : seg U a 0 = [] := rfl

theorem seg_succ (U : Nat → K) (a len : Nat) : seg U a (len + 1) = U a :: seg U (a + 1) len := by
  unfold seg
  rw [List.range_succ_eq_map, List.map_cons, List.map_map]
  simp only [Nat.add_zero, List.cons.injEq, true_and]
  apply List.map_congr_left
  intro r _
  simp only [Function.comp]
  congr 1; omega

theorem seg_append (U : Nat → K) (a l1 l2 : Nat) : seg U a (l1 + l2) = seg U a l1 ++ seg U (a + l1) l2 := by
  induction l1 generalizing a with
  | zero => simp
  | succ l1 ih =>
    rw [Nat.add_right_comm, seg_succ, seg_succ, ih]
    simp only [List.cons_append]
    congr 3; omega

theorem seg_succ_last (U : Nat → K) (a len : Nat) : seg U a (len + 1) = seg U a len ++ [U (a + len)] := by
  rw [seg_append, seg_succ, seg_zero]

theorem seg_congr {U V : Nat → K} {a b len : Nat} (h : ∀ r, r < len → U (a + r) = V (b + r)) :
    seg U a len = seg V b len := by
  unfold seg
  apply List.map_congr_left
  intro r hr
  exact h r (List.mem_range.mp hr)

theorem seg_const {U : Nat → K} {a len : Nat} {u : K} (h : ∀ r, r < len → U (a + r) = u) :
    seg U a len = List.replicate len u := by
  apply List.eq_replicate_iff.mpr
  refine ⟨by simp, fun b hb => ?_⟩
  simp only [seg, List.mem_map, List.mem_range] at hb
  obtain ⟨r, hr, rfl⟩ := hb
  exact h r hr

section blossom
variable [Field K]

/-- A symmetric function of `p` arguments that is affine in each. -/
structure IsBlossom (p : Nat) (f : List K → K) : Prop where
  perm : ∀ l₁ l₂ : List K, l₁.Perm l₂ → l₁.length = p → f l₁ = f l₂
  affine : ∀ (a b c : K) (us : List K), us.length + 1 = p →
    f (((1 - c) * a + c * b) :: us) = (1 - c) * f (a :: us) + c * f (b :: us)

/-- Affine interpolation in the head argument. -/
theorem IsBlossom.interp {p : Nat} {f : List K → K} (hf : IsBlossom p f) {a b t : K} {us : List K}
    (hl : us.length + 1 = p) (hab : b - a ≠ 0) :
    f (t :: us) = ((b - t) * f (a :: us) + (t - a) * f (b :: us)) / (b - a) := by
  have h := hf.affine a b ((t - a) / (b - a)) us hl
  have e : (1 - (t - a) / (b - a)) * a + (t - a) / (b - a) * b = t := by field_simp; ring
  rw [e] at h
  rw [h]; field_simp; ring

/-- The nodes needed by span `i` at degree `p` are strictly ordered across the span. -/
def GoodSpan [LT K] (U : Nat → K) (p i : Nat) : Prop :=
  ∀ a b, i < a + p → a ≤ i → i < b → b ≤ i + p → U a < U b

variable [LinearOrder K] [IsStrictOrderedRing K]

theorem GoodSpan.mono {U : Nat → K} {p q i : Nat} (h : GoodSpan U p i) (hq : q ≤ p) : GoodSpan U q i :=
  fun a b h1 h2 h3 h4 => h a b (by omega) h2 h3 (by omega)

/-- The recurrence of the code evaluates any blossom on the diagonal. -/
theorem basis_blossom {U : Nat → K} {p i : Nat} (hpi : p ≤ i) (hU : GoodSpan U p i) {f : List K → K}
    (hf : IsBlossom p f) (t : K) (j : Nat) (hj : j ≤ p) :
    dotL (basisFuns i t U j) (fun r => f (seg U (i - j + r + 1) j ++ List.replicate (p - j) t)) 0 =
      f (List.replicate p t) := by
  induction j with
  | zero => simp [basisFuns, dotL]
  | succ j ih =>
    rw [← ih (by omega), basisFuns, dotL_basisInner]
    simp only [zero_mul, zero_add]
    apply dotL_congr
    intro r hr
    rw [basisFuns_length] at hr
    simp only [zero_add]
    have e1 : i + 1 - (j + 1 - r) = i - j + r := by omega
    have e2 : p - j = (p - (j + 1)) + 1 := by omega
    rw [e1, e2, List.replicate_succ]
    have hpos : U (i - j + r) < U (i + (r + 1)) := hU _ _ (by omega) (by omega) (by omega) (by omega)
    have hne : U (i + (r + 1)) - U (i - j + r) ≠ 0 := by
      have := sub_pos.mpr hpos; exact ne_of_gt this
    have hlen : (seg U (i - j + r + 1) j ++ List.replicate (p - (j + 1)) t).length + 1 = p := by simp; omega
    have hmid : f (seg U (i - j + r + 1) j ++ t :: List.replicate (p - (j + 1)) t) =
        f (t :: (seg U (i - j + r + 1) j ++ List.replicate (p - (j + 1)) t)) :=
      hf.perm _ _ List.perm_middle (by simp; omega)
    rw [hmid, hf.interp hlen hne]
    have hA : f (seg U (i - (j + 1) + r + 1) (j + 1) ++ List.replicate (p - (j + 1)) t) =
        f (U (i - j + r) :: (seg U (i - j + r + 1) j ++ List.replicate (p - (j + 1)) t)) := by
      rw [seg_succ]
      have : i - (j + 1) + r + 1 = i - j + r := by omega
      rw [this]; rfl
    have hB : f (seg U (i - (j + 1) + (r + 1) + 1) (j + 1) ++ List.replicate (p - (j + 1)) t) =
        f (U (i + (r + 1)) :: (seg U (i - j + r + 1) j ++ List.replicate (p - (j + 1)) t)) := by
      have e3 : i - (j + 1) + (r + 1) + 1 = i - j + r + 1 := by omega
      have e4 : i - j + r + 1 + j = i + (r + 1) := by omega
      rw [e3, seg_succ_last, e4]
      apply hf.perm
      · rw [List.append_assoc]; exact List.perm_middle
      · simp; omega
    rw [hA, hB]
    congr 1
    ring

/-- The polar form of span `i` by the de Boor triangle: `bl us x` is the node `x` at level `us.length`. -/
def bl (U : Nat → K) (p : Nat) (P : Nat → K) : List K → Nat → K
  | [], x => P x
  | u :: us, x =>
    (1 - (u - U x) / (U (x + (p - us.length)) - U x)) * bl U p P us (x - 1) +
    (u - U x) / (U (x + (p - us.length)) - U x) * bl U p P us x

omit [LinearOrder K] [IsStrictOrderedRing K] in
theorem bl_affine (U : Nat → K) (p : Nat) (P : Nat → K) (a b c : K) (us : List K) (x : Nat) :
    bl U p P (((1 - c) * a + c * b) :: us) x = (1 - c) * bl U p P (a :: us) x + c * bl U p P (b :: us) x := by
  simp only [bl]; ring

theorem bl_perm {U : Nat → K} {p i : Nat} (hU : GoodSpan U p i) (P : Nat → K) {l₁ l₂ : List K} (h : l₁.Perm l₂) :
    ∀ x, l₁.length ≤ p → x ≤ i → i + l₁.length ≤ x + p → l₁.length ≤ x → bl U p P l₁ x = bl U p P l₂ x := by
  induction h with
  | nil => intros; rfl
  | cons u h ih =>
    intro x h1 h2 h3 h4
    simp only [List.length_cons] at h1 h3 h4
    simp only [bl, h.length_eq]
    rw [ih (x - 1) (by omega) (by omega) (by omega) (by omega), ih x (by omega) h2 (by omega) (by omega)]
  | swap u v us =>
    intro x h1 h2 h3 h4
    simp only [List.length_cons] at h1 h3 h4
    simp only [bl, List.length_cons]
    have e1 : x - 1 + (p - us.length) = x + (p - (us.length + 1)) := by omega
    rw [e1]
    have d1 : U (x + (p - (us.length + 1))) - U x ≠ 0 :=
      ne_of_gt (sub_pos.mpr (hU _ _ (by omega) (by omega) (by omega) (by omega)))
    have d2 : U (x + (p - us.length)) - U x ≠ 0 :=
      ne_of_gt (sub_pos.mpr (hU _ _ (by omega) (by omega) (by omega) (by omega)))
    have d3 : U (x + (p - (us.length + 1))) - U (x - 1) ≠ 0 :=
      ne_of_gt (sub_pos.mpr (hU _ _ (by omega) (by omega) (by omega) (by omega)))
    generalize U (x + (p - (us.length + 1))) = A at *
    generalize U (x + (p - us.length)) = B at *
    generalize U (x - 1) = C at *
    generalize U x = D at *
    generalize bl U p P us (x - 1 - 1) = F0
    generalize bl U p P us (x - 1) = F1
    generalize bl U p P us x = F2
    field_simp
    ring
  | trans h₁ h₂ ih₁ ih₂ =>
    intro x a b c d
    rw [ih₁ x a b c d, ih₂ x (h₁.length_eq ▸ a) b (h₁.length_eq ▸ c) (h₁.length_eq ▸ d)]

theorem bl_isBlossom {U : Nat → K} {p i : Nat} (hpi : p ≤ i) (hU : GoodSpan U p i) (P : Nat → K) :
    IsBlossom p (fun l => bl U p P l i) where
  perm l₁ l₂ h hl := bl_perm hU P h i (by omega) (le_refl _) (by omega) (by omega)
  affine a b c us _ := bl_affine U p P a b c us i

omit [LinearOrder K] [IsStrictOrderedRing K] in
theorem bl_left (U : Nat → K) (p : Nat) (P : Nat → K) (l : List K) (m d : Nat) :
    bl U p P ((seg U (m + 1) d).reverse ++ l) (m + d) = bl U p P l m := by
  induction d with
  | zero => simp
  | succ d ih =>
    rw [seg_succ_last, List.reverse_append]
    simp only [List.reverse_cons, List.reverse_nil, List.nil_append, List.cons_append, bl]
    have e : m + 1 + d = m + (d + 1) := by omega
    rw [e]
    simp only [sub_self, zero_div, sub_zero, one_mul, zero_mul, add_zero]
    have : m + (d + 1) - 1 = m + d := by omega
    rw [this, ih]

theorem bl_right {U : Nat → K} {p i : Nat} (hU : GoodSpan U p i) (P : Nat → K) (m : Nat) (hm : m ≤ i) (him : i ≤ m + p) :
    ∀ len b, b + len = m + p + 1 → i < b → bl U p P (seg U b len) m = P m := by
  intro len
  induction len with
  | zero => intros; rfl
  | succ len ih =>
    intro b hb hib
    rw [seg_succ]
    simp only [bl, seg_length]
    have e : m + (p - len) = b := by omega
    have hne : U b - U m ≠ 0 := ne_of_gt (sub_pos.mpr (hU _ _ (by omega) hm hib (by omega)))
    rw [e, div_self hne, ih (b + 1) (by omega) (by omega)]
    ring

/-- The control points are the values of the polar form at consecutive knots. -/
theorem bl_dual {U : Nat → K} {p i : Nat} (hpi : p ≤ i) (hU : GoodSpan U p i) (P : Nat → K) (m : Nat) (hm : m ≤ i)
    (him : i ≤ m + p) : bl U p P (seg U (m + 1) p) i = P m := by
  have e : p = (i - m) + (p - (i - m)) := by omega
  have h1 : (seg U (m + 1) p).Perm ((seg U (m + 1) (i - m)).reverse ++ seg U (i + 1) (p - (i - m))) := by
    conv_lhs => rw [e, seg_append]
    have : m + 1 + (i - m) = i + 1 := by omega
    rw [this]
    exact List.Perm.append_right _ (List.reverse_perm _).symm
  rw [bl_perm hU P h1 i (by simp) (le_refl _) (by simp) (by simpa using hpi)]
  have : i = m + (i - m) := by omega
  conv_lhs => rw [this]
  have e2 : m + (i - m) - m = i - m := by omega
  rw [e2, bl_left]
  by_cases hp0 : p = i - m
  · have : p - (i - m) = 0 := by omega
    rw [this]; rfl
  · exact bl_right hU P m hm him _ _ (by omega) (by omega)

/-- The spline value on span `i` as computed by the code: basis functions times control points. -/
def splineVal (U : Nat → K) (p : Nat) (P : Nat → K) (i : Nat) (t : K) : K :=
  dotL (basisFuns i t U p) P (i - p)

/-- A spline value equals the diagonal of any blossom whose values at consecutive knots are the control points. -/
theorem splineVal_eq_blossom {U : Nat → K} {p i : Nat} (hpi : p ≤ i) (hU : GoodSpan U p i) {f : List K → K}
    (hf : IsBlossom p f) (P : Nat → K) (hP : ∀ m, m ≤ i → i ≤ m + p → f (seg U (m + 1) p) = P m) (t : K) :
    splineVal U p P i t = f (List.replicate p t) := by
  rw [← basis_blossom hpi hU hf t p (le_refl _), splineVal, dotL_shift]
  apply dotL_congr
  intro r hr
  rw [basisFuns_length] at hr
  simp only [Nat.sub_self, List.replicate_zero, List.append_nil, zero_add]
  rw [hP (i - p + r) (by omega) (by omega)]

theorem splineVal_eq_bl {U : Nat → K} {p i : Nat} (hpi : p ≤ i) (hU : GoodSpan U p i) (P : Nat → K) (t : K) :
    splineVal U p P i t = bl U p P (List.replicate p t) i :=
  splineVal_eq_blossom hpi hU (bl_isBlossom hpi hU P) P (fun m h1 h2 => bl_dual hpi hU P m h1 h2) t

end blossom
end Cmm.Nurbs
