import Verif.Lemmas.Basis
/-! The array algorithm of knot insertion and its meaning in terms of polar forms. -/
namespace Cmm.Nurbs

section arrays
variable {K : Type} [Arith K] {V : Type} (lerp : K → V → V → V)

theorem insInner_spec (α : Nat → K) (count : Nat) : ∀ i (temp : Nat → V) x,
    insInner lerp α count i temp x =
      if i ≤ x ∧ x < i + count then lerp (α x) (temp (x + 1)) (temp x) else temp x := by
  induction count with
  | zero => intro i temp x; rw [insInner, if_neg (by omega)]
  | succ count ih =>
    intro i temp x
    rw [insInner, ih]
    unfold upd
    by_cases h1 : i + 1 ≤ x ∧ x < i + 1 + count
    · have a1 : x + 1 ≠ i := by omega
      have a2 : x ≠ i := by omega
      rw [if_pos h1, if_neg a1, if_neg a2, if_pos (by omega)]
    · rw [if_neg h1]
      by_cases h2 : x = i
      · rw [if_pos h2, if_pos (by omega), h2]
      · rw [if_neg h2, if_neg (by omega)]

theorem insFinal_spec (temp : Nat → V) (L count : Nat) : ∀ i (new : Nat → V) x,
    insFinal temp L count i new x = if i ≤ x ∧ x < i + count then temp (x - L) else new x := by
  induction count with
  | zero => intro i new x; rw [insFinal, if_neg (by omega)]
  | succ count ih =>
    intro i new x
    rw [insFinal, ih]
    unfold upd
    by_cases h1 : i + 1 ≤ x ∧ x < i + 1 + count
    · rw [if_pos h1, if_pos (by omega)]
    · rw [if_neg h1]
      by_cases h2 : x = i
      · rw [if_pos h2, if_pos (by omega), h2]
      · rw [if_neg h2, if_neg (by omega)]

/-- The triangle of insertion: `tri j m` is control point `m` after `j` insertions. -/
def tri (p : Nat) (U : Nat → K) (u : K) (P : Nat → V) : Nat → Nat → V
  | 0, m => P m
  | j + 1, m => lerp ((u - U m) / (U (m + p - j) - U m)) (tri p U u P j m) (tri p U u P j (m - 1))

theorem insOuter_spec {p : Nat} {U : Nat → K} {u : K} {num s k : Nat} {P : Nat → V} {new : Nat → V} (hp : p ≤ k)
    (hs : num + s ≤ p) (j : Nat) (hj : j ≤ num) :
    (∀ i, i + j + s ≤ p →
      (insOuter lerp p U u num s k (fun i => P (k - p + i)) new j).1 i = tri lerp p U u P j (k - p + j + i)) ∧
    (∀ M, (insOuter lerp p U u num s k (fun i => P (k - p + i)) new j).2 M =
      if k - p < M ∧ M ≤ k - p + j then tri lerp p U u P (M - (k - p)) M
      else if k - s + num - j ≤ M ∧ M < k - s + num then tri lerp p U u P (k - s + num - M) (k - s) else new M) := by
  induction j with
  | zero =>
    refine ⟨fun i _ => rfl, fun M => ?_⟩
    rw [if_neg (by omega), if_neg (by omega)]; rfl
  | succ j ih =>
    obtain ⟨h1, h2⟩ := ih (by omega)
    have ht : ∀ i, i + (j + 1) + s ≤ p →
        (insOuter lerp p U u num s k (fun i => P (k - p + i)) new (j + 1)).1 i =
          tri lerp p U u P (j + 1) (k - p + (j + 1) + i) := by
      intro i hi
      simp only [insOuter]
      rw [insInner_spec, if_pos (by omega), h1 i (by omega), h1 (i + 1) (by omega), tri, knotInsertionAlpha]
      have e1 : k - p + (j + 1) + i + p - j = i + k + 1 := by omega
      have e2 : k - p + (j + 1) + i - 1 = k - p + j + i := by omega
      have e3 : k - p + (j + 1) + i = k - p + j + (i + 1) := by omega
      rw [e1, e2, e3]
    refine ⟨ht, fun M => ?_⟩
    have hM : (insOuter lerp p U u num s k (fun i => P (k - p + i)) new (j + 1)).2 M =
        if M = k + num - (j + 1) - s then
          (insOuter lerp p U u num s k (fun i => P (k - p + i)) new (j + 1)).1 (p - (j + 1) - s)
        else if M = k - p + (j + 1) then
          (insOuter lerp p U u num s k (fun i => P (k - p + i)) new (j + 1)).1 0
        else (insOuter lerp p U u num s k (fun i => P (k - p + i)) new j).2 M := rfl
    rw [hM, ht (p - (j + 1) - s) (by omega), ht 0 (by omega), h2]
    have e0 : k - p + (j + 1) + (p - (j + 1) - s) = k - s := by omega
    rw [e0]
    by_cases c1 : M = k + num - (j + 1) - s
    · rw [if_pos c1]
      by_cases c2 : k - p < M ∧ M ≤ k - p + (j + 1)
      · rw [if_pos c2]
        have : M - (k - p) = j + 1 := by omega
        have hMk : k - s = M := by omega
        rw [this, hMk]
      · rw [if_neg c2, if_pos (by omega)]
        have : k - s + num - M = j + 1 := by omega
        rw [this]
    · rw [if_neg c1]
      by_cases c2 : M = k - p + (j + 1)
      · rw [if_pos c2, if_pos (by omega)]
        have : M - (k - p) = j + 1 := by omega
        rw [this, c2]; rfl
      · rw [if_neg c2]
        by_cases c3 : k - p < M ∧ M ≤ k - p + j
        · rw [if_pos c3, if_pos (by omega)]
        · rw [if_neg c3, if_neg (c := k - p < M ∧ M ≤ k - p + (j + 1)) (by omega)]
          by_cases c4 : k - s + num - j ≤ M ∧ M < k - s + num
          · rw [if_pos c4, if_pos (by omega)]
          · rw [if_neg c4, if_neg (by omega)]

theorem insArray_spec {p : Nat} {U : Nat → K} {u : K} {num s k : Nat} {P : Nat → V} {init : Nat → V} (hp : p ≤ k)
    (hs : num + s ≤ p) (M : Nat) :
    insArray lerp p U P u num s k init M =
      if M ≤ k - p then P M
      else if M ≤ k - p + num then tri lerp p U u P (M - (k - p)) M
      else if M < k - s then tri lerp p U u P num M
      else if M < k - s + num then tri lerp p U u P (k - s + num - M) (k - s)
      else P (M - num) := by
  simp only [insArray]
  obtain ⟨h1, h2⟩ := insOuter_spec lerp (p := p) (U := U) (u := u) (num := num) (s := s) (k := k) (P := P)
    (new := fun i => if k - s + num ≤ i then P (i - num) else if i < k - p + 1 then P i else init i) hp hs num (le_refl _)
  rw [insFinal_spec]
  by_cases c1 : k - p + num + 1 ≤ M ∧ M < k - p + num + 1 + (k - s - (k - p + num + 1))
  · rw [if_pos c1, h1 _ (by omega), if_neg (by omega), if_neg (by omega), if_pos (by omega)]
    congr 1; omega
  · rw [if_neg c1, h2]
    by_cases c2 : M ≤ k - p
    · rw [if_pos c2, if_neg (by omega)]
      by_cases c3 : k - s + num ≤ M
      · have hn : num = 0 := by omega
        subst hn
        rw [if_neg (by omega), if_pos (by omega)]; rfl
      · rw [if_neg (by omega), if_neg c3, if_pos (by omega)]
    · rw [if_neg c2]
      by_cases c3 : M ≤ k - p + num
      · rw [if_pos c3, if_pos (by omega)]
      · rw [if_neg c3, if_neg (by omega), if_neg (c := M < k - s) (by omega)]
        by_cases c4 : M < k - s + num
        · rw [if_pos c4, if_pos (by omega)]
        · rw [if_neg c4, if_neg (by omega), if_pos (by omega)]

end arrays

variable {K : Type} [Field K]

/-- The combination of line 680 on numbers. -/
def lerp1 (α a b : K) : K := α * a + (1 - α) * b

theorem tri_map {V : Type} {lerp : K → V → V → V} {φ : V → K}
    (hφ : ∀ α a b, φ (lerp α a b) = lerp1 α (φ a) (φ b)) (p : Nat) (U : Nat → K) (u : K) (P : Nat → V) (j : Nat) :
    ∀ m, φ (tri lerp p U u P j m) = tri lerp1 p U u (fun r => φ (P r)) j m := by
  induction j with
  | zero => intro m; rfl
  | succ j ih => intro m; rw [tri, hφ, ih, ih]; rfl

theorem insArray_map {V : Type} {lerp : K → V → V → V} {φ : V → K}
    (hφ : ∀ α a b, φ (lerp α a b) = lerp1 α (φ a) (φ b)) {p : Nat} {U : Nat → K} {u : K} {num s k : Nat} {P : Nat → V}
    {init : Nat → V} (hp : p ≤ k) (hs : num + s ≤ p) (M : Nat) :
    φ (insArray lerp p U P u num s k init M) =
      insArray lerp1 p U (fun r => φ (P r)) u num s k (fun r => φ (init r)) M := by
  rw [insArray_spec lerp hp hs, insArray_spec lerp1 hp hs]
  simp only [apply_ite φ, tri_map hφ]

theorem tri_const {p : Nat} {U : Nat → K} {u w : K} {P : Nat → K} (j : Nat) :
    ∀ m, (∀ r ≤ m, P r = w) → tri lerp1 p U u P j m = w := by
  induction j with
  | zero => intro m h; exact h m (le_refl _)
  | succ j ih =>
    intro m h
    rw [tri, ih m h, ih (m - 1) (fun r hr => h r (by omega)), lerp1]; ring

theorem insArray_const {p : Nat} {U : Nat → K} {u w : K} {num s k n : Nat} {P init : Nat → K} (hp : p ≤ k)
    (hs : num + s ≤ p) (hk : k < n) (hP : ∀ r < n, P r = w) (M : Nat) (hM : M < n + num) :
    insArray lerp1 p U P u num s k init M = w := by
  rw [insArray_spec lerp1 hp hs]
  by_cases c1 : M ≤ k - p
  · rw [if_pos c1]; exact hP _ (by omega)
  · rw [if_neg c1]
    by_cases c2 : M ≤ k - p + num
    · rw [if_pos c2]; exact tri_const _ _ (fun r hr => hP _ (by omega))
    · rw [if_neg c2]
      by_cases c3 : M < k - s
      · rw [if_pos c3]; exact tri_const _ _ (fun r hr => hP _ (by omega))
      · rw [if_neg c3]
        by_cases c4 : M < k - s + num
        · rw [if_pos c4]; exact tri_const _ _ (fun r hr => hP _ (by omega))
        · rw [if_neg c4]; exact hP _ (by omega)

variable [LinearOrder K] [IsStrictOrderedRing K]

theorem tri_blossom {U : Nat → K} {p i : Nat} (hU : GoodSpan U p i) {f : List K → K} (hf : IsBlossom p f)
    {P : Nat → K} (hP : ∀ m, m ≤ i → i ≤ m + p → f (seg U (m + 1) p) = P m) (u : K) (j : Nat) :
    ∀ m, j ≤ p → m ≤ i → i + j ≤ m + p → j ≤ m →
      tri lerp1 p U u P j m = f (List.replicate j u ++ seg U (m + 1) (p - j)) := by
  induction j with
  | zero => intro m _ h1 h2 _; simp only [List.replicate_zero, List.nil_append, Nat.sub_zero]; exact (hP m h1 h2).symm
  | succ j ih =>
    intro m h0 h1 h2 h3
    rw [tri, ih m (by omega) h1 (by omega) (by omega), ih (m - 1) (by omega) (by omega) (by omega) (by omega)]
    have hne : U (m + p - j) - U m ≠ 0 :=
      ne_of_gt (sub_pos.mpr (hU _ _ (by omega) h1 (by omega) (by omega)))
    have e1 : p - j = (p - (j + 1)) + 1 := by omega
    have e2 : m - 1 + 1 = m := by omega
    have e3 : m + 1 + (p - (j + 1)) = m + p - j := by omega
    have hA : f (List.replicate j u ++ seg U (m + 1) (p - j)) =
        f (U (m + p - j) :: (List.replicate j u ++ seg U (m + 1) (p - (j + 1)))) := by
      apply hf.perm
      · rw [e1, seg_succ_last, e3, ← List.append_assoc]
        exact List.perm_append_singleton _ _
      · simp; omega
    have hB : f (List.replicate j u ++ seg U (m - 1 + 1) (p - j)) =
        f (U m :: (List.replicate j u ++ seg U (m + 1) (p - (j + 1)))) := by
      apply hf.perm
      · rw [e1, e2, seg_succ]; exact List.perm_middle
      · simp; omega
    have hC : f (List.replicate (j + 1) u ++ seg U (m + 1) (p - (j + 1))) =
        f (u :: (List.replicate j u ++ seg U (m + 1) (p - (j + 1)))) := by
      rw [List.replicate_succ]; rfl
    rw [hA, hB, hC, hf.interp (t := u) (a := U m) (b := U (m + p - j)) (by simp; omega) hne, lerp1]
    generalize f (U (m + p - j) :: (List.replicate j u ++ seg U (m + 1) (p - (j + 1)))) = A
    generalize f (U m :: (List.replicate j u ++ seg U (m + 1) (p - (j + 1)))) = B
    field_simp; ring

/-- The knots after inserting `u` `num` times behind index `k`. -/
def insKnots (U : Nat → K) (u : K) (k num : Nat) : Nat → K := fun x =>
  if x ≤ k then U x else if x ≤ k + num then u else U (x - num)

omit [IsStrictOrderedRing K] [LinearOrder K] in
theorem seg_insKnots_before {U : Nat → K} {u : K} {k num M p : Nat} (h : M + p ≤ k) :
    seg (insKnots U u k num) (M + 1) p = seg U (M + 1) p :=
  seg_congr fun r hr => by rw [insKnots, if_pos (by omega)]

omit [IsStrictOrderedRing K] [LinearOrder K] in
theorem seg_insKnots_after {U : Nat → K} {u : K} {k num M p : Nat} (h : k + num ≤ M) :
    seg (insKnots U u k num) (M + 1) p = seg U (M - num + 1) p :=
  seg_congr fun r hr => by
    rw [insKnots, if_neg (by omega), if_neg (by omega)]
    congr 1; omega

omit [IsStrictOrderedRing K] [LinearOrder K] in
theorem seg_insKnots_left {U : Nat → K} {u : K} {k num M p : Nat} (h1 : M ≤ k) (h2 : k ≤ M + p) (h3 : M + p ≤ k + num) :
    seg (insKnots U u k num) (M + 1) p = seg U (M + 1) (k - M) ++ List.replicate (M + p - k) u := by
  have e : p = (k - M) + (M + p - k) := by omega
  conv_lhs => rw [e, seg_append]
  congr 1
  · exact seg_congr fun r hr => by rw [insKnots, if_pos (by omega)]
  · exact seg_const fun r hr => by rw [insKnots, if_neg (by omega), if_pos (by omega)]

omit [IsStrictOrderedRing K] [LinearOrder K] in
theorem seg_insKnots_mid {U : Nat → K} {u : K} {k num M p : Nat} (h1 : M ≤ k) (h2 : k + num ≤ M + p) :
    seg (insKnots U u k num) (M + 1) p =
      seg U (M + 1) (k - M) ++ (List.replicate num u ++ seg U (k + 1) (M + p - k - num)) := by
  have e : p = (k - M) + (num + (M + p - k - num)) := by omega
  conv_lhs => rw [e, seg_append, seg_append]
  congr 1
  · exact seg_congr fun r hr => by rw [insKnots, if_pos (by omega)]
  · congr 1
    · exact seg_const fun r hr => by rw [insKnots, if_neg (by omega), if_pos (by omega)]
    · exact seg_congr fun r hr => by
        rw [insKnots, if_neg (by omega), if_neg (by omega)]
        congr 1; omega

omit [IsStrictOrderedRing K] [LinearOrder K] in
theorem seg_insKnots_right {U : Nat → K} {u : K} {k num s M p : Nat} (hm : ∀ a, k < a + s → a ≤ k → U a = u)
    (h1 : k ≤ M + s) (h2 : M ≤ k + num) (h3 : k + num ≤ M + p) :
    seg (insKnots U u k num) (M + 1) p =
      List.replicate (k + num - M) u ++ seg U (k + 1) (M + p - (k + num)) := by
  have e : p = (k + num - M) + (M + p - (k + num)) := by omega
  conv_lhs => rw [e, seg_append]
  congr 1
  · exact seg_const fun r hr => by
      rw [insKnots]
      by_cases hx : M + 1 + r ≤ k
      · rw [if_pos hx]; exact hm _ (by omega) hx
      · rw [if_neg hx, if_pos (by omega)]
  · exact seg_congr fun r hr => by
      rw [insKnots, if_neg (by omega), if_neg (by omega)]
      congr 1; omega

omit [IsStrictOrderedRing K] [LinearOrder K] in
theorem seg_mult {U : Nat → K} {u : K} {k s m len : Nat} (hm : ∀ a, k < a + s → a ≤ k → U a = u) (h1 : k ≤ m + s)
    (h2 : m ≤ k) (h3 : k ≤ m + len) :
    seg U (m + 1) len = List.replicate (k - m) u ++ seg U (k + 1) (m + len - k) := by
  have e : len = (k - m) + (m + len - k) := by omega
  conv_lhs => rw [e, seg_append]
  congr 1
  · exact seg_const fun r hr => hm _ (by omega) (by omega)
  · exact seg_congr fun r hr => by congr 1; omega

/-- The new control points are the values of the old polar form at consecutive new knots. -/
theorem insArray_dual {U : Nat → K} {p k i num s : Nat} {u : K} {P init : Nat → K} (hpk : p ≤ k) (hs : num + s ≤ p)
    (hm : ∀ a, k < a + s → a ≤ k → U a = u) (hpi : p ≤ i) (hU : GoodSpan U p i) {f : List K → K}
    (hf : IsBlossom p f) (hP : ∀ m, m ≤ i → i ≤ m + p → f (seg U (m + 1) p) = P m) (M : Nat)
    (hM : (i + s ≤ k ∧ M ≤ i ∧ i ≤ M + p) ∨ (k ≤ i ∧ M ≤ i + num ∧ i + num ≤ M + p)) :
    f (seg (insKnots U u k num) (M + 1) p) = insArray lerp1 p U P u num s k init M := by
  rw [insArray_spec lerp1 hpk hs]
  by_cases c1 : M ≤ k - p
  · rw [if_pos c1, seg_insKnots_before (by omega)]; exact hP M (by omega) (by omega)
  · rw [if_neg c1]
    by_cases c2 : M ≤ k - p + num
    · rw [if_pos c2, seg_insKnots_left (by omega) (by omega) (by omega),
        tri_blossom hU hf hP u _ M (by omega) (by omega) (by omega) (by omega)]
      have e1 : M + p - k = M - (k - p) := by omega
      have e2 : p - (M - (k - p)) = k - M := by omega
      rw [e1, e2]
      exact hf.perm _ _ List.perm_append_comm (by simp; omega)
    · rw [if_neg c2]
      by_cases c3 : M < k - s
      · rw [if_pos c3, seg_insKnots_mid (by omega) (by omega),
          tri_blossom hU hf hP u _ M (by omega) (by omega) (by omega) (by omega)]
        apply hf.perm
        · have e : p - num = (k - M) + (M + p - k - num) := by omega
          rw [e, seg_append]
          have e2 : M + 1 + (k - M) = k + 1 := by omega
          rw [e2, ← List.append_assoc, ← List.append_assoc]
          exact List.Perm.append_right _ List.perm_append_comm
        · simp; omega
      · rw [if_neg c3]
        by_cases c4 : M < k - s + num
        · rw [if_pos c4, seg_insKnots_right hm (by omega) (by omega) (by omega),
            tri_blossom hU hf hP u _ _ (by omega) (by omega) (by omega) (by omega),
            seg_mult (m := k - s) hm (by omega) (by omega) (by omega), ← List.append_assoc,
            List.replicate_append_replicate]
          have a1 : k + num - M = k - s + num - M + (k - (k - s)) := by omega
          have a2 : M + p - (k + num) = k - s + (p - (k - s + num - M)) - k := by omega
          rw [a1, a2]
        · rw [if_neg c4]
          by_cases c5 : k + num ≤ M
          · rw [seg_insKnots_after c5]; exact hP _ (by omega) (by omega)
          · rw [seg_insKnots_right hm (by omega) (by omega) (by omega), ← hP (M - num) (by omega) (by omega),
              seg_mult (m := M - num) hm (by omega) (by omega) (by omega)]
            have a1 : k + num - M = k - (M - num) := by omega
            have a2 : M + p - (k + num) = M - num + p - k := by omega
            rw [a1, a2]

/-- Inserting a knot does not change the spline on a span left of it. -/
theorem insert_left {U : Nat → K} {p k i num s : Nat} {u : K} {P init : Nat → K} (hpk : p ≤ k) (hs : num + s ≤ p)
    (hm : ∀ a, k < a + s → a ≤ k → U a = u) (hpi : p ≤ i) (hU : GoodSpan U p i) (hi : i + s ≤ k)
    (hU' : GoodSpan (insKnots U u k num) p i) (t : K) :
    splineVal (insKnots U u k num) p (insArray lerp1 p U P u num s k init) i t = splineVal U p P i t := by
  rw [splineVal_eq_bl hpi hU]
  exact splineVal_eq_blossom hpi hU' (bl_isBlossom hpi hU P) _ (fun M h1 h2 =>
    insArray_dual hpk hs hm hpi hU (bl_isBlossom hpi hU P) (fun m a b => bl_dual hpi hU P m a b) M (.inl ⟨hi, h1, h2⟩)) t

/-- Inserting a knot does not change the spline on a span right of it. -/
theorem insert_right {U : Nat → K} {p k i num s : Nat} {u : K} {P init : Nat → K} (hpk : p ≤ k) (hs : num + s ≤ p)
    (hm : ∀ a, k < a + s → a ≤ k → U a = u) (hU : GoodSpan U p i) (hi : k ≤ i)
    (hU' : GoodSpan (insKnots U u k num) p (i + num)) (t : K) :
    splineVal (insKnots U u k num) p (insArray lerp1 p U P u num s k init) (i + num) t = splineVal U p P i t := by
  have hpi : p ≤ i := by omega
  rw [splineVal_eq_bl hpi hU]
  exact splineVal_eq_blossom (by omega) hU' (bl_isBlossom hpi hU P) _ (fun M h1 h2 =>
    insArray_dual hpk hs hm hpi hU (bl_isBlossom hpi hU P) (fun m a b => bl_dual hpi hU P m a b) M (.inr ⟨hi, h1, h2⟩)) t

end Cmm.Nurbs
