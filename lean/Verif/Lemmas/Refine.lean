import Verif.Lemmas.SurfaceOps
import Verif.Lemmas.DerivNets
import Verif.Model.Refine
/-! Lemmas about knot refinement. -/
namespace Cmm.Nurbs
variable {K : Type} [Field K] [LinearOrder K] [IsStrictOrderedRing K]

theorem count_ge_of_run {V : List K} {x : K} {m len : Nat} (h : ∀ r < len, ix V (m + r) = x) (hl : m + len ≤ V.length) : len ≤ V.count x := by
  have e : (V.drop m).take len = List.replicate len x := by
    apply List.ext_getElem
    · simp; omega
    · intro r h1 h2
      have hr : r < len := by simpa using h2
      have := h r hr
      rw [ix, List.getD_eq_getElem?_getD, List.getElem?_eq_getElem (by omega), Option.getD_some] at this
      simpa using this
  have hs : ((V.drop m).take len).Sublist V := (List.take_sublist _ _).trans (List.drop_sublist _ _)
  have := hs.count_le x
  rw [e, List.count_replicate_self] at this
  exact this

theorem IsCoord.lerp {φ : Vec4 K → K} (h : IsCoord φ) : ∀ α a b, φ (lerp4 α a b) = lerp1 α (φ a) (φ b) := by
  rcases h with rfl | rfl | rfl | rfl
  · exact lerp4_x
  · exact lerp4_y
  · exact lerp4_z
  · exact lerp4_w

omit [IsStrictOrderedRing K] in
theorem lerp4_swap (α : K) (a b : Vec4 K) : lerp4 (1 - α) b a = lerp4 α a b := by
  unfold lerp4
  rw [sub_sub_cancel]
  show (⟨_, _, _, _⟩ : Vec4 K) = ⟨_, _, _, _⟩
  congr 1 <;> exact add_comm _ _

/-- One insertion after place `i` (with `V_i ≤ x ≤ V_{i+1}`) keeps the spline. -/
theorem insert_one_same {V : List K} {n p i : Nat} {x : K} (hp : 1 ≤ p) (hs : SortedKnots V) (hl : V.length = n + p + 1) (hpi : p ≤ i) (hin : i < n)
    (h1 : ix V i ≤ x) (h2 : x ≤ ix V (i + 1)) (Q : Nat → K) (init : Nat → K) {t : K} (t1 : ix V p ≤ t) (t2 : t < ix V n) :
    splineSum (ix (knotInsertionKv V x i 1)) p 0 (n + 1) (insArray lerp1 p (ix V) Q x 1 0 i init) t = splineSum (ix V) p 0 n Q t := by
  have hm : ∀ a b, a ≤ b → b < V.length → ix V a ≤ ix V b := fun a b h h' => ix_mono hs h h'
  have hW := ix_insKnots (U := V) (u := x) (k := i) (num := 1) (by omega)
  have hWl : (knotInsertionKv V x i 1).length = n + p + 2 := by
    rw [knotInsertionKv_eq _ _ _ _ (by omega)]; simp; omega
  have hm' : ∀ a b, a ≤ b → b < n + p + 2 → insKnots (ix V) x i 1 a ≤ insKnots (ix V) x i 1 b := by
    intro a b hab hb
    unfold insKnots
    by_cases ha : a ≤ i
    · rw [if_pos ha]
      by_cases hb1 : b ≤ i
      · rw [if_pos hb1]; exact hm a b hab (by omega)
      · rw [if_neg hb1]
        have hai := hm a i ha (by omega)
        by_cases hb2 : b ≤ i + 1
        · rw [if_pos hb2]; exact hai.trans h1
        · rw [if_neg hb2]; exact (hai.trans (h1.trans h2)).trans (hm _ _ (by omega) (by omega))
    · rw [if_neg ha, if_neg (by omega : ¬ b ≤ i)]
      by_cases ha2 : a ≤ i + 1
      · rw [if_pos ha2]
        by_cases hb2 : b ≤ i + 1
        · rw [if_pos hb2]
        · rw [if_neg hb2]; exact h2.trans (hm _ _ (by omega) (by omega))
      · rw [if_neg ha2, if_neg (by omega : ¬ b ≤ i + 1)]; exact hm _ _ (by omega) (by omega)
  -- the span of t
  obtain ⟨g, g1, g2, g3, g4⟩ : ∃ g, p ≤ g ∧ g < n ∧ ix V g ≤ t ∧ t < ix V (g + 1) := by
    have e1 := findSpan_ge (n - 1) p t (ix V)
    have e2 := findSpan_le (n := n - 1) (by omega) t (ix V) (p := p)
    refine ⟨findSpan (n - 1) p t (ix V), e1, by omega, findSpan_knot_le t (ix V) t1 e1 (le_refl _) (n := n - 1), ?_⟩
    rcases Nat.eq_or_lt_of_le e2 with h | h
    · rw [h, Nat.sub_add_cancel (by omega)]; exact t2
    · exact findSpan_lt t (ix V) h
  have hg : GoodSpan (ix V) p g := goodSpan_of_sorted hm (lt_of_le_of_lt g3 g4) (by omega)
  rw [splineSum_eq Q hm g3 g4 (by omega) (by omega) (by omega) (by omega), hW]
  by_cases hc : g < i ∨ (g = i ∧ t < x)
  · have k1 : insKnots (ix V) x i 1 g ≤ t := by rw [insKnots, if_pos (by omega)]; exact g3
    have k2 : t < insKnots (ix V) x i 1 (g + 1) := by
      unfold insKnots
      rcases hc with hc | ⟨hc, hc'⟩
      · rw [if_pos (by omega)]; exact g4
      · rw [if_neg (by omega), if_pos (by omega)]; exact hc'
    rw [splineSum_eq _ hm' k1 k2 (by omega) (by omega) (by omega) (by omega)]
    exact insert_left hpi (by omega) (fun a _ _ => by omega) g1 hg (by omega) (goodSpan_of_sorted hm' (lt_of_le_of_lt k1 k2) (by omega)) t
  · have hgi : i ≤ g := by omega
    have hxt : x ≤ t := by
      rcases Nat.eq_or_lt_of_le hgi with h | h
      · by_contra hn; exact hc (.inr ⟨h.symm, not_le.mp hn⟩)
      · exact h2.trans ((hm _ _ (by omega) (by omega)).trans g3)
    have k1 : insKnots (ix V) x i 1 (g + 1) ≤ t := by
      unfold insKnots
      rw [if_neg (by omega)]
      split
      · exact hxt
      · rw [Nat.add_sub_cancel]; exact g3
    have k2 : t < insKnots (ix V) x i 1 (g + 1 + 1) := by
      unfold insKnots
      rw [if_neg (by omega), if_neg (by omega), Nat.add_sub_cancel]
      exact g4
    rw [splineSum_eq _ hm' k1 k2 (by omega) (by omega) (by omega) (by omega)]
    exact insert_right hpi (by omega) (fun a _ _ => by omega) hg hgi (goodSpan_of_sorted hm' (lt_of_le_of_lt k1 k2) (by omega)) t

/-- The invariant of the loops: `V`, `Q` are the knots and control points after the insertions made so far. -/
structure RefInv (p : Nat) (U : List K) (P : List (Vec4 K)) (a : Nat) (X : List K) (rem : List K) (s : RefState K) (V : List K) (Q : Nat → Vec4 K) : Prop where
  k_eq : s.k = s.i + rem.length
  ia : a ≤ s.i
  ip : s.i + 1 < U.length
  rl : rem.length ≤ X.length
  vlen : V.length + rem.length = U.length + X.length
  vlow : ∀ m ≤ s.i, ix V m = ix U m
  qlow : ∀ m, m + p ≤ s.i → Q m = ix P m
  kvhigh : ∀ m, s.i < m → m < V.length → s.kv (m + rem.length) = ix V m
  phigh : ∀ m, s.i ≤ m + p → m + rem.length < P.length + X.length → s.P (m + rem.length) = Q m
  kvlow : ∀ m ≤ a, s.kv m = ix U m
  plow : ∀ m, m + p ≤ a → m + p < s.k → s.P m = ix P m
  vsorted : SortedKnots V
  vperm : (V ++ rem).Perm (U ++ X)
  next : ∀ x ∈ rem.head?, x ≤ ix V (s.i + 1)
  vend : ix V (V.length - p - 1) = ix U P.length
  same : ∀ φ : Vec4 K → K, IsCoord φ → ∀ t, ix U p ≤ t → t < ix U P.length →
    splineSum (ix V) p 0 (V.length - p - 1) (fun j => φ (Q j)) t = splineSum (ix U) p 0 P.length (fun j => φ (ix P j)) t

theorem refShift_inv {p : Nat} {U : List K} {P : List (Vec4 K)} {a : Nat} {X rest : List K} {x : K} (hpa : p ≤ a) {V : List K} {Q : Nat → Vec4 K} :
    ∀ (i k : Nat) (F : Nat → Vec4 K) (kv : Nat → K), RefInv p U P a X (x :: rest) ⟨i, k, F, kv⟩ V Q →
      RefInv p U P a X (x :: rest) (refShift p U P a x i k F kv) V Q ∧
      ((refShift p U P a x i k F kv).i = a ∨ ix U (refShift p U P a x i k F kv).i < x) := by
  intro i
  induction i using Nat.strong_induction_on with
  | _ i ih =>
    intro k F kv I
    rw [refShift]
    split
    next hc =>
      obtain ⟨c1, c2⟩ := hc
      have hk := I.k_eq
      simp only [List.length_cons] at hk
      refine ih (i - 1) (by omega) _ _ _ ?_
      have hx := I.vlow i (le_refl _)
      refine ⟨by simp only [List.length_cons]; omega, by dsimp only; omega, by have := I.ip; dsimp only at this ⊢; omega, I.rl, I.vlen,
        fun m hm => I.vlow m (by dsimp only at hm ⊢; omega), fun m hm => I.qlow m (by dsimp only at hm ⊢; omega),
        fun m h1 h2 => ?_, fun m h1 h2 => ?_, fun m hm => ?_, fun m h1 h2 => ?_, I.vsorted, I.vperm, fun y hy => ?_, I.vend, I.same⟩
      · dsimp only at h1 ⊢
        unfold upd
        by_cases hmi : m = i
        · subst hmi
          rw [if_pos (by simp only [List.length_cons]; omega), hx]
        · rw [if_neg (by simp only [List.length_cons]; omega)]
          exact I.kvhigh m (by dsimp only; omega) h2
      · dsimp only at h1 ⊢
        unfold upd
        by_cases hmi : m + p + 1 = i
        · rw [if_pos (by simp only [List.length_cons]; omega), show i - p - 1 = m by omega]
          exact (I.qlow m (by dsimp only; omega)).symm
        · rw [if_neg (by simp only [List.length_cons]; omega)]
          exact I.phigh m (by dsimp only; omega) h2
      · dsimp only
        rw [upd, if_neg (by omega)]
        exact I.kvlow m hm
      · dsimp only at h2 ⊢
        rw [upd, if_neg (by omega)]
        exact I.plow m h1 (by dsimp only; omega)
      · simp only [List.head?_cons, Option.mem_def, Option.some.injEq] at hy
        subst hy
        dsimp only
        rw [Nat.sub_add_cancel (by omega), hx]
        exact c1
    next hc =>
      refine ⟨I, ?_⟩
      have := I.ia
      dsimp only at this ⊢
      by_cases h : i = a
      · exact .inl h
      · exact .inr (not_le.mp fun hle => hc ⟨hle, by omega⟩)

/-- The combination of one round. -/
def blendVal (p : Nat) (U : List K) (x : K) (i k : Nat) (kv : Nat → K) (P : Nat → Vec4 K) (pos : Nat) : Vec4 K :=
  let l := pos + 1 - (k - p)
  if |kv (k + l) - x| < refineTol then P (pos + 1)
  else lerp4 ((kv (k + l) - x) / (kv (k + l) - ix U (i - p + l))) (P pos) (P (pos + 1))

omit [IsStrictOrderedRing K] in
theorem refBlend_spec (p : Nat) (U : List K) (x : K) (i k : Nat) (kv : Nat → K) (count : Nat) : ∀ (l : Nat) (P : Nat → Vec4 K) (pos : Nat), 1 ≤ l →
    refBlend p U x i k kv count l P pos =
      if k - p + l ≤ pos + 1 ∧ pos + 1 < k - p + l + count then blendVal p U x i k kv P pos else P pos := by
  induction count with
  | zero => intro l P pos hl; rw [refBlend, if_neg (by omega)]
  | succ count ih =>
    intro l P pos hl
    simp only [refBlend]
    rw [ih _ _ _ (by omega)]
    by_cases h1 : pos + 1 = k - p + l
    · rw [if_neg (show ¬ (k - p + (l + 1) ≤ pos + 1 ∧ pos + 1 < k - p + (l + 1) + count) by omega),
        if_pos (show k - p + l ≤ pos + 1 ∧ pos + 1 < k - p + l + (count + 1) by omega), upd, if_pos (show pos = k - p + l - 1 by omega), blendVal]
      have e1 : pos + 1 - (k - p) = l := by omega
      simp only [e1, ← h1, Nat.add_sub_cancel]
    · by_cases h2 : k - p + (l + 1) ≤ pos + 1 ∧ pos + 1 < k - p + (l + 1) + count
      · rw [if_pos h2, if_pos (show k - p + l ≤ pos + 1 ∧ pos + 1 < k - p + l + (count + 1) by omega), blendVal, blendVal]
        have e1 : ∀ v, upd P (k - p + l - 1) v pos = P pos := fun v => by rw [upd, if_neg (show ¬ pos = k - p + l - 1 by omega)]
        have e2 : ∀ v, upd P (k - p + l - 1) v (pos + 1) = P (pos + 1) := fun v => by rw [upd, if_neg (show ¬ pos + 1 = k - p + l - 1 by omega)]
        simp only [e1, e2]
      · rw [if_neg h2, if_neg (show ¬ (k - p + l ≤ pos + 1 ∧ pos + 1 < k - p + l + (count + 1)) by omega), upd, if_neg (show ¬ pos = k - p + l - 1 by omega)]

theorem sorted_insert {V : List K} {i : Nat} {x : K} (hs : SortedKnots V) (hi : i + 1 < V.length) (h1 : ix V i ≤ x) (h2 : x ≤ ix V (i + 1)) :
    SortedKnots (knotInsertionKv V x i 1) := by
  have hm : ∀ a b, a ≤ b → b < V.length → ix V a ≤ ix V b := fun a b h h' => ix_mono hs h h'
  rw [knotInsertionKv_eq _ _ _ _ (by omega)]
  unfold SortedKnots at *
  have hl : ∀ y ∈ V.take (i + 1), y ≤ x := by
    intro y hy
    obtain ⟨r, hr, rfl⟩ := List.mem_iff_getElem.mp hy
    have hr' : r < i + 1 := by simp at hr; omega
    have := hm r i (by omega) (by omega)
    rw [ix, List.getD_eq_getElem?_getD, List.getElem?_eq_getElem (by omega), Option.getD_some] at this
    simpa using this.trans h1
  have hr : ∀ y ∈ V.drop (i + 1), x ≤ y := by
    intro y hy
    obtain ⟨r, hr, rfl⟩ := List.mem_iff_getElem.mp hy
    have hr' : i + 1 + r < V.length := by simp at hr; omega
    have := hm (i + 1) (i + 1 + r) (by omega) hr'
    rw [ix, ix, List.getD_eq_getElem?_getD, List.getD_eq_getElem?_getD, List.getElem?_eq_getElem hr', Option.getD_some] at this
    rw [List.getElem_drop]
    refine le_trans ?_ this
    rw [ix, List.getD_eq_getElem?_getD] at h2
    exact h2
  refine List.pairwise_append.mpr ⟨hs.sublist (List.take_sublist _ _), ?_, ?_⟩
  · simp only [List.replicate_one, List.singleton_append, List.pairwise_cons]
    exact ⟨hr, hs.sublist (List.drop_sublist _ _)⟩
  · intro y hy z hz
    simp only [List.replicate_one, List.singleton_append, List.mem_cons] at hz
    rcases hz with rfl | hz
    · exact hl y hy
    · exact (hl y hy).trans (hr z hz)

theorem refBlend_inv {p : Nat} {U : List K} {P : List (Vec4 K)} {a : Nat} {X rest : List K} {x : K} {s : RefState K} {V : List K} {Q : Nat → Vec4 K}
    (hp : 1 ≤ p) (hlen : U.length = P.length + p + 1) (hU : SortedKnots U) (hpa : p ≤ a) (han : a < P.length) (hx1 : ix U a ≤ x) (hx2 : x ≤ ix U P.length)
    (hsep : ∀ y ∈ U ++ X, y ≠ x → refineTol ≤ |y - x|) (hcnt : (U ++ X).count x ≤ p) (hrest : ∀ y ∈ rest.head?, y ≤ x)
    (I : RefInv p U P a X (x :: rest) s V Q) (hstop : s.i = a ∨ ix U s.i < x) :
    s.k < P.length + X.length ∧
    RefInv p U P a X rest ⟨s.i, s.k - 1, refBlend p U x s.i s.k s.kv p 1 (upd s.P (s.k - p - 1) (s.P (s.k - p))), upd s.kv s.k x⟩
      (knotInsertionKv V x s.i 1) (insArray lerp4 p (ix V) Q x 1 0 s.i (fun _ => 0)) := by
  have hk := I.k_eq
  have hvl := I.vlen
  have hrl := I.rl
  have hia := I.ia
  simp only [List.length_cons] at hk hvl hrl
  have hin : s.i < P.length := by
    rcases hstop with h | h
    · omega
    · by_contra hc
      have := ix_mono hU (show P.length ≤ s.i by omega) (by have := I.ip; omega)
      exact absurd (hx2.trans this) (not_le.mpr h)
  have hVU : ix V s.i = ix U s.i := I.vlow _ (le_refl _)
  have hV1 : ix V s.i ≤ x := by
    rw [hVU]
    rcases hstop with h | h
    · rw [h]; exact hx1
    · exact le_of_lt h
  have hV2 : x ≤ ix V (s.i + 1) := I.next x (by simp)
  have hmV : ∀ a b, a ≤ b → b < V.length → ix V a ≤ ix V b := fun a b h h' => ix_mono I.vsorted h h'
  have hpos : (0 : K) < refineTol := by unfold refineTol; positivity
  have hW := ix_insKnots (U := V) (u := x) (k := s.i) (num := 1) (by omega)
  have hWl : (knotInsertionKv V x s.i 1).length = V.length + 1 := by
    rw [knotInsertionKv_eq _ _ _ _ (by omega)]; simp; omega
  have hQ := insArray_spec lerp4 (p := p) (U := ix V) (u := x) (num := 1) (s := 0) (k := s.i) (P := Q) (init := fun _ => 0) (by omega) (by omega)
  have hsepV : ∀ m < V.length, ix V m ≠ x → refineTol ≤ |ix V m - x| := by
    intro m hm hne
    refine hsep _ (I.vperm.subset ?_) hne
    rw [ix, List.getD_eq_getElem?_getD, List.getElem?_eq_getElem hm, Option.getD_some]
    exact List.mem_append_left _ (List.getElem_mem hm)
  have hcV : V.count x + 1 ≤ p := by
    have := I.vperm.count_eq x
    rw [List.count_append, List.count_cons_self] at this
    omega
  -- the new control points
  have hnew : ∀ m, s.i < m + p → m ≤ s.i → insArray lerp4 p (ix V) Q x 1 0 s.i (fun _ => 0) m =
      lerp4 ((x - ix V m) / (ix V (m + p) - ix V m)) (Q m) (Q (m - 1)) := by
    intro m h1 h2
    have ht : tri lerp4 p (ix V) x Q 1 m = lerp4 ((x - ix V m) / (ix V (m + p) - ix V m)) (Q m) (Q (m - 1)) := by
      simp only [tri, Nat.sub_zero]
    rw [hQ, if_neg (by omega), ← ht]
    by_cases c1 : m ≤ s.i - p + 1
    · rw [if_pos c1, show m - (s.i - p) = 1 by omega]
    · rw [if_neg c1]
      by_cases c2 : m < s.i - 0
      · rw [if_pos c2]
      · rw [if_neg c2, if_pos (by omega), show s.i - 0 + 1 - m = 1 by omega, show s.i - 0 = m by omega]
  refine ⟨by omega, ⟨by dsimp only; omega, hia, I.ip, by omega, by rw [hWl]; omega, fun m hm => ?_, fun m hm => ?_, fun m h1 h2 => ?_, fun m h1 h2 => ?_,
    fun m hm => ?_, fun m h1 h2 => ?_, sorted_insert I.vsorted (by omega) hV1 hV2, ?_, fun y hy => ?_, ?_, fun φ hφ t t1 t2 => ?_⟩⟩
  · dsimp only at hm
    rw [hW, insKnots, if_pos hm]
    exact I.vlow m hm
  · dsimp only at hm
    rw [hQ, if_pos (by omega)]
    exact I.qlow m hm
  · dsimp only at h1 ⊢
    rw [hW, insKnots, if_neg (by omega), upd]
    by_cases hm : m = s.i + 1
    · rw [if_pos (by omega), if_pos (by omega)]
    · rw [if_neg (by omega), if_neg (by omega)]
      have := I.kvhigh (m - 1) (by omega) (by omega)
      rw [← this]
      congr 1
      simp only [List.length_cons]
      omega
  · dsimp only at h1 ⊢
    rw [refBlend_spec _ _ _ _ _ _ _ _ _ _ (le_refl _)]
    have key : ∀ m', s.i ≤ m' + p → m' + (rest.length + 1) < P.length + X.length → s.P (m' + (rest.length + 1)) = Q m' := fun m' a b => by
      have := I.phigh m' a (by simpa using b)
      simpa using this
    by_cases c0 : m + p = s.i
    · rw [if_neg (by omega), upd, if_pos (by omega), hQ, if_pos (by omega), ← key m (by omega) (by omega)]
      congr 1
      omega
    · by_cases c1 : m ≤ s.i
      · rw [if_pos (by omega), hnew m (by omega) c1, blendVal]
        have e1 : m + rest.length + 1 - (s.k - p) = m + p - s.i := by omega
        have e2 : s.k + (m + p - s.i) = (m + p) + (rest.length + 1) := by omega
        have e3 : s.kv ((m + p) + (rest.length + 1)) = ix V (m + p) := by
          have := I.kvhigh (m + p) (by omega) (by omega)
          simpa using this
        have e4 : ix U (s.i - p + (m + p - s.i)) = ix V m := by
          rw [show s.i - p + (m + p - s.i) = m by omega]
          exact (I.vlow m c1).symm
        have e5 : upd s.P (s.k - p - 1) (s.P (s.k - p)) (m + rest.length) = Q (m - 1) := by
          rw [upd, if_neg (by omega), ← key (m - 1) (by omega) (by omega)]
          congr 1
          omega
        have e6 : upd s.P (s.k - p - 1) (s.P (s.k - p)) (m + rest.length + 1) = Q m := by
          rw [upd, if_neg (by omega), ← key m (by omega) (by omega)]
          rfl
        simp only [e1, e2, e3, e4, e5, e6]
        have hle : ix V m ≤ x := (hmV m s.i c1 (by omega)).trans hV1
        by_cases hxe : ix V (m + p) = x
        · rw [if_pos (by rw [hxe, sub_self, abs_zero]; exact hpos)]
          have hne : ix V m ≠ x := by
            intro he
            have := count_ge_of_run (V := V) (x := x) (m := m) (len := p + 1) (fun r hr => le_antisymm
              ((hmV _ (m + p) (by omega) (by omega)).trans (le_of_eq hxe)) ((ge_of_eq he).trans (hmV m _ (by omega) (by omega)))) (by omega)
            omega
          rw [hxe, div_self (sub_ne_zero.mpr (Ne.symm hne))]
          unfold lerp4
          simp only [sub_self]
          show Q m = (⟨_, _, _, _⟩ : Vec4 K)
          cases Q m
          simp
        · have hgt : x < ix V (m + p) := lt_of_le_of_ne (hV2.trans (hmV _ _ (by omega) (by omega))) (Ne.symm hxe)
          rw [if_neg (not_lt.mpr (hsepV _ (by omega) hxe)), ← lerp4_swap]
          congr 1
          have hd : ix V (m + p) - ix V m ≠ 0 := sub_ne_zero.mpr (ne_of_gt (lt_of_le_of_lt hle hgt))
          rw [sub_eq_iff_eq_add, ← add_div, eq_comm, div_eq_one_iff_eq hd]
          ring
      · rw [if_neg (by omega), upd, if_neg (by omega), hQ, if_neg (by omega), if_neg (by omega), if_neg (by omega), if_neg (by omega),
          ← key (m - 1) (by omega) (by omega)]
        congr 1
        omega
  · dsimp only
    rw [upd, if_neg (by omega)]
    exact I.kvlow m hm
  · dsimp only at h2 ⊢
    rw [refBlend_spec _ _ _ _ _ _ _ _ _ _ (le_refl _), if_neg (by omega), upd, if_neg (by omega)]
    exact I.plow m h1 (by omega)
  · refine List.Perm.trans ?_ I.vperm
    refine (List.Perm.append_right _ (knotInsertionKv_perm (by omega))).trans ?_
    simp only [List.replicate_one, List.singleton_append, List.cons_append]
    exact List.perm_middle.symm
  · show y ≤ ix _ (s.i + 1)
    rw [hW, insKnots, if_neg (by omega), if_pos (by omega)]
    exact hrest y hy
  · rw [hWl, hW, insKnots, if_neg (by omega), if_neg (by omega), show V.length + 1 - p - 1 - 1 = V.length - p - 1 by omega]
    exact I.vend
  · rw [← I.same φ hφ t t1 t2, hWl]
    obtain ⟨n, hn⟩ : ∃ n, V.length = n + p + 1 := ⟨V.length - p - 1, by omega⟩
    have hvp := I.vlow p (by omega)
    have hve := I.vend
    have e1 : V.length + 1 - p - 1 = n + 1 := by omega
    have e2 : V.length - p - 1 = n := by omega
    rw [e2] at hve
    rw [e1, e2]
    rw [← insert_one_same hp I.vsorted hn (by omega) (by omega) hV1 hV2 (fun j => φ (Q j)) (fun _ => φ 0) (by rw [hvp]; exact t1) (by rw [hve]; exact t2)]
    congr 1
    funext j
    exact insArray_map hφ.lerp (by omega) (by omega) j

theorem refLoop_inv {p : Nat} {U : List K} {P : List (Vec4 K)} {a : Nat} {X : List K}
    (hp : 1 ≤ p) (hlen : U.length = P.length + p + 1) (hU : SortedKnots U) (hpa : p ≤ a) (han : a < P.length) :
    ∀ (rem : List K) (s : RefState K) (V : List K) (Q : Nat → Vec4 K), RefInv p U P a X rem s V Q → rem.Pairwise (· ≥ ·) →
      (∀ x ∈ rem, ix U a ≤ x ∧ x ≤ ix U P.length ∧ (∀ y ∈ U ++ X, y ≠ x → refineTol ≤ |y - x|) ∧ (U ++ X).count x ≤ p) →
      (∀ x ∈ rem.getLast?, x ≤ ix U (a + 1)) →
      ∃ s' V' Q', refLoop p U P a (P.length + X.length) rem s = .ok s' ∧ RefInv p U P a X [] s' V' Q' ∧ (rem ≠ [] → s'.i = a) := by
  intro rem
  induction rem with
  | nil => intro s V Q I _ _ _; exact ⟨s, V, Q, rfl, I, fun h => absurd rfl h⟩
  | cons x rest ih =>
    intro s V Q I hs hx hl
    obtain ⟨I1, hstop⟩ := refShift_inv hpa s.i s.k s.P s.kv I
    obtain ⟨x1, x2, x3, x4⟩ := hx x (by simp)
    have hrest : ∀ y ∈ rest.head?, y ≤ x := by
      intro y hy
      exact List.rel_of_pairwise_cons hs (List.mem_of_mem_head? hy)
    obtain ⟨hk, I2⟩ := refBlend_inv hp hlen hU hpa han x1 x2 x3 x4 hrest I1 hstop
    rw [refLoop]
    dsimp only
    rw [if_neg (by omega)]
    obtain ⟨s', V', Q', e, I', hi⟩ := ih _ _ _ I2 (List.Pairwise.of_cons hs) (fun y hy => hx y (by simp [hy])) (fun y hy => hl y (by
      cases rest with
      | nil => simp at hy
      | cons z rest => simpa using hy))
    refine ⟨s', V', Q', e, I', fun _ => ?_⟩
    by_cases hr : rest = []
    · subst hr
      simp only [refLoop, Res.ok.injEq] at e
      subst e
      dsimp only
      rcases hstop with h | h
      · exact h
      · by_contra hc
        have h1 := I1.ia
        have h2 := I1.ip
        have := ix_mono hU (show a + 1 ≤ _ by omega) (show (refShift p U P a x s.i s.k s.P s.kv).i < U.length by omega)
        exact absurd (lt_of_le_of_lt this h) (not_lt.mpr (hl x (by simp)))
    · exact hi hr

/-- The loops of `knot_refinement` insert the knots and keep the spline. -/
theorem knotRefinement_core {p : Nat} {U : List K} {P : List (Vec4 K)} {knotList addList params X : List K} {x0 : K} {density : Nat}
    (hlen : U.length = P.length + p + 1) (hU : SortedKnots U) (hpn : p < P.length) (hR : refineParams p U knotList addList density = .ok params)
    (hX : knotsToInsert p U params = x0 :: X) (hsX : SortedKnots (x0 :: X)) (hp : 1 ≤ p)
    (hx : ∀ x ∈ x0 :: X, ix U p ≤ x ∧ x ≤ ix U P.length ∧ (∀ y ∈ U ++ (x0 :: X), y ≠ x → refineTol ≤ |y - x|) ∧ (U ++ (x0 :: X)).count x ≤ p) :
    ∃ Q W, knotRefinement p U P knotList addList density = .ok (Q, W) ∧ Q.length = P.length + (X.length + 1) ∧ SortedKnots W ∧
      W.Perm (U ++ (x0 :: X)) ∧ ∀ φ : Vec4 K → K, IsCoord φ → ∀ t, ix U p ≤ t → t < ix U P.length →
        splineSum (ix W) p 0 Q.length (fun j => φ (ix Q j)) t = splineSum (ix U) p 0 P.length (fun j => φ (ix P j)) t := by
  have hm : ∀ a b, a ≤ b → b < U.length → ix U a ≤ ix U b := fun a b h h' => ix_mono hU h h'
  have hspan : ∀ x, ix U p ≤ x → x ≤ ix U P.length → p ≤ findSpan (P.length - 1) p x (ix U) ∧ findSpan (P.length - 1) p x (ix U) < P.length ∧
      ix U (findSpan (P.length - 1) p x (ix U)) ≤ x ∧ x ≤ ix U (findSpan (P.length - 1) p x (ix U) + 1) ∧
      (findSpan (P.length - 1) p x (ix U) + 1 < P.length → x < ix U (findSpan (P.length - 1) p x (ix U) + 1)) := by
    intro x h1 h2
    have e1 := findSpan_ge (P.length - 1) p x (ix U)
    have e2 := findSpan_le (n := P.length - 1) (by omega) x (ix U) (p := p)
    refine ⟨e1, by omega, findSpan_knot_le x (ix U) h1 e1 (le_refl _) (n := P.length - 1), ?_, fun h => findSpan_lt x (ix U) (by omega)⟩
    rcases Nat.eq_or_lt_of_le e2 with h | h
    · rw [h, Nat.sub_add_cancel (by omega)]; exact h2
    · exact le_of_lt (findSpan_lt x (ix U) h)
  set xl := (x0 :: X).getLastD x0 with hxl
  have hxl' : (x0 :: X).getLast? = some xl := by rw [hxl, List.getLast?_cons, List.getLastD_cons, List.getLastD_eq_getLast?]
  have hxlm : xl ∈ x0 :: X := List.mem_of_mem_getLast? hxl'
  obtain ⟨a1, a2, -, -⟩ := hx x0 (by simp)
  obtain ⟨b1, b2, -, -⟩ := hx xl hxlm
  obtain ⟨sa1, sa2, sa3, sa4, sa5⟩ := hspan x0 a1 a2
  obtain ⟨sb1, sb2, sb3, sb4, sb5⟩ := hspan xl b1 b2
  have h0l : x0 ≤ xl := by
    rcases List.mem_cons.mp hxlm with h | h
    · exact le_of_eq h.symm
    · exact List.rel_of_pairwise_cons hsX h
  set a := findSpan (P.length - 1) p x0 (ix U) with ha
  set b := findSpan (P.length - 1) p xl (ix U) with hb
  have hab : a ≤ b := by
    by_contra hc
    have h1 := sb5 (by omega)
    have h2 := hm (b + 1) a (by omega) (by omega)
    exact absurd (lt_of_lt_of_le h1 (h2.trans sa3)) (not_lt.mpr h0l)
  have hne : P.isEmpty = false := by cases P with
    | nil => simp at hpn
    | cons _ _ => rfl
  unfold knotRefinement
  rw [hne]
  simp only [Bool.false_eq_true, if_false]
  rw [hR, Res.ok_bind, hX]
  dsimp only
  rw [if_neg (by omega), ← hxl, ← ha, ← hb]
  set P0 : Nat → Vec4 K := fun j => if b + 1 + X.length ≤ j ∧ j ≤ P.length - 1 + X.length + 1 then ix P (j - (X.length + 1)) else if j ≤ a - p then ix P j else 0 with hP0
  set kv0 : Nat → K := fun j => if b + 1 + p + X.length + 1 ≤ j ∧ j ≤ P.length - 1 + p + 1 + X.length + 1 then ix U (j - (X.length + 1))
    else if j ≤ a then ix U j else 0 with hkv0
  have hsz : P.length - 1 + X.length + 2 = P.length + (x0 :: X).length := by simp only [List.length_cons]; omega
  have I0 : RefInv p U P a (x0 :: X) (x0 :: X).reverse ⟨b + 1 + p - 1, b + 1 + p + X.length, P0, kv0⟩ U (ix P) := by
    refine ⟨by simp; omega, by dsimp only; omega, by dsimp only; omega, by simp, by simp, fun m _ => rfl, fun m _ => rfl, fun m h1 h2 => ?_, fun m h1 h2 => ?_,
      fun m h => ?_, fun m h1 h2 => ?_, hU, ?_, fun x hx => ?_, ?_, fun φ hφ t t1 t2 => ?_⟩
    · dsimp only at h1
      simp only [hkv0, List.length_reverse, List.length_cons]
      rw [if_pos (by omega)]
      congr 1
      omega
    · dsimp only at h1
      simp only [hP0, List.length_reverse, List.length_cons] at h2 ⊢
      rw [if_pos (by omega)]
      congr 1
      omega
    · simp only [hkv0]
      rw [if_neg (by omega), if_pos h]
    · simp only [hP0]
      rw [if_neg (by omega), if_pos (by omega)]
    · exact (List.reverse_perm _).append_left _
    · rw [List.head?_reverse, hxl'] at hx
      simp only [Option.mem_def, Option.some.injEq] at hx
      subst hx
      dsimp only
      exact sb4.trans (hm _ _ (by omega) (by omega))
    · congr 1; omega
    · rw [show U.length - p - 1 = P.length by omega]
  obtain ⟨s, V, Q, e, I, hi⟩ := refLoop_inv hp hlen hU sa1 sa2 _ _ _ _ I0 (by
      rw [List.pairwise_reverse]; exact hsX) (fun x hx' => by
      have hx' := List.mem_reverse.mp hx'
      obtain ⟨c1, c2, c3, c4⟩ := hx x hx'
      refine ⟨?_, c2, c3, c4⟩
      rcases List.mem_cons.mp hx' with h | h
      · rw [h]; exact sa3
      · exact sa3.trans (List.rel_of_pairwise_cons hsX h)) (fun x hx' => by
      rw [List.getLast?_reverse, List.head?_cons] at hx'
      simp only [Option.mem_def, Option.some.injEq] at hx'
      rw [← hx']; exact sa4)
  rw [hsz, e, Res.ok_bind]
  have hia : s.i = a := hi (by simp)
  have hk := I.k_eq
  have hvl := I.vlen
  simp only [List.length_nil, Nat.add_zero] at hk hvl
  have hPs : ∀ m < P.length + (x0 :: X).length, s.P m = Q m := by
    intro m hm
    by_cases h : m + p < a
    · rw [I.plow m (by omega) (by omega), I.qlow m (by omega)]
    · have := I.phigh m (by omega) (by simpa using hm)
      simpa using this
  have hkvs : ∀ m < V.length, s.kv m = ix V m := by
    intro m hm
    by_cases h : m ≤ a
    · rw [I.kvlow m h, I.vlow m (by omega)]
    · have := I.kvhigh m (by omega) hm
      simpa using this
  have hsz2 : P.length - 1 + p + 1 + X.length + 2 = V.length := by rw [hvl]; simp only [List.length_cons]; omega
  have hWV : (List.range (P.length - 1 + p + 1 + X.length + 2)).map s.kv = V := by
    rw [hsz2]
    apply List.ext_getElem
    · simp
    · intro m h1 h2
      rw [List.getElem_map, List.getElem_range, hkvs m h2, ix, List.getD_eq_getElem?_getD, List.getElem?_eq_getElem h2, Option.getD_some]
  refine ⟨_, _, rfl, by simp, ?_, ?_, fun φ hφ t t1 t2 => ?_⟩
  · rw [hWV]; exact I.vsorted
  · rw [hWV]; have := I.vperm; simpa using this
  · rw [hWV, ← I.same φ hφ t t1 t2]
    have e3 : V.length - p - 1 = P.length + (x0 :: X).length := by rw [hvl]; omega
    rw [e3, splineSum, splineSum]
    simp only [List.length_map, List.length_range]
    refine Finset.sum_congr rfl fun j hj => ?_
    have hj := Finset.mem_range.mp hj
    rw [ix, List.getD_eq_getElem?_getD, List.getElem?_map, List.getElem?_range hj, Option.map_some, Option.getD_some, hPs j hj]

end Cmm.Nurbs
