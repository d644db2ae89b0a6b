import Verif.Lemmas.Surface
/-! More surface lemmas: convex combinations, evaluation after insertion and splitting. -/
namespace Cmm.Nurbs
variable {K : Type} [Field K] [LinearOrder K] [IsStrictOrderedRing K]

/-! ### Non-negative combinations -/

/-- `r` is a combination of the points with non-negative coefficients of sum `c`. -/
def NonnegComb (c : K) (r : Vec3 K) (qs : List (Vec3 K)) : Prop :=
  ∃ a : List K, a.length = qs.length ∧ (∀ x ∈ a, 0 ≤ x) ∧ a.sum = c ∧ r = weightedSum a qs

theorem weightedSum_append (a b : List K) (p q : List (Vec3 K)) (h : a.length = p.length) :
    weightedSum (a ++ b) (p ++ q) = weightedSum a p + weightedSum b q := by
  induction a generalizing p with
  | nil =>
    cases p with
    | nil => ext <;> simp [weightedSum]
    | cons => simp at h
  | cons x a ih =>
    cases p with
    | nil => simp at h
    | cons y p =>
      simp only [List.cons_append, weightedSum]
      rw [ih p (by simpa using h)]
      ext <;> simp <;> ring

theorem weightedSum_smul (n : K) (a : List K) (p : List (Vec3 K)) :
    weightedSum (a.map (n * ·)) p = (weightedSum a p).smul n := by
  induction a generalizing p with
  | nil => ext <;> simp [weightedSum]
  | cons x a ih =>
    cases p with
    | nil => ext <;> simp [weightedSum]
    | cons y p =>
      simp only [List.map_cons, weightedSum]
      rw [ih p]
      ext <;> simp <;> ring

theorem NonnegComb.append {c d : K} {r s : Vec3 K} {p q : List (Vec3 K)} (h : NonnegComb c r p) (g : NonnegComb d s q) :
    NonnegComb (c + d) (r + s) (p ++ q) := by
  obtain ⟨a, a1, a2, a3, a4⟩ := h
  obtain ⟨b, b1, b2, b3, b4⟩ := g
  refine ⟨a ++ b, by simp [a1, b1], ?_, by simp [a3, b3], by rw [weightedSum_append _ _ _ _ a1, a4, b4]⟩
  intro x hx
  rcases List.mem_append.mp hx with h | h
  · exact a2 x h
  · exact b2 x h

theorem NonnegComb.smul {c n : K} {r : Vec3 K} {p : List (Vec3 K)} (hn : 0 ≤ n) (h : NonnegComb c r p) :
    NonnegComb (n * c) (r.smul n) p := by
  obtain ⟨a, a1, a2, a3, a4⟩ := h
  refine ⟨a.map (n * ·), by simp [a1], ?_, ?_, by rw [weightedSum_smul, a4]⟩
  · intro x hx
    obtain ⟨y, hy, rfl⟩ := List.mem_map.mp hx
    exact mul_nonneg hn (a2 y hy)
  · rw [← a3]
    clear a1 a2 a3 a4
    induction a with
    | nil => simp
    | cons x a ih => rw [List.map_cons, List.sum_cons, List.sum_cons, ih]; ring

theorem NonnegComb.nil : NonnegComb (0 : K) 0 [] := ⟨[], rfl, by simp, rfl, rfl⟩

theorem NonnegComb.single {q : Vec4 K} (hq : 0 < q.w) : NonnegComb q.w ⟨q.x, q.y, q.z⟩ [q.toVec3] := by
  refine ⟨[q.w], rfl, by simp [le_of_lt hq], by simp, ?_⟩
  have := ne_of_gt hq
  ext <;> simp [weightedSum, Vec4.toVec3] <;> field_simp

theorem comb_row (l : List (Vec4 K)) (hl : ∀ q ∈ l, 0 < q.w) (N : List K) : (∀ x ∈ N, 0 ≤ x) → ∀ k,
    k + N.length ≤ l.length → NonnegComb (dotL N (fun r => (ix l r).w) k)
      ⟨dotL N (fun r => (ix l r).x) k, dotL N (fun r => (ix l r).y) k, dotL N (fun r => (ix l r).z) k⟩
      (((l.drop k).take N.length).map Vec4.toVec3) := by
  induction N with
  | nil => intro _ k _; exact NonnegComb.nil
  | cons n N ih =>
    intro hN k hk
    have hlt : k < l.length := by simp at hk; omega
    have i1 := ih (fun x hx => hN x (by simp [hx])) (k + 1) (by simp at hk; omega)
    have e : (l.drop k).take (n :: N).length = ix l k :: (l.drop (k + 1)).take N.length := by
      rw [List.drop_eq_getElem_cons hlt, List.length_cons, List.take_succ_cons, ix_eq_getElem hlt]
    have i2 := (NonnegComb.single (hl _ (mem_ix hlt))).smul (hN n (by simp))
    have i3 := i2.append i1
    rw [e, List.map_cons]
    have e2 : ∀ f : Vec4 K → K, dotL (n :: N) (fun r => f (ix l r)) k = n * f (ix l k) + dotL N (fun r => f (ix l r)) (k + 1) :=
      fun f => rfl
    rw [e2 Vec4.w, e2 Vec4.x, e2 Vec4.y, e2 Vec4.z]
    rw [show (⟨n * (ix l k).x + dotL N (fun r => (ix l r).x) (k + 1), n * (ix l k).y + dotL N (fun r => (ix l r).y) (k + 1),
      n * (ix l k).z + dotL N (fun r => (ix l r).z) (k + 1)⟩ : Vec3 K) =
      (⟨(ix l k).x, (ix l k).y, (ix l k).z⟩ : Vec3 K).smul n + ⟨dotL N (fun r => (ix l r).x) (k + 1),
        dotL N (fun r => (ix l r).y) (k + 1), dotL N (fun r => (ix l r).z) (k + 1)⟩ by
        ext <;> simp <;> ring]
    exact i3

theorem comb_rows (c : List (List (Vec4 K))) (hc : ∀ r ∈ c, ∀ q ∈ r, 0 < q.w) (M : List K) (hM : ∀ x ∈ M, 0 ≤ x) (m : Nat)
    (hm : ∀ r ∈ c, m + M.length ≤ r.length) (N : List K) : (∀ x ∈ N, 0 ≤ x) → ∀ k, k + N.length ≤ c.length →
    NonnegComb (dotL N (fun i => dotL M (fun j => (cell c i j).w) m) k)
      ⟨dotL N (fun i => dotL M (fun j => (cell c i j).x) m) k, dotL N (fun i => dotL M (fun j => (cell c i j).y) m) k,
       dotL N (fun i => dotL M (fun j => (cell c i j).z) m) k⟩
      (((c.drop k).take N.length).flatMap fun r => ((r.drop m).take M.length).map Vec4.toVec3) := by
  induction N with
  | nil => intro _ k _; exact NonnegComb.nil
  | cons n N ih =>
    intro hN k hk
    have hlt : k < c.length := by simp at hk; omega
    have i1 := ih (fun x hx => hN x (by simp [hx])) (k + 1) (by simp at hk; omega)
    have e : (c.drop k).take (n :: N).length = c[k] :: (c.drop (k + 1)).take N.length := by
      rw [List.drop_eq_getElem_cons hlt, List.length_cons, List.take_succ_cons]
    have hmem : c[k] ∈ c := List.getElem_mem _
    have i2 := (comb_row c[k] (hc _ hmem) M hM m (hm _ hmem)).smul (hN n (by simp))
    have i3 := i2.append i1
    rw [e, List.flatMap_cons]
    have hcell : ∀ j, cell c k j = ix c[k] j := fun j => cell_eq hlt
    convert i3 using 1
    · simp only [dotL, hcell]
    · ext <;> simp only [dotL, hcell, Vec3.add_x, Vec3.add_y, Vec3.add_z, Vec3.smul_x, Vec3.smul_y, Vec3.smul_z] <;> ring

/-! ### Evaluating related surfaces -/

theorem surf_eval_eq {s s' : Surface K} (S : ValidSurface s) (S' : ValidSurface s') {u v u' v' : K}
    (hd : SurfInDomain s u v) (hd' : SurfInDomain s' u' v')
    (h : ∀ φ : Vec4 K → K, (∀ α a b, φ (lerp4 α a b) = lerp1 α (φ a) (φ b)) →
      spline2 s'.du s'.dv (ix s'.ku) (ix s'.kv) (fun i j => φ (cell s'.cpts i j))
        (findSpan (s'.su - 1) s'.du u' (ix s'.ku)) (findSpan (s'.sv - 1) s'.dv v' (ix s'.kv)) u' v' =
      spline2 s.du s.dv (ix s.ku) (ix s.kv) (fun i j => φ (cell s.cpts i j))
        (findSpan (s.su - 1) s.du u (ix s.ku)) (findSpan (s.sv - 1) s.dv v (ix s.kv)) u v) :
    s'.evaluate u' v' = s.evaluate u v := by
  rw [surf_eval S hd, surf_eval S' hd']
  congr 1
  exact surfaceSum_congr fun φ _ _ hφ => h φ hφ

/-- Changing the columns: it is enough to compare the splines of each column. -/
theorem spline2_congr_u {p p' q : Nat} {U U' V : Nat → K} {P P' : Nat → Nat → K} {us us' vs : Nat} {u u' v : K} (hq : q ≤ vs)
    (h : ∀ j, j ≤ vs → splineVal U' p' (fun i => P' i j) us' u' = splineVal U p (fun i => P i j) us u) :
    spline2 p' q U' V P' us' vs u' v = spline2 p q U V P us vs u v :=
  splineVal_congr v hq fun j hj _ => h j hj

/-- Changing the rows: it is enough to compare the splines of each row. -/
theorem spline2_congr_v {p q q' : Nat} {U V V' : Nat → K} {P P' : Nat → Nat → K} {us vs vs' : Nat} {u v v' : K} (hp : p ≤ us)
    (h : ∀ i, i ≤ us → splineVal V' q' (fun j => P' i j) vs' v' = splineVal V q (fun j => P i j) vs v) :
    spline2 p q' U V' P' us vs' u v' = spline2 p q U V P us vs u v := by
  rw [spline2_comm, spline2_comm p q]
  exact spline2_congr_u hp h

theorem surfSplitTol_eq : (surfSplitTol : K) = 1 / 10 ^ 7 := by simp [surfSplitTol]; norm_num

theorem make_ok {cpts : List (List (Vec4 K))} {du dv su sv : Nat} {ku kv : List K} (h1 : cpts.length = su) (h2 : 0 < su)
    (h3 : ∀ r ∈ cpts, r.length = sv) (h4 : 0 < sv) (h5 : ku ≠ []) (h6 : kv ≠ []) :
    Surface.make cpts du dv ku kv = .ok ⟨cpts, du, dv, su, sv, ku, kv, ix ku 0, ix ku (ku.length - 1), ix kv 0,
      ix kv (kv.length - 1)⟩ := by
  match cpts with
  | [] => simp at h1; omega
  | [] :: _ => have := h3 [] (by simp); simp at this; omega
  | (a :: r) :: rest =>
    have e : (a :: r).length = sv := h3 _ (by simp)
    unfold Surface.make
    simp only
    rw [if_neg (by simpa using h5), Res.ok_bind, if_neg (by simpa using h6), Res.ok_bind]
    rw [surf_updateInterval (by exact h5) (by exact h6), h1, e]

theorem cell_take {c : List (List (Vec4 K))} {n i j : Nat} (h : i < n) : cell (c.take n) i j = cell c i j := by
  unfold cell
  rw [List.getD_eq_getElem?_getD, List.getElem?_take_of_lt h, ← List.getD_eq_getElem?_getD]

theorem cell_drop {c : List (List (Vec4 K))} {n i j : Nat} : cell (c.drop n) i j = cell c (n + i) j := by
  unfold cell
  rw [List.getD_eq_getElem?_getD, List.getElem?_drop, ← List.getD_eq_getElem?_getD]

theorem cell_map_take {c : List (List (Vec4 K))} {n i j : Nat} (h : j < n) :
    cell (c.map fun r => r.take n) i j = cell c i j := by
  unfold cell
  rw [List.getD_eq_getElem?_getD, List.getD_eq_getElem?_getD, List.getElem?_map]
  cases c[i]? with
  | none => rfl
  | some r => exact ix_take h

theorem cell_map_drop {c : List (List (Vec4 K))} {n i j : Nat} :
    cell (c.map fun r => r.drop n) i j = cell c i (n + j) := by
  unfold cell
  rw [List.getD_eq_getElem?_getD, List.getD_eq_getElem?_getD, List.getElem?_map]
  cases c[i]? with
  | none => rfl
  | some r => exact ix_drop

theorem insRowsU_length (s : Surface K) (t : K) (count m k : Nat) : (insRowsU s t count m k).length = s.su + count := by
  simp [insRowsU]

theorem insRowsU_cols (s : Surface K) (t : K) (count m k : Nat) : ∀ r ∈ insRowsU s t count m k, r.length = s.sv := by
  intro r hr
  obtain ⟨i, _, rfl⟩ := List.mem_map.mp hr
  simp

theorem insRowsV_length (s : Surface K) (t : K) (count m k : Nat) : (insRowsV s t count m k).length = s.cpts.length := by
  simp [insRowsV]

theorem insRowsV_cols (s : Surface K) (t : K) (count m k : Nat) : ∀ r ∈ insRowsV s t count m k, r.length = s.sv + count := by
  intro r hr
  obtain ⟨i, _, rfl⟩ := List.mem_map.mp hr
  simp

/-- The number behind an entry after insertion in u. -/
theorem cell_insRowsU_num {s : Surface K} {t : K} {count m k i j : Nat} (φ : Vec4 K → K)
    (hφ : ∀ α a b, φ (lerp4 α a b) = lerp1 α (φ a) (φ b)) (hi : i < s.su + count) (hj : j < s.sv) (hpk : s.du ≤ k)
    (hs : count + m ≤ s.du) :
    φ (cell (insRowsU s t count m k) i j) =
      insArray lerp1 s.du (ix s.ku) (fun r => φ (cell s.cpts r j)) t count m k (fun _ => φ 0) i := by
  rw [cell_insRowsU hi hj, insArray_map hφ hpk hs]

theorem cell_insRowsV_num {s : Surface K} (S : ValidSurface s) {t : K} {count m k i j : Nat} (φ : Vec4 K → K)
    (hφ : ∀ α a b, φ (lerp4 α a b) = lerp1 α (φ a) (φ b)) (hi : i < s.su) (hj : j < s.sv + count) (hpk : s.dv ≤ k)
    (hkn : k < s.sv) (hs : count + m ≤ s.dv) :
    φ (cell (insRowsV s t count m k) i j) =
      insArray lerp1 s.dv (ix s.kv) (fun r => φ (cell s.cpts i r)) t count m k (fun _ => φ 0) j := by
  rw [cell_insRowsV S hi hj hpk hkn hs, insArray_map hφ hpk hs]

theorem knotInsertionKv_perm {U : List K} {u : K} {k num : Nat} (h : k + 1 ≤ U.length) :
    (knotInsertionKv U u k num).Perm (List.replicate num u ++ U) := by
  rw [knotInsertionKv_eq _ _ _ _ h]
  conv_rhs => rw [← List.take_append_drop (k + 1) U]
  rw [← List.append_assoc, ← List.append_assoc]
  exact List.Perm.append_right _ List.perm_append_comm

/-- Where the split parameter lands after inserting it up to the degree. -/
theorem split_span {n p : Nat} {U : List K} (V : ValidKnots n p U) {u : K} {k s : Nat} (S : SplitAt n p U u k s) {N : Nat}
    (hN : k + (p - s) ≤ N) :
    findSpan N p u (ix (knotInsertionKv U u k (p - s))) = k + (p - s) := by
  obtain ⟨hpk, hkn, h1, h2, hm, hlt, hsp, hps⟩ := S
  have hlen := V.len
  rw [ix_insKnots (by omega)]
  apply findSpan_eq (by omega) hN
  · intro j _ hj
    rw [insKnots]
    by_cases c1 : j ≤ k
    · rw [if_pos c1]; exact le_trans (V.mono j k c1 (by omega)) h1
    · rw [if_neg c1, if_pos hj]
  · intro _
    rw [insKnots, if_neg (by omega), if_neg (by omega)]
    have : k + (p - s) + 1 - (p - s) = k + 1 := by omega
    rw [this]; exact h2

theorem ValidKnots.splitAt {n p : Nat} {U : List K} (V : ValidKnots n p U) {u : K} (h1 : ix U p < u) (h2 : u < ix U n)
    (hsep : ClearOf (1 / 10 ^ 12) U u) (hc : U.count u ≤ p) :
    ∃ k s, findSpan (n - 1) p u (ix U) = k ∧ findMultiplicity u U = s ∧ SplitAt n p U u k s := by
  obtain ⟨k, s, hk, hs, hpk, hkn, k1, k2, hsk, hm, hlt⟩ := V.insertion (le_of_lt h1) h2 hsep
  have hcnt := findMultiplicity_eq_count hsep
  refine ⟨k, s, hk, hs, hpk, hkn, k1, k2, hm, hlt, by omega, ?_⟩
  by_contra hcon
  have := hm p (by omega) hpk
  exact absurd h1 (by rw [this]; exact lt_irrefl _)

theorem split_guard {lo hi u tol : K} (htol : 0 ≤ tol) (h1 : lo + tol < u) (h2 : u < hi - tol) :
    ¬ (u ≤ lo ∨ hi ≤ u ∨ |u - lo| ≤ tol ∨ |u - hi| ≤ tol) := by
  rintro (h | h | h | h)
  · linarith
  · linarith
  · rw [abs_of_pos (by linarith)] at h; linarith
  · rw [abs_of_neg (by linarith)] at h; linarith

theorem acc4_congr {f g : Nat → Vec4 K} {N : List K} : ∀ {k : Nat} {a : Vec4 K},
    (∀ x, k ≤ x → x < k + N.length → f x = g x) → acc4 f N k a = acc4 g N k a := by
  induction N with
  | nil => intro k a _; rfl
  | cons n N ih =>
    intro k a h
    rw [acc4, acc4, h k (le_refl _) (by simp)]
    exact ih fun x h1 h2 => h x (by omega) (by simp; omega)

end Cmm.Nurbs
