import Verif.Props.RoundingInsert
import Verif.Lemmas.SurfaceOps
/-! Insertion of knots into surfaces in any arithmetic, and the distance of two surfaces with weights one. -/
namespace Cmm.Nurbs

section any
variable {A : Type} [Arith A] [LinearOrder A]

omit [LinearOrder A] in
theorem cell_eq_any {c : List (List (Vec4 A))} {i j : Nat} (hi : i < c.length) : cell c i j = ix c[i] j := by
  unfold cell; rw [List.getD_eq_getElem?_getD, List.getElem?_eq_getElem hi]; rfl

omit [LinearOrder A] in
theorem cell_table_any {n m : Nat} (f : Nat → Nat → Vec4 A) {i j : Nat} (hi : i < n) (hj : j < m) :
    cell ((List.range n).map fun i => (List.range m).map fun j => f i j) i j = f i j := by
  rw [cell_eq_any (by simpa using hi)]
  simp only [List.getElem_map, List.getElem_range]
  exact ix_map_range _ hj

omit [LinearOrder A] in
theorem ix_flat_any (f : Nat → Nat → Vec4 A) (m : Nat) (n : Nat) : ∀ i j, i < n → j < m →
    ix ((List.range n).flatMap fun i => (List.range m).map fun j => f i j) (i * m + j) = f i j := by
  induction n with
  | zero => intro i j h; omega
  | succ n ih =>
    intro i j hi hj
    have hlen : ((List.range n).flatMap fun i => (List.range m).map fun j => f i j).length = n * m := by
      rw [List.length_flatMap]; simp
    rw [List.range_succ, List.flatMap_append]
    by_cases h : i < n
    · rw [ix_append_left, ih i j h hj]
      rw [hlen]
      calc i * m + j < i * m + m := by omega
        _ = (i + 1) * m := by ring
        _ ≤ n * m := Nat.mul_le_mul_right _ h
    · obtain rfl : i = n := by omega
      rw [ix_append_right (by rw [hlen]; omega), hlen, Nat.add_sub_cancel_left]
      simp only [List.flatMap_cons, List.flatMap_nil, List.append_nil]
      exact ix_map_range _ hj

theorem mapRes_ok_any {α β : Type} {f : α → Res β} {g : α → β} {l : List α} (h : ∀ a ∈ l, f a = .ok (g a)) :
    mapRes f l = .ok (l.map g) := by
  induction l with
  | nil => rfl
  | cons a l ih =>
    rw [mapRes, h a (by simp), Res.ok_bind, ih (fun x hx => h x (by simp [hx])), Res.ok_bind]; rfl

omit [LinearOrder A] in
theorem flip_table_any {m n : Nat} (hm : 0 < m) (f : Nat → Nat → Vec4 A) :
    flipControlPoints ((List.range m).map fun v => (List.range n).map (f v)) =
      .ok ((List.range n).map fun i => (List.range m).map fun v => f v i) := by
  obtain ⟨m, rfl⟩ : ∃ k, m = k + 1 := ⟨m - 1, by omega⟩
  have e : ((List.range (m + 1)).map fun v => (List.range n).map (f v)) =
      (List.range n).map (f 0) :: ((List.range m).map Nat.succ).map fun v => (List.range n).map (f v) := by
    rw [List.range_succ_eq_map]; rfl
  unfold flipControlPoints
  rw [e]
  simp only
  rw [← e, List.length_map, List.length_range]
  rw [mapRes_ok_any (g := fun i => (List.range (m + 1)).map fun v => f v i)]
  intro i hi
  rw [List.mem_range] at hi
  rw [mapRes_ok_any (g := fun row => ix row i)]
  · congr 1
    rw [List.map_map]
    apply List.map_congr_left
    intro v _
    exact ix_map_range _ hi
  · intro row hrow
    obtain ⟨v, _, rfl⟩ := List.mem_map.mp hrow
    rw [if_pos (by simpa using hi)]

omit [LinearOrder A] in
theorem insArray_congr_any {V : Type} {lerp : A → V → V → V} {p : Nat} {U : Nat → A} {u : A} {num s k n : Nat} {P P' : Nat → V}
    {init init' : Nat → V} (hp : p ≤ k) (hs : num + s ≤ p) (hk : k < n) (h : ∀ r < n, P r = P' r) (M : Nat)
    (hM : M < n + num) :
    insArray lerp p U P u num s k init M = insArray lerp p U P' u num s k init' M := by
  have ht : ∀ j m, m < n → tri lerp p U u P j m = tri lerp p U u P' j m := by
    intro j
    induction j with
    | zero => intro m hm; exact h m hm
    | succ j ih => intro m hm; rw [tri, tri, ih m hm, ih (m - 1) (by omega)]
  rw [insArray_spec lerp hp hs, insArray_spec lerp hp hs]
  by_cases c1 : M ≤ k - p
  · rw [if_pos c1, if_pos c1]; exact h _ (by omega)
  · rw [if_neg c1, if_neg c1]
    by_cases c2 : M ≤ k - p + num
    · rw [if_pos c2, if_pos c2]; exact ht _ _ (by omega)
    · rw [if_neg c2, if_neg c2]
      by_cases c3 : M < k - s
      · rw [if_pos c3, if_pos c3]; exact ht _ _ (by omega)
      · rw [if_neg c3, if_neg c3]
        by_cases c4 : M < k - s + num
        · rw [if_pos c4, if_pos c4]; exact ht _ _ (by omega)
        · rw [if_neg c4, if_neg c4]; exact h _ (by omega)

theorem knotInsertionKv_perm' {α : Type} {U : List α} {u : α} {k num : Nat} (h : k + 1 ≤ U.length) :
    (knotInsertionKv U u k num).Perm (List.replicate num u ++ U) := by
  rw [knotInsertionKv_eq _ _ _ _ h]
  conv_rhs => rw [← List.take_append_drop (k + 1) U]
  rw [← List.append_assoc, ← List.append_assoc]
  exact List.Perm.append_right _ List.perm_append_comm

/-- The control points form a grid of the size the surface states, with enough knots. -/
structure Grid (s : Surface A) : Prop where
  rows : s.cpts.length = s.su
  cols : ∀ r ∈ s.cpts, r.length = s.sv
  lenU : s.ku.length = s.su + s.du + 1
  lenV : s.kv.length = s.sv + s.dv + 1
  degU : s.du ≤ 8
  degV : s.dv ≤ 8

omit [Arith A] [LinearOrder A] in
theorem Grid.covered {s : Surface A} (G : Grid s) : s.covered = true := by
  unfold Surface.covered
  rw [Bool.and_eq_true, decide_eq_true_iff, List.all_eq_true]
  refine ⟨by rw [G.rows], fun r hr => ?_⟩
  rw [decide_eq_true_iff, G.cols r (List.mem_of_mem_take hr)]

theorem insertKnotU_any {s : Surface A} (G : Grid s) {t : A} {k count : Nat} (hk : findSpan (s.su - 1) s.du t (ix s.ku) = k) (hpk : s.du ≤ k) (hkn : k < s.su)
    (hv : 0 < s.sv) (hc : count + findMultiplicity t s.ku ≤ s.du) :
    s.insertKnotU t count = .ok { s with
      cpts := (List.range (s.su + count)).map fun i => (List.range s.sv).map fun j =>
        insArray lerp4 s.du (ix s.ku) (fun r => cell s.cpts r j) t count (findMultiplicity t s.ku) k (fun _ => 0) i,
      su := s.su + count, ku := knotInsertionKv s.ku t k count } := by
  have hl := G.lenU
  have h8 := G.degU
  unfold Surface.insertKnotU
  simp only [G.rows, hk]
  rw [if_neg (by omega)]
  unfold Surface.flat
  rw [if_neg (by rw [G.covered]; simp), Res.ok_bind]
  rw [mapRes_ok_any (g := fun v => (List.range (s.su + count)).map
    (fun i => insArray lerp4 s.du (ix s.ku) (fun r => cell s.cpts r v) t count (findMultiplicity t s.ku) k (fun _ => 0) i))]
  · rw [Res.ok_bind, flip_table_any hv, Res.ok_bind]
  · intro v hv'
    rw [List.mem_range] at hv'
    unfold knotInsertion
    rw [if_neg (by unfold maxDegree; simp; omega)]
    congr 1
    rw [List.length_map, List.length_range]
    apply List.map_congr_left
    intro x hx
    rw [List.mem_range] at hx
    exact insArray_congr_any hpk hc hkn (fun r hr => by rw [ix_map_range _ hr, ix_flat_any _ _ _ _ _ hr hv']) x hx

theorem insertKnotV_any {s : Surface A} (G : Grid s) {t : A} {k count : Nat} (hk : findSpan (s.sv - 1) s.dv t (ix s.kv) = k) (hpk : s.dv ≤ k) (hkn : k < s.sv)
    (hu : 0 < s.su) (hc : count + findMultiplicity t s.kv ≤ s.dv) :
    ∃ u0 u1 v0 v1, s.insertKnotV t count = .ok { s with
      cpts := s.cpts.map fun row => (List.range (s.sv + count)).map (insArray lerp4 s.dv (ix s.kv) (ix row) t count (findMultiplicity t s.kv) k (fun _ => 0)),
      sv := s.sv + count, kv := knotInsertionKv s.kv t k count, u0 := u0, u1 := u1, v0 := v0, v1 := v1 } ∧
      frontBack s.ku = .ok (u0, u1) ∧ frontBack (knotInsertionKv s.kv t k count) = .ok (v0, v1) := by
  have hl := G.lenV
  have hlu := G.lenU
  have h8 := G.degV
  have hr := G.rows
  have hne : (knotInsertionKv s.kv t k count) ≠ [] := by
    intro h
    have : (knotInsertionKv s.kv t k count).length ≠ 0 := by
      rw [knotInsertionKv_eq _ _ _ _ (by omega)]; simp; omega
    exact this (by rw [h]; rfl)
  have fb : ∀ l : List A, l ≠ [] → ∃ a b, frontBack l = .ok (a, b) := by
    intro l h
    cases l with
    | nil => exact absurd rfl h
    | cons a l => exact ⟨_, _, rfl⟩
  obtain ⟨u0, u1, f1⟩ := fb s.ku (by intro h; rw [h] at hlu; simp at hlu)
  obtain ⟨v0, v1, f2⟩ := fb _ hne
  refine ⟨u0, u1, v0, v1, ?_, f1, f2⟩
  unfold Surface.insertKnotV
  match hm : s.cpts with
  | [] => rw [hm] at hr; simp at hr; omega
  | r0 :: rest =>
    have hr0 : r0.length = s.sv := G.cols r0 (by rw [hm]; simp)
    simp only [hk]
    rw [if_neg (by omega)]
    rw [mapRes_ok_any (g := fun row => (List.range (s.sv + count)).map
      (insArray lerp4 s.dv (ix s.kv) (ix row) t count (findMultiplicity t s.kv) k (fun _ => 0)))]
    · rw [Res.ok_bind]
      unfold Surface.updateInterval
      simp only [f1, f2, Res.ok_bind, hr0]
    · intro row hrow
      have hrl : row.length = s.sv := G.cols row (by rw [hm]; exact hrow)
      unfold knotInsertion
      rw [if_neg (by unfold maxDegree; omega), hrl]

end any

variable {K : Type} [Field K] [LinearOrder K] [IsStrictOrderedRing K] {R : Rounding K} {u : K}

omit [IsStrictOrderedRing K] in
theorem Grid.ofExact {s : Surface (Fp R)} (S : ValidSurface s.exact) : Grid s where
  rows := by have := S.rows; simpa [Surface.exact] using this
  cols := fun r hr => by
    have := S.cols (r.map exact4) (by simp only [Surface.exact, List.mem_map]; exact ⟨r, hr, rfl⟩)
    simpa [Surface.exact] using this
  lenU := by have := S.knots_u.len; simpa [Surface.exact] using this
  lenV := by have := S.knots_v.len; simpa [Surface.exact] using this
  degU := S.knots_u.deg_le
  degV := S.knots_v.deg_le

/-- Two surfaces with weights one, the same knots and control points not further apart than `δ`. -/
theorem surf_unit_near {e f : Surface K} (E : ValidSurface e) (F : ValidSurface f) (we : SurfUnit e) (wf : SurfUnit f)
    (h1 : f.ku = e.ku) (h2 : f.kv = e.kv) (h3 : f.du = e.du) (h4 : f.dv = e.dv) (h5 : f.su = e.su) (h6 : f.sv = e.sv) {δ : K}
    (hx : ∀ i j, i < e.su → j < e.sv → |(cell f.cpts i j).x - (cell e.cpts i j).x| ≤ δ)
    (hy : ∀ i j, i < e.su → j < e.sv → |(cell f.cpts i j).y - (cell e.cpts i j).y| ≤ δ)
    (hz : ∀ i j, i < e.su → j < e.sv → |(cell f.cpts i j).z - (cell e.cpts i j).z| ≤ δ) (a b : K) (hd : SurfInDomain e a b) :
    ∃ r r', f.evaluate a b = .ok r ∧ e.evaluate a b = .ok r' ∧ |r.x - r'.x| ≤ δ ∧ |r.y - r'.y| ≤ δ ∧ |r.z - r'.z| ≤ δ := by
  have hd' : SurfInDomain f a b := by unfold SurfInDomain; rw [h1, h2, h3, h4, h5, h6]; exact hd
  obtain ⟨i, hi, a1, a2, a3, a4, a5, _, a7⟩ := E.knots_u.span hd.1.1 hd.1.2
  obtain ⟨j, hj, b1, b2, b3, b4, b5, _, b7⟩ := E.knots_v.span hd.2.1 hd.2.2
  have hN := basisFuns_nonneg E.knots_u.mono a3 a4 e.du a1 (by omega)
  have hNs := basisFuns_sum a1 a7 a
  have hNl := basisFuns_length i a (ix e.ku) e.du
  have hM := basisFuns_nonneg E.knots_v.mono b3 b4 e.dv b1 (by omega)
  have hMs := basisFuns_sum b1 b7 b
  have hMl := basisFuns_length j b (ix e.kv) e.dv
  rw [surf_eval F hd', surf_eval E hd, h1, h2, h3, h4, h5, h6, hi, hj]
  have one : ∀ g : Surface K, ValidSurface g → SurfUnit g → g.su = e.su → g.sv = e.sv →
      (surfaceSum e.du e.dv (ix e.ku) (ix e.kv) (cell g.cpts) i j a b).w = 1 := by
    intro g G wg g5 g6
    rw [surfaceSum_comp Vec4.w cw rfl, spline2, splineVal]
    have in1 : ∀ y, y < e.sv → splineVal (ix e.ku) e.du (fun x => (cell g.cpts x y).w) i a = 1 := by
      intro y hy
      have : splineVal (ix e.ku) e.du (fun x => (cell g.cpts x y).w) i a = splineVal (ix e.ku) e.du (fun _ => 1) i a :=
        splineVal_congr a a1 fun x hx _ => by
          obtain ⟨r, g1, g2⟩ := G.cell_mem (i := x) (j := y) (by omega) (by omega)
          exact wg r g1 _ g2
      rw [this, splineVal, dotL_const, hNs, one_mul]
    have : dotL (basisFuns j b (ix e.kv) e.dv) (fun y => splineVal (ix e.ku) e.du (fun x => (cell g.cpts x y).w) i a) (j - e.dv) =
        splineVal (ix e.kv) e.dv (fun _ => 1) j b := splineVal_congr b b1 fun y hy _ => in1 y (by omega)
    rw [this, splineVal, dotL_const, hMs, one_mul]
  have w1 := one e E we rfl rfl
  have w2 := one f F wf h5 h6
  have key : ∀ φ : Vec4 K → K, (∀ (a b : Vec4 K) (n : K), φ (a + b.smul n) = φ a + n * φ b) → φ 0 = 0 →
      (∀ i j, i < e.su → j < e.sv → |φ (cell f.cpts i j) - φ (cell e.cpts i j)| ≤ δ) →
      |φ (surfaceSum e.du e.dv (ix e.ku) (ix e.kv) (cell f.cpts) i j a b) - φ (surfaceSum e.du e.dv (ix e.ku) (ix e.kv) (cell e.cpts) i j a b)| ≤ δ := by
    intro φ h h0 hb
    rw [surfaceSum_comp φ h h0, surfaceSum_comp φ h h0, spline2, spline2, splineVal, splineVal]
    have := dotL_sub_le (e := δ) (basisFuns j b (ix e.kv) e.dv) (fun y => splineVal (ix e.ku) e.du (fun x => φ (cell f.cpts x y)) i a)
      (fun y => splineVal (ix e.ku) e.du (fun x => φ (cell e.cpts x y)) i a) (j - e.dv) hM (fun r hr => ?_)
    · rwa [hMs, one_mul] at this
    · have h2 := dotL_sub_le (e := δ) (basisFuns i a (ix e.ku) e.du) (fun x => φ (cell f.cpts x (j - e.dv + r))) (fun x => φ (cell e.cpts x (j - e.dv + r))) (i - e.du) hN
        (fun r' hr' => hb _ _ (by omega) (by omega))
      rwa [hNs, one_mul] at h2
  refine ⟨_, _, by rw [dehomog, if_neg (by rw [w2]; exact one_ne_zero)], by rw [dehomog, if_neg (by rw [w1]; exact one_ne_zero)], ?_, ?_, ?_⟩
  · simp only [w1, w2, div_one]; exact key Vec4.x cx rfl hx
  · simp only [w1, w2, div_one]; exact key Vec4.y cy rfl hy
  · simp only [w1, w2, div_one]; exact key Vec4.z cz rfl hz

end Cmm.Nurbs
