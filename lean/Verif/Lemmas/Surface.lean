import Verif.Lemmas.CurveOps
import Verif.Spec.Surface
/-! Lemmas about surfaces: tensor products of the scalar spline. -/
namespace Cmm.Nurbs
variable {K : Type} [Field K]

theorem acc4_comp (φ : Vec4 K → K) (h : ∀ (a b : Vec4 K) (n : K), φ (a + b.smul n) = φ a + n * φ b) (g : Nat → Vec4 K)
    (N : List K) : ∀ k a, φ (acc4 g N k a) = φ a + dotL N (fun r => φ (g r)) k := by
  induction N with
  | nil => intro k a; simp [acc4, dotL]
  | cons n N ih => intro k a; rw [acc4, ih, h, dotL]; ring

theorem cx (a b : Vec4 K) (n : K) : (a + b.smul n).x = a.x + n * b.x := by simp; ring
theorem cy (a b : Vec4 K) (n : K) : (a + b.smul n).y = a.y + n * b.y := by simp; ring
theorem cz (a b : Vec4 K) (n : K) : (a + b.smul n).z = a.z + n * b.z := by simp; ring
theorem cw (a b : Vec4 K) (n : K) : (a + b.smul n).w = a.w + n * b.w := by simp; ring

/-- The tensor product spline of numbers `P i j`. -/
def spline2 (p q : Nat) (U V : Nat → K) (P : Nat → Nat → K) (us vs : Nat) (u v : K) : K :=
  splineVal V q (fun j => splineVal U p (fun i => P i j) us u) vs v

theorem surfaceSum_comp (φ : Vec4 K → K) (h : ∀ (a b : Vec4 K) (n : K), φ (a + b.smul n) = φ a + n * φ b)
    (h0 : φ 0 = 0) (p q : Nat) (U V : Nat → K) (P : Nat → Nat → Vec4 K) (us vs : Nat) (u v : K) :
    φ (surfaceSum p q U V P us vs u v) = spline2 p q U V (fun i j => φ (P i j)) us vs u v := by
  rw [surfaceSum, acc4_comp φ h, h0, zero_add, spline2, splineVal]
  congr 1
  funext j
  rw [acc4_comp φ h, h0, zero_add]; rfl

theorem dotL_comm (l₁ l₂ : List K) (f : Nat → Nat → K) : ∀ k₁ k₂,
    dotL l₂ (fun j => dotL l₁ (fun i => f i j) k₁) k₂ = dotL l₁ (fun i => dotL l₂ (fun j => f i j) k₂) k₁ := by
  induction l₁ with
  | nil =>
    intro k₁ k₂
    simp only [dotL]
    rw [dotL_const]; ring
  | cons a l₁ ih =>
    intro k₁ k₂
    simp only [dotL]
    rw [dotL_add, dotL_mul, ih]

/-- The two directions can be summed in either order. -/
theorem spline2_comm (p q : Nat) (U V : Nat → K) (P : Nat → Nat → K) (us vs : Nat) (u v : K) :
    spline2 p q U V P us vs u v = spline2 q p V U (fun j i => P i j) vs us v u := dotL_comm _ _ _ _ _

theorem mapRes_ok {α β : Type} {f : α → Res β} {g : α → β} {l : List α} (h : ∀ a ∈ l, f a = .ok (g a)) :
    mapRes f l = .ok (l.map g) := by
  induction l with
  | nil => rfl
  | cons a l ih =>
    rw [mapRes, h a (by simp), Res.ok_bind, ih (fun x hx => h x (by simp [hx])), Res.ok_bind]; rfl

variable [LinearOrder K] [IsStrictOrderedRing K]

theorem cell_eq {c : List (List (Vec4 K))} {i j : Nat} (hi : i < c.length) : cell c i j = ix c[i] j := by
  unfold cell; rw [List.getD_eq_getElem?_getD, List.getElem?_eq_getElem hi]; rfl

theorem ValidSurface.cell_mem {s : Surface K} (S : ValidSurface s) {i j : Nat} (hi : i < s.su) (hj : j < s.sv) :
    ∃ r ∈ s.cpts, cell s.cpts i j ∈ r := by
  have hi' : i < s.cpts.length := by rw [S.rows]; exact hi
  refine ⟨s.cpts[i], List.getElem_mem _, ?_⟩
  rw [cell_eq hi']
  exact mem_ix (by rw [S.cols _ (List.getElem_mem _)]; exact hj)

theorem ValidSurface.covered {s : Surface K} (S : ValidSurface s) : s.covered = true := by
  unfold Surface.covered
  rw [Bool.and_eq_true, decide_eq_true_iff, List.all_eq_true]
  refine ⟨by rw [S.rows], fun r hr => ?_⟩
  rw [decide_eq_true_iff, S.cols r (List.mem_of_mem_take hr)]

/-- Evaluation in the domain. -/
theorem surf_eval {s : Surface K} (S : ValidSurface s) {u v : K} (hd : SurfInDomain s u v) :
    s.evaluate u v = dehomog (surfaceSum s.du s.dv (ix s.ku) (ix s.kv) (cell s.cpts)
      (findSpan (s.su - 1) s.du u (ix s.ku)) (findSpan (s.sv - 1) s.dv v (ix s.kv)) u v) := by
  obtain ⟨i, hi, a1, a2, _⟩ := S.knots_u.span hd.1.1 hd.1.2
  obtain ⟨j, hj, b1, b2, _⟩ := S.knots_v.span hd.2.1 hd.2.2
  have hl := S.knots_u.len
  have hl' := S.knots_v.len
  have h8 := S.knots_u.deg_le
  have h8' := S.knots_v.deg_le
  have hr := S.rows
  simp only [Surface.evaluate, hi, hj]
  rw [if_neg]
  unfold maxDegree
  have hany : ((s.cpts.drop (i - s.du)).take (s.du + 1)).any (fun r => decide (r.length ≤ j)) = false := by
    rw [List.any_eq_false]
    intro r hr
    have := S.cols r (List.mem_of_mem_drop (List.mem_of_mem_take hr))
    simp; omega
  rw [hany]
  simp
  omega

/-- Two surfaces whose homogeneous sums agree evaluate alike. -/
theorem surfaceSum_congr {p q p' q' : Nat} {U V U' V' : Nat → K} {P P' : Nat → Nat → Vec4 K} {us vs us' vs' : Nat}
    {u v u' v' : K}
    (h : ∀ φ : Vec4 K → K, (∀ (a b : Vec4 K) (n : K), φ (a + b.smul n) = φ a + n * φ b) → φ 0 = 0 →
      (∀ α a b, φ (lerp4 α a b) = lerp1 α (φ a) (φ b)) →
      spline2 p q U V (fun i j => φ (P i j)) us vs u v = spline2 p' q' U' V' (fun i j => φ (P' i j)) us' vs' u' v') :
    surfaceSum p q U V P us vs u v = surfaceSum p' q' U' V' P' us' vs' u' v' := by
  ext
  · rw [surfaceSum_comp Vec4.x cx rfl, surfaceSum_comp Vec4.x cx rfl, h Vec4.x cx rfl lerp4_x]
  · rw [surfaceSum_comp Vec4.y cy rfl, surfaceSum_comp Vec4.y cy rfl, h Vec4.y cy rfl lerp4_y]
  · rw [surfaceSum_comp Vec4.z cz rfl, surfaceSum_comp Vec4.z cz rfl, h Vec4.z cz rfl lerp4_z]
  · rw [surfaceSum_comp Vec4.w cw rfl, surfaceSum_comp Vec4.w cw rfl, h Vec4.w cw rfl lerp4_w]

/-! ### Insertion -/

theorem flat_ok {s : Surface K} (S : ValidSurface s) :
    s.flat = .ok ((List.range s.su).flatMap fun i => (List.range s.sv).map fun j => cell s.cpts i j) := by
  unfold Surface.flat; rw [if_neg (by rw [S.covered]; simp)]

theorem ix_flat (f : Nat → Nat → Vec4 K) (m : Nat) (n : Nat) : ∀ i j, i < n → j < m →
    ix ((List.range n).flatMap fun i => (List.range m).map fun j => f i j) (i * m + j) = f i j := by
  induction n with
  | zero => intro i j h; omega
  | succ n ih =>
    intro i j hi hj
    have hlen : ((List.range n).flatMap fun i => (List.range m).map fun j => f i j).length = n * m := by
      rw [List.length_flatMap]; simp
    rw [List.range_succ, List.flatMap_append]
    by_cases h : i < n
    · rw [ix_append_left, ih i j h hj]
      rw [hlen]
      calc i * m + j < i * m + m := by omega
        _ = (i + 1) * m := by ring
        _ ≤ n * m := Nat.mul_le_mul_right _ h
    · obtain rfl : i = n := by omega
      rw [ix_append_right (by rw [hlen]; omega), hlen, Nat.add_sub_cancel_left]
      simp only [List.flatMap_cons, List.flatMap_nil, List.append_nil]
      exact ix_map_range _ hj

/-- Transposing a table of `m ≥ 1` columns. -/
theorem flip_table {m n : Nat} (hm : 0 < m) (f : Nat → Nat → Vec4 K) :
    flipControlPoints ((List.range m).map fun v => (List.range n).map (f v)) =
      .ok ((List.range n).map fun i => (List.range m).map fun v => f v i) := by
  obtain ⟨m, rfl⟩ : ∃ k, m = k + 1 := ⟨m - 1, by omega⟩
  have e : ((List.range (m + 1)).map fun v => (List.range n).map (f v)) =
      (List.range n).map (f 0) :: ((List.range m).map Nat.succ).map fun v => (List.range n).map (f v) := by
    rw [List.range_succ_eq_map]; rfl
  unfold flipControlPoints
  rw [e]
  simp only
  rw [← e, List.length_map, List.length_range]
  rw [mapRes_ok (g := fun i => (List.range (m + 1)).map fun v => f v i)]
  intro i hi
  rw [List.mem_range] at hi
  rw [mapRes_ok (g := fun row => ix row i)]
  · congr 1
    rw [List.map_map]
    apply List.map_congr_left
    intro v _
    exact ix_map_range _ hi
  · intro row hrow
    obtain ⟨v, _, rfl⟩ := List.mem_map.mp hrow
    rw [if_pos (by simpa using hi)]

theorem cell_table {n m : Nat} (f : Nat → Nat → Vec4 K) {i j : Nat} (hi : i < n) (hj : j < m) :
    cell ((List.range n).map fun i => (List.range m).map fun j => f i j) i j = f i j := by
  rw [cell_eq (by simpa using hi)]
  simp only [List.getElem_map, List.getElem_range]
  exact ix_map_range _ hj

/-- The column read by `insert_knot`. -/
theorem ix_column {s : Surface K} {v x : Nat} (hv : v < s.sv) (hx : x < s.su) :
    ix ((List.range s.su).map fun u => ix ((List.range s.su).flatMap fun i => (List.range s.sv).map fun j =>
      cell s.cpts i j) (u * s.sv + v)) x = cell s.cpts x v := by
  rw [ix_map_range _ hx, ix_flat _ _ _ _ _ hx hv]

theorem insArray_congr {V : Type} {lerp : K → V → V → V} {p : Nat} {U : Nat → K} {u : K} {num s k n : Nat} {P P' : Nat → V}
    {init init' : Nat → V} (hp : p ≤ k) (hs : num + s ≤ p) (hk : k < n) (h : ∀ r < n, P r = P' r) (M : Nat)
    (hM : M < n + num) :
    insArray lerp p U P u num s k init M = insArray lerp p U P' u num s k init' M := by
  have ht : ∀ j m, m < n → tri lerp p U u P j m = tri lerp p U u P' j m := by
    intro j
    induction j with
    | zero => intro m hm; exact h m hm
    | succ j ih => intro m hm; rw [tri, tri, ih m hm, ih (m - 1) (by omega)]
  rw [insArray_spec lerp hp hs, insArray_spec lerp hp hs]
  by_cases c1 : M ≤ k - p
  · rw [if_pos c1, if_pos c1]; exact h _ (by omega)
  · rw [if_neg c1, if_neg c1]
    by_cases c2 : M ≤ k - p + num
    · rw [if_pos c2, if_pos c2]; exact ht _ _ (by omega)
    · rw [if_neg c2, if_neg c2]
      by_cases c3 : M < k - s
      · rw [if_pos c3, if_pos c3]; exact ht _ _ (by omega)
      · rw [if_neg c3, if_neg c3]
        by_cases c4 : M < k - s + num
        · rw [if_pos c4, if_pos c4]; exact ht _ _ (by omega)
        · rw [if_neg c4, if_neg c4]; exact h _ (by omega)

/-- The rows after insertion in u: entry `(i, j)` is entry `i` of the refined column `j`. -/
def insRowsU (s : Surface K) (t : K) (count m k : Nat) : List (List (Vec4 K)) :=
  (List.range (s.su + count)).map fun i => (List.range s.sv).map fun j =>
    insArray lerp4 s.du (ix s.ku) (fun r => cell s.cpts r j) t count m k (fun _ => 0) i

theorem insertKnotU_ok {s : Surface K} (S : ValidSurface s) {t : K} {k count : Nat}
    (hk : findSpan (s.su - 1) s.du t (ix s.ku) = k) (hpk : s.du ≤ k) (hkn : k < s.su)
    (hc : count + findMultiplicity t s.ku ≤ s.du) :
    s.insertKnotU t count = .ok { s with
      cpts := insRowsU s t count (findMultiplicity t s.ku) k, su := s.su + count, ku := knotInsertionKv s.ku t k count } := by
  have hl := S.knots_u.len
  have h8 := S.knots_u.deg_le
  have hv := S.knots_v.enough
  unfold Surface.insertKnotU
  simp only [S.rows, hk]
  rw [if_neg (by omega), flat_ok S, Res.ok_bind]
  rw [mapRes_ok (g := fun v => (List.range (s.su + count)).map
    (fun i => insArray lerp4 s.du (ix s.ku) (fun r => cell s.cpts r v) t count (findMultiplicity t s.ku) k (fun _ => 0) i))]
  · rw [Res.ok_bind, flip_table (by omega), Res.ok_bind]; rfl
  · intro v hv'
    rw [List.mem_range] at hv'
    unfold knotInsertion
    rw [if_neg (by unfold maxDegree; simp; omega)]
    congr 1
    rw [List.length_map, List.length_range]
    apply List.map_congr_left
    intro x hx
    rw [List.mem_range] at hx
    exact insArray_congr hpk hc hkn (fun r hr => ix_column hv' hr) x hx

/-- The rows after insertion in v. -/
def insRowsV (s : Surface K) (t : K) (count m k : Nat) : List (List (Vec4 K)) :=
  s.cpts.map fun row => (List.range (s.sv + count)).map (insArray lerp4 s.dv (ix s.kv) (ix row) t count m k (fun _ => 0))

theorem frontBack_ok {l : List K} (h : l ≠ []) : frontBack l = .ok (ix l 0, ix l (l.length - 1)) := by
  cases l with
  | nil => exact absurd rfl h
  | cons a l => rfl

theorem surf_updateInterval {s : Surface K} (hu : s.ku ≠ []) (hv : s.kv ≠ []) :
    s.updateInterval = .ok { s with
      u0 := ix s.ku 0, u1 := ix s.ku (s.ku.length - 1), v0 := ix s.kv 0, v1 := ix s.kv (s.kv.length - 1) } := by
  unfold Surface.updateInterval
  rw [frontBack_ok hu, frontBack_ok hv]; rfl

theorem ValidKnots.ne_nil {n p : Nat} {U : List K} (V : ValidKnots n p U) : U ≠ [] := by
  intro h; have := V.len; rw [h] at this; simp at this

theorem insertKnotV_ok {s : Surface K} (S : ValidSurface s) {t : K} {k count : Nat}
    (hk : findSpan (s.sv - 1) s.dv t (ix s.kv) = k) (hpk : s.dv ≤ k) (hkn : k < s.sv)
    (hc : count + findMultiplicity t s.kv ≤ s.dv) :
    ∃ v0 v1, s.insertKnotV t count = .ok { s with
      cpts := insRowsV s t count (findMultiplicity t s.kv) k, sv := s.sv + count, kv := knotInsertionKv s.kv t k count,
      u0 := ix s.ku 0, u1 := ix s.ku (s.ku.length - 1), v0 := v0, v1 := v1 } ∧
      v0 = ix (knotInsertionKv s.kv t k count) 0 ∧
      v1 = ix (knotInsertionKv s.kv t k count) ((knotInsertionKv s.kv t k count).length - 1) := by
  have hl := S.knots_v.len
  have h8 := S.knots_v.deg_le
  have hu := S.knots_u.enough
  have hr := S.rows
  refine ⟨_, _, ?_, rfl, rfl⟩
  unfold Surface.insertKnotV
  match hm : s.cpts with
  | [] => rw [hm] at hr; simp at hr; omega
  | r0 :: rest =>
    have hr0 : r0.length = s.sv := S.cols r0 (by rw [hm]; simp)
    simp only [hk]
    rw [if_neg (by omega)]
    rw [mapRes_ok (g := fun row => (List.range (s.sv + count)).map
      (insArray lerp4 s.dv (ix s.kv) (ix row) t count (findMultiplicity t s.kv) k (fun _ => 0)))]
    · rw [Res.ok_bind, surf_updateInterval]
      · rw [insRowsV, hr0, hm]
      · exact S.knots_u.ne_nil
      · have : (knotInsertionKv s.kv t k count).length ≠ 0 := by
          rw [knotInsertionKv_eq _ _ _ _ (by omega)]; simp; omega
        exact fun h => this (List.length_eq_zero_iff.mpr h)
    · intro row hrow
      have hrl : row.length = s.sv := S.cols row (by rw [hm]; exact hrow)
      unfold knotInsertion
      rw [if_neg (by unfold maxDegree; omega), hrl]

theorem cell_insRowsU {s : Surface K} {t : K} {count m k i j : Nat} (hi : i < s.su + count) (hj : j < s.sv) :
    cell (insRowsU s t count m k) i j =
      insArray lerp4 s.du (ix s.ku) (fun r => cell s.cpts r j) t count m k (fun _ => 0) i := cell_table _ hi hj

theorem cell_insRowsV {s : Surface K} (S : ValidSurface s) {t : K} {count m k i j : Nat} (hi : i < s.su)
    (hj : j < s.sv + count) (hpk : s.dv ≤ k) (hkn : k < s.sv) (hs : count + m ≤ s.dv) :
    cell (insRowsV s t count m k) i j =
      insArray lerp4 s.dv (ix s.kv) (fun r => cell s.cpts i r) t count m k (fun _ => 0) j := by
  have hi' : i < s.cpts.length := by rw [S.rows]; exact hi
  unfold insRowsV
  rw [cell_eq (by simpa using hi')]
  simp only [List.getElem_map]
  rw [ix_map_range _ hj]
  exact insArray_congr hpk hs hkn (fun r hr => (cell_eq hi').symm) j hj

end Cmm.Nurbs
