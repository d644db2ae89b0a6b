import Verif.Lemmas.RoundingSurface
import Verif.Props.Surface
import Verif.Spec.RoundingSurface
/-!
C146: the error of `insert_knot` on surfaces when every arithmetic operation rounds to the nearest number of `p` binary digits. `s.exact` is the surface with the same numbers, treated
without rounding.
-/
namespace Cmm.Nurbs
variable {K : Type} [Field K] [LinearOrder K] [IsStrictOrderedRing K]

theorem unit_small (p : Nat) (hp : 20 ≤ p) : (1 : K) / 2 ^ p ≤ 1 / 2 ^ 20 := by
  rw [div_le_div_iff₀ (by positivity) (by positivity)]
  have : (2 : K) ^ 20 ≤ 2 ^ p := pow_le_pow_right₀ (by norm_num) hp
  linarith

theorem multiplicity_float [FloorRing K] (p : Nat) (hp : 20 ≤ p) {U : List (Fp (Rounding.float (K := K) p (Nat.one_le_of_lt hp)))} {t : Fp _}
    (hsep : ClearOf (2 / 10 ^ 12) (U.map Fp.val) t.val) : findMultiplicity t U = (U.map Fp.val).count t.val := by
  have hu1 := unit_small (K := K) p hp
  have hu := float_error (K := K) p (Nat.one_le_of_lt hp)
  have H := errUnit hu (by positivity) (lt_of_le_of_lt hu1 (by norm_num))
  refine findMultiplicity_val H ?_ hsep
  have := pow_small hu (by positivity) hu1 5 (by omega)
  norm_num at this hu1 ⊢
  linarith

theorem pts_bounded (l : List (Vec4 K)) : ∃ M, ∀ q ∈ l, Bounded M (Vec4.pos q) := by
  induction l with
  | nil => exact ⟨0, by simp⟩
  | cons q l ih =>
    obtain ⟨M, hM⟩ := ih
    have m1 : M ≤ max M (max |(Vec4.pos q).x| (max |(Vec4.pos q).y| |(Vec4.pos q).z|)) := le_max_left _ _
    refine ⟨max M (max |(Vec4.pos q).x| (max |(Vec4.pos q).y| |(Vec4.pos q).z|)), fun q' hq' => ?_⟩
    rcases List.mem_cons.1 hq' with rfl | hq'
    · refine ⟨le_trans ?_ (le_max_right _ _), le_trans ?_ (le_max_right _ _), le_trans ?_ (le_max_right _ _)⟩
      · exact le_max_left _ _
      · exact (le_max_left _ _).trans (le_max_right _ _)
      · exact (le_max_right _ _).trans (le_max_right _ _)
    · exact ⟨(hM _ hq').1.trans m1, (hM _ hq').2.1.trans m1, (hM _ hq').2.2.trans m1⟩

theorem rows_bounded (l : List (List (Vec4 K))) : ∃ M, ∀ row ∈ l, ∀ q ∈ row, Bounded M (Vec4.pos q) := by
  obtain ⟨M, hM⟩ := pts_bounded l.flatten
  exact ⟨M, fun row hr q hq => hM q (List.mem_flatten.2 ⟨row, hr, hq⟩)⟩

/-- Insertion into a column or row of numbers, computed and exact. -/
theorem insArray_float [FloorRing K] (p : Nat) (hp : 20 ≤ p) {q k num s n : Nat} {U : List (Fp (Rounding.float (K := K) p (Nat.one_le_of_lt hp)))} {t : Fp _}
    {P : Nat → Vec4 (Fp (Rounding.float (K := K) p (Nat.one_le_of_lt hp)))} {M : K}
    (V : ValidKnots n q (U.map Fp.val)) (hpk : q ≤ k) (hs : num + s ≤ q) (hkn : k < n) (k1 : ix (U.map Fp.val) k ≤ t.val) (k2 : t.val < ix (U.map Fp.val) (k + 1))
    (hw : ∀ r < n, (exact4 (P r)).w = 1) (hM : ∀ r < n, Bounded M (Vec4.pos (exact4 (P r)))) (x : Nat) (hx : x < n + num) :
    let c := exact4 (insArray lerp4 q (ix U) P t num s k (fun _ => 0) x)
    let e := insArray lerp4 q (ix (U.map Fp.val)) (fun r => exact4 (P r)) t.val num s k (fun _ => 0) x
    c.w = 1 ∧ |c.x - e.x| ≤ (10 * num + 1) / 2 ^ p * M ∧ |c.y - e.y| ≤ (10 * num + 1) / 2 ^ p * M ∧ |c.z - e.z| ≤ (10 * num + 1) / 2 ^ p * M := by
  have hp1 := Nat.one_le_of_lt hp
  have hu1 := unit_small (K := K) p hp
  have hu := float_error (K := K) p hp1
  have H := errUnit hu (by positivity) (lt_of_le_of_lt hu1 (by norm_num))
  have h8 := V.deg_le
  have ek : ix (U.map Fp.val) = fun i => (ix U i).val := funext (ix_knots_exact U)
  have hmono : ∀ a b, a ≤ b → b ≤ k + q → (ix U a).val ≤ (ix U b).val := by
    intro a b hab hb
    have := V.mono a b hab (by omega)
    rwa [ek] at this
  have hM0 : 0 ≤ M := (abs_nonneg _).trans (hM k hkn).1
  rw [ek] at k1 k2
  have hb := pow_small hu (by positivity) hu1 (10 * num) (by omega)
  push_cast at hb
  have key : ∀ (φ : Vec4 K → K) (ψ : Vec4 (Fp (Rounding.float (K := K) p hp1)) → Fp (Rounding.float (K := K) p hp1)),
      (∀ α a b, φ (lerp4 α a b) = lerp1 α (φ a) (φ b)) → (∀ α a b, ψ (lerp4 α a b) = lerp1r α (ψ a) (ψ b)) → (∀ q, φ (exact4 q) = (ψ q).val) →
      (∀ r < n, |φ (exact4 (P r))| ≤ M) → |φ (exact4 (insArray lerp4 q (ix U) P t num s k (fun _ => 0) x)) -
        φ (insArray lerp4 q (ix (U.map Fp.val)) (fun r => exact4 (P r)) t.val num s k (fun _ => 0) x)| ≤ (10 * num + 1) / 2 ^ p * M := by
    intro φ ψ hφ hψ hφψ hA
    rw [hφψ, insArray_map_r hψ hpk hs, insArray_map hφ hpk hs, ek]
    simp only [hφψ]
    have := (insArray_near H (init := fun r => ψ 0) (init' := fun r => φ 0) (M := M) (P := fun r => ψ (P r)) (s := s) hpk hs hkn hmono k1 k2
      (fun r hr => by rw [← hφψ]; exact hA r hr) x hx).2
    refine this.trans (mul_le_mul_of_nonneg_right (hb.trans (le_of_eq ?_)) hM0)
    ring
  refine ⟨?_, key Vec4.x Vec4.x lerp4_x (fun _ _ _ => rfl) (fun _ => rfl) fun r hr => (hM r hr).1,
    key Vec4.y Vec4.y lerp4_y (fun _ _ _ => rfl) (fun _ => rfl) fun r hr => (hM r hr).2.1,
    key Vec4.z Vec4.z lerp4_z (fun _ _ _ => rfl) (fun _ => rfl) fun r hr => (hM r hr).2.2⟩
  have : Vec4.w (insArray lerp4 q (ix U) P t num s k (fun _ => 0) x) = 1 := by
    rw [insArray_map_r (φ := Vec4.w) (fun _ _ _ => rfl) hpk hs]
    exact insArray_one p hp1 hpk hs hkn hmono k1 k2 (fun r hr => Subtype.ext ((hw r hr).trans (float_rnd_one p hp1).symm)) x hx
  rw [show (exact4 _).w = Fp.val (Vec4.w (insArray lerp4 q (ix U) P t num s k (fun _ => 0) x)) from rfl, this]
  exact float_rnd_one p hp1

/-- The computed net `f` and the exact net `e`: the same knots and sizes, weights one in both, and points not further apart than `δ`. -/
structure NetNear (δ : K) (f e : Surface K) : Prop where
  valid : ValidSurface e
  unit : SurfUnit e
  ku : f.ku = e.ku
  kv : f.kv = e.kv
  du : f.du = e.du
  dv : f.dv = e.dv
  su : f.su = e.su
  sv : f.sv = e.sv
  rows : f.cpts.length = f.su
  cols : ∀ r ∈ f.cpts, r.length = f.sv
  near : ∀ i j, i < e.su → j < e.sv → (cell f.cpts i j).w = 1 ∧ |(cell f.cpts i j).x - (cell e.cpts i j).x| ≤ δ ∧
    |(cell f.cpts i j).y - (cell e.cpts i j).y| ≤ δ ∧ |(cell f.cpts i j).z - (cell e.cpts i j).z| ≤ δ

theorem NetNear.close {δ : K} {f e : Surface K} (N : NetNear δ f e) : CloseSurface δ f e := by
  have F : ValidSurface f := by
    refine ⟨N.rows, N.cols, ?_, ?_⟩
    · rw [N.ku, N.su, N.du]; exact N.valid.knots_u
    · rw [N.kv, N.sv, N.dv]; exact N.valid.knots_v
  have wf : SurfUnit f := by
    intro r hr q hq
    obtain ⟨i, hi, rfl⟩ := List.getElem_of_mem hr
    obtain ⟨j, hj, rfl⟩ := List.getElem_of_mem hq
    have hj' : j < e.sv := by rw [N.cols _ hr, N.sv] at hj; exact hj
    have hi' : i < e.su := by rw [N.rows, N.su] at hi; exact hi
    have := (N.near i j hi' hj').1
    rwa [cell_eq hi, ix_eq_getElem hj] at this
  refine ⟨F, wf, N.du, N.dv, fun a b => ⟨?_, fun hd => ?_⟩⟩
  · unfold SurfInDomain
    rw [N.ku, N.kv, N.du, N.dv, N.su, N.sv]
  · exact surf_unit_near N.valid F N.unit wf N.ku N.kv N.du N.dv N.su N.sv (fun i j hi hj => (N.near i j hi hj).2.1) (fun i j hi hj => (N.near i j hi hj).2.2.1)
      (fun i j hi hj => (N.near i j hi hj).2.2.2) a b hd

theorem insertU_near [FloorRing K] (p : Nat) (hp : 20 ≤ p) (s : Surface (Fp (Rounding.float (K := K) p (Nat.one_le_of_lt hp)))) (S : ValidSurface s.exact)
    (hw : SurfUnit s.exact) (t : Fp _) (ht1 : ix s.exact.ku s.du ≤ t.val) (ht2 : t.val < ix s.exact.ku s.su)
    (hsep : ClearOf (2 / 10 ^ 12) s.exact.ku t.val) (count : Nat) (hc : count + s.exact.ku.count t.val ≤ s.du)
    (M : K) (hM : ∀ row ∈ s.exact.cpts, ∀ q ∈ row, Bounded M (Vec4.pos q)) :
    ∃ f e, s.insertKnotU t count = .ok f ∧ s.exact.insertKnotU t.val count = .ok e ∧ NetNear ((10 * count + 1) / 2 ^ p * M) f.exact e ∧
      f.su = s.su + count ∧ f.sv = s.sv ∧ f.ku.Perm (List.replicate count t ++ s.ku) ∧ f.kv = s.kv ∧ f.u0 = s.u0 ∧ f.u1 = s.u1 ∧ f.v0 = s.v0 ∧ f.v1 = s.v1 ∧
      e.du = s.du ∧ e.dv = s.dv ∧ e.su = s.su + count ∧ e.sv = s.sv ∧ (∀ a b, (SurfInDomain e a b ↔ SurfInDomain s.exact a b) ∧ (SurfInDomain s.exact a b → e.evaluate a b = s.exact.evaluate a b)) := by
  have hsep1 : ClearOf (1 / 10 ^ 12) s.exact.ku t.val := fun x hx hne => lt_trans (by
    rw [div_lt_div_iff_of_pos_right (by positivity)]; norm_num) (hsep x hx hne)
  have G := Grid.ofExact S
  have hmul : findMultiplicity t s.ku = s.exact.ku.count t.val := multiplicity_float p hp hsep
  have hmule := findMultiplicity_eq_count hsep1
  obtain ⟨k, m, hk, hm, hpk, hkn, k1, k2, -⟩ := S.knots_u.insertion ht1 ht2 hsep1
  have eu : ix s.exact.ku = fun i => (ix s.ku i).val := funext (ix_knots_exact s.ku)
  have hkc : findSpan (s.su - 1) s.du t (ix s.ku) = k := by rw [findSpan_val, ← eu]; exact hk
  have hmm : findMultiplicity t s.ku = m := by rw [hmul, ← hmule, hm]
  have hcm : count + m ≤ s.du := by rw [← hmm, hmul]; exact hc
  have hev := S.knots_v.enough
  obtain ⟨e, he, E, e1, e2, e3, e4, -, e6, -, hval⟩ := C33_insert_u s.exact S t.val ht1 ht2 hsep1 count hc
  have he' := insertKnotU_ok S hk hpk hkn (count := count) (by rw [hm]; exact hcm)
  rw [Surface.insertKnot, if_pos rfl] at he
  have hee := he
  rw [he', hm] at he
  have he := (Res.ok.inj he).symm
  have hs' := insertKnotU_any G (count := count) hkc hpk hkn (by have : s.exact.sv = s.sv := rfl; omega) (by rw [hmm]; exact hcm)
  rw [hmm] at hs'
  refine ⟨_, e, hs', hee, ?_, rfl, rfl, ?_, rfl, rfl, rfl, rfl, rfl, e1, e2, e3, e4, fun a b => ⟨(hval a b).1, (hval a b).2⟩⟩
  swap
  · exact knotInsertionKv_perm' (by have := G.lenU; have : s.exact.su = s.su := rfl; omega)
  set f := ({ s with
      cpts := (List.range (s.su + count)).map fun i => (List.range s.sv).map fun j =>
        insArray lerp4 s.du (ix s.ku) (fun r => cell s.cpts r j) t count m k (fun _ => 0) i,
      su := s.su + count, ku := knotInsertionKv s.ku t k count } : Surface _) with hf
  have fk : f.exact.ku = e.ku := by rw [he]; exact knotInsertionKv_val _ _ _ _
  have fkv : f.exact.kv = e.kv := by rw [he]; rfl
  have cellS : ∀ i j, i < s.su → j < s.sv → (exact4 (cell s.cpts i j)).w = 1 ∧ Bounded M (Vec4.pos (exact4 (cell s.cpts i j))) := by
    intro i j hi hj
    obtain ⟨r, g1, g2⟩ := S.cell_mem (i := i) (j := j) hi hj
    rw [show cell s.exact.cpts i j = exact4 (cell s.cpts i j) from cell_exact _ _ _] at g2
    exact ⟨hw r g1 _ g2, hM r g1 _ g2⟩
  have near : ∀ i j, i < s.su + count → j < s.sv → (cell f.exact.cpts i j).w = 1 ∧ |(cell f.exact.cpts i j).x - (cell e.cpts i j).x| ≤ (10 * count + 1) / 2 ^ p * M ∧
      |(cell f.exact.cpts i j).y - (cell e.cpts i j).y| ≤ (10 * count + 1) / 2 ^ p * M ∧ |(cell f.exact.cpts i j).z - (cell e.cpts i j).z| ≤ (10 * count + 1) / 2 ^ p * M := by
    intro i j hi hj
    have h1 : cell f.exact.cpts i j = exact4 (insArray lerp4 s.du (ix s.ku) (fun r => cell s.cpts r j) t count m k (fun _ => 0) i) := by
      rw [show cell f.exact.cpts i j = exact4 (cell f.cpts i j) from cell_exact _ _ _]
      exact congrArg exact4 (cell_table_any _ hi hj)
    have h2 : cell e.cpts i j = insArray lerp4 s.du (ix s.exact.ku) (fun r => exact4 (cell s.cpts r j)) t.val count m k (fun _ => 0) i := by
      rw [he]
      refine (cell_insRowsU (s := s.exact) hi hj).trans ?_
      simp only [show ∀ r, cell s.exact.cpts r j = exact4 (cell s.cpts r j) from fun r => cell_exact _ _ _]
      rfl
    rw [h1, h2]
    exact insArray_float p hp S.knots_u hpk hcm hkn k1 k2 (fun r hr => (cellS r j hr hj).1) (fun r hr => (cellS r j hr hj).2) i hi
  have we : SurfUnit e := by
    intro r hr q hq
    obtain ⟨i, hi, rfl⟩ := List.getElem_of_mem hr
    obtain ⟨j, hj, rfl⟩ := List.getElem_of_mem hq
    have hj' : j < s.sv := by rw [E.cols _ hr, e4] at hj; exact hj
    have hi' : i < s.su + count := by rw [E.rows, e3] at hi; exact hi
    have h2 : (cell e.cpts i j).w = 1 := by
      rw [he]
      refine (cell_insRowsU_num (s := s.exact) Vec4.w lerp4_w hi' hj' hpk hcm).trans ?_
      exact insArray_const hpk hcm hkn (fun r hr => by
        rw [show cell s.exact.cpts r j = exact4 (cell s.cpts r j) from cell_exact _ _ _]
        exact (cellS r j hr hj').1) i hi'
    rwa [cell_eq hi, ix_eq_getElem hj] at h2
  refine ⟨E, we, fk, fkv, e1.symm, e2.symm, e3.symm, e4.symm, ?_, ?_, fun i j hi hj => near i j (by rw [e3] at hi; exact hi) (by rw [e4] at hj; exact hj)⟩
  · simp [f, Surface.exact]
  · intro r hr
    simp only [f, Surface.exact, List.mem_map, List.mem_range, exists_exists_and_eq_and] at hr
    obtain ⟨i, -, rfl⟩ := hr
    simp [f, Surface.exact]

/-- C146. `insert_knot(t, 0, count)` on a surface with weights one: the u knots get `count` copies of the parameter and nothing else changes in the knots, all weights are exactly one
again, and the surface is the old one, at all parameters, up to `(10 count + 1) / 2 ^ p` times the largest coordinate of the control points. -/
theorem C146_insert_u [FloorRing K] (p : Nat) (hp : 20 ≤ p) (s : Surface (Fp (Rounding.float (K := K) p (Nat.one_le_of_lt hp)))) (S : ValidSurface s.exact)
    (hw : SurfUnit s.exact) (t : Fp _) (ht1 : ix s.exact.ku s.du ≤ t.val) (ht2 : t.val < ix s.exact.ku s.su)
    (hsep : ClearOf (2 / 10 ^ 12) s.exact.ku t.val) (count : Nat) (hc : count + s.exact.ku.count t.val ≤ s.du)
    (M : K) (hM : ∀ row ∈ s.exact.cpts, ∀ q ∈ row, Bounded M (Vec4.pos q)) :
    ∃ s', s.insertKnot t 0 count = .ok s' ∧ CloseSurface ((10 * count + 1) / 2 ^ p * M) s'.exact s.exact ∧
      s'.su = s.su + count ∧ s'.sv = s.sv ∧ s'.ku.Perm (List.replicate count t ++ s.ku) ∧ s'.kv = s.kv ∧
      s'.u0 = s.u0 ∧ s'.u1 = s.u1 ∧ s'.v0 = s.v0 ∧ s'.v1 = s.v1 := by
  obtain ⟨f, e, h, -, N, x1, x2, x3, x4, x5, x6, x7, x8, y1, y2, -, -, hval⟩ := insertU_near p hp s S hw t ht1 ht2 hsep count hc M hM
  obtain ⟨F, wf, d1, d2, D⟩ := N.close
  refine ⟨f, (if_pos rfl : s.insertKnot t 0 count = s.insertKnotU t count).trans h, ⟨F, wf, ?_, ?_, fun a b => ⟨(D a b).1.trans (hval a b).1, fun hd => ?_⟩⟩,
    x1, x2, x3, x4, x5, x6, x7, x8⟩
  · exact d1.trans y1
  · exact d2.trans y2
  · rw [← (hval a b).2 hd]
    exact (D a b).2 ((hval a b).1.2 hd)

theorem insertV_near [FloorRing K] (p : Nat) (hp : 20 ≤ p) (s : Surface (Fp (Rounding.float (K := K) p (Nat.one_le_of_lt hp)))) (S : ValidSurface s.exact)
    (hw : SurfUnit s.exact) (t : Fp _) (ht1 : ix s.exact.kv s.dv ≤ t.val) (ht2 : t.val < ix s.exact.kv s.sv)
    (hsep : ClearOf (2 / 10 ^ 12) s.exact.kv t.val) (count : Nat) (hc : count + s.exact.kv.count t.val ≤ s.dv)
    (M : K) (hM : ∀ row ∈ s.exact.cpts, ∀ q ∈ row, Bounded M (Vec4.pos q)) :
    ∃ f e, s.insertKnotV t count = .ok f ∧ s.exact.insertKnotV t.val count = .ok e ∧ NetNear ((10 * count + 1) / 2 ^ p * M) f.exact e ∧
      f.su = s.su ∧ f.sv = s.sv + count ∧ f.ku = s.ku ∧ f.kv.Perm (List.replicate count t ++ s.kv) ∧ SurfIntervalOk f.exact ∧
      e.du = s.du ∧ e.dv = s.dv ∧ e.su = s.su ∧ e.sv = s.sv + count ∧
      (∀ a b, (SurfInDomain e a b ↔ SurfInDomain s.exact a b) ∧ (SurfInDomain s.exact a b → e.evaluate a b = s.exact.evaluate a b)) := by
  have hsep1 : ClearOf (1 / 10 ^ 12) s.exact.kv t.val := fun x hx hne => lt_trans (by
    rw [div_lt_div_iff_of_pos_right (by positivity)]; norm_num) (hsep x hx hne)
  have G := Grid.ofExact S
  have hmul : findMultiplicity t s.kv = s.exact.kv.count t.val := multiplicity_float p hp hsep
  have hmule := findMultiplicity_eq_count hsep1
  obtain ⟨k, m, hk, hm, hpk, hkn, k1, k2, -⟩ := S.knots_v.insertion ht1 ht2 hsep1
  have eu : ix s.exact.kv = fun i => (ix s.kv i).val := funext (ix_knots_exact s.kv)
  have hkc : findSpan (s.sv - 1) s.dv t (ix s.kv) = k := by rw [findSpan_val, ← eu]; exact hk
  have hmm : findMultiplicity t s.kv = m := by rw [hmul, ← hmule, hm]
  have hcm : count + m ≤ s.dv := by rw [← hmm, hmul]; exact hc
  have heu := S.knots_u.enough
  obtain ⟨e, he, E, e1, e2, e3, e4, e5, -, -, hval⟩ := C33_insert_v s.exact S t.val ht1 ht2 hsep1 count hc 1 (by norm_num)
  obtain ⟨v0, v1, he', -, -⟩ := insertKnotV_ok S hk hpk hkn (count := count) (by rw [hm]; exact hcm)
  rw [Surface.insertKnot, if_neg (by norm_num)] at he
  have hee := he
  rw [he', hm] at he
  have he := (Res.ok.inj he).symm
  obtain ⟨x0, x1, y0, y1, hs', f1, f2⟩ := insertKnotV_any G (count := count) hkc hpk hkn (by have : s.exact.su = s.su := rfl; omega) (by rw [hmm]; exact hcm)
  rw [hmm] at hs'
  refine ⟨_, e, hs', hee, ?_, rfl, rfl, rfl, ?_, ?_, e1, e2, e3, e4, fun a b => ⟨(hval a b).1, (hval a b).2⟩⟩
  pick_goal 2
  · exact knotInsertionKv_perm' (by have := G.lenV; have : s.exact.sv = s.sv := rfl; omega)
  pick_goal 2
  · have fb : ∀ (l : List (Fp (Rounding.float (K := K) p (Nat.one_le_of_lt hp)))) {a b}, frontBack l = .ok (a, b) → frontBack (l.map Fp.val) = .ok (a.val, b.val) := by
      intro l a b h
      cases l with
      | nil => cases h
      | cons y l =>
        simp only [frontBack, Res.ok.injEq, Prod.mk.injEq] at h
        obtain ⟨rfl, rfl⟩ := h
        simp only [List.map_cons, frontBack, List.length_map]
        rw [← List.map_cons, ix_knots_exact]
    unfold SurfIntervalOk Surface.updateInterval Surface.exact
    simp only [fb _ f1, fb _ f2, Res.ok_bind]
  set f := ({ s with
      cpts := s.cpts.map fun row => (List.range (s.sv + count)).map (insArray lerp4 s.dv (ix s.kv) (ix row) t count m k (fun _ => 0)),
      sv := s.sv + count, kv := knotInsertionKv s.kv t k count, u0 := x0, u1 := x1, v0 := y0, v1 := y1 } : Surface _) with hf
  have fk : f.exact.kv = e.kv := by rw [he]; exact knotInsertionKv_val _ _ _ _
  have fku : f.exact.ku = e.ku := by rw [he]; rfl
  have cellS : ∀ i j, i < s.su → j < s.sv → (exact4 (cell s.cpts i j)).w = 1 ∧ Bounded M (Vec4.pos (exact4 (cell s.cpts i j))) := by
    intro i j hi hj
    obtain ⟨r, g1, g2⟩ := S.cell_mem (i := i) (j := j) hi hj
    rw [show cell s.exact.cpts i j = exact4 (cell s.cpts i j) from cell_exact _ _ _] at g2
    exact ⟨hw r g1 _ g2, hM r g1 _ g2⟩
  have near : ∀ i j, i < s.su → j < s.sv + count → (cell f.exact.cpts i j).w = 1 ∧ |(cell f.exact.cpts i j).x - (cell e.cpts i j).x| ≤ (10 * count + 1) / 2 ^ p * M ∧
      |(cell f.exact.cpts i j).y - (cell e.cpts i j).y| ≤ (10 * count + 1) / 2 ^ p * M ∧ |(cell f.exact.cpts i j).z - (cell e.cpts i j).z| ≤ (10 * count + 1) / 2 ^ p * M := by
    intro i j hi hj
    have h1 : cell f.exact.cpts i j = exact4 (insArray lerp4 s.dv (ix s.kv) (fun r => cell s.cpts i r) t count m k (fun _ => 0) j) := by
      rw [show cell f.exact.cpts i j = exact4 (cell f.cpts i j) from cell_exact _ _ _]
      refine congrArg exact4 ?_
      have hi' : i < s.cpts.length := by rw [G.rows]; exact hi
      rw [cell_eq_any (by simpa [f] using hi')]
      simp only [f, List.getElem_map]
      rw [ix_map_range _ hj]
      exact insArray_congr_any hpk hcm hkn (fun r hr => (cell_eq_any hi').symm) j hj
    have h2 : cell e.cpts i j = insArray lerp4 s.dv (ix s.exact.kv) (fun r => exact4 (cell s.cpts i r)) t.val count m k (fun _ => 0) j := by
      rw [he]
      refine (cell_insRowsV S hi hj hpk hkn hcm).trans ?_
      simp only [show ∀ r, cell s.exact.cpts i r = exact4 (cell s.cpts i r) from fun r => cell_exact _ _ _]
      rfl
    rw [h1, h2]
    exact insArray_float p hp S.knots_v hpk hcm hkn k1 k2 (fun r hr => (cellS i r hi hr).1) (fun r hr => (cellS i r hi hr).2) j hj
  have we : SurfUnit e := by
    intro r hr q hq
    obtain ⟨i, hi, rfl⟩ := List.getElem_of_mem hr
    obtain ⟨j, hj, rfl⟩ := List.getElem_of_mem hq
    have hj' : j < s.sv + count := by rw [E.cols _ hr, e4] at hj; exact hj
    have hi' : i < s.su := by rw [E.rows, e3] at hi; exact hi
    have h2 : (cell e.cpts i j).w = 1 := by
      rw [he]
      refine (cell_insRowsV_num S Vec4.w lerp4_w hi' hj' hpk hkn hcm).trans ?_
      exact insArray_const hpk hcm hkn (fun r hr => by
        rw [show cell s.exact.cpts i r = exact4 (cell s.cpts i r) from cell_exact _ _ _]
        exact (cellS i r hi' hr).1) j hj'
    rwa [cell_eq hi, ix_eq_getElem hj] at h2
  refine ⟨E, we, fku, fk, e1.symm, e2.symm, e3.symm, e4.symm, ?_, ?_, fun i j hi hj => near i j (by rw [e3] at hi; exact hi) (by rw [e4] at hj; exact hj)⟩
  · simp [f, Surface.exact, G.rows]
  · intro r hr
    simp only [f, Surface.exact, List.mem_map, exists_exists_and_eq_and] at hr
    obtain ⟨i, -, rfl⟩ := hr
    simp [f, Surface.exact]

/-- C146. `insert_knot(t, direction, count)` with a direction other than 0: the same for the v knots; the cached intervals are those of the new knots. -/
theorem C146_insert_v [FloorRing K] (p : Nat) (hp : 20 ≤ p) (s : Surface (Fp (Rounding.float (K := K) p (Nat.one_le_of_lt hp)))) (S : ValidSurface s.exact)
    (hw : SurfUnit s.exact) (t : Fp _) (ht1 : ix s.exact.kv s.dv ≤ t.val) (ht2 : t.val < ix s.exact.kv s.sv)
    (hsep : ClearOf (2 / 10 ^ 12) s.exact.kv t.val) (count : Nat) (hc : count + s.exact.kv.count t.val ≤ s.dv)
    (M : K) (hM : ∀ row ∈ s.exact.cpts, ∀ q ∈ row, Bounded M (Vec4.pos q)) (direction : Int) (hdir : direction ≠ 0) :
    ∃ s', s.insertKnot t direction count = .ok s' ∧ CloseSurface ((10 * count + 1) / 2 ^ p * M) s'.exact s.exact ∧
      s'.su = s.su ∧ s'.sv = s.sv + count ∧ s'.ku = s.ku ∧ s'.kv.Perm (List.replicate count t ++ s.kv) ∧ SurfIntervalOk s'.exact := by
  obtain ⟨f, e, h, -, N, x1, x2, x3, x4, x5, y1, y2, -, -, hval⟩ := insertV_near p hp s S hw t ht1 ht2 hsep count hc M hM
  obtain ⟨F, wf, d1, d2, D⟩ := N.close
  refine ⟨f, (if_neg hdir : s.insertKnot t direction count = s.insertKnotV t count).trans h,
    ⟨F, wf, d1.trans y1, d2.trans y2, fun a b => ⟨(D a b).1.trans (hval a b).1, fun hd => ?_⟩⟩, x1, x2, x3, x4, x5⟩
  rw [← (hval a b).2 hd]
  exact (D a b).2 ((hval a b).1.2 hd)

/-- C146. The two together, for `double`: whatever knots are inserted in u and then in v, the surface moves by less than `2 ^ -45` times the largest coordinate of the
control points of the surfaces inserted into. -/
theorem C146_grid_double [FloorRing K] (s : Surface (Fp (Rounding.float (K := K) 53 (by norm_num)))) (S : ValidSurface s.exact) (hw : SurfUnit s.exact)
    (a b : Fp _) (ha1 : ix s.exact.ku s.du ≤ a.val) (ha2 : a.val < ix s.exact.ku s.su) (hb1 : ix s.exact.kv s.dv ≤ b.val) (hb2 : b.val < ix s.exact.kv s.sv)
    (hsa : ClearOf (2 / 10 ^ 12) s.exact.ku a.val) (hsb : ClearOf (2 / 10 ^ 12) s.exact.kv b.val) (m n : Nat) (hm : m + s.exact.ku.count a.val ≤ s.du)
    (hn : n + s.exact.kv.count b.val ≤ s.dv) :
    ∃ s1 s2, s.insertKnot a 0 m = .ok s1 ∧ s1.insertKnot b 1 n = .ok s2 ∧ ∀ M : K, (∀ row ∈ s.exact.cpts, ∀ q ∈ row, Bounded M (Vec4.pos q)) →
      (∀ row ∈ s1.exact.cpts, ∀ q ∈ row, Bounded M (Vec4.pos q)) → CloseSurface (1 / 2 ^ 45 * M) s2.exact s.exact := by
  obtain ⟨M0, hM0⟩ : ∃ M, ∀ row ∈ s.exact.cpts, ∀ q ∈ row, Bounded M (Vec4.pos q) := rows_bounded _
  obtain ⟨s1, h1, C1, x1, x2, x3, x4, -⟩ := C146_insert_u 53 (by norm_num) s S hw a ha1 ha2 hsa m hm M0 hM0
  obtain ⟨M1, hM1⟩ : ∃ M, ∀ row ∈ s1.exact.cpts, ∀ q ∈ row, Bounded M (Vec4.pos q) := rows_bounded _
  have ekv : s1.exact.kv = s.exact.kv := by simp only [Surface.exact, x4]
  have edv : s1.dv = s.dv := C1.2.2.2.1
  have y1 : ix s1.exact.kv s1.dv ≤ b.val := by rw [ekv, edv]; exact hb1
  have y2 : b.val < ix s1.exact.kv s1.sv := by rw [ekv, x2]; exact hb2
  have y3 : ClearOf (2 / 10 ^ 12) s1.exact.kv b.val := by rw [ekv]; exact hsb
  have y4 : n + s1.exact.kv.count b.val ≤ s1.dv := by rw [ekv, edv]; exact hn
  obtain ⟨s2, h2, C2, -⟩ := C146_insert_v 53 (by norm_num) s1 C1.1 C1.2.1 b y1 y2 y3 n y4 M1 hM1 1 (by norm_num)
  refine ⟨s1, s2, h1, h2, fun M hM hM' => ?_⟩
  obtain ⟨s1', h1', ⟨V1, W1, d1, d2, D1⟩, -⟩ := C146_insert_u 53 (by norm_num) s S hw a ha1 ha2 hsa m hm M hM
  obtain rfl : s1 = s1' := Res.ok.inj (h1.symm.trans h1')
  obtain ⟨s2', h2', ⟨V2, W2, d3, d4, D2⟩, -⟩ := C146_insert_v 53 (by norm_num) s1 V1 W1 b y1 y2 y3 n y4 M hM' 1 (by norm_num)
  obtain rfl : s2 = s2' := Res.ok.inj (h2.symm.trans h2')
  refine ⟨V2, W2, d3.trans d1, d4.trans d2, fun x y => ⟨(D2 x y).1.trans (D1 x y).1, fun hd => ?_⟩⟩
  obtain ⟨r, r', g1, g2, g3, g4, g5⟩ := (D1 x y).2 hd
  obtain ⟨q, q', k1, k2, k3, k4, k5⟩ := (D2 x y).2 ((D1 x y).1.2 hd)
  rw [g1] at k2
  obtain rfl : r = q' := Res.ok.inj k2
  have m8 : (m : K) ≤ 8 := by
    have : s.du ≤ 8 := S.knots_u.deg_le
    exact_mod_cast (by omega : m ≤ 8)
  have n8 : (n : K) ≤ 8 := by
    have : s.dv ≤ 8 := S.knots_v.deg_le
    exact_mod_cast (by omega : n ≤ 8)
  have M0 : 0 ≤ M := by
    have := S.knots_u.enough
    have := S.knots_v.enough
    obtain ⟨row, r1, r2⟩ := S.cell_mem (i := 0) (j := 0) (by omega) (by omega)
    exact (abs_nonneg _).trans (hM row r1 _ r2).1
  have fin : (10 * (n : K) + 1) / 2 ^ 53 * M + (10 * m + 1) / 2 ^ 53 * M ≤ 1 / 2 ^ 45 * M := by
    rw [← add_mul]
    refine mul_le_mul_of_nonneg_right ?_ M0
    norm_num
    linarith
  exact ⟨q, r', k1, g2, (abs_sub_le _ _ _).trans ((add_le_add k3 g3).trans fin), (abs_sub_le _ _ _).trans ((add_le_add k4 g4).trans fin),
    (abs_sub_le _ _ _).trans ((add_le_add k5 g5).trans fin)⟩

/-- The surface of C31, quadratic in u and linear in v, with its knot 1/3 rounded to `double`, meets the hypotheses, for the `double` nearest to 0.1 in u and 0.7 in v. -/
example : let s := demoSurface.rounded.exact
    let a := (Fp.round double (1 / 10)).val
    let b := (Fp.round double (7 / 10)).val
    ValidSurface s ∧ SurfUnit s ∧ (ix s.ku s.du ≤ a ∧ a < ix s.ku s.su) ∧ (ix s.kv s.dv ≤ b ∧ b < ix s.kv s.sv) ∧
    ClearOf (2 / 10 ^ 12) s.ku a ∧ ClearOf (2 / 10 ^ 12) s.kv b ∧ 2 + s.ku.count a ≤ s.du ∧ 1 + s.kv.count b ≤ s.dv ∧
    ∀ row ∈ s.cpts, ∀ q ∈ row, Bounded 10 (Vec4.pos q) := by
  refine ⟨⟨rfl, by decide +kernel, ⟨by decide, by decide, by decide, rfl, by unfold SortedKnots; decide +kernel, by decide +kernel⟩,
   ⟨by decide, by decide, by decide, rfl, by unfold SortedKnots; decide +kernel, by decide +kernel⟩⟩, by unfold SurfUnit; decide +kernel, ?_⟩
  unfold ClearOf Bounded
  decide +kernel

end Cmm.Nurbs
