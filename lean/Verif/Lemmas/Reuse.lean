import Verif.Model.Reuse
import Verif.Props.GaussMap
/-! Helper lemmas for C129: output objects that already hold data. -/
namespace Cmm.Reuse
open Cmm.Mat Cmm.Mono Cmm.Nurbs Cmm.Gauss
variable {K : Type} [Field K] [LinearOrder K]

omit [LinearOrder K] in
theorem resizeTensor_nil (n m : Nat) : resizeTensor ([] : Tensor K) n m = List.replicate n (List.replicate m 0) := by simp [resizeTensor]

omit [LinearOrder K] in
theorem resizeTensor_length (t : Tensor K) (n m : Nat) : (resizeTensor t n m).length = n := by
  simp only [resizeTensor, List.length_append, List.length_take, List.length_replicate]
  omega

omit [LinearOrder K] in
theorem resizeTensor_rows (t : Tensor K) (n m : Nat) (h : ∀ r ∈ t, r.length = m) : ∀ r ∈ resizeTensor t n m, r.length = m := by
  intro r hr
  simp only [resizeTensor, List.mem_append] at hr
  rcases hr with hr | hr
  · exact h r (List.mem_of_mem_take hr)
  · rw [(List.mem_replicate.mp hr).2, List.length_replicate]

omit [LinearOrder K] in
theorem resizeTensor_rect {t : Tensor K} {n m : Nat} (h : Rect t n m) : resizeTensor t n m = t := by
  rw [resizeTensor, h.1, Nat.sub_self, List.replicate_zero, List.append_nil, List.take_of_length_le h.1.le]

omit [LinearOrder K] in
theorem writeRows_same (f : Nat → Nat → Vec3 K) {n m : Nat} {rows : Tensor K} (hl : rows.length = n) (h : ∀ r ∈ rows, r.length = m) :
    writeRows f m rows = .ok ((List.range n).map fun i => (List.range m).map (f i)) := by
  unfold writeRows
  rw [if_pos (by rw [List.all_eq_true]; intro r hr; rw [h r hr]; simp)]
  congr 1
  apply List.ext_getElem
  · simp [hl]
  · intro i h1 h2
    simp only [List.getElem_mapIdx, List.getElem_map, List.getElem_range]
    rw [List.drop_of_length_le (h _ (List.getElem_mem _)).le, List.append_nil]

section cross
variable {ι : Type}

omit [LinearOrder K] in
theorem foldlM_addCell (f g : ι → Nat) (p : ι → Vec3 K) {n m : Nat} : ∀ (l : List ι) (t : Tensor K), Rect t n m → (∀ q ∈ l, f q < n ∧ g q < m) →
    l.foldlM (fun t q => addCell? t (f q) (g q) (p q)) t = .ok (l.foldl (fun t q => addCell t (f q) (g q) (p q)) t) := by
  intro l
  induction l with
  | nil => intro t _ _; rfl
  | cons q l ih =>
    intro t ht hq
    have hi := hq q List.mem_cons_self
    have e : addCell? t (f q) (g q) (p q) = .ok (addCell t (f q) (g q) (p q)) := by
      have h1 : f q < t.length := by rw [ht.1]; exact hi.1
      rw [addCell?, List.getElem?_eq_getElem h1]
      simp only
      rw [if_pos (by rw [ht.2 _ (List.getElem_mem h1)]; exact hi.2)]
    rw [List.foldlM_cons, e]
    show List.foldlM _ _ l = _
    rw [ih _ (addCell_rect ht _ _ _) fun q hq' => hq q (List.mem_cons_of_mem _ hq')]
    rfl

omit [LinearOrder K] in
theorem foldl_addCell_add (f g : ι → Nat) (p : ι → Vec3 K) {n m : Nat} : ∀ (l : List ι) (t t' d : Tensor K), Rect t n m → Rect t' n m →
    (∀ a < n, ∀ b < m, tcell t a b = tcell d a b + tcell t' a b) →
    Rect (l.foldl (fun t q => addCell t (f q) (g q) (p q)) t) n m ∧ ∀ a < n, ∀ b < m,
      tcell (l.foldl (fun t q => addCell t (f q) (g q) (p q)) t) a b = tcell d a b + tcell (l.foldl (fun t q => addCell t (f q) (g q) (p q)) t') a b := by
  intro l
  induction l with
  | nil => intro t t' d ht _ h; exact ⟨ht, h⟩
  | cons q l ih =>
    intro t t' d ht ht' h
    refine ih _ _ d (addCell_rect ht _ _ _) (addCell_rect ht' _ _ _) fun a ha b hb => ?_
    rw [tcell_addCell ht _ ha hb, tcell_addCell ht' _ ha hb, h a ha b hb]
    split
    · have : ∀ u v w : Vec3 K, u + v + w = u + (v + w) := by
        rintro ⟨⟩ ⟨⟩ ⟨⟩
        show Vec3.mk _ _ _ = Vec3.mk _ _ _
        congr 1 <;> exact add_assoc _ _ _
      exact this _ _ _
    · rfl
end cross

/-- All cells that are read exist. -/
def Reads (m N : Nat) (i : Nat) (r : List (Vec4 K)) : Prop := r.length = 0 ∨ i * m + r.length ≤ N

omit [LinearOrder K] in
theorem setRow_eq {x y z : MatrixD K} {m N : Nat} (hx : x.cols = m ∧ x.data.length = N) (hy : y.cols = m ∧ y.data.length = N)
    (hz : z.cols = m ∧ z.data.length = N) (i : Nat) (row : List (Vec4 K)) :
    (Reads m N i row → setRow x y z i row = .ok (row.mapIdx fun j p => ⟨x.get i j, y.get i j, z.get i j, p.w⟩)) ∧
    (¬ Reads m N i row → setRow x y z i row = .ub) := by
  unfold Reads setRow
  rw [hx.1, hx.2, hy.1, hy.2, hz.1, hz.2]
  constructor
  · intro h
    rw [if_pos (h.imp id fun h => ⟨h, h, h⟩)]
  · intro h
    rw [if_neg fun h' => h (h'.imp id fun h => h.1)]

omit [LinearOrder K] in
theorem setRows_ok {x y z : MatrixD K} {m N : Nat} (hx : x.cols = m ∧ x.data.length = N) (hy : y.cols = m ∧ y.data.length = N)
    (hz : z.cols = m ∧ z.data.length = N) : ∀ (rows : List (List (Vec4 K))) (i : Nat), (∀ k r, rows[k]? = some r → Reads m N (i + k) r) →
    setRows x y z i rows = .ok (rows.mapIdx fun k r => r.mapIdx fun j p => ⟨x.get (i + k) j, y.get (i + k) j, z.get (i + k) j, p.w⟩) := by
  intro rows
  induction rows with
  | nil => intro i _; rfl
  | cons r rows ih =>
    intro i h
    rw [setRows, (setRow_eq hx hy hz i r).1 (h 0 r rfl), Res.ok_bind, ih (i + 1) (fun k r' hk => by
      have := h (k + 1) r' (by simpa using hk)
      rwa [show i + 1 + k = i + (k + 1) by omega]), Res.ok_bind, List.mapIdx_cons]
    congr 2
    refine List.mapIdx_eq_mapIdx_iff.mpr fun k hk => ?_
    rw [show i + 1 + k = i + (k + 1) by omega]

omit [LinearOrder K] in
theorem setRows_ub {x y z : MatrixD K} {m N : Nat} (hx : x.cols = m ∧ x.data.length = N) (hy : y.cols = m ∧ y.data.length = N)
    (hz : z.cols = m ∧ z.data.length = N) : ∀ (rows : List (List (Vec4 K))) (i : Nat), (∃ k r, rows[k]? = some r ∧ ¬ Reads m N (i + k) r) →
    setRows x y z i rows = .ub := by
  intro rows
  induction rows with
  | nil => rintro i ⟨k, r, h, -⟩; simp at h
  | cons r rows ih =>
    rintro i ⟨k, r', h, hr⟩
    rw [setRows]
    by_cases h0 : Reads m N i r
    · rw [(setRow_eq hx hy hz i r).1 h0, Res.ok_bind]
      rcases k with _ | k
      · simp only [List.getElem?_cons_zero, Option.some.injEq] at h
        subst h
        exact absurd h0 hr
      · rw [ih (i + 1) ⟨k, r', by simpa using h, by rwa [show i + 1 + k = i + (k + 1) by omega]⟩]
        rfl
    · rw [(setRow_eq hx hy hz i r).2 h0]
      rfl

variable [IsStrictOrderedRing K]

theorem toBezierInto_eq (q : Monomial K) (hn : 0 < q.n) (hm : 0 < q.m) (hG : GoodMatrices q) (hR : Rect q.coefficients q.n q.m) :
    ∃ (g : Surface K) (x y z : MatrixD K), q.toBezier = .ok g ∧ (x.cols = q.m ∧ x.data.length = q.n * q.m) ∧
      (y.cols = q.m ∧ y.data.length = q.n * q.m) ∧ (z.cols = q.m ∧ z.data.length = q.n * q.m) ∧ g.su = q.n ∧ g.sv = q.m ∧
      g.cpts = (List.range q.n).map (fun i => (List.range q.m).map fun j => ⟨x.get i j, y.get i j, z.get i j, 1⟩) ∧
      ∀ surf, toBezierInto q surf = setRows x y z 0 (resizeRows surf.cpts q.n q.m) >>= fun rows => .ok { g with cpts := rows } := by
  obtain ⟨_, _, ⟨B, hB, hB1, hB2⟩, ⟨B', hB', hB1', hB2'⟩⟩ := hG
  obtain ⟨T, hT, hT'⟩ := C36_transpose _ _ _ _ hB'
  obtain ⟨x, y, z, hs, hx, hy, hz⟩ := sandwich_ok hB hT' hR hn
  refine ⟨⟨(setComponents q.n q.m x y z).map fun row => row.map fun p => ⟨p.x, p.y, p.z, 1⟩, q.n - 1, q.m - 1, q.n, q.m,
      List.replicate q.n 0 ++ List.replicate q.n 1, List.replicate q.m 0 ++ List.replicate q.m 1, 0, 1, 0, 1⟩, x, y, z, ?_,
    ⟨hx.2.1, hx.2.2.1⟩, ⟨hy.2.1, hy.2.2.1⟩, ⟨hz.2.1, hz.2.2.1⟩, rfl, rfl, ?_, fun surf => ?_⟩
  · unfold Monomial.toBezier
    rw [hT, Res.ok_bind, hs, Res.ok_bind, if_neg (by omega), generateKnots_bezier hn, Res.ok_bind, generateKnots_bezier hm,
      Res.ok_bind, surf_updateInterval (by simp; omega) (by simp; omega)]
    simp only [List.length_append, List.length_replicate]
    rw [bez_ix_zero hn, bez_ix_zero hm, bez_ix_one (n := q.n) (by omega) (by omega), bez_ix_one (n := q.m) (by omega) (by omega)]
  · simp [setComponents, Function.comp_def]
  · unfold toBezierInto
    rw [hT, Res.ok_bind, hs, Res.ok_bind]
    congr 1
    funext rows
    rw [if_neg (by omega), generateKnots_bezier hn, Res.ok_bind, generateKnots_bezier hm,
      Res.ok_bind, surf_updateInterval (by simp; omega) (by simp; omega)]
    simp only [List.length_append, List.length_replicate]
    rw [bez_ix_zero hn, bez_ix_zero hm, bez_ix_one (n := q.n) (by omega) (by omega), bez_ix_one (n := q.m) (by omega) (by omega)]

end Cmm.Reuse
