import Verif.Model.Decompose
import Verif.Spec.Decompose
import Verif.Lemmas.KnotRun
import Verif.Lemmas.Csx
import Verif.Lemmas.InsertConvex
import Verif.Props.Curve
import Verif.Props.Surface
import Verif.Props.Knots
/-!
C86: decomposition of curves and surfaces into Bézier pieces.
-/
namespace Cmm.Nurbs
variable {K : Type} [Field K] [LinearOrder K] [IsStrictOrderedRing K]

theorem interval_of_run {tol : K} {c : Curve K} {a b : K} {ks : List K} (V : ValidCurve c) (h : KnotRun tol c.degree c.knots a ks b)
    (ht : 0 ≤ tol) (hI : IntervalOk c) : c.lo = a ∧ c.hi = b := by
  obtain ⟨lo, hi, e, ⟨l1, l2⟩, ⟨r1, r2⟩⟩ := updateInterval_ok (c := c) (ValidKnots.ne_nil V)
  unfold IntervalOk at hI
  rw [hI] at e
  have e := Res.ok.inj e
  have e1 : c.lo = lo := congrArg Curve.lo e
  have e2 : c.hi = hi := congrArg Curve.hi e
  obtain ⟨h1, h2⟩ := h.lt ht
  have ha : a ∈ c.knots := (h.mem a).2 (by simp)
  have hb : b ∈ c.knots := (h.mem b).2 (by simp)
  have amin : ∀ x ∈ c.knots, a ≤ x ∧ x ≤ b := by
    intro x hx
    rcases List.mem_cons.1 ((h.mem x).1 hx) with rfl | hm
    · exact ⟨le_rfl, h2.le⟩
    · rcases List.mem_append.1 hm with hm | hm
      · exact ⟨(h1 x hm).1.le, (h1 x hm).2.le⟩
      · rw [List.mem_singleton.1 hm]; exact ⟨h2.le, le_rfl⟩
  exact ⟨by rw [e1]; exact le_antisymm (l2 _ ha) (amin _ l1).1, by rw [e2]; exact le_antisymm (amin _ r1).2 (r2 _ hb)⟩

theorem decomposeLoop_spec : ∀ (ks : List K) (temp : Curve K) (a b : K), ValidCurve temp → EqualWeights temp → IntervalOk temp →
    KnotRun (1 / 10 ^ 12) temp.degree temp.knots a ks b →
    ∃ l, decomposeLoop ks temp = .ok l ∧ l.length = ks.length + 1 ∧
      ∀ i, i ≤ ks.length → ∃ q lo hi, l[i]? = some q ∧ NeighboursAt (a :: (ks ++ [b])) i lo hi ∧ BezierPiece temp q lo hi ∧ a ≤ lo ∧ hi ≤ b
  | [], temp, a, b, V, _, hI, R => by
    have ht : (0 : K) ≤ 1 / 10 ^ 12 := by positivity
    obtain ⟨d1, d2, -, -⟩ := R.domain ht V.len
    have hk := R.bezier ht
    refine ⟨[temp], rfl, rfl, fun i hi => ?_⟩
    have : i = 0 := by simpa using hi
    subst this
    refine ⟨temp, a, b, rfl, ⟨rfl, rfl⟩, ⟨V, interval_of_run V R ht hI, rfl, ?_, hk, fun t => ?_, fun t _ _ => rfl⟩, le_rfl, le_rfl⟩
    · have := V.len
      rw [hk, List.length_append, List.length_replicate, List.length_replicate] at this
      omega
    · unfold InDomain; rw [d1, d2]
  | k :: ks, temp, a, b, V, hw, hI, R => by
    have ht : (0 : K) ≤ 1 / 10 ^ 12 := by positivity
    obtain ⟨d1, d2, -, -⟩ := R.domain ht V.len
    obtain ⟨i1, i2⟩ := interval_of_run V R ht hI
    obtain ⟨hclear, hcount, hak, hkb⟩ := R.clear ht
    obtain ⟨p, q, hs, ⟨Vp, hwp, hIp, hdp⟩, ⟨Vq, hwq, hIq, hdq⟩, hdom, hep, heq, ⟨hkp, hkq⟩, -⟩ :=
      C30_split_reproduces temp V hw k (by rw [d1]; linarith) (by rw [d2]; linarith) (by rw [i1]; exact hak) (by rw [i2]; linarith) hclear hcount
    have Rq : KnotRun (1 / 10 ^ 12) q.degree q.knots k ks b := by rw [hdq, hkq]; exact R.right ht
    obtain ⟨l, hl, hlen, hall⟩ := decomposeLoop_spec ks q k b Vq hwq hIq Rq
    rw [R.left ht] at hkp
    rw [d1, d2] at hdom
    refine ⟨p :: l, ?_, by simp [hlen], fun i hi => ?_⟩
    · rw [decomposeLoop, hs]
      simp only [Res.ok_bind]
      rw [hl]; rfl
    · cases i with
      | zero =>
        refine ⟨p, a, k, rfl, ⟨rfl, rfl⟩, ⟨Vp, ?_, hdp, ?_, hkp, fun t => (hdom t).1, fun t h1 h2 => hep t ((hdom t).1.2 ⟨h1, h2⟩)⟩, le_rfl, ?_⟩
        · obtain ⟨lo, hi, e, ⟨l1, l2⟩, ⟨r1, r2⟩⟩ := updateInterval_ok (c := p) (ValidKnots.ne_nil Vp)
          unfold IntervalOk at hIp
          rw [hIp] at e
          have e := Res.ok.inj e
          have e1 : p.lo = lo := congrArg Curve.lo e
          have e2 : p.hi = hi := congrArg Curve.hi e
          rw [hkp] at l1 l2 r1 r2
          have ma : a ∈ List.replicate (temp.degree + 1) a ++ List.replicate (temp.degree + 1) k := by simp
          have mk : k ∈ List.replicate (temp.degree + 1) a ++ List.replicate (temp.degree + 1) k := by simp
          have hm : ∀ x ∈ List.replicate (temp.degree + 1) a ++ List.replicate (temp.degree + 1) k, a ≤ x ∧ x ≤ k := by
            intro x hx
            rcases List.mem_append.1 hx with hx | hx
            · rw [List.eq_of_mem_replicate hx]; exact ⟨le_rfl, by linarith⟩
            · rw [List.eq_of_mem_replicate hx]; exact ⟨by linarith, le_rfl⟩
          exact ⟨by rw [e1]; exact le_antisymm (l2 _ ma) (hm _ l1).1, by rw [e2]; exact le_antisymm (hm _ r1).2 (r2 _ mk)⟩
        · have := Vp.len
          rw [hkp, hdp, List.length_append, List.length_replicate, List.length_replicate] at this
          omega
        · linarith
      | succ i =>
        obtain ⟨r, lo, hi', e1, e2, B, h1, h2⟩ := hall i (by simpa using hi)
        refine ⟨r, lo, hi', by simpa using e1, e2, ⟨B.valid, B.interval, B.degree.trans hdq, by rw [B.points, hdq], by rw [B.knots, hdq], B.domain,
          fun t ha hb => ?_⟩, by linarith, h2⟩
        rw [B.same t ha hb]
        exact heq t ((hdom t).2.2 ⟨by linarith, by linarith⟩)

/-- **C86**: `decompose` of a valid clamped curve with distinct knots `a, ks…, b` appends one piece per pair of neighbouring distinct
knots, in order; each is the Bézier piece of the curve over these two knots. -/
theorem C86_curve (c : Curve K) (V : ValidCurve c) (hw : EqualWeights c) (a b : K) (ks : List K)
    (R : KnotRun (1 / 10 ^ 12) c.degree c.knots a ks b) (out : List (Curve K)) :
    ∃ l, c.decompose out = .ok (out ++ l) ∧ l.length = ks.length + 1 ∧
      ∀ i, i ≤ ks.length → ∃ q lo hi, l[i]? = some q ∧ NeighboursAt (a :: (ks ++ [b])) i lo hi ∧ BezierPiece c q lo hi := by
  obtain ⟨lo, hi, e, -, -⟩ := updateInterval_ok (c := c) (ValidKnots.ne_nil V)
  obtain ⟨ex, h1, h2, h3⟩ := C25_unique_knots c.knots [] R.sorted
  have hex : ex = a :: (ks ++ [b]) := by
    refine List.Perm.eq_of_pairwise (le := (· < ·)) (fun x y _ _ hxy hyx => absurd hxy (not_lt.2 hyx.le)) h2 (R.inc.imp fun h => ?_) ?_
    · have : (0 : K) < 1 / 10 ^ 12 := by positivity
      linarith
    · have ht : (0 : K) ≤ 1 / 10 ^ 12 := by positivity
      exact (List.perm_ext_iff_of_nodup (h2.imp fun h => h.ne) (R.inc.imp fun h => (by linarith : _ < _).ne)).2 fun x => (h3 x).trans (R.mem x)
  obtain ⟨l, hl, hlen, hall⟩ := decomposeLoop_spec ks { c with lo := lo, hi := hi } a b V hw (intervalOk_of e) R
  refine ⟨l, ?_, hlen, fun i hi => ?_⟩
  · unfold Curve.decompose
    rw [e, Res.ok_bind]
    simp only
    rw [h1, hex, List.nil_append, List.tail_cons, List.dropLast_concat, hl]
    rfl
  · obtain ⟨q, lo', hi', e1, e2, B, -, -⟩ := hall i hi
    exact ⟨q, lo', hi', e1, e2, ⟨B.valid, B.interval, B.degree, B.points, B.knots, B.domain, B.same⟩⟩

omit [IsStrictOrderedRing K] in
theorem clearOf_mono {t1 t2 : K} {U : List K} {u : K} (h : t1 ≤ t2) (hc : ClearOf t2 U u) : ClearOf t1 U u :=
  fun x hx hne => h.trans_lt (hc x hx hne)

theorem unique_of_run {tol : K} {p : Nat} {U : List K} {a b : K} {ks : List K} (ht : 0 ≤ tol) (R : KnotRun tol p U a ks b) :
    uniqueKnots U [] = a :: (ks ++ [b]) := by
  obtain ⟨ex, h1, h2, h3⟩ := C25_unique_knots U [] R.sorted
  rw [h1, List.nil_append]
  have hinc : (a :: (ks ++ [b])).Pairwise (· < ·) := R.inc.imp fun h => by linarith
  exact List.Perm.eq_of_pairwise (le := (· < ·)) (fun x y _ _ hxy hyx => absurd hxy (not_lt.2 hyx.le)) h2 hinc
    ((List.perm_ext_iff_of_nodup (h2.imp fun h => h.ne) (hinc.imp fun h => h.ne)).2 fun x => (h3 x).trans (R.mem x))

theorem innerKnots_eq {tol : K} {p : Nat} {U : List K} {a b : K} {ks : List K} (ht : 0 ≤ tol) (R : KnotRun tol p U a ks b) :
    innerKnots U = ks := by
  obtain ⟨h1, h2⟩ := R.lt ht
  unfold innerKnots
  simp only
  rw [unique_of_run ht R]
  have e1 : ix (a :: (ks ++ [b])) 0 = a := rfl
  have e2 : ix (a :: (ks ++ [b])) ((a :: (ks ++ [b])).length - 1) = b := by
    simp [ix]
  rw [e1, e2, List.filter_cons_of_neg (by simp), List.filter_append, List.filter_eq_self.2, List.filter_cons_of_neg (by simp), List.filter_nil,
    List.append_nil]
  intro x hx
  simp [(h1 x hx).1.ne', (h1 x hx).2.ne]

omit [IsStrictOrderedRing K] in
theorem ValidSurface.updated {s : Surface K} (S : ValidSurface s) (u0 u1 v0 v1 : K) :
    ValidSurface { s with u0 := u0, u1 := u1, v0 := v0, v1 := v1 } := ⟨S.rows, S.cols, S.knots_u, S.knots_v⟩

theorem neighbours_between {tol : K} {p : Nat} {U : List K} {a b : K} {ks : List K} {j : Nat} {lo hi : K} (ht : 0 ≤ tol) (R : KnotRun tol p U a ks b)
    (h : NeighboursAt (a :: (ks ++ [b])) j lo hi) : lo < hi ∧ a ≤ lo ∧ hi ≤ b := by
  obtain ⟨h1, h2⟩ := R.lt ht
  have hm : ∀ x ∈ a :: (ks ++ [b]), a ≤ x ∧ x ≤ b := by
    intro x hx
    rcases List.mem_cons.1 hx with rfl | hx
    · exact ⟨le_rfl, h2.le⟩
    · rcases List.mem_append.1 hx with hx | hx
      · exact ⟨(h1 x hx).1.le, (h1 x hx).2.le⟩
      · rw [List.mem_singleton.1 hx]; exact ⟨h2.le, le_rfl⟩
  obtain ⟨l1, e1⟩ := List.getElem?_eq_some_iff.1 h.1
  obtain ⟨l2, e2⟩ := List.getElem?_eq_some_iff.1 h.2
  have := List.pairwise_iff_getElem.1 R.inc j (j + 1) l1 l2 (by omega)
  rw [e1, e2] at this
  exact ⟨by linarith, (hm _ (List.mem_of_getElem? h.1)).1, (hm _ (List.mem_of_getElem? h.2)).2⟩

omit [Field K] [IsStrictOrderedRing K] in
theorem neighbours_cover : ∀ (ks : List K) (a b : K) {t : K}, a ≤ t → t ≤ b →
    ∃ i lo hi, i ≤ ks.length ∧ NeighboursAt (a :: (ks ++ [b])) i lo hi ∧ lo ≤ t ∧ t ≤ hi
  | [], a, b, _, h1, h2 => ⟨0, a, b, le_rfl, ⟨rfl, rfl⟩, h1, h2⟩
  | k :: ks, a, b, t, h1, h2 => by
    rcases le_total t k with h | h
    · exact ⟨0, a, k, Nat.zero_le _, ⟨rfl, rfl⟩, h1, h⟩
    · obtain ⟨i, lo, hi, e1, e2, e3, e4⟩ := neighbours_cover ks k b h h2
      exact ⟨i + 1, lo, hi, by simpa using e1, e2, e3, e4⟩

theorem surfDecomposeLoopU_spec : ∀ (ks : List K) (temp : Surface K) (a b : K), ValidSurface temp → SurfIntervalOk temp →
    KnotRun (1 / 10 ^ 7) temp.du temp.ku a ks b →
    ∃ l, surfDecomposeLoop (fun t k => t.splitU k surfSplitTol) ks temp = .ok l ∧ l.length = ks.length + 1 ∧
      ∀ i, i ≤ ks.length → ∃ q lo hi, l[i]? = some q ∧ NeighboursAt (a :: (ks ++ [b])) i lo hi ∧ StripU temp q lo hi ∧ a ≤ lo ∧ hi ≤ b
  | [], temp, a, b, S, hI, R => by
    have ht : (0 : K) ≤ 1 / 10 ^ 7 := by positivity
    obtain ⟨d1, d2, -, -⟩ := R.domain ht S.knots_u.len
    have hk := R.bezier ht
    refine ⟨[temp], rfl, rfl, fun i hi => ?_⟩
    have : i = 0 := by simpa using hi
    subst this
    refine ⟨temp, a, b, rfl, ⟨rfl, rfl⟩, ⟨S, hI, rfl, rfl, rfl, hk, fun u v => ?_, fun _ _ _ => rfl, NetKept.refl _⟩, le_rfl, le_rfl⟩
    unfold SurfInDomain; rw [d1, d2]
  | k :: ks, temp, a, b, S, hI, R => by
    have ht : (0 : K) ≤ 1 / 10 ^ 7 := by positivity
    obtain ⟨d1, d2, d3, d4⟩ := R.domain ht S.knots_u.len
    obtain ⟨-, -, iu0, iu1, iv0, iv1⟩ := Cmm.Csx.interval_eq hI
    rw [d3] at iu0
    rw [d4] at iu1
    obtain ⟨hclear, hcount, hak, hkb⟩ := R.clear ht
    obtain ⟨p, q, hs, ⟨Vp, hIp, hpu, hpv, hpk⟩, ⟨Vq, hIq, hqu, hqv, hqk⟩, hdp, hdq, hep, heq, hkp, hkq⟩ :=
      C33_split_u temp S k surfSplitTol (by rw [surfSplitTol_eq]; exact ht) (by rw [d1]; linarith) (by rw [d2]; linarith) (by rw [iu0, surfSplitTol_eq]; exact hak)
        (by rw [iu1]; rw [surfSplitTol_eq]; linarith) (clearOf_mono (by norm_num) hclear) hcount
    obtain ⟨kp, kq⟩ := splitU_kept S (by rw [d1]; linarith) (by rw [d2]; linarith) (clearOf_mono (by norm_num) hclear) hcount hs
    have Rq : KnotRun (1 / 10 ^ 7) q.du q.ku k ks b := by rw [hqu, hkq]; exact R.right ht
    obtain ⟨l, hl, hlen, hall⟩ := surfDecomposeLoopU_spec ks q k b Vq hIq Rq
    rw [R.left ht] at hkp
    rw [d1] at hdp
    rw [d2] at hdq
    have hsize : q.sv = temp.sv := by
      have h1 := Vq.knots_v.len
      have h2 := S.knots_v.len
      rw [hqk, hqv] at h1
      omega
    refine ⟨p :: l, ?_, by simp [hlen], fun i hi => ?_⟩
    · rw [surfDecomposeLoop, hs]
      simp only [Res.ok_bind]
      rw [hl]; rfl
    · cases i with
      | zero =>
        exact ⟨p, a, k, rfl, ⟨rfl, rfl⟩, ⟨Vp, hIp, hpu, hpv, hpk, hkp, hdp, hep, kp⟩, le_rfl, by linarith⟩
      | succ i =>
        obtain ⟨r, lo, hi', e1, e2, B, h1, h2⟩ := hall i (by simpa using hi)
        have hd : ∀ u v, SurfInDomain r u v ↔ (lo ≤ u ∧ u ≤ hi') ∧ (ix temp.kv temp.dv ≤ v ∧ v ≤ ix temp.kv temp.sv) := by
          intro u v
          rw [B.domain, hqk, hqv, hsize]
        refine ⟨r, lo, hi', by simpa using e1, e2, ⟨B.valid, B.interval, B.du.trans hqu, B.dv.trans hqv, B.other.trans hqk, by rw [B.knots, hqu], hd,
          fun u v h => ?_, kq.trans B.net⟩, by linarith, h2⟩
        rw [B.same u v h]
        have h3 := (hd u v).1 h
        exact heq u v ((hdq u v).2 ⟨⟨by linarith [h3.1.1], by linarith [h3.1.2]⟩, h3.2⟩)

theorem decomposeU_strips (s : Surface K) (S : ValidSurface s) (a b : K) (ks : List K) (R : KnotRun (1 / 10 ^ 7) s.du s.ku a ks b)
    (out : List (Surface K)) :
    ∃ l, s.decomposeU out = .ok (out ++ l) ∧ l.length = ks.length + 1 ∧
      ∀ i, i ≤ ks.length → ∃ q lo hi, l[i]? = some q ∧ NeighboursAt (a :: (ks ++ [b])) i lo hi ∧ StripU s q lo hi := by
  have e := surf_updateInterval (s := s) S.knots_u.ne_nil S.knots_v.ne_nil
  have hI : SurfIntervalOk { s with u0 := ix s.ku 0, u1 := ix s.ku (s.ku.length - 1), v0 := ix s.kv 0, v1 := ix s.kv (s.kv.length - 1) } :=
    surf_updateInterval (s := { s with u0 := ix s.ku 0, u1 := ix s.ku (s.ku.length - 1), v0 := ix s.kv 0, v1 := ix s.kv (s.kv.length - 1) })
      S.knots_u.ne_nil S.knots_v.ne_nil
  obtain ⟨l, hl, hlen, hall⟩ := surfDecomposeLoopU_spec ks _ a b (S.updated _ _ _ _) hI R
  refine ⟨l, ?_, hlen, fun i hi => ?_⟩
  · unfold Surface.decomposeU
    rw [e, Res.ok_bind]
    simp only
    rw [innerKnots_eq (by positivity) R, hl]
    rfl
  · obtain ⟨q, lo', hi', e1, e2, B, -, -⟩ := hall i hi
    exact ⟨q, lo', hi', e1, e2, ⟨B.valid, B.interval, B.du, B.dv, B.other, B.knots, B.domain, B.same, B.net⟩⟩

theorem surfDecomposeLoopV_spec : ∀ (ks : List K) (temp : Surface K) (a b : K), ValidSurface temp → SurfIntervalOk temp →
    KnotRun (1 / 10 ^ 7) temp.dv temp.kv a ks b →
    ∃ l, surfDecomposeLoop (fun t k => t.splitV k surfSplitTol) ks temp = .ok l ∧ l.length = ks.length + 1 ∧
      ∀ i, i ≤ ks.length → ∃ q lo hi, l[i]? = some q ∧ NeighboursAt (a :: (ks ++ [b])) i lo hi ∧ StripV temp q lo hi ∧ a ≤ lo ∧ hi ≤ b
  | [], temp, a, b, S, hI, R => by
    have ht : (0 : K) ≤ 1 / 10 ^ 7 := by positivity
    obtain ⟨d1, d2, -, -⟩ := R.domain ht S.knots_v.len
    have hk := R.bezier ht
    refine ⟨[temp], rfl, rfl, fun i hi => ?_⟩
    have : i = 0 := by simpa using hi
    subst this
    refine ⟨temp, a, b, rfl, ⟨rfl, rfl⟩, ⟨S, hI, rfl, rfl, rfl, hk, fun u v => ?_, fun _ _ _ => rfl, NetKept.refl _⟩, le_rfl, le_rfl⟩
    unfold SurfInDomain; rw [d1, d2]
  | k :: ks, temp, a, b, S, hI, R => by
    have ht : (0 : K) ≤ 1 / 10 ^ 7 := by positivity
    obtain ⟨d1, d2, d3, d4⟩ := R.domain ht S.knots_v.len
    obtain ⟨-, -, jv0, jv1, iu0, iu1⟩ := Cmm.Csx.interval_eq hI
    rw [d3] at iu0
    rw [d4] at iu1
    obtain ⟨hclear, hcount, hak, hkb⟩ := R.clear ht
    obtain ⟨p, q, hs, ⟨Vp, hIp, hpv, hpu, hpk⟩, ⟨Vq, hIq, hqv, hqu, hqk⟩, hdp, hdq, hep, heq, hkp, hkq⟩ :=
      C33_split_v temp S k surfSplitTol (by rw [surfSplitTol_eq]; exact ht) (by rw [d1]; linarith) (by rw [d2]; linarith) (by rw [iu0, surfSplitTol_eq]; exact hak)
        (by rw [iu1]; rw [surfSplitTol_eq]; linarith) (clearOf_mono (by norm_num) hclear) hcount
    obtain ⟨kp, kq⟩ := splitV_kept S (by rw [d1]; linarith) (by rw [d2]; linarith) (clearOf_mono (by norm_num) hclear) hcount hs
    have Rq : KnotRun (1 / 10 ^ 7) q.dv q.kv k ks b := by rw [hqu, hkq]; exact R.right ht
    obtain ⟨l, hl, hlen, hall⟩ := surfDecomposeLoopV_spec ks q k b Vq hIq Rq
    rw [R.left ht] at hkp
    rw [d1] at hdp
    rw [d2] at hdq
    have hsize : q.su = temp.su := by
      have h1 := Vq.knots_u.len
      have h2 := S.knots_u.len
      rw [hqk, hqv] at h1
      omega
    refine ⟨p :: l, ?_, by simp [hlen], fun i hi => ?_⟩
    · rw [surfDecomposeLoop, hs]
      simp only [Res.ok_bind]
      rw [hl]; rfl
    · cases i with
      | zero =>
        exact ⟨p, a, k, rfl, ⟨rfl, rfl⟩, ⟨Vp, hIp, hpv, hpu, hpk, hkp, hdp, hep, kp⟩, le_rfl, by linarith⟩
      | succ i =>
        obtain ⟨r, lo, hi', e1, e2, B, h1, h2⟩ := hall i (by simpa using hi)
        have hd : ∀ u v, SurfInDomain r u v ↔ (ix temp.ku temp.du ≤ u ∧ u ≤ ix temp.ku temp.su) ∧ (lo ≤ v ∧ v ≤ hi') := by
          intro u v
          rw [B.domain, hqk, hqv, hsize]
        refine ⟨r, lo, hi', by simpa using e1, e2, ⟨B.valid, B.interval, B.du.trans hqv, B.dv.trans hqu, B.other.trans hqk, by rw [B.knots, hqu], hd,
          fun u v h => ?_, kq.trans B.net⟩, by linarith, h2⟩
        rw [B.same u v h]
        have h3 := (hd u v).1 h
        exact heq u v ((hdq u v).2 ⟨h3.1, ⟨by linarith [h3.2.1], by linarith [h3.2.2]⟩⟩)

theorem decomposeV_strips (s : Surface K) (S : ValidSurface s) (a b : K) (ks : List K) (R : KnotRun (1 / 10 ^ 7) s.dv s.kv a ks b)
    (out : List (Surface K)) :
    ∃ l, s.decomposeV out = .ok (out ++ l) ∧ l.length = ks.length + 1 ∧
      ∀ i, i ≤ ks.length → ∃ q lo hi, l[i]? = some q ∧ NeighboursAt (a :: (ks ++ [b])) i lo hi ∧ StripV s q lo hi := by
  have e := surf_updateInterval (s := s) S.knots_u.ne_nil S.knots_v.ne_nil
  have hI : SurfIntervalOk { s with u0 := ix s.ku 0, u1 := ix s.ku (s.ku.length - 1), v0 := ix s.kv 0, v1 := ix s.kv (s.kv.length - 1) } :=
    surf_updateInterval (s := { s with u0 := ix s.ku 0, u1 := ix s.ku (s.ku.length - 1), v0 := ix s.kv 0, v1 := ix s.kv (s.kv.length - 1) })
      S.knots_u.ne_nil S.knots_v.ne_nil
  obtain ⟨l, hl, hlen, hall⟩ := surfDecomposeLoopV_spec ks _ a b (S.updated _ _ _ _) hI R
  refine ⟨l, ?_, hlen, fun i hi => ?_⟩
  · unfold Surface.decomposeV
    rw [e, Res.ok_bind]
    simp only
    rw [innerKnots_eq (by positivity) R, hl]
    rfl
  · obtain ⟨q, lo', hi', e1, e2, B, -, -⟩ := hall i hi
    exact ⟨q, lo', hi', e1, e2, ⟨B.valid, B.interval, B.du, B.dv, B.other, B.knots, B.domain, B.same, B.net⟩⟩

/-- All parts of one row of the grid: the pieces of `item` in V. -/
theorem decomposeEach_spec (a b : K) (ks : List K) : ∀ (items out : List (Surface K)),
    (∀ q ∈ items, ValidSurface q ∧ KnotRun (1 / 10 ^ 7) q.dv q.kv a ks b) →
    ∃ grid : List (List (Surface K)), decomposeEach items out = .ok (out ++ grid.flatten) ∧ grid.length = items.length ∧
      ∀ (i : Nat) (q : Surface K), items[i]? = some q → ∃ row : List (Surface K), grid[i]? = some row ∧ row.length = ks.length + 1 ∧
        ∀ j, j ≤ ks.length → ∃ r lo hi, row[j]? = some r ∧ NeighboursAt (a :: (ks ++ [b])) j lo hi ∧ StripV q r lo hi
  | [], out, _ => ⟨[], by simp [decomposeEach], rfl, fun i q h => by simp at h⟩
  | item :: rest, out, h => by
    obtain ⟨S, R⟩ := h item (by simp)
    obtain ⟨l, hl, hlen, hall⟩ := decomposeV_strips item S a b ks R out
    obtain ⟨grid, hg, hgl, hga⟩ := decomposeEach_spec a b ks rest (out ++ l) fun q hq => h q (by simp [hq])
    refine ⟨l :: grid, ?_, by simp [hgl], fun i q hq => ?_⟩
    · rw [decomposeEach, hl, Res.ok_bind, hg, List.flatten_cons, List.append_assoc]
    · cases i with
      | zero =>
        have : item = q := by simpa using hq
        subst this
        exact ⟨l, rfl, hlen, hall⟩
      | succ i => simpa using hga i q (by simpa using hq)

/-- **C86**: decomposing a valid surface in U appends one strip per pair of neighbouring distinct u knots. -/
theorem C86_surface_u (s : Surface K) (S : ValidSurface s) (a b : K) (ks : List K) (R : KnotRun (1 / 10 ^ 7) s.du s.ku a ks b)
    (out : List (Surface K)) :
    ∃ l, s.decomposeU out = .ok (out ++ l) ∧ l.length = ks.length + 1 ∧
      ∀ i, i ≤ ks.length → ∃ q lo hi, l[i]? = some q ∧ NeighboursAt (a :: (ks ++ [b])) i lo hi ∧ StripU s q lo hi :=
  decomposeU_strips s S a b ks R out

/-- **C86**: decomposing a valid surface in V appends one strip per pair of neighbouring distinct v knots. -/
theorem C86_surface_v (s : Surface K) (S : ValidSurface s) (a b : K) (ks : List K) (R : KnotRun (1 / 10 ^ 7) s.dv s.kv a ks b)
    (out : List (Surface K)) :
    ∃ l, s.decomposeV out = .ok (out ++ l) ∧ l.length = ks.length + 1 ∧
      ∀ i, i ≤ ks.length → ∃ q lo hi, l[i]? = some q ∧ NeighboursAt (a :: (ks ++ [b])) i lo hi ∧ StripV s q lo hi :=
  decomposeV_strips s S a b ks R out

/-- **C86**: `decompose` of a valid surface that is clamped in both directions appends the grid of its Bézier patches, row by row
(u outside, v inside), one for every pair of neighbouring distinct u knots and every pair of neighbouring distinct v knots. Any weights. -/
theorem C86_surface (s : Surface K) (S : ValidSurface s) (a b : K) (ks : List K) (Ru : KnotRun (1 / 10 ^ 7) s.du s.ku a ks b)
    (c d : K) (ls : List K) (Rv : KnotRun (1 / 10 ^ 7) s.dv s.kv c ls d) (out : List (Surface K)) :
    ∃ grid : List (List (Surface K)), s.decompose out = .ok (out ++ grid.flatten) ∧ grid.length = ks.length + 1 ∧
      ∀ i, i ≤ ks.length → ∃ row, grid[i]? = some row ∧ row.length = ls.length + 1 ∧
        ∀ j, j ≤ ls.length → ∃ q ulo uhi vlo vhi, row[j]? = some q ∧ NeighboursAt (a :: (ks ++ [b])) i ulo uhi ∧
          NeighboursAt (c :: (ls ++ [d])) j vlo vhi ∧ BezierPatch s q ulo uhi vlo vhi := by
  obtain ⟨l, hl, hlen, hall⟩ := decomposeU_strips s S a b ks Ru []
  obtain ⟨grid, hg, hgl, hga⟩ := decomposeEach_spec c d ls l out (by
    intro q hq
    obtain ⟨i, hi, rfl⟩ := List.mem_iff_getElem.1 hq
    obtain ⟨q', lo, hi', e1, -, B⟩ := hall i (by omega)
    rw [List.getElem?_eq_getElem hi] at e1
    rw [Option.some.inj e1]
    exact ⟨B.valid, by rw [B.other, B.dv]; exact Rv⟩)
  refine ⟨grid, ?_, hgl.trans hlen, fun i hi => ?_⟩
  · unfold Surface.decompose
    rw [hl, Res.ok_bind, List.nil_append, hg]
  · obtain ⟨p, ulo, uhi, e1, e2, B⟩ := hall i hi
    obtain ⟨row, r1, r2, r3⟩ := hga i p e1
    refine ⟨row, r1, r2, fun j hj => ?_⟩
    obtain ⟨q, vlo, vhi, f1, f2, C⟩ := r3 j hj
    have hsv : p.su = s.du + 1 := by
      have := B.valid.knots_u.len
      rw [B.knots, B.du, List.length_append, List.length_replicate, List.length_replicate] at this
      omega
    have hq : q.ku = List.replicate (s.du + 1) ulo ++ List.replicate (s.du + 1) uhi := C.other.trans B.knots
    have hqu : q.du = s.du := C.du.trans B.du
    have hqv : q.dv = s.dv := C.dv.trans B.dv
    have hk : q.kv = List.replicate (s.dv + 1) vlo ++ List.replicate (s.dv + 1) vhi := by rw [C.knots, B.dv]
    have hsu : q.su = s.du + 1 := by
      have := C.valid.knots_u.len
      rw [hq, hqu, List.length_append, List.length_replicate, List.length_replicate] at this
      omega
    have hsv' : q.sv = s.dv + 1 := by
      have := C.valid.knots_v.len
      rw [hk, hqv, List.length_append, List.length_replicate, List.length_replicate] at this
      omega
    have ends : ∀ (n : Nat) (x y : K), ix (List.replicate (n + 1) x ++ List.replicate (n + 1) y) n = x ∧
        ix (List.replicate (n + 1) x ++ List.replicate (n + 1) y) (n + 1) = y ∧
        ix (List.replicate (n + 1) x ++ List.replicate (n + 1) y) 0 = x ∧
        ix (List.replicate (n + 1) x ++ List.replicate (n + 1) y) ((List.replicate (n + 1) x ++ List.replicate (n + 1) y).length - 1) = y := by
      intro n x y
      refine ⟨?_, ?_, ?_, ?_⟩
      · simp [ix, List.getElem?_append]
      · simp [ix, List.getElem?_append]
      · simp [ix, List.getElem?_append]
      · simp [ix, List.getElem?_append]
    obtain ⟨x1, x2, x3, x4⟩ := ends s.du ulo uhi
    obtain ⟨y1, y2, y3, y4⟩ := ends s.dv vlo vhi
    obtain ⟨-, -, i1, i2, i3, i4⟩ := Cmm.Csx.interval_eq C.interval
    have hd : ∀ u v, SurfInDomain q u v ↔ (ulo ≤ u ∧ u ≤ uhi) ∧ (vlo ≤ v ∧ v ≤ vhi) := by
      intro u v
      unfold SurfInDomain
      rw [hqu, hqv, hsu, hsv', hq, hk, x1, x2, y1, y2]
    have hvs : vlo < vhi ∧ c ≤ vlo ∧ vhi ≤ d := neighbours_between (by positivity) Rv f2
    refine ⟨q, ulo, uhi, vlo, vhi, f1, e2, f2, ⟨C.valid, ⟨by rw [i1, hq, x3], by rw [i2, hq, x4], by rw [i3, hk, y3], by rw [i4, hk, y4]⟩,
      ⟨hqu, hqv⟩, ⟨hsu, hsv'⟩, hq, hk, hd, fun u v h => ?_, B.net.trans C.net⟩⟩
    rw [C.same u v h]
    have h1 := (hd u v).1 h
    obtain ⟨d1, d2, -, -⟩ := Rv.domain (by positivity) S.knots_v.len
    refine B.same u v ((B.domain u v).2 ⟨h1.1, ?_⟩)
    rw [d1, d2]
    exact ⟨hvs.2.1.trans h1.2.1, h1.2.2.trans hvs.2.2⟩

/-- **C86**: the pieces cover the curve: every parameter in the domain is in the domain of a piece, which gives the same point. -/
theorem C86_curve_covers (c : Curve K) (V : ValidCurve c) (hw : EqualWeights c) (a b : K) (ks : List K)
    (R : KnotRun (1 / 10 ^ 12) c.degree c.knots a ks b) (out : List (Curve K)) :
    ∃ l, c.decompose out = .ok (out ++ l) ∧ ∀ t, InDomain c t → ∃ q ∈ l, InDomain q t ∧ q.evaluate t = c.evaluate t := by
  obtain ⟨l, hl, hlen, hall⟩ := C86_curve c V hw a b ks R out
  refine ⟨l, hl, fun t ht => ?_⟩
  obtain ⟨d1, d2, -, -⟩ := R.domain (by positivity) V.len
  unfold InDomain at ht
  rw [d1, d2] at ht
  obtain ⟨i, lo, hi, hi', e, h1, h2⟩ := neighbours_cover ks a b ht.1 ht.2
  obtain ⟨q, lo', hi'', e1, e2, B⟩ := hall i hi'
  have x1 : lo' = lo := Option.some.inj (e2.1.symm.trans e.1)
  have x2 : hi'' = hi := Option.some.inj (e2.2.symm.trans e.2)
  subst x1 x2
  exact ⟨q, List.mem_of_getElem? e1, (B.domain t).2 ⟨h1, h2⟩, B.same t h1 h2⟩

example : KnotRun (1 / 10 ^ 12) demoCurve.degree demoCurve.knots 0 [1, 2] 3 :=
  ⟨by unfold SortedKnots; decide +kernel, by
    intro x
    simp only [demoCurve, List.mem_cons, List.cons_append, List.nil_append, List.not_mem_nil, or_false]
    tauto, by decide +kernel, by decide +kernel, by decide +kernel, by decide +kernel⟩

example : KnotRun (1 / 10 ^ 7) demoSurface.du demoSurface.ku 0 [1/3] 1 ∧ KnotRun (1 / 10 ^ 7) demoSurface.dv demoSurface.kv 0 [] 2 := by
  refine ⟨⟨by unfold SortedKnots; decide +kernel, ?_, by decide +kernel, by decide +kernel, by decide +kernel, by decide +kernel⟩,
    ⟨by unfold SortedKnots; decide +kernel, ?_, by decide +kernel, by decide +kernel, by decide +kernel, by decide +kernel⟩⟩
  · intro x
    simp only [demoSurface, List.mem_cons, List.cons_append, List.nil_append, List.not_mem_nil, or_false]
    tauto
  · intro x
    simp only [demoSurface, List.mem_cons, List.nil_append, List.not_mem_nil, or_false]
    tauto

/-- A closed curve as the constructor builds it from a square. -/
def periodicSquare : Curve ℚ :=
  ⟨[⟨0, 0, 0, 1⟩, ⟨2, 0, 0, 1⟩, ⟨2, 2, 0, 1⟩, ⟨0, 2, 0, 1⟩, ⟨0, 0, 0, 1⟩, ⟨2, 0, 0, 1⟩], 2, [-2, -1, 0, 1, 2, 3, 4, 5, 6], true, -2, 6⟩

/-- **C86** is false of curves that are not clamped: `decompose` of the valid periodic curve that the constructor builds from a square
also splits at the knots outside the domain. It returns a first piece that is no valid curve, whose evaluation is undefined, and no
piece has the point of the curve at parameter 1/2. -/
theorem C86_periodic_counterexample :
    Curve.make [⟨0, 0, 0, 1⟩, ⟨2, 0, 0, 1⟩, ⟨2, 2, 0, 1⟩, ⟨0, 2, 0, 1⟩] 2 true = .ok periodicSquare ∧ ValidCurve periodicSquare ∧
    InDomain periodicSquare (1 / 2) ∧
    ∃ q l, periodicSquare.decompose [] = .ok (q :: l) ∧ ¬ ValidCurve q ∧ q.evaluate (-1) = .ub ∧
      ∀ r ∈ q :: l, r.evaluate (1 / 2) ≠ periodicSquare.evaluate (1 / 2) := by
  refine ⟨by decide +kernel, ⟨by decide, by decide, by decide, rfl, by unfold SortedKnots; decide +kernel, by decide +kernel⟩,
    by unfold InDomain; decide +kernel, ?_⟩
  have key : ∃ l, periodicSquare.decompose [] = .ok l ∧ (l.head?.map fun q => (q.cpts.length, q.degree, q.evaluate (-1))) = some (2, 2, .ub) ∧
      ∀ r ∈ l, r.evaluate (1 / 2) ≠ periodicSquare.evaluate (1 / 2) := by
    cases h : periodicSquare.decompose [] with
    | throws => exact absurd h (by decide +kernel)
    | ub => exact absurd h (by decide +kernel)
    | ok l =>
      have h1 : (match periodicSquare.decompose [] with
        | .ok l => decide ((l.head?.map fun q => (q.cpts.length, q.degree, q.evaluate (-1))) = some (2, 2, .ub)) &&
            l.all fun r => decide (r.evaluate (1 / 2) ≠ periodicSquare.evaluate (1 / 2))
        | _ => false) = true := by decide +kernel
      rw [h] at h1
      simp only [Bool.and_eq_true, decide_eq_true_eq, List.all_eq_true] at h1
      exact ⟨l, rfl, h1.1, h1.2⟩
  obtain ⟨l, h1, h2, h3⟩ := key
  cases l with
  | nil => simp at h2
  | cons q l =>
    simp only [List.head?_cons, Option.map_some, Option.some.injEq, Prod.mk.injEq] at h2
    refine ⟨q, l, h1, fun V => ?_, h2.2.2, h3⟩
    have := V.enough
    omega

end Cmm.Nurbs
