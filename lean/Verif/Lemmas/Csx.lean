import Verif.Spec.Csx
import Verif.Lemmas.CcxBezier
import Verif.Props.Surface
/-! Soundness and termination of the curve-surface search. -/
namespace Cmm.Csx
open Cmm.Nurbs Cmm.Ccx

section generic
variable {K : Type} [Field K] [LinearOrder K]

theorem andThen_ok {A B : Type} {x : Option (Res A)} {f : A → Option (Res B)} {b : B} (h : andThen x f = some (.ok b)) :
    ∃ a, x = some (.ok a) ∧ f a = some (.ok b) := by
  match x, h with
  | some (.ok a), h => exact ⟨a, rfl, h⟩
  | some .throws, h => exact absurd h (by simp [andThen])
  | some .ub, h => exact absurd h (by simp [andThen])
  | none, h => exact absurd h (by simp [andThen])

theorem andThen_ne_none {A B : Type} {x : Option (Res A)} {f : A → Option (Res B)} (h : x ≠ none) (g : ∀ a, x = some (.ok a) → f a ≠ none) :
    andThen x f ≠ none := by
  match x, h, g with
  | some (.ok a), _, g => exact g a rfl
  | some .throws, _, _ => simp [andThen]
  | some .ub, _, _ => simp [andThen]
  | none, h, _ => exact absurd rfl h

theorem ok_of_bind {A B : Type} {x : Res A} {f : A → Res B} {b : B} (h : (x >>= f) = .ok b) : ∃ a, x = .ok a ∧ f a = .ok b := by
  cases x with
  | ok a => exact ⟨a, rfl, h⟩
  | throws => exact absurd h (by simp)
  | ub => exact absurd h (by simp)

/-- A report of the search of `c` and `s`. -/
def Reported (env : Env K) (tol : K) (c : Curve K) (s : Surface K) (h : Hit K) : Prop :=
  ∃ c' s', Searched c s c' s' ∧ Genuine env.sqrt tol c' s' h ∧ env.isDegenerate (h.t, h.u, h.v) c' s' = .ok h.degenerate ∧
    env.newton c' s' = .ok (some (h.t, h.u, h.v))

def Adds (env : Env K) (tol : K) (c : Curve K) (s : Surface K) (acc res : List (Hit K)) : Prop :=
  ∃ new, res = acc ++ new ∧ ∀ h ∈ new, Reported env tol c s h

variable {env : Env K} {tol ptol : K} {c : Curve K} {s : Surface K}

theorem Adds.refl (acc : List (Hit K)) : Adds env tol c s acc acc := ⟨[], by simp, by simp⟩

theorem Adds.trans {x y z : List (Hit K)} (h : Adds env tol c s x y) (g : Adds env tol c s y z) : Adds env tol c s x z := by
  obtain ⟨n1, e1, g1⟩ := h
  obtain ⟨n2, e2, g2⟩ := g
  refine ⟨n1 ++ n2, by rw [e2, e1, List.append_assoc], fun r hr => ?_⟩
  rcases List.mem_append.1 hr with hr | hr
  · exact g1 r hr
  · exact g2 r hr

theorem allPairs_adds {rec : Curve K → Surface K → List (Hit K) → Option (Res (List (Hit K)))} : ∀ (ps : List (Curve K × Surface K)) acc res,
    (∀ p ∈ ps, ∀ acc res, rec p.1 p.2 acc = some (.ok res) → Adds env tol c s acc res) → allPairs rec ps acc = some (.ok res) → Adds env tol c s acc res := by
  intro ps
  induction ps with
  | nil => intro acc res _ h; cases h; exact Adds.refl _
  | cons p ps ih =>
    intro acc res hrec h
    obtain ⟨acc1, h1, h2⟩ := andThen_ok h
    exact (hrec p List.mem_cons_self _ _ h1).trans (ih _ _ (fun q hq => hrec q (List.mem_cons_of_mem _ hq)) h2)

theorem descend_adds {rec : Curve K → Surface K → List (Hit K) → Option (Res (List (Hit K)))} {point : Vec3 K} {c1 c2 : Curve K} : ∀ (ss : List (Surface K)) acc res,
    (∀ x ∈ [c1, c2], ∀ y ∈ ss, ∀ acc res, rec x y acc = some (.ok res) → Adds env tol c s acc res) →
    descend env rec point c1 c2 ss acc = some (.ok res) → Adds env tol c s acc res := by
  intro ss
  induction ss with
  | nil => intro acc res _ h; cases h; exact Adds.refl _
  | cons y ss ih =>
    intro acc res hrec h
    have hrec' : ∀ x ∈ [c1, c2], ∀ y ∈ ss, ∀ acc res, rec x y acc = some (.ok res) → Adds env tol c s acc res :=
      fun x hx y hy => hrec x hx y (List.mem_cons_of_mem _ hy)
    rw [descend] at h
    obtain ⟨pts, _, h⟩ := andThen_ok h
    obtain ⟨b1, _, h⟩ := andThen_ok h
    split at h
    · exact ih _ _ hrec' h
    · obtain ⟨acc1, h1, h⟩ := andThen_ok h
      obtain ⟨b2, _, h⟩ := andThen_ok h
      have a1 := hrec c1 (by simp) y List.mem_cons_self _ _ h1
      split at h
      · exact a1.trans (ih _ _ hrec' h)
      · obtain ⟨acc2, h2, h⟩ := andThen_ok h
        exact (a1.trans (hrec c2 (by simp) y List.mem_cons_self _ _ h2)).trans (ih _ _ hrec' h)

theorem findNew_genuine {c' : Curve K} {s' : Surface K} {P : Vec3 K} {t u v : K} {deg : Bool} (h : findNew env tol c' s' = .ok (some (P, t, u, v))) :
    Genuine env.sqrt tol c' s' ⟨deg, P, t, u, v⟩ ∧ env.newton c' s' = .ok (some (t, u, v)) := by
  unfold findNew at h
  match hn : env.newton c' s' with
  | .throws => rw [hn] at h; cases h
  | .ub => rw [hn] at h; cases h
  | .ok none => rw [hn] at h; cases h
  | .ok (some p) =>
    rw [hn, Res.ok_bind] at h
    simp only at h
    split at h
    · rename_i hv
      obtain ⟨cp, e1, h⟩ := ok_of_bind h
      obtain ⟨sp, e2, h⟩ := ok_of_bind h
      simp only [Res.ok.injEq] at h
      split at h
      · rename_i hl
        simp only [Option.some.injEq, Prod.mk.injEq] at h
        obtain ⟨hP, hp⟩ := h
        subst hP
        subst hp
        simp only [validParameter, Bool.and_eq_true, decide_eq_true_eq] at hv
        exact ⟨⟨hv.1.1, hv.1.2, hv.2, e1, sp, e2, hl⟩, rfl⟩
      · cases h
    · cases h

theorem sound : ∀ fuel c' s' acc res, Searched c s c' s' → search env tol ptol fuel c' s' acc = some (.ok res) → Adds env tol c s acc res := by
  intro fuel
  induction fuel with
  | zero => intro _ _ _ _ _ h; cases h
  | succ fuel ih =>
    intro c' s' acc res hS h
    rw [search] at h
    split at h
    · cases h; exact Adds.refl _
    · obtain ⟨done, _, h⟩ := andThen_ok h
      split at h
      · cases h; exact Adds.refl _
      · obtain ⟨found, hf, h⟩ := andThen_ok h
        simp only at h
        split at h
        · cases h; exact Adds.refl _
        · match found, hf, h with
          | none, hf, h =>
            obtain ⟨⟨a, b⟩, h1, h⟩ := andThen_ok h
            obtain ⟨⟨q1, q2, q3, q4⟩, h2, h⟩ := andThen_ok h
            refine allPairs_adds _ _ _ (fun p hp acc res hr => ih _ _ _ _ ?_ hr) h
            refine hS.part (Option.some.inj h1) (Option.some.inj h2) ?_ ?_
            · simp only [List.mem_cons, List.not_mem_nil, or_false] at hp ⊢
              rcases hp with rfl | rfl | rfl | rfl | rfl | rfl | rfl | rfl <;> simp
            · simp only [List.mem_cons, List.not_mem_nil, or_false] at hp ⊢
              rcases hp with rfl | rfl | rfl | rfl | rfl | rfl | rfl | rfl <;> simp
          | some (P, t, u, v), hf, h =>
            simp only at h
            obtain ⟨deg, hd, h⟩ := andThen_ok h
            have hadd : Adds env tol c s acc (acc ++ [⟨deg, P, t, u, v⟩]) := by
              refine ⟨_, rfl, fun r hr => ?_⟩
              rw [List.mem_singleton] at hr
              subst hr
              obtain ⟨g1, g2⟩ := findNew_genuine (deg := deg) (Option.some.inj hf)
              exact ⟨c', s', hS, g1, Option.some.inj hd, g2⟩
            split at h
            · cases h; exact hadd
            · obtain ⟨⟨a, b⟩, h1, h⟩ := andThen_ok h
              obtain ⟨⟨q1, q2, q3, q4⟩, h2, h⟩ := andThen_ok h
              exact hadd.trans (descend_adds _ _ _ (fun x hx y hy acc res hr => ih _ _ _ _ (hS.part (Option.some.inj h1) (Option.some.inj h2) hx hy) hr) h)

theorem allPairs_ne {rec : Curve K → Surface K → List (Hit K) → Option (Res (List (Hit K)))} : ∀ (ps : List (Curve K × Surface K)) acc,
    (∀ p ∈ ps, ∀ acc, rec p.1 p.2 acc ≠ none) → allPairs rec ps acc ≠ none := by
  intro ps
  induction ps with
  | nil => intro acc _ h; cases h
  | cons p ps ih =>
    intro acc hrec
    exact andThen_ne_none (hrec p List.mem_cons_self _) fun a _ => ih _ fun q hq => hrec q (List.mem_cons_of_mem _ hq)

theorem descend_ne {rec : Curve K → Surface K → List (Hit K) → Option (Res (List (Hit K)))} {point : Vec3 K} {c1 c2 : Curve K} : ∀ (ss : List (Surface K)) acc,
    (∀ x ∈ [c1, c2], ∀ y ∈ ss, ∀ acc, rec x y acc ≠ none) → descend env rec point c1 c2 ss acc ≠ none := by
  intro ss
  induction ss with
  | nil => intro acc _ h; cases h
  | cons y ss ih =>
    intro acc hrec
    have hrec' : ∀ x ∈ [c1, c2], ∀ y ∈ ss, ∀ acc, rec x y acc ≠ none := fun x hx y hy => hrec x hx y (List.mem_cons_of_mem _ hy)
    rw [descend]
    refine andThen_ne_none (by simp) fun pts _ => andThen_ne_none (by simp) fun b1 _ => ?_
    split
    · exact ih _ hrec'
    · refine andThen_ne_none (hrec c1 (by simp) y List.mem_cons_self _) fun acc1 _ => andThen_ne_none (by simp) fun b2 _ => ?_
      split
      · exact ih _ hrec'
      · exact andThen_ne_none (hrec c2 (by simp) y List.mem_cons_self _) fun acc2 _ => ih _ hrec'
end generic

/-! ### The intervals of the pieces of a surface -/

section intervals
variable {K : Type} [Field K] [LinearOrder K] [IsStrictOrderedRing K]

theorem make_interval {cpts : List (List (Vec4 K))} {du dv : Nat} {ku kv : List K} {s : Surface K} (h : Surface.make cpts du dv ku kv = .ok s)
    (hu : ku ≠ []) (hv : kv ≠ []) : SurfIntervalOk s ∧ s.ku = ku ∧ s.kv = kv := by
  unfold Surface.make at h
  match cpts, h with
  | (a :: r) :: rest, h =>
    have hu' : ku.isEmpty = false := by cases ku <;> simp_all
    have hv' : kv.isEmpty = false := by cases kv <;> simp_all
    simp only [hu', hv', Bool.false_eq_true, if_false, Res.ok_bind] at h
    rw [surf_updateInterval hu hv] at h
    cases h
    exact ⟨surf_updateInterval hu hv, rfl, rfl⟩

theorem interval_eq {s : Surface K} (h : SurfIntervalOk s) : s.ku ≠ [] ∧ s.kv ≠ [] ∧ s.u0 = ix s.ku 0 ∧ s.u1 = ix s.ku (s.ku.length - 1) ∧
    s.v0 = ix s.kv 0 ∧ s.v1 = ix s.kv (s.kv.length - 1) := by
  unfold SurfIntervalOk at h
  have hu : s.ku ≠ [] := by
    intro e; unfold Surface.updateInterval at h; rw [e] at h; cases h
  have hv : s.kv ≠ [] := by
    intro e; unfold Surface.updateInterval at h
    obtain ⟨_, _, h⟩ := ok_of_bind h
    rw [e] at h; cases h
  rw [surf_updateInterval hu hv] at h
  have h' := Res.ok.inj h
  refine ⟨hu, hv, ?_, ?_, ?_, ?_⟩
  · rw [← h']
  · rw [← h']
  · rw [← h']
  · rw [← h']

theorem last_insertIdx {L : List K} (hL : L ≠ []) (i : Nat) (t : K) :
    ix (L.insertIdx i t) ((L.insertIdx i t).length - 1) = ix L (L.length - 1) ∨ ix (L.insertIdx i t) ((L.insertIdx i t).length - 1) = t := by
  have hpos : 0 < L.length := List.length_pos_iff.2 hL
  unfold ix
  simp only [List.getD_eq_getElem?_getD]
  rcases Nat.lt_trichotomy i L.length with h | h | h
  · left
    rw [List.length_insertIdx, if_pos (by omega), Nat.add_sub_cancel, List.getElem?_insertIdx_of_gt (by omega)]
  · right
    rw [List.length_insertIdx, if_pos (by omega), Nat.add_sub_cancel, ← h, List.getElem?_insertIdx_self, if_pos (by omega)]
    rfl
  · left
    rw [List.insertIdx_of_length_lt h]

theorem kvIns_facts {U : List K} (hU : U ≠ []) (t : K) (k : Nat) : ∀ r, knotInsertionKv U t k r ≠ [] ∧ ix (knotInsertionKv U t k r) 0 = ix U 0 ∧
    (ix (knotInsertionKv U t k r) ((knotInsertionKv U t k r).length - 1) = ix U (U.length - 1) ∨
      ix (knotInsertionKv U t k r) ((knotInsertionKv U t k r).length - 1) = t) := by
  intro r
  induction r with
  | zero => exact ⟨hU, rfl, Or.inl rfl⟩
  | succ r ih =>
    obtain ⟨h1, h2, h3⟩ := ih
    rw [knotInsertionKv]
    generalize knotInsertionKv U t k r = L at *
    have h4 := last_insertIdx h1 (k + 1) t
    refine ⟨?_, ?_, ?_⟩
    · match L, h1 with
      | a :: l, _ => rw [List.insertIdx_succ_cons]; simp
    · rw [← h2]
      match L, h1 with
      | a :: l, _ => rw [List.insertIdx_succ_cons]; rfl
    · rcases h4 with h4 | h4
      · rw [h4]; exact h3
      · exact Or.inr h4

theorem insertKnotU_fields {s t : Surface K} {x : K} {r : Nat} (h : s.insertKnotU x r = .ok t) :
    ∃ k, t.ku = knotInsertionKv s.ku x k r ∧ t.kv = s.kv := by
  unfold Surface.insertKnotU at h
  simp only at h
  split at h
  · cases h
  · obtain ⟨_, _, h⟩ := ok_of_bind h
    obtain ⟨_, _, h⟩ := ok_of_bind h
    obtain ⟨_, _, h⟩ := ok_of_bind h
    cases h
    exact ⟨_, rfl, rfl⟩

/-- What `splitU` returns has the knots of the two sides. -/
theorem splitU_interval {s a b : Surface K} {x tol : K} (hs : SurfIntervalOk s) (h : s.splitU x tol = .ok (a, b)) :
    (¬ (x ≤ s.u0 ∨ s.u1 ≤ x ∨ |x - s.u0| ≤ tol ∨ |x - s.u1| ≤ tol)) ∧ SurfIntervalOk a ∧ SurfIntervalOk b ∧ a.u0 = s.u0 ∧ a.u1 = x ∧ b.u0 = x ∧
      (b.u1 = s.u1 ∨ b.u1 = x) := by
  unfold Surface.splitU at h
  split at h
  · cases h
  · rename_i hg
    simp only [absA_eq] at hg
    simp only at h
    split at h
    · cases h
    · obtain ⟨t, ht, h⟩ := ok_of_bind h
      obtain ⟨s1, m1, h⟩ := ok_of_bind h
      obtain ⟨s2, m2, h⟩ := ok_of_bind h
      cases h
      obtain ⟨hu, hv, f0, f1, _, _⟩ := interval_eq hs
      obtain ⟨k, hk, _⟩ := insertKnotU_fields ht
      obtain ⟨g1, g2, g3⟩ := kvIns_facts hu x k (s.du - findMultiplicity x s.ku)
      rw [← hk] at g1 g2 g3
      obtain ⟨ia, ka, _⟩ := make_interval m1 (by simp) hv
      obtain ⟨ib, kb, _⟩ := make_interval m2 (by simp) hv
      obtain ⟨_, _, a0, a1, _, _⟩ := interval_eq ia
      obtain ⟨_, _, b0, b1, _, _⟩ := interval_eq ib
      refine ⟨hg, ia, ib, ?_, ?_, ?_, ?_⟩
      · rw [a0, ka, f0, ← g2]
        match t.ku, g1 with
        | y :: l, _ => rfl
      · rw [a1, ka]
        unfold ix
        rw [List.getD_eq_getElem?_getD]
        simp
      · rw [b0, kb]; rfl
      · rw [b1, kb, f1]
        generalize findSpan (t.su - 1) s.du x (ix t.ku) + 1 = n at *
        unfold ix at *
        rw [List.getD_eq_getElem?_getD] at *
        rcases Nat.lt_or_ge n t.ku.length with hn | hn
        · have : (List.replicate (s.du + 1) x ++ List.drop n t.ku)[(List.replicate (s.du + 1) x ++ List.drop n t.ku).length - 1]? = t.ku[t.ku.length - 1]? := by
            rw [List.getElem?_append_right (by simp; omega)]
            simp only [List.length_append, List.length_replicate, List.length_drop, List.getElem?_drop]
            congr 1; omega
          rw [this]
          simpa [List.getD_eq_getElem?_getD] using g3
        · right
          rw [List.drop_eq_nil_of_le hn]
          simp

theorem insertKnotV_fields {s t : Surface K} {x : K} {r : Nat} (h : s.insertKnotV x r = .ok t) : t.ku = s.ku := by
  unfold Surface.insertKnotV at h
  split at h
  · cases h
  · simp only at h
    split at h
    · cases h
    · obtain ⟨_, _, h⟩ := ok_of_bind h
      unfold Surface.updateInterval at h
      obtain ⟨_, _, h⟩ := ok_of_bind h
      obtain ⟨_, _, h⟩ := ok_of_bind h
      cases h
      rfl

theorem splitV_interval {s a b : Surface K} {x tol : K} (hs : SurfIntervalOk s) (h : s.splitV x tol = .ok (a, b)) :
    SurfIntervalOk a ∧ SurfIntervalOk b ∧ (a.u0 = s.u0 ∧ a.u1 = s.u1) ∧ (b.u0 = s.u0 ∧ b.u1 = s.u1) := by
  unfold Surface.splitV at h
  split at h
  · cases h
  · simp only at h
    split at h
    · cases h
    · obtain ⟨t, ht, h⟩ := ok_of_bind h
      split at h
      · cases h
      obtain ⟨s1, m1, h⟩ := ok_of_bind h
      obtain ⟨s2, m2, h⟩ := ok_of_bind h
      cases h
      obtain ⟨hu, hv, f0, f1, _, _⟩ := interval_eq hs
      obtain ⟨ia, ka, _⟩ := make_interval m1 hu (by simp)
      obtain ⟨ib, kb, _⟩ := make_interval m2 hu (by simp)
      obtain ⟨_, _, a0, a1, _, _⟩ := interval_eq ia
      obtain ⟨_, _, b0, b1, _, _⟩ := interval_eq ib
      exact ⟨ia, ib, ⟨by rw [a0, ka, f0], by rw [a1, ka, f1]⟩, ⟨by rw [b0, kb, f0], by rw [b1, kb, f1]⟩⟩

/-- The pieces of a subdivision are narrower in u. -/
theorem subdivide_shrinks {s q1 q2 q3 q4 : Surface K} {u v δ : K} (hs : SurfIntervalOk s) (h : s.subdivideAt u v = .ok (q1, q2, q3, q4))
    (hδ : δ ≤ 1 / 10 ^ 7 ∨ (δ ≤ |u - s.u0| ∧ δ ≤ |u - s.u1|)) :
    s.u0 < u ∧ u < s.u1 ∧ ∀ q ∈ [q1, q2, q3, q4], SurfIntervalOk q ∧ q.u1 - q.u0 ≤ s.u1 - s.u0 - δ := by
  unfold Surface.subdivideAt at h
  obtain ⟨⟨a, b⟩, h1, h⟩ := ok_of_bind h
  obtain ⟨⟨a1, a2⟩, h2, h⟩ := ok_of_bind h
  obtain ⟨⟨b1, b2⟩, h3, h⟩ := ok_of_bind h
  cases h
  obtain ⟨g, ia, ib, ea0, ea1, eb0, eb1⟩ := splitU_interval hs h1
  obtain ⟨j1, j2, ⟨x1, y1⟩, x2, y2⟩ := splitV_interval ia h2
  obtain ⟨j3, j4, ⟨x3, y3⟩, x4, y4⟩ := splitV_interval ib h3
  simp only [not_or, not_le] at g
  obtain ⟨g1, g2, g3, g4⟩ := g
  rw [abs_of_pos (by linarith)] at g3
  rw [abs_of_neg (by linarith)] at g4
  have d1 : δ ≤ u - s.u0 := by
    rcases hδ with hδ | ⟨hδ, _⟩
    · rw [surfSplitTol_eq] at g3; linarith
    · rwa [abs_of_pos (by linarith)] at hδ
  have d2 : δ ≤ s.u1 - u := by
    rcases hδ with hδ | ⟨_, hδ⟩
    · rw [surfSplitTol_eq] at g4; linarith
    · rw [abs_of_neg (by linarith)] at hδ; linarith
  simp only at *
  refine ⟨g1, g2, fun q hq => ?_⟩
  simp only [List.mem_cons, List.not_mem_nil, or_false] at hq
  rcases hq with rfl | rfl | rfl | rfl
  · exact ⟨j1, by rw [x1, y1, ea0, ea1]; linarith⟩
  · exact ⟨j2, by rw [x2, y2, ea0, ea1]; linarith⟩
  · exact ⟨j3, by rw [x3, y3, eb0]; rcases eb1 with e | e <;> rw [e] <;> linarith⟩
  · exact ⟨j4, by rw [x4, y4, eb0]; rcases eb1 with e | e <;> rw [e] <;> linarith⟩

theorem nearBorder_false {ptol : K} {s : Surface K} {u v : K} (h : ¬ nearBorder ptol s u v = true) : ptol ≤ |u - s.u0| ∧ ptol ≤ |u - s.u1| := by
  unfold nearBorder at h
  simp only [Bool.or_eq_true, decide_eq_true_eq, not_or, not_lt] at h
  exact ⟨h.1.1.1, h.1.1.2⟩

theorem terminates {env : Env K} {tol ptol δ : K} (hδ : δ ≤ ptol ∨ δ ≤ 1 / 10 ^ 7) : ∀ (n : Nat) c s acc, SurfIntervalOk s →
    s.u1 - s.u0 < n * δ → search env tol ptol (n + 1) c s acc ≠ none := by
  intro n
  induction n with
  | zero =>
    intro c s acc hs hw
    rw [Nat.cast_zero, zero_mul] at hw
    rw [search]
    split
    · simp
    · refine andThen_ne_none (by simp) fun done _ => ?_
      split
      · simp
      · refine andThen_ne_none (by simp) fun found _ => ?_
        simp only
        split
        · simp
        · match found with
          | none =>
            refine andThen_ne_none (by simp) fun c' _ => andThen_ne_none (by simp) fun ⟨q1, q2, q3, q4⟩ h2 => ?_
            obtain ⟨x1, x2, _⟩ := subdivide_shrinks hs (Option.some.inj h2) (Or.inl (le_refl _))
            linarith
          | some (P, t, u, v) =>
            refine andThen_ne_none (by simp) fun deg _ => ?_
            split
            · simp
            · refine andThen_ne_none (by simp) fun c' _ => andThen_ne_none (by simp) fun ⟨q1, q2, q3, q4⟩ h2 => ?_
              obtain ⟨x1, x2, _⟩ := subdivide_shrinks hs (Option.some.inj h2) (Or.inl (le_refl _))
              linarith
  | succ n ih =>
    intro c s acc hs hw
    have key : ∀ q : Surface K, SurfIntervalOk q ∧ q.u1 - q.u0 ≤ s.u1 - s.u0 - δ → ∀ c acc, search env tol ptol (n + 1) c q acc ≠ none := by
      rintro q ⟨hq, hqw⟩ c acc
      refine ih c q acc hq ?_
      push_cast at hw
      linarith
    have border : ∀ u v, ¬ nearBorder ptol s u v = true → δ ≤ 1 / 10 ^ 7 ∨ (δ ≤ |u - s.u0| ∧ δ ≤ |u - s.u1|) := by
      intro u v h
      rcases hδ with hδ | hδ
      · obtain ⟨h1, h2⟩ := nearBorder_false h
        exact Or.inr ⟨le_trans hδ h1, le_trans hδ h2⟩
      · exact Or.inl hδ
    rw [search]
    split
    · simp
    · refine andThen_ne_none (by simp) fun done _ => ?_
      split
      · simp
      · refine andThen_ne_none (by simp) fun found _ => ?_
        simp only
        split
        · simp
        · rename_i hb
          match found with
          | none =>
            refine andThen_ne_none (by simp) fun c' _ => andThen_ne_none (by simp) fun ⟨q1, q2, q3, q4⟩ h2 => ?_
            obtain ⟨x1, x2, hq⟩ := subdivide_shrinks hs (Option.some.inj h2) (border _ _ hb)
            refine allPairs_ne _ _ fun p hp acc => key p.2 (hq _ ?_) p.1 acc
            simp only [List.mem_cons, List.not_mem_nil, or_false] at hp ⊢
            rcases hp with rfl | rfl | rfl | rfl | rfl | rfl | rfl | rfl <;> simp
          | some (P, t, u, v) =>
            refine andThen_ne_none (by simp) fun deg _ => ?_
            split
            · simp
            · rename_i hb'
              refine andThen_ne_none (by simp) fun c' _ => andThen_ne_none (by simp) fun ⟨q1, q2, q3, q4⟩ h2 => ?_
              obtain ⟨x1, x2, hq⟩ := subdivide_shrinks hs (Option.some.inj h2) (border _ _ hb')
              exact descend_ne _ _ fun x _ y hy acc => key y (hq y hy) x acc

end intervals
end Cmm.Csx
