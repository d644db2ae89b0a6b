import Verif.Spec.CcxEnds
import Verif.Props.RoundingSplit
/-! Lemmas for C145. -/
namespace Cmm.Ccx
open Cmm.Nurbs

section any
variable {K : Type} [Arith K] [LinearOrder K]

theorem expand_keeps {b : AABB K} {p q : Vec3 K} (h : b.min.x ≤ p.x ∧ p.x ≤ b.max.x ∧ b.min.y ≤ p.y ∧ p.y ≤ b.max.y ∧ b.min.z ≤ p.z ∧ p.z ≤ b.max.z) :
    (b.expand q).min.x ≤ p.x ∧ p.x ≤ (b.expand q).max.x ∧ (b.expand q).min.y ≤ p.y ∧ p.y ≤ (b.expand q).max.y ∧ (b.expand q).min.z ≤ p.z ∧ p.z ≤ (b.expand q).max.z := by
  obtain ⟨h1, h2, h3, h4, h5, h6⟩ := h
  exact ⟨min_le_of_left_le h1, le_max_of_le_left h2, min_le_of_left_le h3, le_max_of_le_left h4, min_le_of_left_le h5, le_max_of_le_left h6⟩

theorem expand_has (b : AABB K) (p : Vec3 K) :
    (b.expand p).min.x ≤ p.x ∧ p.x ≤ (b.expand p).max.x ∧ (b.expand p).min.y ≤ p.y ∧ p.y ≤ (b.expand p).max.y ∧ (b.expand p).min.z ≤ p.z ∧ p.z ≤ (b.expand p).max.z :=
  ⟨min_le_right _ _, le_max_right _ _, min_le_right _ _, le_max_right _ _, min_le_right _ _, le_max_right _ _⟩

theorem foldl_keeps {p : Vec3 K} : ∀ (l : List (Vec4 K)) (b : AABB K),
    (b.min.x ≤ p.x ∧ p.x ≤ b.max.x ∧ b.min.y ≤ p.y ∧ p.y ≤ b.max.y ∧ b.min.z ≤ p.z ∧ p.z ≤ b.max.z) ∨ (∃ q ∈ l, q.toVec3 = p) →
    (l.foldl (fun b q => b.expand q.toVec3) b).min.x ≤ p.x ∧ p.x ≤ (l.foldl (fun b q => b.expand q.toVec3) b).max.x ∧
    (l.foldl (fun b q => b.expand q.toVec3) b).min.y ≤ p.y ∧ p.y ≤ (l.foldl (fun b q => b.expand q.toVec3) b).max.y ∧
    (l.foldl (fun b q => b.expand q.toVec3) b).min.z ≤ p.z ∧ p.z ≤ (l.foldl (fun b q => b.expand q.toVec3) b).max.z
  | [], b, h => by
    rcases h with h | ⟨q, hq, -⟩
    · exact h
    · cases hq
  | q :: l, b, h => by
    rw [List.foldl_cons]
    apply foldl_keeps l
    rcases h with h | ⟨q', hq, e⟩
    · exact .inl (expand_keeps h)
    · rcases List.mem_cons.1 hq with rfl | hq
      · subst e
        exact .inl (expand_has _ _)
      · exact .inr ⟨q', hq, e⟩

theorem bbox_keeps {c : Curve K} {b : AABB K} (h : c.bbox = .ok b) {q : Vec4 K} (hq : q ∈ c.cpts) :
    b.min.x ≤ q.toVec3.x ∧ q.toVec3.x ≤ b.max.x ∧ b.min.y ≤ q.toVec3.y ∧ q.toVec3.y ≤ b.max.y ∧ b.min.z ≤ q.toVec3.z ∧ q.toVec3.z ≤ b.max.z := by
  unfold Curve.bbox at h
  split at h
  · cases h
  · rename_i e
    rw [e] at hq
    cases h
    exact foldl_keeps _ _ (.inr ⟨q, hq, rfl⟩)

theorem bbox_ok {c : Curve K} (h : c.cpts ≠ []) : ∃ b, c.bbox = .ok b := by
  unfold Curve.bbox
  split
  · contradiction
  · exact ⟨_, rfl⟩

theorem endPoint_mem {f : Bool} {c : Curve K} {P : Vec3 K} (h : endPoint f c = some P) : ∃ q ∈ c.cpts, q.toVec3 = P := by
  unfold endPoint at h
  obtain ⟨q, hq, e⟩ := Option.map_eq_some_iff.1 h
  refine ⟨q, ?_, e⟩
  cases f
  · exact List.mem_of_head? hq
  · exact List.mem_of_getLast? hq

theorem boxes_meet {f g : Bool} {c1 c2 : Curve K} {P : Vec3 K} (h1 : endPoint f c1 = some P) (h2 : endPoint g c2 = some P) :
    ∃ b1 b2, c1.bbox = .ok b1 ∧ c2.bbox = .ok b2 ∧ b1.intersects b2 = true := by
  obtain ⟨q1, m1, rfl⟩ := endPoint_mem h1
  obtain ⟨q2, m2, e⟩ := endPoint_mem h2
  obtain ⟨b1, e1⟩ := bbox_ok (c := c1) (List.ne_nil_of_mem m1)
  obtain ⟨b2, e2⟩ := bbox_ok (c := c2) (List.ne_nil_of_mem m2)
  refine ⟨b1, b2, e1, e2, ?_⟩
  obtain ⟨x1, x2, x3, x4, x5, x6⟩ := bbox_keeps e1 m1
  obtain ⟨y1, y2, y3, y4, y5, y6⟩ := bbox_keeps e2 m2
  rw [e] at y1 y2 y3 y4 y5 y6
  simp only [AABB.intersects, Bool.and_eq_true, decide_eq_true_eq]
  exact ⟨⟨⟨⟨⟨x1.trans y2, y1.trans x2⟩, x3.trans y4⟩, y3.trans x4⟩, x5.trans y6⟩, y5.trans x6⟩

theorem insertKnot_ends {c e : Curve K} {t : K} {r : Nat} (h : c.insertKnot t r = .ok e) : e.cpts.head? = c.cpts.head? ∧ e.cpts.getLast? = c.cpts.getLast? := by
  unfold Curve.insertKnot at h
  simp only at h
  split at h
  · cases h
  · obtain ⟨cp, e1, h⟩ := ok_of_bind h
    have : e.cpts = cp := by
      unfold Curve.updateInterval at h
      obtain ⟨_, -, h⟩ := ok_of_bind h
      obtain ⟨_, -, h⟩ := ok_of_bind h
      cases h
      rfl
    rw [this]
    unfold knotInsertion at e1
    split at e1
    · cases e1
    · rename_i hg
      push Not at hg
      obtain ⟨g1, g2, g3, -⟩ := hg
      cases e1
      have hn : 0 < c.cpts.length := by omega
      constructor
      · rw [List.head?_eq_getElem?, List.getElem?_map, List.getElem?_range (by omega), Option.map_some, insArray_spec _ g2 g1, if_pos (Nat.zero_le _), List.head?_eq_getElem?,
          List.getElem?_eq_getElem hn]
        simp [ix, hn]
      · rw [List.getLast?_eq_getElem?, List.getElem?_map, List.length_map, List.length_range, List.getElem?_range (by omega), Option.map_some, insArray_spec _ g2 g1,
          List.getLast?_eq_getElem?, List.getElem?_eq_getElem (show c.cpts.length - 1 < c.cpts.length by omega)]
        have fin : ∀ M, M = c.cpts.length - 1 → ix c.cpts M = c.cpts[c.cpts.length - 1] := by
          rintro M rfl
          unfold ix
          simp [hn]
        congr 1
        split
        · exact fin _ (by omega)
        · split
          · omega
          · split
            · omega
            · split
              · omega
              · exact fin _ (by omega)

/-- Splitting keeps the ends, exactly, in whatever arithmetic. -/
theorem split_ends {c a b : Curve K} {t : K} (h : c.split t false = .ok (a, b)) : a.cpts.head? = c.cpts.head? ∧ b.cpts.getLast? = c.cpts.getLast? := by
  obtain ⟨-, e, he, n1, n2, ⟨_, _, rfl⟩, ⟨_, _, rfl⟩⟩ := split_inv h
  obtain ⟨h1, h2⟩ := insertKnot_ends he
  constructor
  · rw [← h1]
    simp only
    rw [List.head?_take, if_neg]
    intro h0
    rw [h0] at n1
    simp at n1
  · rw [← h2]
    simp only
    rw [List.getLast?_drop, if_neg]
    intro h0
    rw [List.drop_eq_nil_iff.2 h0] at n2
    exact n2 rfl

theorem split_endPoint (f : Bool) {c a b : Curve K} {t : K} (h : c.split t false = .ok (a, b)) : endPoint f (if f then b else a) = endPoint f c := by
  obtain ⟨h1, h2⟩ := split_ends h
  cases f
  · simp [endPoint, h1]
  · simp [endPoint, h2]

theorem andThen_ok {A B : Type} {x : Option (Res A)} {f : A → Option (Res B)} {r : B} (h : andThen x f = some (.ok r)) : ∃ a, x = some (.ok a) ∧ f a = some (.ok r) := by
  unfold andThen at h
  split at h
  · cases h
  · exact ⟨_, rfl, h⟩
  · cases h
  · cases h

theorem report_prefix (tol : K) (acc : List (K × K)) (s t : K) : acc <+: report tol acc s t := by
  unfold report
  split
  · split
    · exact List.prefix_refl _
    · exact List.prefix_append _ _
  · exact List.prefix_append _ _

/-- The search only appends. -/
theorem ccx_prefix (sqrt : K → K) (tol : K) : ∀ (fuel : Nat) (c1 c2 : Curve K) (acc res : List (K × K)), ccx sqrt tol fuel c1 c2 acc = some (.ok res) → acc <+: res
  | 0, _, _, _, _, h => by cases h
  | fuel + 1, c1, c2, acc, res, h => by
    unfold ccx at h
    split at h
    · split at h
      · split at h
        · cases h
          exact report_prefix _ _ _ _
        · obtain ⟨s1, -, h⟩ := andThen_ok h
          obtain ⟨s2, -, h⟩ := andThen_ok h
          obtain ⟨r1, h1, h⟩ := andThen_ok h
          obtain ⟨r2, h2, h⟩ := andThen_ok h
          obtain ⟨r3, h3, h⟩ := andThen_ok h
          exact (ccx_prefix sqrt tol fuel _ _ _ _ h1).trans ((ccx_prefix sqrt tol fuel _ _ _ _ h2).trans ((ccx_prefix sqrt tol fuel _ _ _ _ h3).trans
            (ccx_prefix sqrt tol fuel _ _ _ _ h)))
      · cases h
        exact List.prefix_refl _
    · cases h

theorem report_middle (tol : K) (acc : List (K × K)) (q1 q2 : Curve K) :
    ∃ p ∈ report tol acc (1 / 2 * (q1.lo + q1.hi)) (1 / 2 * (q2.lo + q2.hi)), AtMiddle tol q1 q2 p := by
  unfold report
  split
  · rename_i q hq
    split
    · rename_i h
      exact ⟨q, List.mem_of_getLast? hq, .inr h⟩
    · exact ⟨_, by simp, .inl rfl⟩
  · exact ⟨_, by simp, .inl rfl⟩

theorem shared_end (sqrt : K → K) (tol : K) (f g : Bool) (P : Vec3 K) : ∀ (fuel : Nat) (c1 c2 : Curve K) (acc res : List (K × K)), endPoint f c1 = some P → endPoint g c2 = some P →
    ccx sqrt tol fuel c1 c2 acc = some (.ok res) →
    ∃ p ∈ res, ∃ q1 q2, EndPart f c1 q1 ∧ EndPart g c2 q2 ∧ SmallPart sqrt tol q1 ∧ SmallPart sqrt tol q2 ∧ AtMiddle tol q1 q2 p
  | 0, _, _, _, _, _, _, h => by cases h
  | fuel + 1, c1, c2, acc, res, h1, h2, h => by
    obtain ⟨b1, b2, e1, e2, hb⟩ := boxes_meet h1 h2
    unfold ccx at h
    simp only [e1, e2] at h
    rw [if_pos hb] at h
    split at h
    · rename_i hs
      rw [Bool.and_eq_true] at hs
      cases h
      obtain ⟨p, hp, m⟩ := report_middle tol acc c1 c2
      exact ⟨p, hp, c1, c2, .whole _, .whole _, ⟨b1, e1, of_decide_eq_true hs.1⟩, ⟨b2, e2, of_decide_eq_true hs.2⟩, m⟩
    · obtain ⟨⟨a1, d1⟩, s1, h⟩ := andThen_ok h
      obtain ⟨⟨a2, d2⟩, s2, h⟩ := andThen_ok h
      obtain ⟨r1, k1, h⟩ := andThen_ok h
      obtain ⟨r2, k2, h⟩ := andThen_ok h
      obtain ⟨r3, k3, h⟩ := andThen_ok h
      replace s1 := Option.some.inj s1
      replace s2 := Option.some.inj s2
      have m1 := split_endPoint f s1
      have m2 := split_endPoint g s2
      rw [h1] at m1
      rw [h2] at m2
      have up : ∀ l l' res', ccx sqrt tol fuel (if f then d1 else a1) (if g then d2 else a2) l = some (.ok l') → l' <+: res' →
          ∃ p ∈ res', ∃ q1 q2, EndPart f c1 q1 ∧ EndPart g c2 q2 ∧ SmallPart sqrt tol q1 ∧ SmallPart sqrt tol q2 ∧ AtMiddle tol q1 q2 p := by
        intro l l' res' hc hp
        obtain ⟨p, hm, q1, q2, x1, x2, x3⟩ := shared_end sqrt tol f g P fuel _ _ _ _ m1 m2 hc
        exact ⟨p, hp.subset hm, q1, q2, .half s1 x1, .half s2 x2, x3⟩
      have p2 := ccx_prefix sqrt tol fuel _ _ _ _ k2
      have p3 := ccx_prefix sqrt tol fuel _ _ _ _ k3
      have p4 := ccx_prefix sqrt tol fuel _ _ _ _ h
      cases f <;> cases g
      · exact up _ _ _ k1 (p2.trans (p3.trans p4))
      · exact up _ _ _ k3 p4
      · exact up _ _ _ h (List.prefix_refl _)
      · exact up _ _ _ k2 (p3.trans p4)

end any
end Cmm.Ccx
