import Verif.Model.PolygonNormals
import Verif.Model.Surface
import Verif.Lemmas.ConvexSep
import Verif.Props.VecOps
/-!
Properties of the normals of cmmcore/polygon.h: C109.
-/
namespace Cmm.Sep
open Cmm.Geom Cmm.VecOps Cmm.Newton
open Cmm.Nurbs (mapRes)
variable {K : Type} [Field K] [LinearOrder K] [IsStrictOrderedRing K]

theorem mapRes_index {A B : Type} {f : A → Res B} : ∀ {l : List A} {m : List B}, mapRes f l = .ok m →
    m.length = l.length ∧ ∀ (i : Nat) a, l[i]? = some a → ∃ b, m[i]? = some b ∧ f a = .ok b
  | [], m, h => by obtain rfl := Res.ok.inj h; simp
  | a :: l, m, h => by
    rw [mapRes] at h
    cases e : f a with
    | throws => rw [e, Res.throws_bind] at h; cases h
    | ub => rw [e, Res.ub_bind] at h; cases h
    | ok b =>
      rw [e, Res.ok_bind] at h
      cases e' : mapRes f l with
      | throws => rw [e', Res.throws_bind] at h; cases h
      | ub => rw [e', Res.ub_bind] at h; cases h
      | ok bs =>
        rw [e', Res.ok_bind] at h
        obtain rfl := Res.ok.inj h
        obtain ⟨h1, h2⟩ := mapRes_index e'
        refine ⟨by simp [h1], fun i x hx => ?_⟩
        cases i with
        | zero =>
          rw [List.getElem?_cons_zero] at hx
          obtain rfl := Option.some.inj hx
          exact ⟨b, rfl, e⟩
        | succ i => exact h2 i x hx

theorem mapRes_throws {A B : Type} {f : A → Res B} : ∀ {l : List A}, (∀ a ∈ l, f a ≠ .ub) →
    (mapRes f l = .throws ↔ ∃ a ∈ l, f a = .throws) ∧ mapRes f l ≠ .ub
  | [], _ => by simp [mapRes]
  | a :: l, h => by
    obtain ⟨h1, h2⟩ := mapRes_throws (l := l) (f := f) fun x hx => h x (by simp [hx])
    rw [mapRes]
    cases e : f a with
    | throws => simp [e]
    | ub => exact absurd e (h a (by simp))
    | ok b =>
      rw [Res.ok_bind]
      cases e' : mapRes f l with
      | throws =>
        obtain ⟨x, hx, hf⟩ := h1.1 e'
        simp only [Res.throws_bind, true_iff]
        exact ⟨⟨x, by simp [hx], hf⟩, by simp⟩
      | ub => exact absurd e' h2
      | ok bs =>
        simp only [Res.ok_bind, List.mem_cons, exists_eq_or_imp, e, reduceCtorEq, false_or, false_iff, ne_eq, not_false_eq_true, and_true]
        rintro ⟨x, hx, hf⟩
        rw [h1.2 ⟨x, hx, hf⟩] at e'
        cases e'

omit [IsStrictOrderedRing K] in
theorem normalsLoop_false (sqrt : K → K) : ∀ (ns : List (Vec2 K)) (i : Nat) (acc : List (Vec2 K)), normalsLoop sqrt false ns i acc = .ok (acc ++ ns)
  | [], i, acc => by simp [normalsLoop]
  | n :: ns, i, acc => by
    rw [normalsLoop, if_neg (by simp), normalsLoop_false sqrt ns]
    simp

omit [IsStrictOrderedRing K] in
theorem normalsLoop_true (sqrt : K → K) : ∀ (ns U R : List (Vec2 K)), normalsLoop sqrt true ns U.length (U ++ R) =
    (mapRes (unitize2 sqrt) ((R ++ ns).take ns.length) >>= fun V => .ok (U ++ V ++ (R ++ ns).drop ns.length))
  | [], U, R => by simp [normalsLoop, mapRes]
  | n :: ns, U, R => by
    obtain ⟨x, R', hx⟩ : ∃ x R', R ++ [n] = x :: R' := by cases R <;> simp
    have e1 : R ++ n :: ns = x :: (R' ++ ns) := by rw [← List.cons_append, ← hx, List.append_assoc]; rfl
    rw [normalsLoop, if_pos rfl, List.append_assoc, hx, e1, List.length_cons, List.take_succ_cons, List.drop_succ_cons, mapRes]
    have e2 : (U ++ x :: R').getD U.length ⟨0, 0⟩ = x := by simp
    rw [e2]
    cases e : unitize2 sqrt x with
    | throws => rfl
    | ub => rfl
    | ok u =>
      rw [Res.ok_bind, Res.ok_bind]
      have e3 : (U ++ x :: R').set U.length u = (U ++ [u]) ++ R' := by simp
      have e4 : U.length + 1 = (U ++ [u]).length := by simp
      rw [e3, e4, normalsLoop_true sqrt ns (U ++ [u]) R']
      cases mapRes (unitize2 sqrt) (List.take ns.length (R' ++ ns)) <;> simp

omit [LinearOrder K] [IsStrictOrderedRing K] in
theorem normals_getElem {P : List (Vec2 K)} : (normals P).length = P.length ∧ ∀ i p q, P[i]? = some p → P[(i + 1) % P.length]? = some q →
    (normals P)[i]? = some ⟨q.y - p.y, p.x - q.x⟩ := by
  have hl : (P.drop 1 ++ P.take 1).length = P.length := by
    rw [List.length_append, List.length_drop, List.length_take]
    cases P with
    | nil => rfl
    | cons a l => simp
  refine ⟨by unfold normals edges; rw [List.length_map, List.length_zip, hl, min_self], fun i p q hp hq => ?_⟩
  have hi := (List.getElem?_eq_some_iff.1 hp).1
  have h2 : (P.drop 1 ++ P.take 1)[i]? = some q := by
    by_cases e : i + 1 < P.length
    · rw [Nat.mod_eq_of_lt e] at hq
      rw [List.getElem?_append_left (by rw [List.length_drop]; omega), List.getElem?_drop, Nat.add_comm]
      exact hq
    · obtain rfl : i = P.length - 1 := by omega
      rw [show P.length - 1 + 1 = P.length by omega, Nat.mod_self] at hq
      rw [List.getElem?_append_right (by rw [List.length_drop]), List.length_drop, Nat.sub_self, List.getElem?_take_of_lt (by omega)]
      exact hq
  unfold normals edges
  rw [List.getElem?_map, (List.getElem?_zip_eq_some (z := (p, q))).2 ⟨hp, h2⟩]
  rfl

omit [IsStrictOrderedRing K] in
/-- **C109**: without normalisation `polygonNormals` appends one vector for each edge, in order: the edge turned clockwise by a right angle. -/
theorem C109_plain (sqrt : K → K) (P out : List (Vec2 K)) :
    ∃ ns, polygonNormals sqrt P out false = .ok (out ++ ns) ∧ ns.length = P.length ∧
      ∀ i p q, P[i]? = some p → P[(i + 1) % P.length]? = some q → ns[i]? = some ⟨q.y - p.y, -(q.x - p.x)⟩ := by
  refine ⟨normals P, normalsLoop_false sqrt _ _ _, normals_getElem.1, fun i p q hp hq => ?_⟩
  rw [normals_getElem.2 i p q hp hq, neg_sub]

/-- C109: for a convex polygon in counterclockwise order these vectors are the outward normals: no vertex is beyond the line of an edge. -/
theorem C109_outward (sqrt : K → K) (P ns : List (Vec2 K)) (hP : ConvexCCW P) (h : polygonNormals sqrt P [] false = .ok ns) :
    ∀ i p q, P[i]? = some p → P[(i + 1) % P.length]? = some q → ∃ n, ns[i]? = some n ∧ n.dot (q - p) = 0 ∧ n.dot n = (q - p).dot (q - p) ∧
      ∀ w ∈ P, n.dot (w - p) ≤ 0 := by
  intro i p q hp hq
  have e : polygonNormals sqrt P [] false = .ok (normals P) := by
    have := normalsLoop_false sqrt (normals P) 0 []
    rw [List.nil_append] at this
    exact this
  rw [e] at h
  obtain rfl := Res.ok.inj h
  refine ⟨_, normals_getElem.2 i p q hp hq, ?_, ?_, fun w hw => ?_⟩
  · simp only [Vec2.dot, Vec2.sub_x, Vec2.sub_y]; ring
  · simp only [Vec2.dot, Vec2.sub_x, Vec2.sub_y]; ring
  · have := edge_support hP ⟨i, (List.getElem?_eq_some_iff.1 hp).1, hp, hq⟩ w hw
    unfold turn at this
    simp only [Vec2.dot, Vec2.sub_x, Vec2.sub_y]
    linarith

omit [LinearOrder K] [IsStrictOrderedRing K] in
theorem mem_normals {P : List (Vec2 K)} {n : Vec2 K} : n ∈ normals P ↔ ∃ p q, IsEdge P p q ∧ n = ⟨q.y - p.y, p.x - q.x⟩ := by
  unfold normals
  rw [List.mem_map]
  constructor
  · rintro ⟨⟨p, q⟩, h, rfl⟩; exact ⟨p, q, edges_iff.1 h, rfl⟩
  · rintro ⟨p, q, h, rfl⟩; exact ⟨(p, q), edges_iff.2 h, rfl⟩

omit [IsStrictOrderedRing K] in
theorem unitize_ne_ub (sqrt : K → K) (a : Vec2 K) : unitize2 sqrt a ≠ .ub := by
  unfold unitize2
  dsimp only
  split <;> simp

/-- **C109**: with normalisation, into an empty vector: `polygonNormals` throws exactly if two successive vertices coincide; otherwise each vector has length
one and the direction of the edge turned clockwise. -/
theorem C109_unit (sqrt : K → K) (hs : IsSqrt sqrt) (h0 : sqrt 0 = 0) (P : List (Vec2 K)) :
    (polygonNormals sqrt P [] true = .throws ↔ ∃ p, IsEdge P p p) ∧
    ((∀ p, ¬ IsEdge P p p) → ∃ ns, polygonNormals sqrt P [] true = .ok ns ∧ ns.length = P.length ∧
      ∀ i p q, P[i]? = some p → P[(i + 1) % P.length]? = some q → ∃ u l, ns[i]? = some u ∧ 0 < l ∧ u.dot u = 1 ∧
        u.smul l = ⟨q.y - p.y, -(q.x - p.x)⟩) := by
  have e : polygonNormals sqrt P [] true = mapRes (unitize2 sqrt) (normals P) := by
    have := normalsLoop_true sqrt (normals P) [] []
    rw [List.length_nil, List.nil_append, List.nil_append, List.take_length, List.drop_length] at this
    unfold polygonNormals
    rw [this]
    cases mapRes (unitize2 sqrt) (normals P) <;> simp
  have hth : polygonNormals sqrt P [] true = .throws ↔ ∃ p, IsEdge P p p := by
    rw [e, (mapRes_throws fun a _ => unitize_ne_ub sqrt a).1]
    constructor
    · rintro ⟨n, hn, ht⟩
      obtain ⟨p, q, he, rfl⟩ := mem_normals.1 hn
      have := (C80_unit_plane sqrt hs h0 _ 0).1.1 ht
      rw [Vec2.mk.injEq] at this
      obtain rfl : p = q := Vec2.ext (sub_eq_zero.1 this.2) (sub_eq_zero.1 this.1).symm
      exact ⟨p, he⟩
    · rintro ⟨p, he⟩
      refine ⟨_, mem_normals.2 ⟨p, p, he, rfl⟩, (C80_unit_plane sqrt hs h0 _ 0).1.2 ?_⟩
      rw [sub_self, sub_self]
  refine ⟨hth, fun hn => ?_⟩
  cases hm : mapRes (unitize2 sqrt) (normals P) with
  | throws =>
    obtain ⟨p, hp⟩ := hth.1 (by rw [e, hm])
    exact absurd hp (hn p)
  | ub => exact absurd hm (mapRes_throws fun a _ => unitize_ne_ub sqrt a).2
  | ok ns =>
    obtain ⟨h1, h2⟩ := mapRes_index hm
    refine ⟨ns, by rw [e, hm], by rw [h1, normals_getElem.1], fun i p q hp hq => ?_⟩
    obtain ⟨u, hu, hf⟩ := h2 i _ (normals_getElem.2 i p q hp hq)
    have hne : (⟨q.y - p.y, p.x - q.x⟩ : Vec2 K) ≠ ⟨0, 0⟩ := by
      intro h
      rw [(C80_unit_plane sqrt hs h0 _ 0).1.2 h] at hf
      cases hf
    obtain ⟨u', l, k1, k2, k3, k4⟩ := (C80_unit_plane sqrt hs h0 ⟨q.y - p.y, p.x - q.x⟩ 0).2.2.1 hne
    rw [hf] at k1
    obtain rfl := Res.ok.inj k1
    exact ⟨u, l, hu, k2, k3, by rw [← k4, neg_sub]⟩

/-- C109: into a vector that already holds as many vectors as the polygon has vertices, `polygonNormals` normalises the old vectors and not the new ones. -/
theorem C109_reuse_counterexample (sqrt : K → K) (hs : IsSqrt sqrt) (h0 : sqrt 0 = 0) (P out : List (Vec2 K)) (hl : out.length = P.length)
    (ho : ∀ v ∈ out, v ≠ ⟨0, 0⟩) :
    ∃ us ns, polygonNormals sqrt P out true = .ok (us ++ ns) ∧ polygonNormals sqrt P [] false = .ok ns ∧ us.length = out.length ∧
      ∀ u ∈ us, u.dot u = 1 := by
  have e : polygonNormals sqrt P out true = mapRes (unitize2 sqrt) out >>= fun V => .ok (V ++ normals P) := by
    have := normalsLoop_true sqrt (normals P) [] out
    rw [List.length_nil, List.nil_append, normals_getElem.1, ← hl, List.take_left, List.drop_left] at this
    exact this
  cases hm : mapRes (unitize2 sqrt) out with
  | throws =>
    obtain ⟨a, ha, ht⟩ := (mapRes_throws fun a _ => unitize_ne_ub sqrt a).1.1 hm
    exact absurd ((C80_unit_plane sqrt hs h0 _ 0).1.1 ht) (ho a ha)
  | ub => exact absurd hm (mapRes_throws fun a _ => unitize_ne_ub sqrt a).2
  | ok us =>
    rw [hm, Res.ok_bind] at e
    obtain ⟨h1, h2⟩ := mapRes_index hm
    refine ⟨us, normals P, e, by rw [polygonNormals, normalsLoop_false]; rfl, h1, fun u hu => ?_⟩
    obtain ⟨i, hi⟩ := List.mem_iff_getElem?.1 hu
    have hil : i < out.length := by rw [← h1]; exact (List.getElem?_eq_some_iff.1 hi).1
    obtain ⟨b, hb, hf⟩ := h2 i out[i] (List.getElem?_eq_getElem hil)
    rw [hi] at hb
    obtain rfl := Option.some.inj hb
    obtain ⟨u', l, k1, -, k3, -⟩ := (C80_unit_plane sqrt hs h0 out[i] 0).2.2.1 (ho _ (List.getElem_mem hil))
    rw [hf] at k1
    obtain rfl := Res.ok.inj k1
    exact k3

/-- Two vectors are parallel. -/
def Parallel (a b : Vec2 K) : Prop := a.x * b.y = a.y * b.x

theorem uniqueLoop_spec (sqrt : K → K) (hs : IsSqrt sqrt) (h0 : sqrt 0 = 0) (ins : List (Vec2 K) → Vec2 K → Bool) (normalize : Bool)
    (hins : ∀ set m, (∀ e ∈ set, ¬ Parallel e m) → ins set m = true) :
    ∀ (ns set : List (Vec2 K)), (∀ n ∈ ns, n ≠ ⟨0, 0⟩) → ∃ s, uniqueLoop sqrt ins normalize ns set = .ok s ∧ (∀ m ∈ set, m ∈ s) ∧
      (∀ m ∈ s, m ∈ set ∨ ∃ n ∈ ns, ∃ l, 0 < l ∧ m.smul l = n ∧ if normalize then m.dot m = 1 else l = 1) ∧
      ∀ n ∈ ns, ∃ m ∈ s, tolEq m n = true ∨ Parallel m n
  | [], set, _ => ⟨set, rfl, fun _ h => h, fun _ h => Or.inl h, by simp⟩
  | n :: ns, set, hne => by
    have hn := hne n (by simp)
    have hne' : ∀ n ∈ ns, n ≠ ⟨0, 0⟩ := fun x hx => hne x (by simp [hx])
    by_cases hc : contains set n = true
    · obtain ⟨s, h1, h2, h3, h4⟩ := uniqueLoop_spec sqrt hs h0 ins normalize hins ns set hne'
      refine ⟨s, by rw [uniqueLoop, if_pos hc, h1], h2, fun m hm => ?_, fun x hx => ?_⟩
      · rcases h3 m hm with h | ⟨x, hx, h⟩
        · exact Or.inl h
        · exact Or.inr ⟨x, by simp [hx], h⟩
      · rcases List.mem_cons.1 hx with rfl | hx
        · unfold contains at hc
          obtain ⟨m, hm, ht⟩ := List.any_eq_true.1 hc
          exact ⟨m, h2 m hm, Or.inl ht⟩
        · exact h4 x hx
    · obtain ⟨m, hm, l, hl, hml, hu⟩ : ∃ m, (if normalize then unitize2 sqrt n else .ok n) = .ok m ∧ ∃ l, 0 < l ∧ m.smul l = n ∧
          if normalize then m.dot m = 1 else l = 1 := by
        cases normalize with
        | false => exact ⟨n, rfl, 1, one_pos, by ext <;> simp [Vec2.smul], rfl⟩
        | true =>
          obtain ⟨u, l, k1, k2, k3, k4⟩ := (C80_unit_plane sqrt hs h0 n 0).2.2.1 hn
          exact ⟨u, k1, l, k2, k4.symm, k3⟩
      have hmz : m.sqLength ≠ 0 := by
        intro h
        rw [sq_zero_iff] at h
        apply hn
        rw [← hml, h]
        ext <;> simp [Vec2.smul]
      have hpar : ∀ e : Vec2 K, Parallel e m → Parallel e n := by
        intro e he
        unfold Parallel at *
        rw [← hml, Vec2.smul_x, Vec2.smul_y]
        linear_combination l * he
      obtain ⟨s, h1, h2, h3, h4⟩ := uniqueLoop_spec sqrt hs h0 ins normalize hins ns (if ins set m then m :: set else set) hne'
      refine ⟨s, ?_, fun x hx => h2 x ?_, fun x hx => ?_, fun x hx => ?_⟩
      · rw [uniqueLoop, if_neg hc]
        cases normalize with
        | false => simp only [Bool.false_eq_true, if_false] at hm ⊢; rw [hm, Res.ok_bind, if_neg hmz, h1]
        | true => simp only [if_true] at hm ⊢; rw [hm, Res.ok_bind, if_neg hmz, h1]
      · split
        · simp [hx]
        · exact hx
      · rcases h3 x hx with h | ⟨y, hy, h⟩
        · split at h
          · rcases List.mem_cons.1 h with rfl | h
            · exact Or.inr ⟨n, by simp, l, hl, hml, hu⟩
            · exact Or.inl h
          · exact Or.inl h
        · exact Or.inr ⟨y, by simp [hy], h⟩
      · rcases List.mem_cons.1 hx with rfl | hx
        · by_cases hi : ins set m = true
          · rw [if_pos hi] at h2
            refine ⟨m, h2 m (by simp), Or.inr (hpar m ?_)⟩
            unfold Parallel; ring
          · have : ∃ e ∈ set, Parallel e m := by
              by_contra hno
              push Not at hno
              exact hi (hins set m hno)
            obtain ⟨e, he, hp⟩ := this
            rw [if_neg hi] at h2
            exact ⟨e, h2 e he, Or.inr (hpar e hp)⟩
        · exact h4 x hx

/-- **C109**: for a polygon without repeated successive vertices `polygonUniqueNormals` keeps what is in the set, adds only normals of edges (of length one, with
normalisation), and afterwards every edge has a normal in the set that is parallel to its own or equal up to the machine epsilon. The set is only required to
insert a vector that is parallel to none of its elements. -/
theorem C109_unique (sqrt : K → K) (hs : IsSqrt sqrt) (h0 : sqrt 0 = 0) (ins : List (Vec2 K) → Vec2 K → Bool) (normalize : Bool)
    (hins : ∀ set m, (∀ e ∈ set, ¬ Parallel e m) → ins set m = true) (P set : List (Vec2 K)) (hP : ∀ p, ¬ IsEdge P p p) :
    ∃ s, polygonUniqueNormals sqrt ins P set normalize = .ok s ∧ (∀ m ∈ set, m ∈ s) ∧
      (∀ m ∈ s, m ∈ set ∨ ∃ p q, IsEdge P p q ∧ ∃ l, 0 < l ∧ m.smul l = ⟨q.y - p.y, -(q.x - p.x)⟩ ∧ (normalize = true → m.dot m = 1) ∧
        (normalize = false → l = 1)) ∧
      ∀ p q, IsEdge P p q → ∃ m ∈ s, (|m.x - (q.y - p.y)| < 1 / 2 ^ 52 ∧ |m.y + (q.x - p.x)| < 1 / 2 ^ 52) ∨
        m.x * (q.x - p.x) + m.y * (q.y - p.y) = 0 := by
  obtain ⟨s, h1, h2, h3, h4⟩ := uniqueLoop_spec sqrt hs h0 ins normalize hins (normals P) set fun n hn hz => by
    obtain ⟨p, q, he, rfl⟩ := mem_normals.1 hn
    rw [Vec2.mk.injEq] at hz
    obtain rfl : p = q := Vec2.ext (sub_eq_zero.1 hz.2) (sub_eq_zero.1 hz.1).symm
    exact hP p he
  refine ⟨s, h1, h2, fun m hm => ?_, fun p q he => ?_⟩
  · rcases h3 m hm with h | ⟨n, hn, l, hl, e, hu⟩
    · exact Or.inl h
    · obtain ⟨p, q, he, rfl⟩ := mem_normals.1 hn
      refine Or.inr ⟨p, q, he, l, hl, by rw [e, neg_sub], ?_, ?_⟩
      · rintro rfl; exact hu
      · rintro rfl; exact hu
  · obtain ⟨m, hm, h⟩ := h4 _ (mem_normals.2 ⟨p, q, he, rfl⟩)
    refine ⟨m, hm, ?_⟩
    rcases h with h | h
    · left
      simp only [tolEq_field, Bool.and_eq_true, decide_eq_true_eq] at h
      refine ⟨h.1, ?_⟩
      have : m.y + (q.x - p.x) = m.y - (p.x - q.x) := by ring
      rw [this]; exact h.2
    · right
      unfold Parallel at h
      dsimp only at h
      linear_combination -h

theorem unit_coarse {u : Vec2 K} (h : u.dot u = 1) : 1 / 2 ^ 52 ≤ |u.x| ∨ 1 / 2 ^ 52 ≤ |u.y| := by
  by_contra hc
  push Not at hc
  have e : (1 / 2 ^ 52 : K) ≤ 1 / 2 := by
    apply one_div_le_one_div_of_le (by norm_num)
    norm_num
  have a : |u.x| < 1 / 2 := hc.1.trans_le e
  have b : |u.y| < 1 / 2 := hc.2.trans_le e
  have ax := mul_self_lt_mul_self (abs_nonneg u.x) a
  have ay := mul_self_lt_mul_self (abs_nonneg u.y) b
  rw [abs_mul_abs_self] at ax ay
  unfold Vec2.dot at h
  linarith

/-- C109: a repeated successive vertex makes `polygonUniqueNormals` throw, unless the set or the polygon has a normal within the machine epsilon of zero. -/
theorem C109_unique_throws (sqrt : K → K) (hs : IsSqrt sqrt) (h0 : sqrt 0 = 0) (ins : List (Vec2 K) → Vec2 K → Bool) (normalize : Bool)
    (P set : List (Vec2 K)) (v : Vec2 K) (hv : IsEdge P v v) (hset : ∀ m ∈ set, 1 / 2 ^ 52 ≤ |m.x| ∨ 1 / 2 ^ 52 ≤ |m.y|)
    (hP : ∀ p q, IsEdge P p q → p = q ∨ 1 / 2 ^ 52 ≤ |q.y - p.y| ∨ 1 / 2 ^ 52 ≤ |q.x - p.x|) :
    polygonUniqueNormals sqrt ins P set normalize = .throws := by
  have key : ∀ ns set : List (Vec2 K), (∀ m ∈ set, 1 / 2 ^ 52 ≤ |m.x| ∨ 1 / 2 ^ 52 ≤ |m.y|) → (⟨0, 0⟩ : Vec2 K) ∈ ns →
      (∀ n ∈ ns, n = ⟨0, 0⟩ ∨ 1 / 2 ^ 52 ≤ |n.x| ∨ 1 / 2 ^ 52 ≤ |n.y|) → uniqueLoop sqrt ins normalize ns set = .throws := by
    intro ns
    induction ns with
    | nil => intro set _ h; simp at h
    | cons n ns ih =>
      intro set hset hm hb
      have hb' : ∀ n ∈ ns, n = ⟨0, 0⟩ ∨ 1 / 2 ^ 52 ≤ |n.x| ∨ 1 / 2 ^ 52 ≤ |n.y| := fun x hx => hb x (by simp [hx])
      by_cases hz : n = ⟨0, 0⟩
      · subst hz
        have hc : contains set (⟨0, 0⟩ : Vec2 K) = false := by
          unfold contains
          rw [List.any_eq_false]
          intro e he ht
          simp only [tolEq_field, Bool.and_eq_true, decide_eq_true_eq, sub_zero] at ht
          have hme : (machEps : K) = 1 / 2 ^ 52 := rfl
          rw [hme] at ht
          rcases hset e he with h | h
          · exact absurd ht.1 (not_lt.2 h)
          · exact absurd ht.2 (not_lt.2 h)
        rw [uniqueLoop, if_neg (by rw [hc]; simp)]
        cases normalize with
        | false =>
          simp only [Bool.false_eq_true, if_false]
          rw [Res.ok_bind, if_pos (sq_zero_iff.2 rfl)]
        | true =>
          simp only [if_true]
          rw [(C80_unit_plane sqrt hs h0 _ 0).1.2 rfl, Res.throws_bind]
      · have hm' : (⟨0, 0⟩ : Vec2 K) ∈ ns := by
          rcases List.mem_cons.1 hm with h | h
          · exact absurd h.symm hz
          · exact h
        have hn := (hb n (by simp)).resolve_left hz
        rw [uniqueLoop]
        split
        · exact ih set hset hm' hb'
        · have step : ∀ m : Vec2 K, (1 / 2 ^ 52 ≤ |m.x| ∨ 1 / 2 ^ 52 ≤ |m.y|) →
              uniqueLoop sqrt ins normalize ns (if ins set m then m :: set else set) = .throws := by
            intro m hcm
            refine ih _ (fun x hmm => ?_) hm' hb'
            split at hmm
            · rcases List.mem_cons.1 hmm with rfl | h
              · exact hcm
              · exact hset x h
            · exact hset x hmm
          cases normalize with
          | false =>
            simp only [Bool.false_eq_true, if_false]
            rw [Res.ok_bind, if_neg fun h => hz (sq_zero_iff.1 h)]
            exact step n hn
          | true =>
            simp only [if_true]
            obtain ⟨u, l, k1, -, k3, -⟩ := (C80_unit_plane sqrt hs h0 n 0).2.2.1 hz
            rw [k1, Res.ok_bind]
            split
            · rfl
            · exact step u (unit_coarse k3)
  refine key _ _ hset (mem_normals.2 ⟨v, v, hv, by rw [sub_self, sub_self]⟩) fun n hn => ?_
  obtain ⟨a, b, he, rfl⟩ := mem_normals.1 hn
  rcases hP a b he with rfl | h | h
  · left; rw [sub_self, sub_self]
  · right; left; exact h
  · right; right; rw [abs_sub_comm]; exact h

/-- A square root on the numbers needed below. -/
def demoSqrt : ℚ → ℚ := fun x => if x = 25 then 5 else if x = 9 then 3 else if x = 16 then 4 else x

/-- A triangle with integer side lengths: its normals, its unit normals, and its unit normals in a vector that is reused. -/
example : polygonNormals demoSqrt [⟨0, 0⟩, ⟨3, 0⟩, ⟨0, 4⟩] [] false = .ok [⟨0, -3⟩, ⟨4, 3⟩, ⟨-4, 0⟩] ∧
    polygonNormals demoSqrt [⟨0, 0⟩, ⟨3, 0⟩, ⟨0, 4⟩] [] true = .ok [⟨0, -1⟩, ⟨4 / 5, 3 / 5⟩, ⟨-1, 0⟩] ∧
    polygonNormals demoSqrt [⟨0, 0⟩, ⟨3, 0⟩, ⟨0, 4⟩] [⟨3, 0⟩, ⟨0, 3⟩, ⟨0, 5⟩] true =
      .ok [⟨1, 0⟩, ⟨0, 1⟩, ⟨0, 1⟩, ⟨0, -3⟩, ⟨4, 3⟩, ⟨-4, 0⟩] ∧
    polygonNormals demoSqrt [⟨0, 0⟩, ⟨0, 0⟩, ⟨0, 4⟩] [] true = .throws := by
  refine ⟨?_, ?_, ?_, ?_⟩ <;> decide +kernel

/-- The four sides of a rectangle have two directions; a set that inserts what is parallel to none of its elements keeps two normals. -/
example : polygonUniqueNormals demoSqrt (fun s m => s.all fun e => !decide (e.x * m.y = e.y * m.x)) [⟨0, 0⟩, ⟨3, 0⟩, ⟨3, 4⟩, ⟨0, 4⟩] [] false =
    .ok [⟨4, 0⟩, ⟨0, -3⟩] ∧
    polygonUniqueNormals demoSqrt (fun s m => s.all fun e => !decide (e.x * m.y = e.y * m.x)) [⟨0, 0⟩, ⟨3, 0⟩, ⟨3, 4⟩, ⟨0, 4⟩] [] true =
    .ok [⟨1, 0⟩, ⟨0, -1⟩] := by
  constructor <;> decide +kernel

end Cmm.Sep
