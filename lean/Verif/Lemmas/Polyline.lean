import Verif.Spec.Polyline
import Verif.Props.Hash
import Mathlib.Data.List.Perm.Basic
import Mathlib.Data.List.Perm.Subperm
import Mathlib.Data.List.Nodup
import Mathlib.Data.List.Range
/-!
Lemmas for polyline assembly.
-/
namespace Cmm.Poly
open Cmm.Hash (PointKey)
variable {K : Type} [Field K] [LinearOrder K]

omit [Field K] [LinearOrder K] in
theorem mem_endpoints {segs : List (Segment K)} {e : Endpoint K} : e ∈ endpoints segs ↔ segs[e.id]? = some e.segment := by
  unfold endpoints
  rw [List.mem_flatMap]
  constructor
  · rintro ⟨⟨s, i⟩, h, he⟩
    rw [List.mem_zipIdx_iff_getElem?] at h
    simp only [List.mem_cons, List.not_mem_nil, or_false] at he
    rcases he with rfl | rfl <;> exact h
  · intro h
    refine ⟨(e.segment, e.id), List.mem_zipIdx_iff_getElem?.2 h, ?_⟩
    cases e with
    | mk s i b => cases b <;> simp

omit [Field K] [LinearOrder K] in
theorem exists_far {segs : List (Segment K)} {e : Endpoint K} (h : e ∈ endpoints segs) : ∃ f ∈ endpoints segs, f.point = e.far := by
  refine ⟨⟨e.segment, e.id, !e.isP1⟩, mem_endpoints.2 (by have := mem_endpoints.1 h; exact this), ?_⟩
  unfold Endpoint.point Endpoint.far
  cases e.isP1 <;> rfl

/-- What the assembly needs of the key functions, for the given segments. -/
structure KeysOk (key tkey : Vec3 K → Res PointKey) (length : Vec3 K → K) (segs : List (Segment K)) : Prop where
  keyOk : ∀ e ∈ endpoints segs, ∃ k, key e.point = .ok k ∧ (-2147483647 ≤ k.x ∧ k.x ≤ 2147483646) ∧ (-2147483647 ≤ k.y ∧ k.y ≤ 2147483646) ∧
    (-2147483647 ≤ k.z ∧ k.z ≤ 2147483646)
  tkeyOk : ∀ e ∈ endpoints segs, ∃ k, tkey e.point = .ok k
  nearOk : ∀ e ∈ endpoints segs, ∀ f ∈ endpoints segs, ∀ k l, key e.point = .ok k → key f.point = .ok l → Poly.near length f.point e.point = true →
    ∃ dx ∈ ([-1, 0, 1] : List Int), ∃ dy ∈ ([-1, 0, 1] : List Int), ∃ dz ∈ ([-1, 0, 1] : List Int), l = ⟨k.x + dx, k.y + dy, k.z + dz⟩

omit [Field K] [LinearOrder K] in
theorem buildIndex_spec {key : Vec3 K → Res PointKey} : ∀ (es : List (Endpoint K)) (index : Index K), (∀ e ∈ es, ∃ k, key e.point = .ok k) →
    ∃ index', buildIndex key es index = .ok index' ∧ ∀ k e, e ∈ index' k ↔ e ∈ index k ∨ e ∈ es ∧ key e.point = .ok k
  | [], index, _ => ⟨index, rfl, by simp⟩
  | e :: es, index, h => by
    obtain ⟨k, hk⟩ := h e List.mem_cons_self
    obtain ⟨index', h1, h2⟩ := buildIndex_spec es (fun k' => if k' = k then index k' ++ [e] else index k')
      fun f hf => h f (List.mem_cons_of_mem _ hf)
    refine ⟨index', ?_, fun k' f => ?_⟩
    · simp only [buildIndex, addToIndex, hk, Res.ok_bind, Res.pure_eq]; exact h1
    · rw [h2]
      by_cases hkk : k' = k
      · subst hkk
        simp only [if_true, List.mem_append, List.mem_cons, List.not_mem_nil, or_false]
        constructor
        · rintro ((h | rfl) | ⟨h, h'⟩)
          · exact Or.inl h
          · exact Or.inr ⟨Or.inl rfl, hk⟩
          · exact Or.inr ⟨Or.inr h, h'⟩
        · rintro (h | ⟨rfl | h, h'⟩)
          · exact Or.inl (Or.inl h)
          · exact Or.inl (Or.inr rfl)
          · exact Or.inr ⟨h, h'⟩
      · simp only [if_neg hkk, List.mem_cons]
        constructor
        · rintro (h | ⟨h, h'⟩)
          · exact Or.inl h
          · exact Or.inr ⟨Or.inr h, h'⟩
        · rintro (h | ⟨rfl | h, h'⟩)
          · exact Or.inl h
          · rw [hk] at h'; exact absurd (Res.ok.inj h').symm hkk
          · exact Or.inr ⟨h, h'⟩

omit [Field K] [LinearOrder K] in
theorem removeFromIndex_spec {tkey : Vec3 K → Res PointKey} {index : Index K} {e : Endpoint K} (h : ∃ k, tkey e.point = .ok k) :
    ∃ index', removeFromIndex tkey index e = .ok index' ∧ (∀ k f, f ∈ index' k → f ∈ index k) ∧ ∀ k f, f ∈ index k → f.id ≠ e.id → f ∈ index' k := by
  obtain ⟨k, hk⟩ := h
  refine ⟨_, by unfold removeFromIndex; rw [hk]; rfl, fun k' f hf => ?_, fun k' f hf hne => ?_⟩
  · split at hf
    · exact List.mem_of_mem_filter hf
    · exact hf
  · split
    · rw [List.mem_filter]
      exact ⟨hf, by simp [Endpoint.same, hne]⟩
    · exact hf

omit [Field K] [LinearOrder K] in
theorem removeBoth_spec {tkey : Vec3 K → Res PointKey} {es : List (Endpoint K)} {index : Index K} {e : Endpoint K} (he : e ∈ es)
    (h : ∀ e ∈ es, ∃ k, tkey e.point = .ok k) :
    ∃ index', removeBoth tkey es index e = .ok index' ∧ (∀ k f, f ∈ index' k → f ∈ index k) ∧ ∀ k f, f ∈ index k → f.id ≠ e.id → f ∈ index' k := by
  obtain ⟨i1, e1, a1, b1⟩ := removeFromIndex_spec (index := index) (h e he)
  unfold removeBoth
  rw [e1, Res.ok_bind]
  cases ho : es.find? (fun f => f.id == e.id && f.isP1 != e.isP1) with
  | none => exact ⟨i1, rfl, a1, b1⟩
  | some o =>
    have hp := List.find?_some ho
    have hid : o.id = e.id := by
      simp only [Bool.and_eq_true, beq_iff_eq] at hp; exact hp.1
    obtain ⟨i2, e2, a2, b2⟩ := removeFromIndex_spec (index := i1) (h o (List.mem_of_find?_eq_some ho))
    exact ⟨i2, e2, fun k f hf => a1 k f (a2 k f hf), fun k f hf hne => b2 k f (b1 k f hf hne) (by rw [hid]; exact hne)⟩

omit [Field K] [LinearOrder K] in
theorem mem_offsets {d : Int × Int × Int} : d ∈ offsets ↔ d.1 ∈ ([-1, 0, 1] : List Int) ∧ d.2.1 ∈ ([-1, 0, 1] : List Int) ∧ d.2.2 ∈ ([-1, 0, 1] : List Int) := by
  obtain ⟨a, b, c⟩ := d
  simp only [offsets, List.mem_flatMap, List.mem_map, Prod.mk.injEq]
  constructor
  · rintro ⟨x, hx, y, hy, z, hz, rfl, rfl, rfl⟩; exact ⟨hx, hy, hz⟩
  · rintro ⟨hx, hy, hz⟩; exact ⟨a, hx, b, hy, c, hz, rfl, rfl, rfl⟩

omit [Field K] [LinearOrder K] in
theorem collect_spec {index : Index K} {k : PointKey} (h1 : -2147483647 ≤ k.x ∧ k.x ≤ 2147483646) (h2 : -2147483647 ≤ k.y ∧ k.y ≤ 2147483646)
    (h3 : -2147483647 ≤ k.z ∧ k.z ≤ 2147483646) : ∀ ds : List (Int × Int × Int), (∀ d ∈ ds, d ∈ offsets) →
    ∃ l, collect index k ds = .ok l ∧ ∀ e, e ∈ l ↔ ∃ d ∈ ds, e ∈ index ⟨k.x + d.1, k.y + d.2.1, k.z + d.2.2⟩
  | [], _ => ⟨[], rfl, by simp⟩
  | d :: ds, h => by
    obtain ⟨l, e, hl⟩ := collect_spec (index := index) h1 h2 h3 ds fun d hd => h d (List.mem_cons_of_mem _ hd)
    obtain ⟨m1, m2, m3⟩ := mem_offsets.1 (h d List.mem_cons_self)
    simp only [List.mem_cons, List.not_mem_nil, or_false] at m1 m2 m3
    have a1 : addInt k.x d.1 = .ok (k.x + d.1) := if_pos (by omega)
    have a2 : addInt k.y d.2.1 = .ok (k.y + d.2.1) := if_pos (by omega)
    have a3 : addInt k.z d.2.2 = .ok (k.z + d.2.2) := if_pos (by omega)
    refine ⟨index ⟨k.x + d.1, k.y + d.2.1, k.z + d.2.2⟩ ++ l, ?_, fun f => ?_⟩
    · simp only [collect, a1, a2, a3, e, Res.ok_bind, Res.pure_eq]
    · rw [List.mem_append, hl]
      simp only [List.mem_cons, exists_eq_or_imp]

/-- The index holds endpoints only, and every endpoint of an unused segment in its cell. -/
structure Inv (key : Vec3 K → Res PointKey) (segs : List (Segment K)) (index : Index K) (processed : List Nat) : Prop where
  sound : ∀ k e, e ∈ index k → e ∈ endpoints segs
  complete : ∀ e ∈ endpoints segs, e.id ∉ processed → ∃ k, key e.point = .ok k ∧ e ∈ index k

omit [Field K] [LinearOrder K] in
theorem Inv.mono {key : Vec3 K → Res PointKey} {segs : List (Segment K)} {index index' : Index K} {processed : List Nat} {i : Nat}
    (h : Inv key segs index processed) (h1 : ∀ k f, f ∈ index' k → f ∈ index k) (h2 : ∀ k f, f ∈ index k → f.id ≠ i → f ∈ index' k) :
    Inv key segs index' (i :: processed) := by
  refine ⟨fun k e he => h.sound k e (h1 k e he), fun e he hp => ?_⟩
  rw [List.mem_cons, not_or] at hp
  obtain ⟨k, hk, hm⟩ := h.complete e he hp.2
  exact ⟨k, hk, h2 k e hm hp.1⟩

theorem findNext_spec {key tkey : Vec3 K → Res PointKey} {length : Vec3 K → K} {segs : List (Segment K)} (hk : KeysOk key tkey length segs)
    {index : Index K} {processed : List Nat} (hi : Inv key segs index processed) {g : Endpoint K} (hg : g ∈ endpoints segs) :
    ∃ r, findNext key length index processed g.point = .ok r ∧
      (r = none → ∀ e ∈ endpoints segs, e.id ∉ processed → near length e.point g.point = false) ∧
      ∀ e, r = some e → e ∈ endpoints segs ∧ e.id ∉ processed ∧ near length e.point g.point = true := by
  obtain ⟨k, ek, r1, r2, r3⟩ := hk.keyOk g hg
  obtain ⟨l, el, hl⟩ := collect_spec (index := index) r1 r2 r3 offsets fun _ h => h
  refine ⟨_, by unfold findNext findNearby; rw [ek, Res.ok_bind, el]; rfl, fun h e he hp => ?_, fun e h => ?_⟩
  · by_contra hn
    rw [Bool.not_eq_false] at hn
    obtain ⟨k', ek', hm⟩ := hi.complete e he hp
    obtain ⟨dx, m1, dy, m2, dz, m3, hd⟩ := hk.nearOk g hg e he k k' ek ek' hn
    have : e ∈ l := (hl e).2 ⟨(dx, dy, dz), mem_offsets.2 ⟨m1, m2, m3⟩, by rw [← hd]; exact hm⟩
    have := List.find?_eq_none.1 h e this
    simp [hp, hn] at this
  · have hm := List.mem_of_find?_eq_some h
    have hp := List.find?_some h
    rw [hl] at hm
    obtain ⟨d, -, hm⟩ := hm
    simp only [Bool.and_eq_true, Bool.not_eq_true', List.contains_eq_mem, decide_eq_false_iff_not] at hp
    exact ⟨hi.sound _ _ hm, hp.1, hp.2⟩

section geometry
variable [IsStrictOrderedRing K]

theorem near_refl (p : Vec3 K) : Near p p := by
  unfold Near
  have : (p - p).dot (p - p) = 0 := by simp [Vec3.dot]
  rw [this]; positivity

omit [IsStrictOrderedRing K] in
theorem near_symm {p q : Vec3 K} (h : Near p q) : Near q p := by
  unfold Near at *
  have : (q - p).dot (q - p) = (p - q).dot (p - q) := by simp only [Vec3.dot, Vec3.sub_x, Vec3.sub_y, Vec3.sub_z]; ring
  rw [this]; exact h

omit [IsStrictOrderedRing K] in
theorem near_of {length : Vec3 K → K} (hl : LengthOk length) {p q : Vec3 K} (h : near length p q = true) : Near p q :=
  hl _ (of_decide_eq_true h)

/-- The step to the far end of a segment matches the segment. -/
theorem matches_far {e : Endpoint K} {p : Vec3 K} (h : Near e.point p) : Matches e.segment p e.far ∧ Matches e.segment e.far p := by
  have h := near_symm h
  unfold Endpoint.point at h
  unfold Endpoint.far Matches
  cases hb : e.isP1 <;> simp [hb] at h ⊢ <;> simp [h, near_refl]

omit [IsStrictOrderedRing K] in
theorem traces_append {segs : List (Segment K)} {q : Vec3 K} {i : Nat} {s : Segment K} (hs : segs[i]? = some s) : ∀ {path : List (Vec3 K)} {ids : List Nat}
    {p : Vec3 K}, Traces segs path ids → path.getLast? = some p → Matches s p q → Traces segs (path ++ [q]) (ids ++ [i])
  | [], ids, p, h, _, _ => by simp [Traces] at h
  | [a], [], p, _, hp, hm => by
    simp at hp; subst hp
    exact ⟨⟨s, hs, hm⟩, trivial⟩
  | [a], j :: ids, p, h, _, _ => by simp [Traces] at h
  | a :: b :: path, [], p, h, _, _ => by simp [Traces] at h
  | a :: b :: path, j :: ids, p, h, hp, hm => by
    obtain ⟨h1, h2⟩ := h
    refine ⟨h1, ?_⟩
    exact traces_append (path := b :: path) hs h2 (by simpa using hp) hm

/-- The points of the polyline are ends of segments. -/
def EndsOnly (segs : List (Segment K)) (path : List (Vec3 K)) : Prop := ∀ p ∈ path, ∃ e ∈ endpoints segs, e.point = p

theorem extendFront_spec {key tkey : Vec3 K → Res PointKey} {length : Vec3 K → K} (hl : LengthOk length) {segs : List (Segment K)}
    (hk : KeysOk key tkey length segs) {s : State K} (hi : Inv key segs s.index s.processed) {ids : List Nat}
    (ht : Traces segs s.polyline ids) (he : EndsOnly segs s.polyline) :
    ∃ f s', extendFront key tkey length (endpoints segs) s = .ok (f, s') ∧
      (f = false → s' = s ∧ ∃ p, s.polyline.head? = some p ∧ ∀ e ∈ endpoints segs, e.id ∉ s.processed → near length e.point p = false) ∧
      (f = true → ∃ i, i < segs.length ∧ i ∉ s.processed ∧ s'.processed = i :: s.processed ∧ Inv key segs s'.index s'.processed ∧
        Traces segs s'.polyline (i :: ids) ∧ EndsOnly segs s'.polyline) := by
  obtain ⟨index, processed, polyline⟩ := s
  dsimp only at *
  cases polyline with
  | nil => simp [Traces] at ht
  | cons p path =>
    obtain ⟨g, hg, rfl⟩ := he p List.mem_cons_self
    obtain ⟨r, e, hn, hs⟩ := findNext_spec hk hi hg
    unfold extendFront
    dsimp only
    rw [e, Res.ok_bind]
    cases r with
    | none => exact ⟨false, _, rfl, fun _ => ⟨rfl, _, rfl, hn rfl⟩, by simp⟩
    | some ep =>
      obtain ⟨m, hp, hnear⟩ := hs ep rfl
      obtain ⟨index', e', a, b⟩ := removeBoth_spec (index := index) m hk.tkeyOk
      dsimp only
      rw [e', Res.ok_bind]
      have hget := mem_endpoints.1 m
      refine ⟨true, _, rfl, by simp, fun _ => ⟨ep.id, ?_, hp, rfl, hi.mono a b, ?_, ?_⟩⟩
      · exact (List.getElem?_eq_some_iff.1 hget).1
      · exact ⟨⟨ep.segment, hget, (matches_far (near_of hl hnear)).2⟩, ht⟩
      · intro q hq
        rcases List.mem_cons.1 hq with rfl | hq
        · exact exists_far m
        · exact he q hq

theorem extendBack_spec {key tkey : Vec3 K → Res PointKey} {length : Vec3 K → K} (hl : LengthOk length) {segs : List (Segment K)}
    (hk : KeysOk key tkey length segs) {s : State K} (hi : Inv key segs s.index s.processed) {ids : List Nat}
    (ht : Traces segs s.polyline ids) (he : EndsOnly segs s.polyline) :
    ∃ f s', extendBack key tkey length (endpoints segs) s = .ok (f, s') ∧
      (f = false → s' = s ∧ ∃ p, s.polyline.getLast? = some p ∧ ∀ e ∈ endpoints segs, e.id ∉ s.processed → near length e.point p = false) ∧
      (f = true → ∃ i, i < segs.length ∧ i ∉ s.processed ∧ s'.processed = i :: s.processed ∧ Inv key segs s'.index s'.processed ∧
        Traces segs s'.polyline (ids ++ [i]) ∧ EndsOnly segs s'.polyline) := by
  obtain ⟨index, processed, polyline⟩ := s
  dsimp only at *
  have hne : polyline ≠ [] := by rintro rfl; simp [Traces] at ht
  have hlast := List.getLast?_eq_getLast_of_ne_nil hne
  obtain ⟨g, hg, hgp⟩ := he _ (List.getLast_mem hne)
  obtain ⟨r, e, hn, hs⟩ := findNext_spec hk hi hg
  unfold extendBack
  dsimp only
  rw [hlast]
  dsimp only
  rw [← hgp, e, Res.ok_bind]
  cases r with
  | none => exact ⟨false, _, rfl, fun _ => ⟨rfl, _, rfl, hn rfl⟩, by simp⟩
  | some ep =>
    obtain ⟨m, hp, hnear⟩ := hs ep rfl
    obtain ⟨index', e', a, b⟩ := removeBoth_spec (index := index) m hk.tkeyOk
    dsimp only
    rw [e', Res.ok_bind]
    have hget := mem_endpoints.1 m
    refine ⟨true, _, rfl, by simp, fun _ => ⟨ep.id, ?_, hp, rfl, hi.mono a b, ?_, ?_⟩⟩
    · exact (List.getElem?_eq_some_iff.1 hget).1
    · exact traces_append hget ht (by rw [hlast, hgp]) (matches_far (near_of hl hnear)).1
    · intro q hq
      rcases List.mem_append.1 hq with hq | hq
      · exact he q hq
      · rw [List.mem_singleton.1 hq]; exact exists_far m

/-- A list of different positions is not longer than the list of segments. -/
theorem nodup_bound {n : Nat} {l : List Nat} (hd : l.Nodup) (hb : ∀ i ∈ l, i < n) : l.length ≤ n := by
  have : l.Subperm (List.range n) := List.subperm_of_subset hd fun i hi => List.mem_range.2 (hb i hi)
  simpa using this.length_le

/-- Neither end of the path can be continued with an unused segment. -/
def Stuck (length : Vec3 K → K) (segs : List (Segment K)) (path : List (Vec3 K)) (processed : List Nat) : Prop :=
  ∀ e ∈ endpoints segs, e.id ∉ processed → ∀ p, path.head? = some p ∨ path.getLast? = some p → near length e.point p = false

theorem extend_spec {key tkey : Vec3 K → Res PointKey} {length : Vec3 K → K} (hl : LengthOk length) {segs : List (Segment K)}
    (hk : KeysOk key tkey length segs) : ∀ (n : Nat) (s : State K) (ids : List Nat), Inv key segs s.index s.processed →
    Traces segs s.polyline ids → EndsOnly segs s.polyline → s.processed.Nodup → (∀ i ∈ s.processed, i < segs.length) →
    segs.length < n + s.processed.length →
    ∃ s' ids' new, extend key tkey length (endpoints segs) n s = .ok (some s') ∧ Inv key segs s'.index s'.processed ∧ s'.processed = new ++ s.processed ∧
      ids'.Perm (new ++ ids) ∧ Traces segs s'.polyline ids' ∧ s'.processed.Nodup ∧ (∀ i ∈ s'.processed, i < segs.length) ∧
      Stuck length segs s'.polyline s'.processed
  | 0, s, ids, _, _, _, hd, hb, hn => by
    have := nodup_bound hd hb
    omega
  | n + 1, s, ids, hi, ht, he, hd, hb, hn => by
    obtain ⟨f, s1, e1, f1, t1⟩ := extendFront_spec hl hk hi ht he
    unfold extend
    rw [e1, Res.ok_bind]
    dsimp only
    cases f with
    | false =>
      obtain ⟨rfl, p, hp, hs⟩ := f1 rfl
      obtain ⟨b, s2, e2, f2, t2⟩ := extendBack_spec hl hk hi ht he
      rw [e2, Res.ok_bind]
      dsimp only
      cases b with
      | false =>
        obtain ⟨rfl, q, hq, hs'⟩ := f2 rfl
        refine ⟨_, ids, [], rfl, hi, rfl, List.Perm.refl _, ht, hd, hb, fun e he' hn r hr => ?_⟩
        rcases hr with hr | hr
        · rw [hp] at hr; cases hr; exact hs e he' hn
        · rw [hq] at hr; cases hr; exact hs' e he' hn
      | true =>
        obtain ⟨i, lt, nm, hpr, hi2, ht2, he2⟩ := t2 rfl
        obtain ⟨s', ids', new, h1, h2, h3, h4, h5⟩ := extend_spec hl hk n s2 (ids ++ [i]) hi2 ht2 he2 (by rw [hpr]; exact List.nodup_cons.2 ⟨nm, hd⟩)
          (by rw [hpr]; intro j hj; rcases List.mem_cons.1 hj with rfl | hj; exacts [lt, hb j hj]) (by rw [hpr, List.length_cons]; omega)
        refine ⟨s', ids', new ++ [i], h1, h2, by rw [h3, hpr]; simp, h4.trans ?_, h5⟩
        rw [List.append_assoc]
        exact List.Perm.append_left _ List.perm_append_comm
    | true =>
      obtain ⟨i, lt, nm, hpr, hi2, ht2, he2⟩ := t1 rfl
      have hd2 : s1.processed.Nodup := by rw [hpr]; exact List.nodup_cons.2 ⟨nm, hd⟩
      have hb2 : ∀ j ∈ s1.processed, j < segs.length := by
        rw [hpr]; intro j hj; rcases List.mem_cons.1 hj with rfl | hj; exacts [lt, hb j hj]
      obtain ⟨b, s2, e2, f2, t2⟩ := extendBack_spec hl hk hi2 ht2 he2
      rw [e2, Res.ok_bind]
      dsimp only
      rw [Bool.true_or, if_pos rfl]
      cases b with
      | false =>
        obtain ⟨rfl, -⟩ := f2 rfl
        obtain ⟨s', ids', new, h1, h2, h3, h4, h5⟩ := extend_spec hl hk n s2 (i :: ids) hi2 ht2 he2 hd2 hb2 (by rw [hpr, List.length_cons]; omega)
        refine ⟨s', ids', new ++ [i], h1, h2, by rw [h3, hpr]; simp, h4.trans ?_, h5⟩
        rw [List.append_assoc]; exact List.Perm.refl _
      | true =>
        obtain ⟨j, lt', nm', hpr', hi3, ht3, he3⟩ := t2 rfl
        obtain ⟨s', ids', new, h1, h2, h3, h4, h5⟩ := extend_spec hl hk n s2 (i :: ids ++ [j]) hi3 ht3 he3
          (by rw [hpr']; exact List.nodup_cons.2 ⟨nm', hd2⟩)
          (by rw [hpr']; intro l hl; rcases List.mem_cons.1 hl with rfl | hl; exacts [lt', hb2 l hl])
          (by rw [hpr', hpr, List.length_cons, List.length_cons]; omega)
        refine ⟨s', ids', new ++ [j, i], h1, h2, by rw [h3, hpr', hpr]; simp, h4.trans ?_, h5⟩
        rw [List.append_assoc]
        refine List.Perm.append_left _ ?_
        show (i :: ids ++ [j]).Perm (j :: i :: ids)
        exact List.perm_append_comm

theorem mainLoop_spec {key tkey : Vec3 K → Res PointKey} {length : Vec3 K → K} (hl : LengthOk length) {segs : List (Segment K)}
    (hk : KeysOk key tkey length segs) : ∀ (es : List (Endpoint K)) (index : Index K) (processed : List Nat) (branches : List (List (Vec3 K))),
    (∀ e ∈ es, e ∈ endpoints segs) → Inv key segs index processed → processed.Nodup → (∀ i ∈ processed, i < segs.length) →
    (∀ i < segs.length, i ∉ processed → ∃ e ∈ es, e.id = i) →
    ∃ paths : List (List (Vec3 K) × List Nat),
      mainLoop key tkey length (endpoints segs) (segs.length + 1) es index processed branches =
        .ok (some (branches ++ paths.map fun p => close length p.1)) ∧
      ((paths.flatMap fun p => p.2) ++ processed).Perm (List.range segs.length) ∧
      (∀ p ∈ paths, Traces segs p.1 p.2) ∧
      paths.Pairwise fun p q => Exhausted length segs p.1 q.2
  | [], index, processed, branches, _, _, hd, hb, hc => by
    refine ⟨[], by simp [mainLoop], ?_, by simp, List.Pairwise.nil⟩
    simp only [List.flatMap_nil, List.nil_append]
    rw [List.perm_ext_iff_of_nodup hd List.nodup_range]
    intro i
    rw [List.mem_range]
    refine ⟨hb i, fun h => ?_⟩
    by_contra hn
    obtain ⟨e, he, -⟩ := hc i h hn
    cases he
  | e :: es, index, processed, branches, hes, hi, hd, hb, hc => by
    unfold mainLoop
    by_cases hp : e.id ∈ processed
    · rw [if_pos (by simpa using hp)]
      refine mainLoop_spec hl hk es index processed branches (fun f hf => hes f (List.mem_cons_of_mem _ hf)) hi hd hb fun i h hn => ?_
      obtain ⟨f, hf, hfi⟩ := hc i h hn
      rcases List.mem_cons.1 hf with rfl | hf
      · rw [hfi] at hp; exact absurd hp hn
      · exact ⟨f, hf, hfi⟩
    · rw [if_neg (by simpa using hp)]
      have m := hes e List.mem_cons_self
      have hget := mem_endpoints.1 m
      obtain ⟨i1, e1, a, b⟩ := removeBoth_spec (index := index) m hk.tkeyOk
      rw [e1, Res.ok_bind]
      obtain ⟨s', ids', new, h1, h2, h3, h4, h5, h6, h7, h8⟩ := extend_spec hl hk (segs.length + 1) ⟨i1, e.id :: processed, [e.point, e.far]⟩ [e.id]
        (hi.mono a b) ⟨⟨e.segment, hget, (matches_far (near_refl _)).1⟩, trivial⟩
        (by
          intro p hp
          simp only [List.mem_cons, List.not_mem_nil, or_false] at hp
          rcases hp with rfl | rfl
          · exact ⟨e, m, rfl⟩
          · exact exists_far m)
        (List.nodup_cons.2 ⟨hp, hd⟩)
        (by
          intro i hi
          rcases List.mem_cons.1 hi with rfl | hi
          · exact (List.getElem?_eq_some_iff.1 hget).1
          · exact hb i hi)
        (by rw [List.length_cons]; omega)
      rw [h1, Res.ok_bind]
      dsimp only at h3 ⊢
      obtain ⟨paths, g1, g2, g3, g4⟩ := mainLoop_spec hl hk es s'.index s'.processed (branches ++ [close length s'.polyline])
        (fun f hf => hes f (List.mem_cons_of_mem _ hf)) h2 h6 h7 (fun i h hn => by
          have hn' : i ∉ processed ∧ i ≠ e.id := by
            rw [h3] at hn
            simp only [List.mem_append, List.mem_cons, not_or] at hn
            exact ⟨hn.2.2, hn.2.1⟩
          obtain ⟨f, hf, hfi⟩ := hc i h hn'.1
          rcases List.mem_cons.1 hf with rfl | hf
          · exact absurd hfi.symm hn'.2
          · exact ⟨f, hf, hfi⟩)
      refine ⟨(s'.polyline, ids') :: paths, ?_, ?_, ?_, ?_⟩
      · rw [g1]; simp
      · rw [List.flatMap_cons, List.append_assoc]
        refine List.Perm.trans ?_ g2
        rw [h3]
        refine (List.perm_append_comm_assoc _ _ _).trans (List.Perm.append_left _ ?_)
        refine (List.Perm.append_right _ h4).trans ?_
        simp
      · intro p hp
        rcases List.mem_cons.1 hp with rfl | hp
        · exact h5
        · exact g3 p hp
      · refine List.pairwise_cons.2 ⟨fun q hq i hi p hip r hr => ?_, g4⟩
        obtain ⟨s, hs, hps⟩ := hip
        have hnp : i ∉ s'.processed := by
          have hnd := (g2.nodup_iff.2 List.nodup_range)
          rw [List.nodup_append] at hnd
          intro hc
          exact hnd.2.2 i (List.mem_flatMap.2 ⟨q, hq, hi⟩) i hc rfl
        rcases hps with rfl | rfl
        · have := h8 ⟨s, i, true⟩ (mem_endpoints.2 hs) hnp r hr
          exact of_decide_eq_false this
        · have := h8 ⟨s, i, false⟩ (mem_endpoints.2 hs) hnp r hr
          exact of_decide_eq_false this

end geometry
end Cmm.Poly
