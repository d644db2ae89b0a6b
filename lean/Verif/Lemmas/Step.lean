import Verif.Spec.Step
import Verif.Lemmas.Surface
import Mathlib.Data.List.Range
import Mathlib.Tactic.Linarith
/-!
Lemmas for the STEP export: numbering, parentheses, contents.
-/
namespace Cmm.Step
open Cmm.Nurbs
variable {K : Type}

theorem numbered_closed {start : Nat} {w : Out K} (h : Numbered start w) : Closed w.lines := by
  obtain ⟨n, h1, h2, h3⟩ := h
  refine ⟨by rw [h2]; exact List.nodup_range', fun l hl r hr => ?_⟩
  obtain ⟨a, b⟩ := h3 l hl r hr
  have : r ∈ w.lines.map Line.id := by rw [h2, List.mem_range'_1]; omega
  obtain ⟨d, hd, e⟩ := List.mem_map.1 this
  exact ⟨d, hd, e⟩

theorem put_numbered {start : Nat} {w : Out K} (h : Numbered start w) (kw : Kw) (body : List (Tok K))
    (hb : ∀ r, r ∈ Line.refs ⟨w.next, kw, body⟩ → start ≤ r ∧ r < w.next + 1) : Numbered start (w.put kw body) := by
  obtain ⟨n, h1, h2, h3⟩ := h
  refine ⟨n + 1, by simp [Out.put]; omega, ?_, fun l hl r hr => ?_⟩
  · simp only [Out.put, List.map_append, h2, List.map_cons, List.map_nil, h1]
    rw [List.range'_1_concat]
  · simp only [Out.put, List.mem_append, List.mem_singleton] at hl ⊢
    rcases hl with hl | rfl
    · have := h3 l hl r hr; omega
    · exact hb r hr

theorem refs_append (i : Nat) (kw : Kw) (a b : List (Tok K)) (r : Nat) :
    r ∈ Line.refs ⟨i, kw, a ++ b⟩ ↔ r ∈ Line.refs ⟨i, kw, a⟩ ∨ r ∈ Line.refs ⟨i, kw, b⟩ := by
  simp [Line.refs, List.filterMap_append]

theorem mem_refs {i : Nat} {kw : Kw} {a : List (Tok K)} {r : Nat} : r ∈ Line.refs ⟨i, kw, a⟩ ↔ Tok.ref r ∈ a := by
  unfold Line.refs
  rw [List.mem_filterMap]
  constructor
  · rintro ⟨t, ht, h⟩
    cases t <;> simp at h
    subst h; exact ht
  · intro h; exact ⟨_, h, rfl⟩

theorem mem_sepBy {t : Tok K} (ht : t ≠ .comma) : ∀ l : List (List (Tok K)), t ∈ sepBy l ↔ ∃ x ∈ l, t ∈ x
  | [] => by simp [sepBy]
  | [x] => by simp [sepBy]
  | x :: y :: l => by
    rw [sepBy, List.mem_append, List.mem_cons, mem_sepBy ht (y :: l)]
    simp only [ht, false_or, List.mem_cons, exists_eq_or_imp]

theorem mem_paren {r : Nat} (l : List (List (Tok K))) : Tok.ref r ∈ paren l ↔ ∃ x ∈ l, Tok.ref r ∈ x := by
  unfold paren
  rw [List.mem_append, List.mem_cons, mem_sepBy (by simp)]
  simp

theorem foldPut_numbered {V : Type} {start : Nat} (kw : Kw) (body : V → List (Tok K)) (hb : ∀ v r, Tok.ref r ∉ body v) : ∀ (l : List V) {w : Out K},
    Numbered start w → Numbered start (l.foldl (fun w v => w.put kw (body v)) w) ∧ (l.foldl (fun w v => w.put kw (body v)) w).next = w.next + l.length
  | [], w, h => ⟨h, rfl⟩
  | v :: l, w, h => by
    obtain ⟨a, b⟩ := foldPut_numbered kw body hb l (put_numbered h kw (body v) fun r hr => absurd (mem_refs.1 hr) (hb v r))
    refine ⟨a, ?_⟩
    rw [List.foldl_cons, b, List.length_cons]
    simp [Out.put]; omega

variable [Field K] [LinearOrder K]

omit [Field K] [LinearOrder K] in
theorem pointBody_refs (x y z : Option K) (r : Nat) : Tok.ref r ∉ pointBody x y z := by simp [pointBody]

theorem curve_numbered {start : Nat} {w : Out K} (h : Numbered start w) (c : Curve K) :
    Numbered start (curveToStep c w).1 ∧ (curveToStep c w).2 = w.next + c.cpts.length ∧
      (curveToStep c w).1.next = w.next + c.cpts.length + 1 := by
  unfold curveToStep
  obtain ⟨a, b⟩ := foldPut_numbered .cartesianPoint (fun cp : Vec4 K => pointBody (some cp.x) (some cp.y) (some cp.z))
    (fun _ _ => pointBody_refs _ _ _ _) c.cpts h
  obtain ⟨n, hn, -⟩ := h
  dsimp only
  have b' : (putPoints w c.cpts).next = w.next + c.cpts.length := b
  refine ⟨put_numbered a _ _ fun r hr => ?_, b', ?_⟩
  · rw [mem_refs, curveBody] at hr
    simp only [List.mem_append, mem_paren, List.mem_cons, List.mem_map, reduceCtorEq, List.not_mem_nil, or_false, false_or] at hr
    rcases hr with (((h' | h') | h') | h')
    · obtain ⟨x, ⟨j, hj, rfl⟩, hx⟩ := h'
      rw [List.mem_range] at hj
      simp only [List.mem_cons, Tok.ref.injEq, List.not_mem_nil, or_false] at hx
      show start ≤ r ∧ r < (putPoints w c.cpts).next + 1
      omega
    · obtain ⟨x, ⟨m, _, rfl⟩, hx⟩ := h'; simp at hx
    · obtain ⟨x, ⟨m, _, rfl⟩, hx⟩ := h'; simp at hx
    · obtain ⟨x, ⟨m, _, rfl⟩, hx⟩ := h'; simp at hx
  · simp only [Out.put]; omega

theorem putCurves_numbered {start : Nat} : ∀ (cs : List (Curve K)) {w : Out K}, Numbered start w →
    Numbered start (putCurves cs w).1 ∧ w.next ≤ (putCurves cs w).1.next ∧ (putCurves cs w).2.length = cs.length ∧
      ∀ i ∈ (putCurves cs w).2, start ≤ i ∧ i < (putCurves cs w).1.next
  | [], w, h => ⟨h, le_refl _, rfl, by simp [putCurves]⟩
  | c :: cs, w, h => by
    obtain ⟨a, b, e⟩ := curve_numbered h c
    obtain ⟨a', b', l', m'⟩ := putCurves_numbered cs a
    obtain ⟨n, hn, -⟩ := h
    refine ⟨a', ?_, ?_, ?_⟩
    · simp only [putCurves]; omega
    · simp only [putCurves, List.length_cons, l']
    · intro i hi
      simp only [putCurves, List.mem_cons] at hi ⊢
      rcases hi with rfl | hi
      · omega
      · exact m' i hi

omit [Field K] [LinearOrder K] in
theorem putVertices_numbered {start : Nat} : ∀ (ps : List (Vec3 K)) {w : Out K}, Numbered start w →
    Numbered start (putVertices ps w).1 ∧ w.next ≤ (putVertices ps w).1.next ∧ (putVertices ps w).2.length = ps.length ∧
      ∀ i ∈ (putVertices ps w).2, start ≤ i ∧ i < (putVertices ps w).1.next
  | [], w, h => ⟨h, le_refl _, rfl, by simp [putVertices]⟩
  | p :: ps, w, h => by
    have h1 := put_numbered h .cartesianPoint (pointBody (some p.x) (some p.y) (some p.z)) fun r hr => absurd (mem_refs.1 hr) (pointBody_refs _ _ _ _)
    obtain ⟨n, hn, -⟩ := h
    have h2 := put_numbered h1 .vertexPoint [.lpar, .lit "''", .comma, .ref w.next, .rpar] fun r hr => by
      rw [mem_refs] at hr
      simp at hr
      subst hr
      simp [Out.put]; omega
    obtain ⟨a', b', l', m'⟩ := putVertices_numbered ps h2
    simp only [Out.put] at b'
    refine ⟨a', ?_, ?_, ?_⟩
    · simp only [putVertices, Out.put]; omega
    · simp only [putVertices, List.length_cons, l']
    · intro i hi
      simp only [putVertices, List.mem_cons] at hi ⊢
      rcases hi with rfl | hi
      · simp only [Out.put]; omega
      · exact m' i hi

omit [Field K] [LinearOrder K] in
theorem putEdges_numbered {start : Nat} {vs cs : List Nat} (hv : vs.length = 4) (hc : cs.length = 4) : ∀ (n i : Nat) {w : Out K}, Numbered start w → i + n = 4 →
    (∀ j ∈ vs, start ≤ j ∧ j < w.next) → (∀ j ∈ cs, start ≤ j ∧ j < w.next) →
    Numbered start (putEdges vs cs n i w).1 ∧ w.next ≤ (putEdges vs cs n i w).1.next ∧ (putEdges vs cs n i w).2.length = n ∧
      ∀ j ∈ (putEdges vs cs n i w).2, start ≤ j ∧ j < (putEdges vs cs n i w).1.next
  | 0, i, w, h, _, _, _ => ⟨h, le_refl _, rfl, by simp [putEdges]⟩
  | n + 1, i, w, h, hi, h1, h2 => by
    have g : ∀ (l : List Nat) (k : Nat), k < l.length → (∀ j ∈ l, start ≤ j ∧ j < w.next) → start ≤ l.getD k 0 ∧ l.getD k 0 < w.next := by
      intro l k hk hl
      have e : l.getD k 0 = l[k] := by simp [List.getD, hk]
      rw [e]
      exact hl _ (List.getElem_mem hk)
    have g1 := g vs i (by omega) h1
    have g2 := g vs ((i + 1) % 4) (by omega) h1
    have g3 := g cs i (by omega) h2
    have hp := put_numbered h .edgeCurve [.lpar, .lit "''", .comma, .ref (vs.getD i 0), .comma, .ref (vs.getD ((i + 1) % 4) 0), .comma,
      .ref (cs.getD i 0), .comma, .lit ".T.", .rpar] fun r hr => by
        rw [mem_refs] at hr
        simp only [List.mem_cons, reduceCtorEq, Tok.ref.injEq, List.not_mem_nil, or_false, false_or] at hr
        rcases hr with rfl | rfl | rfl
        · exact ⟨g1.1, by omega⟩
        · exact ⟨g2.1, by omega⟩
        · exact ⟨g3.1, by omega⟩
    obtain ⟨m, hm, -⟩ := h
    obtain ⟨a', b', l', m'⟩ := putEdges_numbered hv hc n (i + 1) hp (by omega) (fun j hj => by have := h1 j hj; simp only [Out.put]; omega)
      (fun j hj => by have := h2 j hj; simp only [Out.put]; omega)
    simp only [Out.put] at b'
    refine ⟨a', ?_, ?_, ?_⟩
    · simp only [putEdges, Out.put]; omega
    · simp only [putEdges, List.length_cons, l']
    · intro j hj
      simp only [putEdges, List.mem_cons] at hj ⊢
      rcases hj with rfl | hj
      · simp only [Out.put]; omega
      · exact m' j hj

omit [Field K] [LinearOrder K] in
theorem putTail_numbered {start : Nat} {w : Out K} (h : Numbered start w) {sid : Nat} (hs : start ≤ sid ∧ sid < w.next) {edges : List Nat}
    (he : ∀ j ∈ edges, start ≤ j ∧ j < w.next) : Numbered start (putTail sid edges w) := by
  obtain ⟨n, h1, h2, h3⟩ := h
  obtain ⟨next, lines⟩ := w
  dsimp only at *
  subst h1
  refine ⟨n + 25, ?_, ?_, ?_⟩
  · simp only [putTail, Out.put]; omega
  · simp only [putTail, Out.put, List.append_assoc, List.map_append, h2, List.map_cons, List.map_nil, List.cons_append, List.nil_append]
    rw [← List.range'_append_1]
    rfl
  · intro l hl r hr
    simp only [putTail, Out.put, List.append_assoc, List.cons_append, List.nil_append, List.mem_append, List.mem_cons, List.not_mem_nil, or_false] at hl ⊢
    rcases hl with hl | hl
    · have := h3 l hl r hr; omega
    · rcases hl with rfl | rfl | rfl | rfl | rfl | rfl | rfl | rfl | rfl | rfl | rfl | rfl | rfl | rfl | rfl | rfl | rfl | rfl | rfl | rfl | rfl | rfl | rfl | rfl | rfl
      · rw [mem_refs] at hr
        simp only [List.mem_append, mem_paren, List.mem_cons, List.mem_map, reduceCtorEq, List.not_mem_nil, or_false, false_or] at hr
        obtain ⟨x, ⟨i, hi, rfl⟩, hx⟩ := hr
        simp only [List.mem_cons, Tok.ref.injEq, List.not_mem_nil, or_false] at hx
        subst hx
        have := he r hi
        omega
      all_goals
        rw [mem_refs] at hr
        simp only [List.mem_cons, reduceCtorEq, Tok.ref.injEq, List.not_mem_nil, or_false, false_or] at hr
        try omega

theorem putSurface_numbered {start : Nat} {w : Out K} (h : Numbered start w) (s : Surface K) {flat : List (Vec4 K)} (hf : flat.length = s.su * s.sv) :
    Numbered start (putSurface s flat w) ∧ (putSurface s flat w).next = w.next + flat.length + 1 := by
  unfold putSurface
  obtain ⟨a, b⟩ := foldPut_numbered .cartesianPoint (fun cp : Vec4 K => pointBody (Geom.nanDiv cp.x cp.w) (Geom.nanDiv cp.y cp.w) (Geom.nanDiv cp.z cp.w))
    (fun _ _ => pointBody_refs _ _ _ _) flat h
  obtain ⟨n, hn, -⟩ := h
  dsimp only
  have b' : (putGrid w flat).next = w.next + flat.length := b
  refine ⟨put_numbered a _ _ fun r hr => ?_, by simp only [Out.put]; omega⟩
  rw [mem_refs, surfaceBody] at hr
  simp only [List.mem_append, mem_paren, List.mem_cons, List.mem_map, reduceCtorEq, List.not_mem_nil, or_false, false_or] at hr
  rcases hr with ((((h' | h') | h') | h') | h') | h'
  · obtain ⟨x, ⟨i, hi, rfl⟩, hx⟩ := h'
    rw [mem_paren] at hx
    obtain ⟨y, hy, hx⟩ := hx
    obtain ⟨j, hj, rfl⟩ := List.mem_map.1 hy
    rw [List.mem_range] at hi hj
    simp only [List.mem_cons, Tok.ref.injEq, List.not_mem_nil, or_false] at hx
    show start ≤ r ∧ r < (putGrid w flat).next + 1
    have : i * s.sv + j < s.su * s.sv := by
      calc i * s.sv + j < i * s.sv + s.sv := by omega
        _ = (i + 1) * s.sv := by rw [Nat.add_mul, Nat.one_mul]
        _ ≤ s.su * s.sv := Nat.mul_le_mul_right _ hi
    omega
  · obtain ⟨x, ⟨m, _, rfl⟩, hx⟩ := h'; simp at hx
  · obtain ⟨x, ⟨m, _, rfl⟩, hx⟩ := h'; simp at hx
  · obtain ⟨x, ⟨m, _, rfl⟩, hx⟩ := h'; simp at hx
  · obtain ⟨x, ⟨m, _, rfl⟩, hx⟩ := h'; simp at hx
  · obtain ⟨x, ⟨i, hi, rfl⟩, hx⟩ := h'
    rw [mem_paren] at hx
    obtain ⟨y, hy, hx⟩ := hx
    obtain ⟨j, hj, rfl⟩ := List.mem_map.1 hy
    simp at hx

theorem res_bind {A B : Type} {x : Res A} {f : A → Res B} {b : B} (h : (x >>= f) = .ok b) : ∃ a, x = .ok a ∧ f a = .ok b := by
  cases x with
  | ok a => exact ⟨a, rfl, h⟩
  | throws => cases h
  | ub => cases h

theorem corners_length : ∀ (cs : List (Curve K)) (i : Nat) (ps : List (Vec3 K)), corners cs i = .ok ps → ps.length = cs.length
  | [], _, ps, h => by simp [corners] at h; subst h; rfl
  | c :: cs, i, ps, h => by
    obtain ⟨p, -, h⟩ := res_bind h
    obtain ⟨qs, e, h⟩ := res_bind h
    have := Res.ok.inj h
    subst this
    simp [corners_length cs _ qs e]

/-- The parts of a successful export. -/
theorem surface_parts {s : Surface K} {w w' : Out K} {id : Nat} (h : surfaceToStep s w = .ok (w', id)) :
    ∃ flat bs ps, s.flat = .ok flat ∧ s.boundaries = .ok bs ∧ corners bs 0 = .ok ps ∧ flat.length = s.su * s.sv ∧ bs.length = 4 ∧
      id = (putSurface s flat w).next - 1 ∧
      let c := putCurves bs (putSurface s flat w)
      let v := putVertices ps c.1
      let e := putEdges v.2 c.2 4 0 v.1
      w' = putTail id e.2 e.1 := by
  obtain ⟨flat, e1, h⟩ := res_bind h
  obtain ⟨bs, e2, h⟩ := res_bind h
  obtain ⟨ps, e3, h⟩ := res_bind h
  have h := Res.ok.inj h
  refine ⟨flat, bs, ps, e1, e2, e3, ?_, ?_, (Prod.mk.inj h).2.symm, ?_⟩
  · unfold Surface.flat at e1
    split at e1
    · cases e1
    · rw [← Res.ok.inj e1]; simp [List.length_flatMap]
  · obtain ⟨a, -, h'⟩ := res_bind e2
    obtain ⟨b, -, h'⟩ := res_bind h'
    obtain ⟨c, -, h'⟩ := res_bind h'
    obtain ⟨d, -, h'⟩ := res_bind h'
    rw [← Res.ok.inj h']; rfl
  · obtain ⟨h1, h2⟩ := Prod.mk.inj h
    rw [← h2, ← h1]
    rfl

/-! ### Parentheses -/


omit [Field K] [LinearOrder K]

theorem depth_append : ∀ (a b : List (Tok K)) (d : Nat), depth d (a ++ b) = (depth d a).bind fun e => depth e b
  | [], b, d => by simp [depth]
  | t :: a, b, d => by
    cases t <;> cases d <;> simp [depth, depth_append a b]

/-- The tokens do not change the depth. -/
def Neutral (l : List (Tok K)) : Prop := ∀ d, depth d l = some d

theorem Neutral.append {a b : List (Tok K)} (ha : Neutral a) (hb : Neutral b) : Neutral (a ++ b) := fun d => by
  rw [depth_append, ha d]; exact hb d

theorem neutral_sepBy : ∀ l : List (List (Tok K)), (∀ x ∈ l, Neutral x) → Neutral (sepBy l)
  | [], _ => fun d => by simp [sepBy, depth]
  | [x], h => by simpa [sepBy] using h x (by simp)
  | x :: y :: l, h => by
    rw [sepBy]
    refine (h x (by simp)).append fun d => ?_
    rw [depth]
    · exact neutral_sepBy (y :: l) (fun z hz => h z (List.mem_cons_of_mem _ hz)) d
    all_goals simp

theorem neutral_paren {l : List (List (Tok K))} (h : ∀ x ∈ l, Neutral x) : Neutral (paren l) := fun d => by
  rw [paren, List.cons_append, depth, depth_append, neutral_sepBy l h (d + 1)]
  rfl

theorem Neutral.wrap {a : List (Tok K)} (h : Neutral a) : Neutral (Tok.lpar :: a ++ [Tok.rpar]) := fun d => by
  rw [List.cons_append, depth, depth_append, h (d + 1)]
  rfl

/-- All lines are balanced, except for the lines of one kind. -/
def Fine (lines : List (Line K)) : Prop := ∀ l ∈ lines, l.kw ≠ .productRelatedProductCategory → l.Balanced

theorem Fine.put {w : Out K} (h : Fine w.lines) {kw : Kw} {body : List (Tok K)} (hb : kw ≠ .productRelatedProductCategory → depth 0 body = some 0) :
    Fine (w.put kw body).lines := by
  intro l hl hk
  simp only [Out.put, List.mem_append, List.mem_singleton] at hl
  rcases hl with hl | rfl
  · exact h l hl hk
  · exact hb hk

theorem foldPut_fine {V : Type} {kw : Kw} {body : V → List (Tok K)} (hb : ∀ v, depth 0 (body v) = some 0) : ∀ (l : List V) {w : Out K},
    Fine w.lines → Fine (l.foldl (fun w v => w.put kw (body v)) w).lines
  | [], _, h => h
  | v :: l, _, h => foldPut_fine hb l (h.put fun _ => hb v)

theorem neutral_one {t : Tok K} (h1 : t ≠ .lpar) (h2 : t ≠ .rpar) : Neutral [t] := fun d => by
  cases t <;> simp_all [depth]

theorem neutral_refs {A : Type} (l : List A) (f : A → Tok K) (h : ∀ a, f a ≠ .lpar ∧ f a ≠ .rpar) : Neutral (paren (l.map fun a => [f a])) :=
  neutral_paren fun x hx => by
    obtain ⟨a, -, rfl⟩ := List.mem_map.1 hx
    exact neutral_one (h a).1 (h a).2

variable [Field K] [LinearOrder K]

theorem curve_fine {w : Out K} (h : Fine w.lines) (c : Curve K) : Fine (curveToStep c w).1.lines := by
  unfold curveToStep
  dsimp only
  refine Fine.put (foldPut_fine (fun _ => rfl) _ h) fun _ => ?_
  have n : ∀ t : Tok K, t ≠ .lpar → t ≠ .rpar → ∀ l, Neutral l → Neutral (t :: l) := fun t h1 h2 l hl => (neutral_one h1 h2).append hl
  have e := Neutral.wrap (K := K) (n (.lit "''") (by simp) (by simp) _ <| n .comma (by simp) (by simp) _ <| n (.int c.degree) (by simp) (by simp) _ <|
    n .comma (by simp) (by simp) _ <|
    (neutral_refs (List.range c.cpts.length) (fun i => Tok.ref (w.next + i)) (by simp)).append <|
    n .comma (by simp) (by simp) _ <| n (.lit ".UNSPECIFIED.") (by simp) (by simp) _ <| n .comma (by simp) (by simp) _ <|
    n (.lit ".F.") (by simp) (by simp) _ <| n .comma (by simp) (by simp) _ <| n (.lit ".F.") (by simp) (by simp) _ <| n .comma (by simp) (by simp) _ <|
    (neutral_refs (getKnotMultiplicities c.knots) (fun m => Tok.int m.2) (by simp)).append <| n .comma (by simp) (by simp) _ <|
    (neutral_refs (getKnotMultiplicities c.knots) (fun m => Tok.num (some m.1)) (by simp)).append <| n .comma (by simp) (by simp) _ <|
    n (.lit ".UNSPECIFIED.") (by simp) (by simp) _ <| n .comma (by simp) (by simp) _ <|
    neutral_refs c.cpts (fun m => Tok.num (some m.w)) (by simp)) 0
  simpa [curveBody] using e

theorem surf_fine {w : Out K} (h : Fine w.lines) (s : Surface K) (flat : List (Vec4 K)) : Fine (putSurface s flat w).lines := by
  unfold putSurface
  dsimp only
  refine Fine.put (foldPut_fine (fun _ => rfl) _ h) fun _ => ?_
  have n : ∀ t : Tok K, t ≠ .lpar → t ≠ .rpar → ∀ l, Neutral l → Neutral (t :: l) := fun t h1 h2 l hl => (neutral_one h1 h2).append hl
  have g1 : Neutral (paren ((List.range s.su).map fun i : Nat => paren ((List.range s.sv).map fun j : Nat => [(Tok.ref (w.next + (i * s.sv + j)) : Tok K)]))) :=
    neutral_paren fun x hx => by
      obtain ⟨i, -, rfl⟩ := List.mem_map.1 hx
      exact neutral_refs _ _ (by simp)
  have g2 : Neutral (paren ((List.range s.su).map fun i : Nat => paren ((List.range s.sv).map fun j : Nat => [Tok.num (some (cell s.cpts i j).w)]))) :=
    neutral_paren fun x hx => by
      obtain ⟨i, -, rfl⟩ := List.mem_map.1 hx
      exact neutral_refs _ _ (by simp)
  have e := Neutral.wrap (K := K) (n (.lit "''") (by simp) (by simp) _ <| n .comma (by simp) (by simp) _ <| n (.int s.du) (by simp) (by simp) _ <|
    n .comma (by simp) (by simp) _ <| n (.int s.dv) (by simp) (by simp) _ <| n .comma (by simp) (by simp) _ <| g1.append <|
    n .comma (by simp) (by simp) _ <| n (.lit ".UNSPECIFIED.") (by simp) (by simp) _ <| n .comma (by simp) (by simp) _ <|
    n (.lit ".F.") (by simp) (by simp) _ <| n .comma (by simp) (by simp) _ <| n (.lit ".F.") (by simp) (by simp) _ <| n .comma (by simp) (by simp) _ <|
    n (.lit ".F.") (by simp) (by simp) _ <| n .comma (by simp) (by simp) _ <|
    (neutral_refs (getKnotMultiplicities s.ku) (fun m => Tok.int m.2) (by simp)).append <| n .comma (by simp) (by simp) _ <|
    (neutral_refs (getKnotMultiplicities s.ku) (fun m => Tok.num (some m.1)) (by simp)).append <| n .comma (by simp) (by simp) _ <|
    (neutral_refs (getKnotMultiplicities s.kv) (fun m => Tok.int m.2) (by simp)).append <| n .comma (by simp) (by simp) _ <|
    (neutral_refs (getKnotMultiplicities s.kv) (fun m => Tok.num (some m.1)) (by simp)).append <| n .comma (by simp) (by simp) _ <|
    n (.lit ".UNSPECIFIED.") (by simp) (by simp) _ <| n .comma (by simp) (by simp) _ g2) 0
  simpa [surfaceBody] using e

theorem putCurves_fine : ∀ (cs : List (Curve K)) {w : Out K}, Fine w.lines → Fine (putCurves cs w).1.lines
  | [], _, h => h
  | c :: cs, _, h => putCurves_fine cs (curve_fine h c)

omit [Field K] [LinearOrder K] in
theorem putVertices_fine : ∀ (cs : List (Vec3 K)) {w : Out K}, Fine w.lines → Fine (putVertices cs w).1.lines
  | [], _, h => h
  | _ :: cs, _, h => putVertices_fine cs ((h.put fun _ => rfl).put fun _ => rfl)

omit [Field K] [LinearOrder K] in
theorem putEdges_fine (vs cs : List Nat) : ∀ (n i : Nat) {w : Out K}, Fine w.lines → Fine (putEdges vs cs n i w).1.lines
  | 0, _, _, h => h
  | n + 1, i, _, h => putEdges_fine vs cs n (i + 1) (h.put fun _ => rfl)

omit [Field K] [LinearOrder K] in
theorem putTail_fine (sid : Nat) (edges : List Nat) {w : Out K} (h : Fine w.lines) : Fine (putTail sid edges w).lines := by
  have h0 := h.put (kw := .edgeLoop) (body := [.lpar, .lit "''", .comma] ++ paren (edges.map fun i => [.ref i]) ++ [.rpar]) fun _ => by
    have n : ∀ t : Tok K, t ≠ .lpar → t ≠ .rpar → ∀ l, Neutral l → Neutral (t :: l) := fun t h1 h2 l hl => (neutral_one h1 h2).append hl
    have e := Neutral.wrap (K := K) (n (.lit "''") (by simp) (by simp) _ <| n .comma (by simp) (by simp) _ <|
      neutral_refs edges (fun i => Tok.ref i) (by simp)) 0
    simpa using e
  unfold putTail
  dsimp only
  iterate 24 refine Fine.put ?_ fun hk => by first | rfl | exact absurd rfl hk
  exact h0

/-! ### Contents -/

omit [Field K] [LinearOrder K] in
theorem lookup_numbered {start : Nat} {w : Out K} (h : Numbered start w) (k : Nat) : lookup w.lines (start + k) = w.lines[k]? := by
  obtain ⟨n, h1, h2, h3⟩ := h
  have hid : ∀ j (hj : j < w.lines.length), (w.lines[j]).id = start + j := by
    intro j hj
    have : (w.lines.map Line.id)[j]? = some (w.lines[j]).id := by simp [hj]
    have hn : j < n := by
      have := congrArg List.length h2
      simp at this; omega
    rw [h2] at this
    simp [hn] at this
    exact this.symm
  unfold lookup
  by_cases hk : k < w.lines.length
  · rw [List.getElem?_eq_getElem hk, List.find?_eq_some_iff_getElem]
    refine ⟨by simp [hid k hk], k, hk, rfl, fun j hj => ?_⟩
    simp [hid j (by omega)]; omega
  · rw [List.getElem?_eq_none (by omega), List.find?_eq_none]
    intro l hl
    obtain ⟨j, hj, rfl⟩ := List.mem_iff_getElem.1 hl
    simp [hid j hj]; omega

omit [Field K] [LinearOrder K] in
theorem numbered_length {start : Nat} {w : Out K} (h : Numbered start w) : w.next = start + w.lines.length := by
  obtain ⟨n, h1, h2, h3⟩ := h
  have := congrArg List.length h2
  simp at this; omega

omit [Field K] [LinearOrder K] in
theorem foldPut_get {V : Type} (kw : Kw) (body : V → List (Tok K)) : ∀ (l : List V) (w : Out K) (k : Nat) (v : V), l[k]? = some v →
    (l.foldl (fun w v => w.put kw (body v)) w).lines[w.lines.length + k]? = some ⟨w.next + k, kw, body v⟩
  | [], w, k, v, h => by simp at h
  | x :: l, w, 0, v, h => by
    simp at h; subst h
    have pre : ∀ (l : List V) (w : Out K) (j : Nat) (y : Line K), w.lines[j]? = some y → (l.foldl (fun w v => w.put kw (body v)) w).lines[j]? = some y := by
      intro l
      induction l with
      | nil => exact fun _ _ _ h => h
      | cons x l ih =>
        intro w j y h
        refine ih _ j y ?_
        have hj : j < w.lines.length := by
          by_contra hc
          rw [List.getElem?_eq_none (by omega)] at h; cases h
        simp only [Out.put]
        rw [List.getElem?_append_left hj, h]
    refine pre l _ _ _ ?_
    simp [Out.put]
  | x :: l, w, k + 1, v, h => by
    have := foldPut_get kw body l (w.put kw (body x)) k v (by simpa using h)
    simp only [Out.put, List.length_append, List.length_singleton] at this
    rw [List.foldl_cons]
    rw [show w.lines.length + (k + 1) = w.lines.length + 1 + k by omega]
    simp only [Out.put]
    rw [this]
    congr 2; omega

end Cmm.Step

namespace Cmm.Step
variable {K : Type}

/-- The references among the tokens. -/
def refsOf (b : List (Tok K)) : List Nat := Line.refs ⟨0, .product, b⟩
/-- The numbers among the tokens. -/
def numsOf (b : List (Tok K)) : List (Option K) := Line.nums ⟨0, .product, b⟩
/-- The integers among the tokens. -/
def intsOf (b : List (Tok K)) : List Nat := Line.ints ⟨0, .product, b⟩

theorem line_refs (i : Nat) (kw : Kw) (b : List (Tok K)) : Line.refs ⟨i, kw, b⟩ = refsOf b := rfl
theorem line_nums (i : Nat) (kw : Kw) (b : List (Tok K)) : Line.nums ⟨i, kw, b⟩ = numsOf b := rfl
theorem line_ints (i : Nat) (kw : Kw) (b : List (Tok K)) : Line.ints ⟨i, kw, b⟩ = intsOf b := rfl
@[simp] theorem refsOf_append (a b : List (Tok K)) : refsOf (a ++ b) = refsOf a ++ refsOf b := by simp [refsOf, Line.refs, List.filterMap_append]
@[simp] theorem numsOf_append (a b : List (Tok K)) : numsOf (a ++ b) = numsOf a ++ numsOf b := by simp [numsOf, Line.nums, List.filterMap_append]
@[simp] theorem intsOf_append (a b : List (Tok K)) : intsOf (a ++ b) = intsOf a ++ intsOf b := by simp [intsOf, Line.ints, List.filterMap_append]
@[simp] theorem refsOf_nil : refsOf ([] : List (Tok K)) = [] := rfl
@[simp] theorem numsOf_nil : numsOf ([] : List (Tok K)) = [] := rfl
@[simp] theorem intsOf_nil : intsOf ([] : List (Tok K)) = [] := rfl
@[simp] theorem refsOf_cons (t : Tok K) (b : List (Tok K)) : refsOf (t :: b) = (match t with | .ref n => [n] | _ => []) ++ refsOf b := by cases t <;> rfl
@[simp] theorem numsOf_cons (t : Tok K) (b : List (Tok K)) : numsOf (t :: b) = (match t with | .num n => [n] | _ => []) ++ numsOf b := by cases t <;> rfl
@[simp] theorem intsOf_cons (t : Tok K) (b : List (Tok K)) : intsOf (t :: b) = (match t with | .int n => [n] | _ => []) ++ intsOf b := by cases t <;> rfl

theorem refsOf_sepBy : ∀ l : List (List (Tok K)), refsOf (sepBy l) = l.flatMap refsOf
  | [] => rfl
  | [x] => by simp [sepBy]
  | x :: y :: l => by rw [sepBy, refsOf_append, refsOf_cons, refsOf_sepBy (y :: l)]; simp
theorem numsOf_sepBy : ∀ l : List (List (Tok K)), numsOf (sepBy l) = l.flatMap numsOf
  | [] => rfl
  | [x] => by simp [sepBy]
  | x :: y :: l => by rw [sepBy, numsOf_append, numsOf_cons, numsOf_sepBy (y :: l)]; simp
theorem intsOf_sepBy : ∀ l : List (List (Tok K)), intsOf (sepBy l) = l.flatMap intsOf
  | [] => rfl
  | [x] => by simp [sepBy]
  | x :: y :: l => by rw [sepBy, intsOf_append, intsOf_cons, intsOf_sepBy (y :: l)]; simp
@[simp] theorem refsOf_paren (l : List (List (Tok K))) : refsOf (paren l) = l.flatMap refsOf := by simp [paren, refsOf_sepBy]
@[simp] theorem numsOf_paren (l : List (List (Tok K))) : numsOf (paren l) = l.flatMap numsOf := by simp [paren, numsOf_sepBy]
@[simp] theorem intsOf_paren (l : List (List (Tok K))) : intsOf (paren l) = l.flatMap intsOf := by simp [paren, intsOf_sepBy]

@[simp] theorem flatMap_nil' {A B : Type} (l : List A) : (l.flatMap fun _ => ([] : List B)) = [] := by simp
theorem flatMap_one {A B : Type} (l : List A) (f : A → B) : (l.flatMap fun a => [f a]) = l.map f := by
  induction l with
  | nil => rfl
  | cons a l ih => simp [ih]

theorem refsOf_list_ref {A : Type} (l : List A) (f : A → Nat) : refsOf (paren (l.map fun a => [(Tok.ref (f a) : Tok K)])) = l.map f := by
  rw [refsOf_paren, List.flatMap_map]; exact flatMap_one l f
theorem refsOf_grid_ref {A B : Type} (l : List A) (r : List B) (f : A → B → Nat) :
    refsOf (paren (l.map fun a => paren (r.map fun b => [(Tok.ref (f a b) : Tok K)]))) = l.flatMap fun a => r.map (f a) := by
  rw [refsOf_paren, List.flatMap_map]; simp only [refsOf_list_ref]; try exact flatMap_nil' l
theorem refsOf_list_int {A : Type} (l : List A) (f : A → Nat) : refsOf (paren (l.map fun a => [(Tok.int (f a) : Tok K)])) = [] := by
  rw [refsOf_paren, List.flatMap_map]; exact flatMap_nil' l
theorem refsOf_list_num {A : Type} (l : List A) (f : A → Option K) : refsOf (paren (l.map fun a => [(Tok.num (f a) : Tok K)])) = [] := by
  rw [refsOf_paren, List.flatMap_map]; exact flatMap_nil' l
theorem refsOf_grid_num {A B : Type} (l : List A) (r : List B) (f : A → B → Option K) :
    refsOf (paren (l.map fun a => paren (r.map fun b => [(Tok.num (f a b) : Tok K)]))) = [] := by
  rw [refsOf_paren, List.flatMap_map]; simp only [refsOf_list_num]; try exact flatMap_nil' l
theorem intsOf_list_ref {A : Type} (l : List A) (f : A → Nat) : intsOf (paren (l.map fun a => [(Tok.ref (f a) : Tok K)])) = [] := by
  rw [intsOf_paren, List.flatMap_map]; exact flatMap_nil' l
theorem intsOf_grid_ref {A B : Type} (l : List A) (r : List B) (f : A → B → Nat) :
    intsOf (paren (l.map fun a => paren (r.map fun b => [(Tok.ref (f a b) : Tok K)]))) = [] := by
  rw [intsOf_paren, List.flatMap_map]; simp only [intsOf_list_ref]; try exact flatMap_nil' l
theorem intsOf_list_int {A : Type} (l : List A) (f : A → Nat) : intsOf (paren (l.map fun a => [(Tok.int (f a) : Tok K)])) = l.map f := by
  rw [intsOf_paren, List.flatMap_map]; exact flatMap_one l f
theorem intsOf_list_num {A : Type} (l : List A) (f : A → Option K) : intsOf (paren (l.map fun a => [(Tok.num (f a) : Tok K)])) = [] := by
  rw [intsOf_paren, List.flatMap_map]; exact flatMap_nil' l
theorem intsOf_grid_num {A B : Type} (l : List A) (r : List B) (f : A → B → Option K) :
    intsOf (paren (l.map fun a => paren (r.map fun b => [(Tok.num (f a b) : Tok K)]))) = [] := by
  rw [intsOf_paren, List.flatMap_map]; simp only [intsOf_list_num]; try exact flatMap_nil' l
theorem numsOf_list_ref {A : Type} (l : List A) (f : A → Nat) : numsOf (paren (l.map fun a => [(Tok.ref (f a) : Tok K)])) = [] := by
  rw [numsOf_paren, List.flatMap_map]; exact flatMap_nil' l
theorem numsOf_grid_ref {A B : Type} (l : List A) (r : List B) (f : A → B → Nat) :
    numsOf (paren (l.map fun a => paren (r.map fun b => [(Tok.ref (f a b) : Tok K)]))) = [] := by
  rw [numsOf_paren, List.flatMap_map]; simp only [numsOf_list_ref]; try exact flatMap_nil' l
theorem numsOf_list_int {A : Type} (l : List A) (f : A → Nat) : numsOf (paren (l.map fun a => [(Tok.int (f a) : Tok K)])) = [] := by
  rw [numsOf_paren, List.flatMap_map]; exact flatMap_nil' l
theorem numsOf_list_num {A : Type} (l : List A) (f : A → Option K) : numsOf (paren (l.map fun a => [(Tok.num (f a) : Tok K)])) = l.map f := by
  rw [numsOf_paren, List.flatMap_map]; exact flatMap_one l f
theorem numsOf_grid_num {A B : Type} (l : List A) (r : List B) (f : A → B → Option K) :
    numsOf (paren (l.map fun a => paren (r.map fun b => [(Tok.num (f a b) : Tok K)]))) = l.flatMap fun a => r.map (f a) := by
  rw [numsOf_paren, List.flatMap_map]; simp only [numsOf_list_num]; try exact flatMap_nil' l

theorem flatMap_congr' {A B : Type} {l : List A} {f g : A → List B} (h : ∀ a ∈ l, f a = g a) : l.flatMap f = l.flatMap g := by
  induction l with
  | nil => rfl
  | cons a l ih =>
    rw [List.flatMap_cons, List.flatMap_cons, h a (by simp), ih fun b hb => h b (by simp [hb])]

theorem getElem_grid {A : Type} {n m : Nat} (f : Nat → Nat → A) {i j : Nat} (hi : i < n) (hj : j < m) :
    ((List.range n).flatMap fun i => (List.range m).map fun j => f i j)[i * m + j]? = some (f i j) := by
  have key : ∀ (k s : Nat), i < s + k → s ≤ i → ((List.range' s k).flatMap fun i => (List.range m).map fun j => f i j)[(i - s) * m + j]? = some (f i j) := by
    intro k
    induction k with
    | zero => intro s h1 h2; omega
    | succ k ih =>
      intro s h1 h2
      rw [List.range'_succ, List.flatMap_cons]
      by_cases hs : s = i
      · subst hs
        rw [Nat.sub_self, Nat.zero_mul, Nat.zero_add, List.getElem?_append_left (by simpa using hj)]
        simp [hj]
      · have e : (i - s) * m + j = m + ((i - (s + 1)) * m + j) := by
          have : i - s = (i - (s + 1)) + 1 := by omega
          rw [this, Nat.add_mul]; omega
        rw [List.getElem?_append_right (by simp; omega)]
        rw [e]
        simp only [List.length_map, List.length_range, Nat.add_sub_cancel_left]
        exact ih (s + 1) (by omega) (by omega)
  have := key n 0 (by omega) (by omega)
  rwa [Nat.sub_zero, ← List.range_eq_range'] at this

theorem put_prefix (w : Out K) (kw : Kw) (b : List (Tok K)) : w.lines <+: (w.put kw b).lines := List.prefix_append _ _

theorem putTail_prefix (sid : Nat) (edges : List Nat) (w : Out K) : w.lines <+: (putTail sid edges w).lines := by
  unfold putTail
  dsimp only
  iterate 25 refine List.IsPrefix.trans ?_ (put_prefix _ _ _)
  exact List.prefix_refl _

theorem putEdges_prefix (vs cs : List Nat) : ∀ (n i : Nat) (w : Out K), w.lines <+: (putEdges vs cs n i w).1.lines
  | 0, _, _ => List.prefix_refl _
  | n + 1, i, w => (put_prefix w _ _).trans (putEdges_prefix vs cs n (i + 1) _)

theorem putVertices_prefix : ∀ (ps : List (Vec3 K)) (w : Out K), w.lines <+: (putVertices ps w).1.lines
  | [], _ => List.prefix_refl _
  | _ :: ps, w => ((put_prefix w _ _).trans (put_prefix _ _ _)).trans (putVertices_prefix ps _)

theorem foldPut_prefix {V : Type} (kw : Kw) (body : V → List (Tok K)) : ∀ (l : List V) (w : Out K), w.lines <+: (l.foldl (fun w v => w.put kw (body v)) w).lines
  | [], _ => List.prefix_refl _
  | _ :: l, w => (put_prefix w _ _).trans (foldPut_prefix kw body l _)

theorem putCurves_prefix [Field K] [LinearOrder K] : ∀ (cs : List (Nurbs.Curve K)) (w : Out K), w.lines <+: (putCurves cs w).1.lines
  | [], _ => List.prefix_refl _
  | c :: cs, w => ((foldPut_prefix .cartesianPoint (fun cp : Vec4 K => pointBody (some cp.x) (some cp.y) (some cp.z)) c.cpts w).trans
      (put_prefix _ _ _)).trans (putCurves_prefix cs _)

theorem putEdges_kinds (vs cs : List Nat) : ∀ (n i : Nat) (w : Out K), (putEdges vs cs n i w).2.length = n ∧
    ∀ r ∈ (putEdges vs cs n i w).2, ∃ e ∈ (putEdges vs cs n i w).1.lines, e.id = r ∧ e.kw = .edgeCurve
  | 0, _, _ => ⟨rfl, by simp [putEdges]⟩
  | n + 1, i, w => by
    obtain ⟨h1, h2⟩ := putEdges_kinds vs cs n (i + 1) (w.put .edgeCurve [.lpar, .lit "''", .comma, .ref (vs.getD i 0), .comma, .ref (vs.getD ((i + 1) % 4) 0), .comma,
      .ref (cs.getD i 0), .comma, .lit ".T.", .rpar])
    refine ⟨by rw [putEdges]; dsimp only; rw [List.length_cons, h1], fun r hr => ?_⟩
    rw [putEdges] at hr ⊢
    dsimp only at hr ⊢
    rcases List.mem_cons.1 hr with rfl | hr
    · exact ⟨_, (putEdges_prefix vs cs n (i + 1) _).subset (List.mem_append_right _ (List.mem_singleton.2 rfl)), rfl, rfl⟩
    · exact h2 r hr

end Cmm.Step
