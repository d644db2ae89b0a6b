import Verif.Lemmas.Step
import Verif.Props.Surface
/-!
C57: the STEP export is referentially closed. C72: what the exported text says.
-/
namespace Cmm.Step
open Cmm.Nurbs
variable {K : Type} [Field K] [LinearOrder K]

/-- A bilinear patch. -/
def patch : Surface ℚ := ⟨[[⟨0, 0, 0, 1⟩, ⟨0, 1, 0, 1⟩], [⟨1, 0, 0, 1⟩, ⟨1, 1, 1, 1⟩]], 1, 1, 2, 2, [0, 0, 1, 1], [0, 0, 1, 1], 0, 1, 0, 1⟩

theorem file_of {s : Surface ℚ} (P : List (Line ℚ) → Prop) [DecidablePred P] (h : (match stepFile s with | .ok l => decide (P l) | _ => false) = true) :
    ∃ l, stepFile s = .ok l ∧ P l := by
  revert h
  cases stepFile s with
  | ok l => intro h; exact ⟨l, rfl, of_decide_eq_true h⟩
  | throws => intro h; cases h
  | ub => intro h; cases h

theorem file_eq {A : Type} [DecidableEq A] {s : Surface ℚ} (f : List (Line ℚ) → A) (a : A)
    (h : (match stepFile s with | .ok l => decide (f l = a) | _ => false) = true) : ∃ l, stepFile s = .ok l ∧ f l = a := by
  revert h
  cases stepFile s with
  | ok l => intro h; exact ⟨l, rfl, of_decide_eq_true h⟩
  | throws => intro h; cases h
  | ub => intro h; cases h

/-- **C57**: a curve written to a stream keeps the numbering: numbers are used one by one, each number used in the text is defined exactly once, and
the returned number is the one of the curve. -/
theorem C57_curve (start : Nat) (w : Out K) (h : Numbered start w) (c : Curve K) :
    Numbered start (curveToStep c w).1 ∧ Closed (curveToStep c w).1.lines ∧
      ∃ l ∈ (curveToStep c w).1.lines, l.id = (curveToStep c w).2 ∧ l.kw = .bSplineCurve := by
  obtain ⟨a, b, -⟩ := curve_numbered h c
  refine ⟨a, numbered_closed a, ⟨_, List.mem_append_right _ (List.mem_singleton.2 rfl), ?_, rfl⟩⟩
  rfl

/-- **C57**: a surface written to a stream keeps the numbering, for all sizes: numbers are used one by one, and each number used in the text is defined
exactly once. The returned number is the one of the surface. -/
theorem C57_surface (start : Nat) (w : Out K) (h : Numbered start w) (s : Surface K) (w' : Out K) (id : Nat) (hr : surfaceToStep s w = .ok (w', id)) :
    Numbered start w' ∧ Closed w'.lines ∧ ∃ l ∈ w'.lines, l.id = id ∧ l.kw = .bSplineSurface := by
  obtain ⟨flat, bs, ps, e1, e2, e3, hf, hb, hid, hw⟩ := surface_parts hr
  obtain ⟨a1, b1⟩ := putSurface_numbered h s hf
  obtain ⟨a2, b2, l2, m2⟩ := putCurves_numbered bs a1
  obtain ⟨a3, b3, l3, m3⟩ := putVertices_numbered ps a2
  have hps := corners_length bs 0 ps e3
  obtain ⟨a4, b4, l4, m4⟩ := putEdges_numbered (by rw [l3, hps, hb]) (by rw [l2, hb]) 4 0 a3 rfl m3 (fun j hj => by have := m2 j hj; omega)
  obtain ⟨n, hn, -⟩ := h
  have hN := putTail_numbered (sid := id) a4 (by omega) m4
  dsimp only at hw
  subst hw
  refine ⟨hN, numbered_closed hN, ?_⟩
  have key : ∃ l ∈ (putSurface s flat w).lines, l.id = id ∧ l.kw = .bSplineSurface := by
    refine ⟨_, List.mem_append_right _ (List.mem_singleton.2 rfl), ?_, rfl⟩
    rw [hid]; rfl
  obtain ⟨l, hl, p⟩ := key
  have i1 : ∀ {V : Type} (kw : Kw) (body : V → List (Tok K)) (xs : List V) (w : Out K), l ∈ w.lines → l ∈ (xs.foldl (fun w v => w.put kw (body v)) w).lines := by
    intro V kw body xs
    induction xs with
    | nil => exact fun _ h => h
    | cons x xs ih => exact fun w h => ih _ (List.mem_append_left _ h)
  have i2 : ∀ (cs : List (Curve K)) (w : Out K), l ∈ w.lines → l ∈ (putCurves cs w).1.lines := by
    intro cs
    induction cs with
    | nil => exact fun _ h => h
    | cons c cs ih => exact fun w h => ih _ (List.mem_append_left _ (i1 _ _ _ _ h))
  have i3 : ∀ (ps : List (Vec3 K)) (w : Out K), l ∈ w.lines → l ∈ (putVertices ps w).1.lines := by
    intro ps
    induction ps with
    | nil => exact fun _ h => h
    | cons c cs ih => exact fun w h => ih _ (List.mem_append_left _ (List.mem_append_left _ h))
  have i4 : ∀ (n i : Nat) (vs cs : List Nat) (w : Out K), l ∈ w.lines → l ∈ (putEdges vs cs n i w).1.lines := by
    intro n
    induction n with
    | zero => exact fun _ _ _ _ h => h
    | succ n ih => exact fun i vs cs w h => ih _ _ _ _ (List.mem_append_left _ h)
  refine ⟨l, ?_, p⟩
  unfold putTail
  simp only [Out.put, List.append_assoc]
  exact List.mem_append_left _ (i4 _ _ _ _ _ (i3 _ _ (i2 _ _ hl)))

/-- **C57**: every entity number used in a STEP file is defined exactly once in it. -/
theorem C57_file (s : Surface K) (lines : List (Line K)) (h : stepFile s = .ok lines) : Closed lines := by
  obtain ⟨⟨w, id⟩, e, h⟩ := res_bind h
  have := Res.ok.inj h
  subst this
  exact (C57_surface 10 ⟨10, []⟩ ⟨0, rfl, rfl, by simp⟩ s w id e).2.1


example : ∃ lines, stepFile patch = .ok lines ∧ lines.length = 54 ∧ (lines.map Line.id).head? = some 10 := by
  exact file_of _ (by decide +kernel)

/-- **C72**: the text of a curve refers to its control points in order, and gives the degree, the runs of equal knots and the weights. The coordinates
written are the stored ones, which curve evaluation multiplies by the weights. -/
theorem C72_curve_text (start : Nat) (w : Out K) (h : Numbered start w) (c : Curve K) :
    ∃ l, lookup (curveToStep c w).1.lines (curveToStep c w).2 = some l ∧ l.kw = .bSplineCurve ∧
      l.refs.map (coords (curveToStep c w).1.lines) = c.cpts.map (fun p => some [some p.x, some p.y, some p.z]) ∧
      l.ints = c.degree :: (getKnotMultiplicities c.knots).map Prod.snd ∧
      l.nums = (getKnotMultiplicities c.knots).map (fun m => some m.1) ++ c.cpts.map fun p => some p.w := by
  obtain ⟨a, b, -⟩ := curve_numbered h c
  have hn := numbered_length h
  have pts : ∀ k p, c.cpts[k]? = some p → coords (curveToStep c w).1.lines (w.next + k) = some [some p.x, some p.y, some p.z] := by
    intro k p hk
    have h1 := foldPut_get .cartesianPoint (fun cp : Vec4 K => pointBody (some cp.x) (some cp.y) (some cp.z)) c.cpts w k p hk
    have h2 : (curveToStep c w).1.lines[w.lines.length + k]? = some ⟨w.next + k, .cartesianPoint, pointBody (some p.x) (some p.y) (some p.z)⟩ := by
      unfold curveToStep
      dsimp only [Out.put]
      rw [List.getElem?_append_left]
      · exact h1
      · by_contra hc
        have := List.getElem?_eq_none (Nat.le_of_not_lt hc)
        unfold putPoints at this
        rw [h1] at this; cases this
    unfold coords
    rw [hn, Nat.add_assoc, lookup_numbered a, h2]
    rfl
  have hl : lookup (curveToStep c w).1.lines (curveToStep c w).2 = (curveToStep c w).1.lines[w.lines.length + c.cpts.length]? := by
    rw [b, hn, Nat.add_assoc, lookup_numbered a]
  rw [hl]
  have hlen : (putPoints w c.cpts).lines.length = w.lines.length + c.cpts.length := by
    have h1 := numbered_length (foldPut_numbered .cartesianPoint (fun cp : Vec4 K => pointBody (some cp.x) (some cp.y) (some cp.z))
      (fun _ _ => pointBody_refs _ _ _ _) c.cpts h).1
    have h2 := (foldPut_numbered .cartesianPoint (fun cp : Vec4 K => pointBody (some cp.x) (some cp.y) (some cp.z))
      (fun _ _ => pointBody_refs _ _ _ _) c.cpts h).2
    unfold putPoints; omega
  have hline : (curveToStep c w).1.lines[w.lines.length + c.cpts.length]? = some ⟨(putPoints w c.cpts).next, .bSplineCurve, curveBody c w.next⟩ := by
    unfold curveToStep
    dsimp only [Out.put]
    rw [← hlen, List.getElem?_append_right (le_refl _)]
    simp only [Nat.sub_self, List.getElem?_cons_zero]
  refine ⟨_, hline, rfl, ?_, ?_, ?_⟩
  · rw [line_refs, curveBody]
    simp only [refsOf_append, refsOf_list_int, refsOf_list_num, refsOf_list_ref, refsOf_cons, refsOf_nil, List.nil_append, List.append_nil]
    rw [List.map_map]
    apply List.ext_getElem?
    intro k
    rw [List.getElem?_map, List.getElem?_map]
    cases hk : c.cpts[k]? with
    | none => 
      have : c.cpts.length ≤ k := by simpa using hk
      rw [List.getElem?_eq_none (by simpa using this)]; rfl
    | some p =>
      have : k < c.cpts.length := by
        by_contra hc
        rw [List.getElem?_eq_none (by omega)] at hk; cases hk
      rw [List.getElem?_range this]
      simp only [Option.map_some, Function.comp, pts k p hk]
  · rw [line_ints, curveBody]
    simp only [intsOf_append, intsOf_list_int, intsOf_list_num, intsOf_list_ref, intsOf_cons, intsOf_nil, List.nil_append, List.append_nil, List.singleton_append]
  · rw [line_nums, curveBody]
    simp only [numsOf_append, numsOf_list_int, numsOf_list_num, numsOf_list_ref, numsOf_cons, numsOf_nil, List.nil_append, List.append_nil]

example : Numbered 7 (⟨7, []⟩ : Out ℚ) ∧ (coords (curveToStep demoCurve ⟨7, []⟩).1.lines 8 = some [some 1, some 2, some 0]) :=
  ⟨⟨0, rfl, rfl, by simp⟩, by decide +kernel⟩

/-- **C72**: the text of a surface refers to its control points row by row, divided by their weights (a zero weight is printed as a number that is
not finite), and gives the degrees, the runs of equal knots and the weights. -/
theorem C72_surface_text (start : Nat) (w : Out K) (h : Numbered start w) (s : Surface K) (w' : Out K) (id : Nat) (hr : surfaceToStep s w = .ok (w', id)) :
    ∃ l, lookup w'.lines id = some l ∧ l.kw = .bSplineSurface ∧
      l.refs.map (coords w'.lines) = ((List.range s.su).flatMap fun i => (List.range s.sv).map fun j =>
        some [Geom.nanDiv (cell s.cpts i j).x (cell s.cpts i j).w, Geom.nanDiv (cell s.cpts i j).y (cell s.cpts i j).w,
          Geom.nanDiv (cell s.cpts i j).z (cell s.cpts i j).w]) ∧
      l.ints = [s.du, s.dv] ++ (getKnotMultiplicities s.ku).map Prod.snd ++ (getKnotMultiplicities s.kv).map Prod.snd ∧
      l.nums = (getKnotMultiplicities s.ku).map (fun m => some m.1) ++ (getKnotMultiplicities s.kv).map (fun m => some m.1) ++
        ((List.range s.su).flatMap fun i => (List.range s.sv).map fun j => some (cell s.cpts i j).w) := by
  have hN := (C57_surface start w h s w' id hr).1
  obtain ⟨flat, bs, ps, e1, e2, e3, hf, hb, hid, hw⟩ := surface_parts hr
  have hn := numbered_length h
  obtain ⟨p1, p2⟩ := foldPut_numbered .cartesianPoint (fun cp : Vec4 K => pointBody (Geom.nanDiv cp.x cp.w) (Geom.nanDiv cp.y cp.w) (Geom.nanDiv cp.z cp.w))
    (fun _ _ => pointBody_refs _ _ _ _) flat h
  have p3 := numbered_length p1
  have hlen : (putGrid w flat).lines.length = w.lines.length + flat.length := by unfold putGrid; omega
  have hpre : ∃ t, w'.lines = (putSurface s flat w).lines ++ t := by
    rw [hw]
    obtain ⟨t, ht⟩ := ((putCurves_prefix bs (putSurface s flat w)).trans (putVertices_prefix ps _)).trans
      ((putEdges_prefix (putVertices ps (putCurves bs (putSurface s flat w)).1).2 (putCurves bs (putSurface s flat w)).2 4 0 _).trans (putTail_prefix id
        (putEdges (putVertices ps (putCurves bs (putSurface s flat w)).1).2 (putCurves bs (putSurface s flat w)).2 4 0
          (putVertices ps (putCurves bs (putSurface s flat w)).1).1).2 _))
    exact ⟨t, ht.symm⟩
  obtain ⟨t, hpre⟩ := hpre
  have hsl : (putSurface s flat w).lines.length = w.lines.length + flat.length + 1 := by
    unfold putSurface; simp only [Out.put, List.length_append, List.length_singleton, hlen]
  have hpt : ∀ k p, flat[k]? = some p → coords w'.lines (w.next + k) =
      some [Geom.nanDiv p.x p.w, Geom.nanDiv p.y p.w, Geom.nanDiv p.z p.w] := by
    intro k p hk
    have h1 := foldPut_get .cartesianPoint (fun cp : Vec4 K => pointBody (Geom.nanDiv cp.x cp.w) (Geom.nanDiv cp.y cp.w) (Geom.nanDiv cp.z cp.w)) flat w k p hk
    have hkl : k < flat.length := by
      by_contra hc
      rw [List.getElem?_eq_none (by omega)] at hk; cases hk
    have h2 : w'.lines[w.lines.length + k]? = some ⟨w.next + k, .cartesianPoint, pointBody (Geom.nanDiv p.x p.w) (Geom.nanDiv p.y p.w) (Geom.nanDiv p.z p.w)⟩ := by
      rw [hpre, List.getElem?_append_left (by omega)]
      unfold putSurface
      dsimp only [Out.put]
      rw [List.getElem?_append_left (by omega)]
      exact h1
    unfold coords
    rw [hn, Nat.add_assoc, lookup_numbered hN, h2]
    rfl
  have hflat : flat = (List.range s.su).flatMap fun i => (List.range s.sv).map fun j => cell s.cpts i j := by
    unfold Surface.flat at e1
    split at e1
    · cases e1
    · exact (Res.ok.inj e1).symm
  have hidv : id = w.next + flat.length := by
    rw [hid]
    unfold putSurface
    simp only [Out.put]
    show (putGrid w flat).next + 1 - 1 = _
    unfold putGrid; omega
  have hline : lookup w'.lines id = some ⟨(putGrid w flat).next, .bSplineSurface, surfaceBody s w.next⟩ := by
    rw [hidv, hn, Nat.add_assoc, lookup_numbered hN, hpre, List.getElem?_append_left (by omega)]
    unfold putSurface
    dsimp only [Out.put]
    rw [← hlen, List.getElem?_append_right (le_refl _)]
    simp only [Nat.sub_self, List.getElem?_cons_zero, ← hn]
  refine ⟨_, hline, rfl, ?_, ?_, ?_⟩
  · rw [line_refs, surfaceBody]
    simp only [refsOf_append, refsOf_list_int, refsOf_list_num, refsOf_grid_ref, refsOf_grid_num, refsOf_cons, refsOf_nil, List.nil_append, List.append_nil]
    rw [List.map_flatMap]
    refine flatMap_congr' fun i hi => ?_
    rw [List.map_map]
    refine List.map_congr_left fun j hj => ?_
    rw [List.mem_range] at hi hj
    refine hpt _ _ ?_
    rw [hflat]
    exact getElem_grid _ hi hj
  · rw [line_ints, surfaceBody]
    simp only [intsOf_append, intsOf_list_int, intsOf_list_num, intsOf_grid_ref, intsOf_grid_num, intsOf_cons, intsOf_nil, List.nil_append, List.append_nil,
      List.singleton_append]
  · rw [line_nums, surfaceBody]
    simp only [numsOf_append, numsOf_list_int, numsOf_list_num, numsOf_grid_ref, numsOf_grid_num, numsOf_cons, numsOf_nil, List.nil_append, List.append_nil]

/-- **C72**: the parentheses of a curve's text are balanced, for every curve. -/
theorem C72_curve_balanced (n : Nat) (c : Curve K) : ∀ l ∈ (curveToStep c ⟨n, []⟩).1.lines, l.Balanced := by
  have h : ∀ l ∈ (curveToStep c ⟨n, []⟩).1.lines, l.kw ≠ .productRelatedProductCategory := by
    intro l hl
    unfold curveToStep at hl
    simp only [Out.put, List.mem_append, List.mem_singleton] at hl
    rcases hl with hl | rfl
    · have : ∀ (cs : List (Vec4 K)) (w : Out K), (∀ l ∈ w.lines, l.kw ≠ .productRelatedProductCategory) →
          ∀ l ∈ (putPoints w cs).lines, l.kw ≠ .productRelatedProductCategory := by
        intro cs
        induction cs with
        | nil => exact fun _ h => h
        | cons c cs ih =>
          intro w h
          refine ih _ fun l hl => ?_
          simp only [Out.put, List.mem_append, List.mem_singleton] at hl
          rcases hl with hl | rfl
          · exact h l hl
          · simp
      exact this c.cpts ⟨n, []⟩ (by simp) l hl
    · simp
  exact fun l hl => curve_fine (w := ⟨n, []⟩) (by simp [Fine]) c l hl (h l hl)

/-- **C72, partial**: in an exported surface the parentheses of every instance are balanced, except for the product category. -/
theorem C72_surface_balanced_partial (s : Surface K) (lines : List (Line K)) (h : stepFile s = .ok lines) :
    ∀ l ∈ lines, l.kw ≠ .productRelatedProductCategory → l.Balanced := by
  obtain ⟨⟨w, id⟩, e, h⟩ := res_bind h
  obtain ⟨flat, bs, ps, -, -, -, -, -, -, hw⟩ := surface_parts e
  have := Res.ok.inj h
  subst this
  rw [hw]
  exact putTail_fine _ _ (putEdges_fine _ _ _ _ (putVertices_fine _ (putCurves_fine _ (surf_fine (by simp [Fine]) _ _))))

/-- **C72 fails**: in every exported surface the product category lacks a closing parenthesis. -/
theorem C72_unbalanced_counterexample (s : Surface K) (lines : List (Line K)) (h : stepFile s = .ok lines) :
    ∃ l ∈ lines, l.kw = .productRelatedProductCategory ∧ ¬ l.Balanced := by
  obtain ⟨⟨w, id⟩, e, h⟩ := res_bind h
  obtain ⟨flat, bs, ps, -, -, -, -, -, -, hw⟩ := surface_parts e
  have := Res.ok.inj h
  subst this
  rw [hw]
  generalize (putEdges _ _ _ _ _) = x
  obtain ⟨⟨next, lines⟩, es⟩ := x
  simp only [putTail, Out.put, List.append_assoc]
  refine ⟨_, List.mem_append_right _ (List.mem_of_getElem? (i := 19) rfl), rfl, ?_⟩
  unfold Line.Balanced
  simp [depth]

/-- **C72 fails**: in every exported surface the product entities refer to each other with an offset: the context refers to a formation, the definition
to a product category, the formation to a protocol definition and the protocol definition to a product context. -/
theorem C72_kinds_counterexample (s : Surface K) (lines : List (Line K)) (h : stepFile s = .ok lines) :
    (∃ l ∈ lines, ∃ d ∈ lines, l.kw = .productDefinitionContext ∧ l.refs = [d.id] ∧ d.kw = .productDefinitionFormation) ∧
    (∃ l ∈ lines, ∃ d ∈ lines, ∃ e ∈ lines, l.kw = .productDefinition ∧ l.refs = [d.id, e.id] ∧ d.kw = .productRelatedProductCategory ∧
      e.kw = .productDefinitionContext) ∧
    (∃ l ∈ lines, ∃ d ∈ lines, l.kw = .productDefinitionFormation ∧ l.refs = [d.id] ∧ d.kw = .applicationProtocolDefinition) ∧
    (∃ l ∈ lines, ∃ d ∈ lines, l.kw = .applicationProtocolDefinition ∧ l.refs = [d.id] ∧ d.kw = .productContext) := by
  obtain ⟨⟨w, id⟩, e, h⟩ := res_bind h
  obtain ⟨flat, bs, ps, -, -, -, -, -, -, hw⟩ := surface_parts e
  have := Res.ok.inj h
  subst this
  rw [hw]
  generalize (putEdges _ _ _ _ _) = x
  obtain ⟨⟨next, lines⟩, es⟩ := x
  simp only [putTail, Out.put, List.append_assoc]
  refine ⟨⟨_, List.mem_append_right _ (List.mem_of_getElem? (i := 16) rfl), _, List.mem_append_right _ (List.mem_of_getElem? (i := 18) rfl), rfl, rfl, rfl⟩,
    ⟨_, List.mem_append_right _ (List.mem_of_getElem? (i := 17) rfl), _, List.mem_append_right _ (List.mem_of_getElem? (i := 19) rfl),
      _, List.mem_append_right _ (List.mem_of_getElem? (i := 16) rfl), rfl, rfl, rfl, rfl⟩,
    ⟨_, List.mem_append_right _ (List.mem_of_getElem? (i := 18) rfl), _, List.mem_append_right _ (List.mem_of_getElem? (i := 20) rfl), rfl, rfl, rfl⟩,
    ⟨_, List.mem_append_right _ (List.mem_of_getElem? (i := 20) rfl), _, List.mem_append_right _ (List.mem_of_getElem? (i := 22) rfl), rfl, rfl, rfl⟩⟩

/-- **C72**: the references between the shape entities of every exported surface are of the right kinds. -/
theorem C72_shape_kinds (s : Surface K) (lines : List (Line K)) (h : stepFile s = .ok lines) :
    ∃ loop ∈ lines, ∃ bound ∈ lines, ∃ face ∈ lines, ∃ shell ∈ lines, ∃ model ∈ lines, ∃ surface ∈ lines,
      loop.kw = .edgeLoop ∧ (∀ r ∈ loop.refs, ∃ e ∈ lines, e.id = r ∧ e.kw = .edgeCurve) ∧ loop.refs.length = 4 ∧
      bound.kw = .faceOuterBound ∧ bound.refs = [loop.id] ∧ face.kw = .advancedFace ∧ face.refs = [bound.id, surface.id] ∧
      surface.kw = .bSplineSurface ∧ shell.kw = .openShell ∧ shell.refs = [face.id] ∧ model.kw = .shellBasedSurfaceModel ∧ model.refs = [shell.id] := by
  obtain ⟨⟨w, id⟩, e, h⟩ := res_bind h
  obtain ⟨-, -, sl, hsl, hsi, hsk⟩ := C57_surface 10 ⟨10, []⟩ ⟨0, rfl, rfl, by simp⟩ s w id e
  obtain ⟨flat, bs, ps, -, -, -, -, -, -, hw⟩ := surface_parts e
  have := Res.ok.inj h
  subst this
  have he := putEdges_kinds (putVertices ps (putCurves bs (putSurface s flat ⟨10, []⟩)).1).2 (putCurves bs (putSurface s flat ⟨10, []⟩)).2 4 0
    (putVertices ps (putCurves bs (putSurface s flat ⟨10, []⟩)).1).1
  dsimp only at hw
  generalize (putEdges _ _ _ _ _) = x at hw he
  rw [hw] at hsl ⊢
  obtain ⟨⟨next, lines⟩, es⟩ := x
  simp only [putTail, Out.put, List.append_assoc] at hsl ⊢
  refine ⟨_, List.mem_append_right _ (List.mem_of_getElem? (i := 0) rfl), _, List.mem_append_right _ (List.mem_of_getElem? (i := 1) rfl),
    _, List.mem_append_right _ (List.mem_of_getElem? (i := 2) rfl), _, List.mem_append_right _ (List.mem_of_getElem? (i := 3) rfl),
    _, List.mem_append_right _ (List.mem_of_getElem? (i := 4) rfl), sl, hsl, rfl, ?_, ?_, rfl, rfl, rfl, ?_, hsk, rfl, rfl, rfl, rfl⟩
  · intro r hr
    rw [line_refs] at hr
    simp only [refsOf_append, refsOf_list_ref, refsOf_cons, refsOf_nil, List.nil_append, List.append_nil, List.map_id_fun', id_eq] at hr
    obtain ⟨e, h1, h2⟩ := he.2 r hr
    exact ⟨e, List.mem_append_left _ h1, h2⟩
  · rw [line_refs]
    simp only [refsOf_append, refsOf_list_ref, refsOf_cons, refsOf_nil, List.nil_append, List.append_nil, List.map_id_fun', id_eq]
    exact he.1
  · rw [hsi]; rfl

/-- **C72 fails**: the edges of an exported patch do not run along their curves. The first edge goes from corner (0, 0) to corner (1, 0) with the curve from
(0, 0) to (0, 1); the second edge joins corner (1, 0) to itself. -/
theorem C72_edges_counterexample : ∃ lines, stepFile patch = .ok lines ∧ edges lines =
    [[some [some 0, some 0, some 0], some [some 1, some 0, some 0], some [some 0, some 0, some 0], some [some 0, some 1, some 0]],
     [some [some 1, some 0, some 0], some [some 1, some 0, some 0], some [some 1, some 0, some 0], some [some 1, some 1, some 1]],
     [some [some 1, some 0, some 0], some [some 1, some 1, some 1], some [some 0, some 0, some 0], some [some 1, some 0, some 0]],
     [some [some 1, some 1, some 1], some [some 0, some 0, some 0], some [some 0, some 1, some 0], some [some 1, some 1, some 1]]] := by
  refine file_eq edges _ (by decide +kernel)

end Cmm.Step
