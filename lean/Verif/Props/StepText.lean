import Verif.Lemmas.StepText
import Verif.Props.Step
/-!
C120: the characters of an exported STEP file.
-/
namespace Cmm.Step
open Cmm.Text Cmm.Nurbs Cmm.Geom

/-- **C120**: a text can be split into symbols in one way only. -/
theorem C120_unique (s : List Char) (l l' : List Sym) (h : Lexes s l) (h' : Lexes s l') : l = l' := by
  obtain ⟨n, h⟩ := h
  obtain ⟨m, h'⟩ := h'
  have e1 := lexAll_le (Nat.le_max_left n m) h
  have e2 := lexAll_le (Nat.le_max_right n m) h'
  rw [e1] at e2
  exact Option.some.inj e2

theorem no_numbers {ys : List Sym} (h : ys.all (fun y => match y with | .number _ => false | _ => true) = true) : ∀ v, .number v ∉ ys := by
  intro v hv
  have := List.all_eq_true.mp h _ hv
  simp at this

theorem start_lex : lexAll 500 headerStart.dropLast = some ((headerSyms []).take 17) ∧
    ((headerSyms []).take 17).all (fun y => match y with | .number _ => false | _ => true) = true ∧ headerStart.dropLast.getLast? = some ' ' ∧
    headerStart = headerStart.dropLast ++ ['\''] := by decide +kernel

theorem end_lex : lexAll 500 (headerEnd.drop 3) = some ((headerSyms []).drop 19) ∧
    ((headerSyms []).drop 19).all (fun y => match y with | .number _ => false | _ => true) = true ∧ (headerEnd.drop 3).getLast? = some '\n' ∧
    headerEnd = '\'' :: ',' :: '\n' :: headerEnd.drop 3 := by decide +kernel

theorem header_lex (d : DateTime) : ∃ k, ∀ m r, lexAll (m + k) (headerStart ++ dateText d ++ headerEnd ++ r) = (lexAll m r).map (headerSyms (dateText d) ++ ·) := by
  obtain ⟨a2, a3, a4, a1⟩ := start_lex
  obtain ⟨b2, b3, b4, b1⟩ := end_lex
  obtain ⟨k, hk⟩ := lexAll_fixed a2 (no_numbers a3) (by intro c hc; rw [a4] at hc; exact Or.inl (Option.some.inj hc).symm)
  obtain ⟨j, hj⟩ := lexAll_fixed b2 (no_numbers b3) (by intro c hc; rw [b4] at hc; exact Or.inr (Option.some.inj hc).symm)
  refine ⟨j + 3 + k, fun m r => ?_⟩
  have e : headerStart ++ dateText d ++ headerEnd ++ r =
      headerStart.dropLast ++ ('\'' :: dateText d ++ '\'' :: (',' :: '\n' :: (headerEnd.drop 3 ++ r))) := by
    conv_lhs => rw [a1, b1]
    simp
  rw [e, show m + (j + 3 + k) = m + j + 1 + 1 + 1 + k by omega, hk, lexAll_str (date_chars d) (by simp),
    lexAll_one (by decide) (by decide) (by decide) rfl, lexAll_line, hj]
  simp [headerSyms, Option.map_map, Function.comp_def]

theorem footer_lex : lexAll 6 "ENDSEC;\nEND-ISO-10303-21;\n".toList = some footerSyms := by decide +kernel

/-- **C120**: a file that was written consists of the header, the instances and the footer. Every instance appears as its number, its keyword and its
attributes in order; coordinates, knots and weights have six significant digits. -/
theorem C120_file (d : DateTime) (s : Surface ℚ) (text : List Char) (h : writeStepFile true d s = .ok text)
    (hw : ∀ i < s.su, ∀ j < s.sv, (cell s.cpts i j).w ≠ 0) :
    ∃ lines yss, stepFile s = .ok lines ∧ List.Forall₂ LineSays lines yss ∧ Lexes text (headerSyms (dateText d) ++ yss.flatten ++ footerSyms) := by
  rw [writeStepFile, if_pos rfl] at h
  obtain ⟨lines, e, h⟩ := res_bind h
  have := Res.ok.inj h
  subst this
  have hok : AllOk lines := by
    obtain ⟨⟨w, id⟩, e', h'⟩ := res_bind e
    have := Res.ok.inj h'
    subst this
    refine surface_ok (w := ⟨10, []⟩) (by intro l hl; simp at hl) e' fun flat hf p hp => ?_
    unfold Surface.flat at hf
    split at hf
    · cases hf
    · have := Res.ok.inj hf
      subst this
      simp only [List.mem_flatMap, List.mem_range, List.mem_map] at hp
      obtain ⟨i, hi, j, hj, rfl⟩ := hp
      exact hw i hi j hj
  obtain ⟨yss, k, h1, h2⟩ := lines_lex lines hok
  obtain ⟨j, hj⟩ := header_lex d
  refine ⟨lines, yss, e, h1, 6 + k + j, ?_⟩
  have e' : fileText d lines = headerStart ++ dateText d ++ headerEnd ++ (lines.flatMap lineText ++ "ENDSEC;\nEND-ISO-10303-21;\n".toList) := by
    simp only [fileText, List.append_assoc]
  rw [e', hj, h2, footer_lex]
  simp

/-- **C120**: the text of an exported curve, from any first number on. -/
theorem C120_curve (n : Nat) (c : Curve ℚ) : ∃ yss, List.Forall₂ LineSays (curveToStep c ⟨n, []⟩).1.lines yss ∧
    Lexes ((curveToStep c ⟨n, []⟩).1.lines.flatMap lineText) yss.flatten := by
  obtain ⟨yss, k, h1, h2⟩ := lines_lex _ (curve_ok (w := ⟨n, []⟩) (by intro l hl; simp at hl) c)
  refine ⟨yss, h1, 0 + k, ?_⟩
  have := h2 0 []
  rw [List.append_nil] at this
  rw [this]
  simp [lexAll]

/-- **C120**: the time in the header. -/
theorem C120_time (d : DateTime) (h : d.month < 100 ∧ d.day < 100 ∧ d.hour < 100 ∧ d.minute < 100 ∧ d.second < 100) :
    IsTime (dateText d) d.year d.month d.day d.hour d.minute d.second := by
  refine ⟨decimal d.year, padded 2 d.month, padded 2 d.day, padded 2 d.hour, padded 2 d.minute, padded 2 d.second, ?_, ?_, ?_⟩
  · unfold dateText
    rw [show "+0000".toList = ['+', '0', '0', '0', '0'] by decide +kernel]
  · have k : ∀ n, n < 100 → (∀ c ∈ padded 2 n, isDig c) ∧ digitsValue (padded 2 n) = n := fun n hn =>
      ⟨padded_dig 2 n, by rw [padded_value]; exact Nat.mod_eq_of_lt hn⟩
    simp only [List.forall_mem_cons, List.not_mem_nil, IsEmpty.forall_iff, implies_true, and_true]
    exact ⟨⟨decimal_dig _, decimal_value _⟩, k _ h.1, k _ h.2.1, k _ h.2.2.1, k _ h.2.2.2.1, k _ h.2.2.2.2⟩
  · simp [padded_length]

/-- **C120**: a file that cannot be opened is reported by an exception, and any other failure comes from the export itself. -/
theorem C120_not_opened (d : DateTime) (s : Surface ℚ) : writeStepFile false d s = .throws ∧
    ∀ lines, stepFile s = .ok lines → ∃ text, writeStepFile true d s = .ok text := by
  refine ⟨rfl, fun lines h => ?_⟩
  rw [writeStepFile, if_pos rfl, h]
  exact ⟨_, rfl⟩

/-- **C120**: a control point with weight zero makes the file unreadable. -/
theorem C120_zero_weight_counterexample (d : DateTime) (s : Surface ℚ) (text : List Char) (h : writeStepFile true d s = .ok text)
    (hw : ∃ i < s.su, ∃ j < s.sv, (cell s.cpts i j).w = 0) : ¬ ∃ l, Lexes text l := by
  rw [writeStepFile, if_pos rfl] at h
  obtain ⟨lines, e, h⟩ := res_bind h
  have := Res.ok.inj h
  subst this
  obtain ⟨⟨w, id⟩, e', h'⟩ := res_bind e
  have := Res.ok.inj h'
  subst this
  obtain ⟨flat, bs, ps, e1, -, -, -, -, -, rfl⟩ := surface_parts e'
  have hz : ∃ p ∈ flat, p.w = 0 := by
    unfold Surface.flat at e1
    split at e1
    · cases e1
    · have := Res.ok.inj e1
      subst this
      obtain ⟨i, hi, j, hj, h0⟩ := hw
      exact ⟨_, List.mem_flatMap.mpr ⟨i, List.mem_range.mpr hi, List.mem_map.mpr ⟨j, List.mem_range.mpr hj, rfl⟩⟩, h0⟩
  -- the first point with weight zero
  have split : ∀ l : List (Vec4 ℚ), (∃ p ∈ l, p.w = 0) → ∃ a p b, l = a ++ p :: b ∧ (∀ q ∈ a, q.w ≠ 0) ∧ p.w = 0 := by
    intro l
    induction l with
    | nil => simp
    | cons q l ih =>
      rintro ⟨p, hp, h0⟩
      by_cases hq : q.w = 0
      · exact ⟨[], q, l, rfl, by simp, hq⟩
      · rcases List.mem_cons.mp hp with rfl | hp
        · exact absurd h0 hq
        · obtain ⟨a, p', b, rfl, h1, h2⟩ := ih ⟨p, hp, h0⟩
          exact ⟨q :: a, p', b, rfl, by simpa [hq] using h1, h2⟩
  obtain ⟨a, p, b, rfl, ha, hp⟩ := split flat hz
  obtain ⟨wa, hwa⟩ : ∃ wa, wa = putGrid (⟨10, []⟩ : Out ℚ) a := ⟨_, rfl⟩
  have hok : AllOk wa.lines := by
    rw [hwa]
    exact foldPut_ok a (fun v hv => by simp [Spaced, Ends, lits, nanDiv, ha v hv]) (by intro l hl; simp at hl)
  obtain ⟨t, ht⟩ : ∃ t, (wa.put .cartesianPoint (pointBody (nanDiv p.x p.w) (nanDiv p.y p.w) (nanDiv p.z p.w))).lines ++ t = (putTail id
      (putEdges (putVertices ps (putCurves bs (putSurface s (a ++ p :: b) ⟨10, []⟩)).1).2 (putCurves bs (putSurface s (a ++ p :: b) ⟨10, []⟩)).2 4 0
        (putVertices ps (putCurves bs (putSurface s (a ++ p :: b) ⟨10, []⟩)).1).1).2
      (putEdges (putVertices ps (putCurves bs (putSurface s (a ++ p :: b) ⟨10, []⟩)).1).2 (putCurves bs (putSurface s (a ++ p :: b) ⟨10, []⟩)).2 4 0
        (putVertices ps (putCurves bs (putSurface s (a ++ p :: b) ⟨10, []⟩)).1).1).1).lines := by
    refine List.IsPrefix.trans ?_ ((putCurves_prefix _ _).trans ((putVertices_prefix _ _).trans ((putEdges_prefix _ _ _ _ _).trans (putTail_prefix _ _ _))))
    refine List.IsPrefix.trans ?_ (List.prefix_append _ _)
    rw [putGrid, List.foldl_append, List.foldl_cons]
    subst hwa
    exact foldPut_prefix _ _ b _
  rintro ⟨l, n, hl⟩
  rw [← ht] at hl
  obtain ⟨yss, k, -, h2⟩ := lines_lex _ hok
  obtain ⟨j, hj⟩ := header_lex d
  have hl' := lexAll_le (Nat.le_add_right n (k + j)) hl
  have e2 : fileText d ((wa.put .cartesianPoint (pointBody (nanDiv p.x p.w) (nanDiv p.y p.w) (nanDiv p.z p.w))).lines ++ t) =
      headerStart ++ dateText d ++ headerEnd ++ (wa.lines.flatMap lineText ++
        (lineText ⟨wa.next, .cartesianPoint, pointBody (nanDiv p.x p.w) (nanDiv p.y p.w) (nanDiv p.z p.w)⟩ ++
          (t.flatMap lineText ++ "ENDSEC;\nEND-ISO-10303-21;\n".toList))) := by
    simp only [fileText, Out.put, List.flatMap_append, List.flatMap_cons, List.flatMap_nil, List.append_assoc, List.append_nil]
  rw [e2, ← Nat.add_assoc, hj, h2, nan_stuck _ _ _ _ (by simp [nanDiv, hp])] at hl'
  simp at hl'

theorem body_list {A : Type} (kw : Kw) (f : A → Tok ℚ) (g : A → List Char) (h : ∀ a r, bodyText kw (f a :: r) = g a ++ bodyText kw r)
    (hc : ∀ a r, commaText kw (f a :: r) = [',', ' ']) :
    ∀ (l : List A) (r : List (Tok ℚ)), bodyText kw (sepBy (l.map fun a => [f a]) ++ r) = joined (l.map g) ++ bodyText kw r
  | [], r => by simp [sepBy, joined]
  | [a], r => by simp [sepBy, joined, h]
  | a :: b :: l, r => by
    have ih := body_list kw f g h hc (b :: l) r
    have e : ∃ u, sepBy ((b :: l).map fun a => [f a]) ++ r = f b :: u := by
      rcases l with _ | ⟨c, l⟩
      · exact ⟨_, rfl⟩
      · exact ⟨_, rfl⟩
    obtain ⟨u, e⟩ := e
    simp only [List.map_cons, sepBy, joined] at ih e ⊢
    rw [List.append_assoc, List.singleton_append, h, List.cons_append, bodyText, ih, e, hc]
    simp

/-- **C120**: knots and multiplicities are written as `vectorToString` writes them. -/
theorem C120_vectors (kw : Kw) (xs : List ℚ) (ns : List Nat) : bodyText kw (paren (xs.map fun x => [.num (some x)])) = vectorText xs ∧
    bodyText kw (paren (ns.map fun n => [.int n])) = countsText ns := by
  constructor
  · rw [paren, List.cons_append, bodyText, body_list kw _ streamText (fun _ _ => by rw [bodyText, tokText]; simp) (fun _ _ => by rw [commaText]; simp)]
    · rfl
    · simp
  · rw [paren, List.cons_append, bodyText, body_list kw _ decimal (fun _ _ => by rw [bodyText, tokText]; simp) (fun _ _ => by rw [commaText]; simp)]
    · rfl
    · simp

/-- A patch of one rational square. -/
example : ∃ text, writeStepFile true ⟨2024, 11, 5, 2, 15, 59⟩ patch = .ok text := by
  obtain ⟨lines, h, -⟩ := file_of (s := patch) (fun l => l.length = 54) (by decide +kernel)
  exact (C120_not_opened _ _).2 lines h

example : ∀ i < patch.su, ∀ j < patch.sv, (cell patch.cpts i j).w ≠ 0 := by decide +kernel

/-- The patch with one weight zero. -/
def flatWeight : Surface ℚ := { patch with cpts := patch.cpts.map fun r => r.map fun p => if p.x = 0 then { p with w := 0 } else p }

example : (∃ lines, stepFile flatWeight = .ok lines ∧ lines.length = 54) ∧ ∃ i < flatWeight.su, ∃ j < flatWeight.sv, (cell flatWeight.cpts i j).w = 0 := by
  refine ⟨file_of _ (by decide +kernel), by decide +kernel⟩

/-- **C120**: some lines of a bilinear patch, character by character. -/
theorem C120_patch_text : ∃ lines, stepFile patch = .ok lines ∧ (lines.take 1 ++ (lines.drop 4).take 1 ++ (lines.drop 7).take 1 ++ lines.drop 42).map lineText =
    ["#10 = CARTESIAN_POINT('', (0, 0, 0));\n",
      "#14 = RATIONAL_B_SPLINE_SURFACE_WITH_KNOTS('', 1, 1, ((#10, #11), (#12, #13)), .UNSPECIFIED., .F., .F., .F., (2, 2), (0, 1), (2, 2), (0, 1), .UNSPECIFIED., ((1, 1), (1, 1)));\n",
      "#17 = RATIONAL_B_SPLINE_CURVE_WITH_KNOTS('', 1, (#15, #16), .UNSPECIFIED., .F., .F., (2, 2), (0, 1), .UNSPECIFIED., (1, 1));\n",
      "#52 = PRESENTATION_STYLE_ASSIGNMENT((#51));\n",
      "#53 = PRESENTATION_LAYER_ASSIGNMENT('Default','', (#51));\n",
      "#54 = PRODUCT('Document','Document','', (#53));\n",
      "#55 = PRODUCT_DEFINITION_CONTEXT('3D Mechanical Parts', #57, 'design');\n",
      "#56 = PRODUCT_DEFINITION('A','First version', #58, #55);\n",
      "#57 = PRODUCT_DEFINITION_FORMATION_WITH_SPECIFIED_SOURCE('A', 'First version', #59, .MADE.);\n",
      "#58 = PRODUCT_RELATED_PRODUCT_CATEGORY('tool','tool', (#57);\n",
      "#59 = APPLICATION_PROTOCOL_DEFINITION('Draft International Standard', 'automotive_design', 1999, #61);\n",
      "#60 = APPLICATION_CONTEXT('data for automotive mechanical design processes');\n",
      "#61 = PRODUCT_CONTEXT('3D Mechanical Parts', #60, 'mechanical');\n",
      "#62 = PRODUCT('Document','Document','', (#61));\n",
      "#63 = SHAPE_REPRESENTATION_RELATIONSHIP('', '', #50, #62);\n"].map String.toList := by
  exact file_of _ (by decide +kernel)

example : String.ofList (dateText ⟨2024, 11, 5, 2, 15, 59⟩) = "2024-11-05T02:15:59+0000" := by decide +kernel

end Cmm.Step
