import Verif.Lemmas.Text
/-!
C115: printed points, boxes and trees. C116: the stream operators. C117: numbers in exported text.
-/
namespace Cmm.Text
open Cmm.BVH (Obj)

/-! ### Points and boxes -/

/-- Each coordinate is the nearest multiple of a hundredth. -/
def NearPoint (v w : Vec3 ℚ) : Prop := NearestDecimal 2 v.x w.x ∧ NearestDecimal 2 v.y w.y ∧ NearestDecimal 2 v.z w.z

/-- Each corner, rounded to hundredths. -/
def NearBox (b c : AABB ℚ) : Prop := NearPoint b.min c.min ∧ NearPoint b.max c.max

theorem stops_of {c : Char} {r : List Char} (h : isDig c = false ∧ c ≠ '.' ∧ c ≠ 'e') : Stops (c :: r) := by
  intro d hd; simp only [List.head?_cons, Option.mem_def, Option.some.injEq] at hd; subst hd; exact h

/-- C115. A point printed by `format_vec3` is read back with each coordinate rounded to the nearest hundredth, and the reading ends where the text ends. -/
theorem C115_point (v : Vec3 ℚ) (r : List Char) : ∃ w, readPoint (formatVec3 v ++ r) = some (w, r) ∧ NearPoint v w := by
  refine ⟨⟨fixedValue 2 v.x, fixedValue 2 v.y, fixedValue 2 v.z⟩, ?_, fixedValue_nearest _ _, fixedValue_nearest _ _, fixedValue_nearest _ _⟩
  have hc : ∀ r, Stops (',' :: r) := fun r => stops_of (by decide)
  have hb : ∀ r, Stops (']' :: r) := fun r => stops_of (by decide)
  simp only [formatVec3, List.cons_append, List.append_assoc, List.nil_append, readPoint, readChar, if_true, Option.bind_eq_bind, Option.bind_some,
    fixed_read (by decide : 1 ≤ 2) _ (hc _), fixed_read (by decide : 1 ≤ 2) _ (hb _)]

theorem fixedValue_tie {x : ℚ} {n : Nat} (h : |x| * 200 = 2 * n + 1) : ∃ m : ℤ, fixedValue 2 x = 2 * m / 100 := by
  have e : |x| * 10 ^ 2 = n + 1 / 2 := by linarith
  have f : ⌊(n + 1 / 2 : ℚ)⌋₊ = n := by
    rw [Nat.floor_eq_iff (by positivity)]
    constructor <;> linarith
  have r : ∃ m : Nat, roundEven (|x| * 10 ^ 2) = 2 * m := by
    rw [e, roundEven]
    simp only [f]
    rw [if_neg (by linarith), if_neg (by linarith)]
    split
    · exact ⟨n / 2, by omega⟩
    · exact ⟨(n + 1) / 2, by omega⟩
  obtain ⟨m, hm⟩ := r
  unfold fixedValue
  rw [hm]
  split
  · exact ⟨-m, by push_cast; ring⟩
  · exact ⟨m, by push_cast; ring⟩

/-- C115. A coordinate halfway between two hundredths is printed as the one with an even last digit. -/
theorem C115_tie (v w : Vec3 ℚ) (r : List Char) (h : readPoint (formatVec3 v ++ r) = some (w, r)) (axis : Nat) (k : ℤ)
    (ht : v.coord axis * 200 = 2 * k + 1) : ∃ m : ℤ, w.coord axis = 2 * m / 100 := by
  have hc : ∀ r, Stops (',' :: r) := fun r => stops_of (by decide)
  have hb : ∀ r, Stops (']' :: r) := fun r => stops_of (by decide)
  simp only [formatVec3, List.cons_append, List.append_assoc, List.nil_append, readPoint, readChar, if_true, Option.bind_eq_bind, Option.bind_some,
    fixed_read (by decide : 1 ≤ 2) _ (hc _), fixed_read (by decide : 1 ≤ 2) _ (hb _), Option.some.injEq, Prod.mk.injEq, and_true] at h
  have hw : w.coord axis = fixedValue 2 (v.coord axis) := by
    rw [← h]
    rcases axis with _ | _ | n <;> rfl
  rw [hw]
  rcases le_or_gt 0 k with hk | hk
  · obtain ⟨n, rfl⟩ := Int.eq_ofNat_of_zero_le hk
    refine fixedValue_tie (n := n) ?_
    have : 0 ≤ v.coord axis := by push_cast at ht; nlinarith [(Nat.cast_nonneg n : (0 : ℚ) ≤ n)]
    rw [abs_of_nonneg this]
    exact_mod_cast ht
  · obtain ⟨n, hn⟩ := Int.eq_ofNat_of_zero_le (show 0 ≤ -k - 1 by omega)
    have e : k = -(n : ℤ) - 1 := by omega
    refine fixedValue_tie (n := n) ?_
    have hq : (k : ℚ) = -(n : ℚ) - 1 := by rw [e]; push_cast; ring
    rw [hq] at ht
    have : v.coord axis < 0 := by nlinarith [(Nat.cast_nonneg n : (0 : ℚ) ≤ n)]
    rw [abs_of_neg this]
    linarith

example : formatVec3 ⟨1 / 8, 3 / 8, -1 / 200⟩ = "[0.12,0.38,-0.00]".toList ∧ (1 / 8 : ℚ) * 200 = 2 * 12 + 1 := by decide +kernel

/-- C115. The same for a box printed by `output_aabb`. -/
theorem C115_box (b : AABB ℚ) (r : List Char) : ∃ c, readBox (outputAabb b ++ r) = some (c, r) ∧ NearBox b c := by
  obtain ⟨w, h1, h2⟩ := C115_point b.min (',' :: (formatVec3 b.max ++ (']' :: r)))
  obtain ⟨w', h3, h4⟩ := C115_point b.max (']' :: r)
  refine ⟨⟨w, w'⟩, ?_, h2, h4⟩
  simp only [outputAabb, List.cons_append, List.append_assoc, List.nil_append, readBox, readChar, if_true, Option.bind_eq_bind, Option.bind_some, h1, h3]

theorem readItems_succ {β : Type} (item : List Char → Option (β × List Char)) (n : Nat) {c : Char} {s : List Char} (h : c ≠ ']') :
    readItems item (n + 1) (c :: s) = (do
      let (a, s) ← item (c :: s)
      let s ← readChar ',' s
      let (l, s) ← readItems item n s
      some (a :: l, s)) := by
  rw [readItems]
  intro t e
  injection e with e _
  exact h e

theorem items_read {α β : Type} (item : List Char → Option (β × List Char)) (print : α → List Char) (R : α → β → Prop) (l : List α)
    (h : ∀ a ∈ l, ∀ r, (∃ b, item (print a ++ r) = some (b, r) ∧ R a b)) (h0 : ∀ a ∈ l, ∀ r, (print a ++ r).head? ≠ some ']') (r : List Char) :
    ∃ bs, readItems item l.length (l.flatMap (fun a => print a ++ [',']) ++ (']' :: r)) = some (bs, r) ∧ List.Forall₂ R l bs := by
  induction l with
  | nil => exact ⟨[], by simp [readItems], .nil⟩
  | cons a l ih =>
    obtain ⟨bs, e, hf⟩ := ih (fun b hb => h b (List.mem_cons_of_mem _ hb)) (fun b hb => h0 b (List.mem_cons_of_mem _ hb))
    obtain ⟨b, e1, hr⟩ := h a List.mem_cons_self (',' :: (l.flatMap (fun a => print a ++ [',']) ++ (']' :: r)))
    refine ⟨b :: bs, ?_, .cons hr hf⟩
    have hne := h0 a List.mem_cons_self (',' :: (l.flatMap (fun a => print a ++ [',']) ++ (']' :: r)))
    rw [List.flatMap_cons, List.length_cons, List.append_assoc, List.append_assoc, List.singleton_append]
    rcases hs : print a ++ (',' :: (l.flatMap (fun a => print a ++ [',']) ++ (']' :: r))) with _ | ⟨c, s⟩
    · rw [hs] at e1 
      simp at hs
    · have hc : c ≠ ']' := by rw [hs] at hne; simpa using hne
      rw [hs] at e1
      rw [readItems_succ item _ hc]
      simp only [e1, Option.bind_eq_bind, Option.bind_some, readChar, if_true, e]

/-- C115. A list printed by `format_vec3vec` is read back in order, rounded to hundredths, if every point is followed by a comma. -/
theorem C115_points (vs : List (Vec3 ℚ)) (r : List Char) : ∃ s ws, formatVec3vec vs ++ r = '[' :: s ∧
    readItems readPoint vs.length s = some (ws, r) ∧ List.Forall₂ NearPoint vs ws := by
  obtain ⟨ws, h1, h2⟩ := items_read readPoint formatVec3 NearPoint vs (fun v _ r => C115_point v r) (fun v _ r => by simp [formatVec3]) r
  exact ⟨_, ws, by simp only [formatVec3vec, List.cons_append, List.append_assoc, List.nil_append], h1, h2⟩

/-- C115. A list printed by `output_objects3d` (without null pointers) is read back in order: the boxes, rounded to hundredths. -/
theorem C115_objects (os : List (Obj ℚ)) (r : List Char) : ∃ s bs, outputObjects (os.map some) ++ r = '[' :: s ∧
    readItems readBox os.length s = some (bs, r) ∧ List.Forall₂ (fun o b => NearBox o.bb b) os bs := by
  obtain ⟨bs, h1, h2⟩ := items_read readBox (fun o : Obj ℚ => outputAabb o.bb) (fun o b => NearBox o.bb b) os (fun o _ r => C115_box o.bb r)
    (fun o _ r => by simp [outputAabb]) r
  refine ⟨_, bs, ?_, h1, h2⟩
  simp only [outputObjects, List.flatMap_map, outputObject, List.cons_append, List.append_assoc, List.nil_append]

/-- C115. Every printed list of points that is not empty ends with a comma before the bracket, and so does every list of objects; a null pointer leaves nothing
but the comma. -/
theorem C115_comma (vs : List (Vec3 ℚ)) (h : vs ≠ []) (os : List (Option (Obj ℚ))) (h' : os ≠ []) :
    (∃ t, formatVec3vec vs = t ++ [',', ']']) ∧ (∃ t, outputObjects os = t ++ [',', ']']) ∧ outputObjects [none] = ['[', ',', ']'] := by
  refine ⟨?_, ?_, rfl⟩
  · obtain ⟨l, v, rfl⟩ := (List.eq_nil_or_concat vs).resolve_left h
    exact ⟨'[' :: (l.flatMap (fun v => formatVec3 v ++ [',']) ++ formatVec3 v), by
      simp [formatVec3vec, List.flatMap_append]⟩
  · obtain ⟨l, o, rfl⟩ := (List.eq_nil_or_concat os).resolve_left h'
    exact ⟨'[' :: (l.flatMap (fun o => outputObject o ++ [',']) ++ outputObject o), by
      simp [outputObjects, List.flatMap_append]⟩

/-! ### Trees -/

/-- The tree read has the shape of the printed one and its boxes, rounded to hundredths. In the printed one every node has two children or none. -/
inductive SameBoxes : Cmm.BVH.Tree ℚ → Boxes → Prop
  | leaf {bb o b} : NearBox bb b → SameBoxes (.node bb o .nil .nil) (.leaf b)
  | fork {bb o l r b bl br} : NearBox bb b → SameBoxes l bl → SameBoxes r br → SameBoxes (.node bb o l r) (.fork b bl br)

/-- Every node has two children or none. -/
def Full : Cmm.BVH.Tree ℚ → Prop
  | .nil => False
  | .node _ _ .nil .nil => True
  | .node _ _ l r => Full l ∧ Full r

/-- The number of nodes. -/
def nodes : Cmm.BVH.Tree ℚ → Nat
  | .nil => 0
  | .node _ _ l r => nodes l + nodes r + 1

theorem full_node {bb : AABB ℚ} {o : Option (Obj ℚ)} {l r : Cmm.BVH.Tree ℚ} (h : Full (.node bb o l r)) :
    (l = .nil ∧ r = .nil) ∨ (Full l ∧ Full r ∧ l.isNil = false ∧ r.isNil = false) := by
  cases l with
  | nil =>
    cases r with
    | nil => exact .inl ⟨rfl, rfl⟩
    | node => exact absurd h.1 (by simp [Full])
  | node =>
    cases r with
    | nil => exact absurd h.2 (by simp [Full])
    | node => exact .inr ⟨h.1, h.2, rfl, rfl⟩

theorem outputNodes_start {t : Cmm.BVH.Tree ℚ} (h : Full t) : ∃ s, outputNodes t = '[' :: '[' :: s ∧ ∃ c s', s = c :: s' ∧ c ≠ '[' := by
  cases t with
  | nil => exact absurd h (by simp [Full])
  | node bb o l r =>
    have hf : ∀ x, ∃ c s', fixedText 2 x = c :: s' ∧ c ≠ '[' := by
      intro x
      rcases hs : fixedText 2 x with _ | ⟨c, s'⟩
      · unfold fixedText at hs; simp at hs
      · refine ⟨c, s', rfl, ?_⟩
        rintro rfl
        have := fixed_read (by decide : 1 ≤ 2) x (r := []) (by intro c hc; simp at hc)
        rw [hs] at this
        have hd : isDig '[' = false := by decide
        simp [readNumber, readUnsigned, hd] at this
    obtain ⟨c, s', h1, h2⟩ := hf bb.min.x
    unfold outputNodes
    simp only [formatVec3, List.cons_append, h1]
    exact ⟨_, rfl, c, _, rfl, h2⟩

/-- C115. The text of `output_bvh_nodes` of a tree in which every node has two children or none determines the shape of the tree and the boxes, rounded to
hundredths. -/
theorem C115_tree_partial (t : Cmm.BVH.Tree ℚ) (h : Full t) (n : Nat) (hn : nodes t ≤ n) (r : List Char) (hr : ∀ s, r ≠ ',' :: '[' :: '[' :: '[' :: s) :
    ∃ b, readBoxes n (outputNodes t ++ r) = some (b, r) ∧ SameBoxes t b := by
  induction t generalizing n r with
  | nil => exact absurd h (by simp [Full])
  | node bb o l q ihl ihr =>
    obtain ⟨m, rfl⟩ : ∃ m, n = m + 1 := ⟨n - 1, by simp only [nodes] at hn; omega⟩
    rcases full_node h with ⟨rfl, rfl⟩ | ⟨fl, fr, nl, nr⟩
    · obtain ⟨c, h1, h2⟩ := C115_box bb r
      refine ⟨.leaf c, ?_, .leaf h2⟩
      have e : outputNodes (.node bb o .nil .nil) = outputAabb bb := by simp [outputNodes, outputAabb, Cmm.BVH.Tree.isNil]
      rw [e]
      unfold readBoxes
      simp only [h1, Option.bind_eq_bind, Option.bind_some]
    · obtain ⟨sl, e1, c1, s1, -, -⟩ := outputNodes_start fl
      obtain ⟨sr, e2, c2, s2, e3, hc2⟩ := outputNodes_start fr
      have et : outputNodes (.node bb o l q) ++ r = outputAabb bb ++ (',' :: '[' :: (outputNodes l ++ (',' :: (outputNodes q ++ (']' :: r))))) := by
        rw [outputNodes, nl, nr]
        simp [outputAabb]
      obtain ⟨c, h1, h2⟩ := C115_box bb (',' :: '[' :: (outputNodes l ++ (',' :: (outputNodes q ++ (']' :: r)))))
      simp only [nodes] at hn
      obtain ⟨bl, h3, h4⟩ := ihl fl m (by omega) (',' :: (outputNodes q ++ (']' :: r))) (by
        intro s e
        rw [e2, e3] at e
        simp only [List.cons_append, List.cons.injEq, true_and] at e
        exact hc2 e.1)
      obtain ⟨br, h5, h6⟩ := ihr fr m (by omega) (']' :: r) (by intro s e; simp at e)
      refine ⟨.fork c bl br, ?_, .fork h2 h4 h6⟩
      rw [et]
      unfold readBoxes
      rw [e1, List.cons_append, List.cons_append] at h1 h3 ⊢
      simp only [h1, h3, h5, Option.bind_eq_bind, Option.bind_some, readChar, if_true]

/-- C115. A node with a left child only and a node with a right child only are printed alike. -/
theorem C115_one_child_counterexample (bb : AABB ℚ) (o : Option (Obj ℚ)) (t : Cmm.BVH.Tree ℚ) :
    outputNodes (.node bb o t .nil) = outputNodes (.node bb o .nil t) := by
  cases t <;> simp [outputNodes, Cmm.BVH.Tree.isNil]

/-- C115. The text of a node with one child begins with the box, rounded to hundredths, and goes on with the text of the child in brackets. -/
theorem C115_one_child_partial (bb : AABB ℚ) (o : Option (Obj ℚ)) (t : Cmm.BVH.Tree ℚ) (h : t ≠ .nil) (r : List Char) :
    ∃ b, readBox (outputNodes (.node bb o t .nil) ++ r) = some (b, ',' :: '[' :: (outputNodes t ++ (']' :: r))) ∧ NearBox bb b := by
  have e : outputNodes (.node bb o t .nil) ++ r = outputAabb bb ++ (',' :: '[' :: (outputNodes t ++ (']' :: r))) := by
    cases t with
    | nil => exact absurd rfl h
    | node => simp [outputNodes, outputAabb, Cmm.BVH.Tree.isNil]
  rw [e]
  exact C115_box bb _

example : Full (.node ⟨⟨0, 0, 0⟩, ⟨1, 1, 1⟩⟩ none (.node ⟨⟨0, 0, 0⟩, ⟨1 / 3, 1, 1⟩⟩ none .nil .nil) (.node ⟨⟨1 / 2, 0, 0⟩, ⟨1, 1, 1⟩⟩ none .nil .nil)) ∧
    outputNodes (.node ⟨⟨0, 0, 0⟩, ⟨1, 1, 1⟩⟩ none (.node ⟨⟨0, 0, 0⟩, ⟨1 / 3, 1, 1⟩⟩ none .nil .nil) (.node ⟨⟨1 / 2, 0, 0⟩, ⟨1, 1, 1⟩⟩ none .nil .nil)) =
      "[[0.00,0.00,0.00],[1.00,1.00,1.00]],[[[0.00,0.00,0.00],[0.33,1.00,1.00]],[[0.50,0.00,0.00],[1.00,1.00,1.00]]]".toList :=
  ⟨⟨trivial, trivial⟩, by decide +kernel⟩

/-! ### Stream operators -/

/-- The two numbers agree to six significant digits. -/
def SixDigits (x v : ℚ) : Prop := |v - x| ≤ 5 / 10 ^ 6 * |x| ∧ (HasDigits 6 x → v = x)

theorem general_six (x : ℚ) : SixDigits x (generalValue 6 x) := by
  refine ⟨?_, generalValue_exact (by decide)⟩
  have h := generalValue_near (p := 6) (by decide) x
  rwa [show (1 / 2 * (10 : ℚ) ^ (1 - (6 : ℕ) : ℤ)) = 5 / 10 ^ 6 by norm_num] at h

/-- C116. A printed `vec2` is read back to six significant digits. -/
theorem C116_vec2_partial (x y : ℚ) (r : List Char) : ∃ s vx s' vy, putVec2 x y ++ r = '[' :: s ∧ readNumber s = some (vx, ',' :: s') ∧
    readNumber s' = some (vy, ']' :: r) ∧ SixDigits x vx ∧ SixDigits y vy := by
  refine ⟨_, generalValue 6 x, _, generalValue 6 y, by simp only [putVec2, streamText, List.cons_append, List.append_assoc, List.nil_append],
    general_read (by decide) _ (stops_of (by decide)), general_read (by decide) _ (stops_of (by decide)), general_six x, general_six y⟩

/-- The characters of a printed number. -/
def NumChar (c : Char) : Prop := isDig c = true ∨ c = '-' ∨ c = '.' ∨ c = 'e' ∨ c = '+'

theorem fraction_chars {fp : List Char} (h : AllDig fp) : ∀ c ∈ fraction fp, isDig c = true ∨ c = '.' := by
  obtain ⟨gp, g1, -, g3, -, -⟩ := fraction_spec fp h
  rw [g3]
  by_cases hg : gp = []
  · rw [if_pos hg]; intro c hc; simp at hc
  · rw [if_neg hg]
    intro c hc
    rcases List.mem_cons.mp hc with rfl | hc
    · exact .inr rfl
    · exact .inl (g1 c hc)

theorem sign_chars (x : ℚ) : ∀ c ∈ signText x, c = '-' := by
  unfold signText
  split <;> simp

theorem zeros_dig (n : Nat) : AllDig (List.replicate n '0') := by
  intro c hc; rw [List.mem_replicate] at hc; rw [hc.2]; decide

theorem general_chars (p : Nat) (x : ℚ) : ∀ c ∈ generalText p x, NumChar c := by
  have hs : ∀ c ∈ signText x, NumChar c := fun c hc => .inr (.inl (sign_chars x c hc))
  have hd : ∀ {l : List Char}, AllDig l → ∀ c ∈ l, NumChar c := fun h c hc => .inl (h c hc)
  have hf : ∀ {l : List Char}, AllDig l → ∀ c ∈ fraction l, NumChar c := by
    intro l h c hc
    rcases fraction_chars h c hc with h | h
    · exact .inl h
    · exact .inr (.inr (.inl h))
  have he : ∀ e, ∀ c ∈ exponentText e, NumChar c := by
    intro e c hc
    unfold exponentText at hc
    rcases List.mem_cons.mp hc with rfl | hc
    · exact .inr (.inr (.inr (.inl rfl)))
    rcases List.mem_cons.mp hc with rfl | hc
    · split
      · exact .inr (.inl rfl)
      · exact .inr (.inr (.inr (.inr rfl)))
    split at hc
    · rcases List.mem_cons.mp hc with rfl | hc
      · exact .inl (by decide)
      · exact .inl (decimal_dig _ c hc)
    · exact .inl (decimal_dig _ c hc)
  unfold generalText
  intro c hc
  split at hc
  · rw [List.mem_singleton] at hc; subst hc; exact .inl (by decide)
  dsimp only at hc
  split at hc
  · split at hc
    · rcases List.mem_append.mp hc with hc | hc
      · rcases List.mem_append.mp hc with hc | hc
        · exact hs c hc
        · exact hd (decimal_dig _) c hc
      · exact hf (padded_dig _ _) c hc
    · rcases List.mem_append.mp hc with hc | hc
      · exact hs c hc
      · rcases List.mem_cons.mp hc with rfl | hc
        · exact .inl (by decide)
        · exact hf ((zeros_dig _).append (padded_dig _ _)) c hc
  · rcases List.mem_append.mp hc with hc | hc
    · rcases List.mem_append.mp hc with hc | hc
      · rcases List.mem_append.mp hc with hc | hc
        · exact hs c hc
        · exact hd (decimal_dig _) c hc
      · exact hf (padded_dig _ _) c hc
    · exact he _ c hc

theorem no_comma (p : Nat) (x : ℚ) : (generalText p x).count ',' = 0 := by
  rw [List.count_eq_zero]
  intro h
  rcases general_chars p x _ h with h | h | h | h | h <;> revert h <;> decide

theorem readUnsigned_suffix {s r : List Char} {v : ℚ} (h : readUnsigned s = some (v, r)) : r <:+ s := by
  unfold readUnsigned at h
  split at h
  · cases h
  · split at h
    · rename_i q hq
      split at h
      · cases h
      · simp only [Option.some.injEq, Prod.mk.injEq] at h
        rw [← h.2]
        have h1 : q <:+ s := ((List.suffix_cons '.' q).trans (hq ▸ List.dropWhile_suffix _))
        exact (List.dropWhile_suffix _).trans h1
    · simp only [Option.some.injEq, Prod.mk.injEq] at h
      rw [← h.2]
      exact List.dropWhile_suffix _

theorem readExponent_suffix (v : ℚ) (s : List Char) : (readExponent (v, s)).2 <:+ s := by
  unfold readExponent
  split
  · rename_i e
    rw [Prod.mk.injEq] at e
    rw [e.2]
    exact (List.dropWhile_suffix _).trans ((List.suffix_cons _ _).trans (List.suffix_cons _ _))
  · rename_i e
    rw [Prod.mk.injEq] at e
    rw [e.2]
    exact (List.dropWhile_suffix _).trans ((List.suffix_cons _ _).trans (List.suffix_cons _ _))
  · exact List.suffix_refl _

theorem readNumber_suffix {s r : List Char} {v : ℚ} (h : readNumber s = some (v, r)) : r <:+ s := by
  unfold readNumber at h
  split at h
  · rename_i q
    rcases hu : readUnsigned q with _ | ⟨w, t⟩
    · rw [hu] at h; cases h
    · rw [hu] at h
      simp only [Option.map_some, Option.some.injEq, Prod.mk.injEq] at h
      rw [← h.2]
      exact (readExponent_suffix w t).trans ((readUnsigned_suffix hu).trans (List.suffix_cons _ _))
  · rcases hu : readUnsigned s with _ | ⟨w, t⟩
    · rw [hu] at h; cases h
    · rw [hu] at h
      simp only [Option.map_some, Option.some.injEq] at h
      have := readExponent_suffix w t
      rw [h] at this
      exact this.trans (readUnsigned_suffix hu)

theorem readChar_eq {c : Char} {s r : List Char} (h : readChar c s = some r) : s = c :: r := by
  unfold readChar at h
  split at h
  · split at h
    · rename_i e
      simp only [Option.some.injEq] at h
      rw [e, h]
    · cases h
  · cases h

/-- A point that is read has two commas. -/
theorem readPoint_commas {s r : List Char} {w : Vec3 ℚ} (h : readPoint s = some (w, r)) : 2 ≤ s.count ',' := by
  unfold readPoint at h
  simp only [Option.bind_eq_bind, Option.bind_eq_some_iff] at h
  obtain ⟨s1, h1, ⟨x, s2⟩, h2, s3, h3, ⟨y, s4⟩, h4, s5, h5, -⟩ := h
  have e1 := readChar_eq h1
  have e2 := (readNumber_suffix h2).sublist.count_le ','
  have e3 := readChar_eq h3
  have e4 := (readNumber_suffix h4).sublist.count_le ','
  have e5 := readChar_eq h5
  subst e1 e3 e5
  simp only [List.count_cons] at e2 e4 ⊢
  simp at e2 e4 ⊢
  omega

/-- C116. What `operator<<` writes for a `vec3` never reads as a point: the comma before the last number is missing. -/
theorem C116_vec3_counterexample (v : Vec3 ℚ) : readPoint (putVec3 v) = none := by
  rcases h : readPoint (putVec3 v) with _ | ⟨w, r⟩
  · rfl
  · have := readPoint_commas h
    simp only [putVec3, streamText, List.cons_append, List.count_cons, List.count_append, no_comma] at this
    simp at this

/-- C116. Different points are written alike. -/
theorem C116_ambiguous_counterexample : putVec3 ⟨1, 2, 34⟩ = putVec3 ⟨1, 23, 4⟩ ∧ putVec4 1 2 3 45 = putVec4 1 23 4 5 ∧
    putVec3 ⟨1, 2, 34⟩ = "[1,234]".toList ∧ putVec4 1 2 3 45 = "[1,2345]".toList := by decide +kernel

/-- C116. The number before the comma can be read. -/
theorem C116_first_partial (v : Vec3 ℚ) (w : ℚ) : ∃ s v1 s', putVec3 v = '[' :: s ∧ readNumber s = some (v1, ',' :: s') ∧ SixDigits v.x v1 ∧
    ∃ t v2 t', putVec4 v.x v.y v.z w = '[' :: t ∧ readNumber t = some (v2, ',' :: t') ∧ SixDigits v.x v2 := by
  refine ⟨generalText 6 v.x ++ (',' :: (generalText 6 v.y ++ (generalText 6 v.z ++ [']']))), _, _,
    by simp only [putVec3, streamText, List.cons_append, List.append_assoc], general_read (by decide) _ (stops_of (by decide)), general_six _,
    generalText 6 v.x ++ (',' :: (generalText 6 v.y ++ (generalText 6 v.z ++ (generalText 6 w ++ [']'])))), _, _,
    by simp only [putVec4, streamText, List.cons_append, List.append_assoc], general_read (by decide) _ (stops_of (by decide)), general_six _⟩

/-! ### Numbers in exported text -/

/-- C117. Every number on an unchanged stream (coordinates, knots and weights of the STEP export) is read back with a relative error of at most
5e-6, and exactly if it has six significant digits. -/
theorem C117_stream_partial (x : ℚ) : ∃ v, readNumber (streamText x) = some (v, []) ∧ SixDigits x v := by
  have := general_read (p := 6) (by decide) x (r := []) (by intro c hc; simp at hc)
  rw [List.append_nil] at this
  exact ⟨_, this, general_six x⟩

/-- C117. `formatReal` keeps fifteen significant digits. -/
theorem C117_format_real_partial (x : ℚ) : ∃ v, readNumber (formatReal x) = some (v, []) ∧ |v - x| ≤ 5 / 10 ^ 15 * |x| ∧ (HasDigits 15 x → v = x) := by
  have := general_read (p := 15) (by decide) x (r := []) (by intro c hc; simp at hc)
  rw [List.append_nil] at this
  refine ⟨_, this, ?_, generalValue_exact (by decide)⟩
  have h := generalValue_near (p := 15) (by decide) x
  rwa [show (1 / 2 * (10 : ℚ) ^ (1 - (15 : ℕ) : ℤ)) = 5 / 10 ^ 15 by norm_num] at h

/-- C117. A vector of numbers is read back in order, to six significant digits. -/
theorem C117_vector_partial (xs : List ℚ) (r : List Char) : ∃ s vs, vectorText xs ++ r = '(' :: s ∧ readList xs.length s = some (vs, r) ∧
    List.Forall₂ SixDigits xs vs := by
  refine ⟨joined (xs.map streamText) ++ (')' :: r), xs.map (generalValue 6), by simp [vectorText], ?_, ?_⟩
  · rcases xs with _ | ⟨x, xs⟩
    · rfl
    induction xs generalizing x with
    | nil =>
      have := general_read (p := 6) (by decide) x (r := ')' :: r) (stops_of (by decide))
      simp only [List.map_cons, List.map_nil, joined, streamText, List.length_singleton, readList, this, Option.bind_eq_bind, Option.bind_some, readChar,
        if_true, Option.map_some]
      rfl
    | cons y ys ih =>
      have h1 := general_read (p := 6) (by decide) x (r := ',' :: ' ' :: (joined ((y :: ys).map streamText) ++ (')' :: r))) (stops_of (by decide))
      have h2 := ih y
      simp only [List.map_cons, List.length_cons] at h1 h2 ⊢
      rw [joined, readList, List.append_assoc, List.cons_append, List.cons_append, streamText, h1]
      simp only [Option.bind_eq_bind, Option.bind_some, h2]
  · induction xs with
    | nil => exact .nil
    | cons x xs ih => exact .cons (general_six x) ih

/-- C117. Different coordinates are exported alike, and also with `formatReal`. -/
theorem C117_precision_counterexample : streamText 1234567 = streamText 1234568 ∧ streamText 1234567 = "1.23457e+06".toList ∧
    formatReal (1 + 1 / 2 ^ 52) = formatReal 1 := by decide +kernel

theorem stepReal_chars {t : List Char} (h : IsStepReal t) : '.' ∈ t ∧ 'e' ∉ t := by
  obtain ⟨sg, w, f, e, rfl, hs, -, hw, hf, he⟩ := h
  refine ⟨by simp, ?_⟩
  have hd : ∀ {l : List Char}, (∀ c ∈ l, isDig c = true) → 'e' ∉ l := fun h hm => absurd (h _ hm) (by decide)
  have hs' : 'e' ∉ sg := by rcases hs with rfl | rfl | rfl <;> decide
  have he' : 'e' ∉ e := by
    rcases he with rfl | ⟨es, ed, rfl, h1, -, h2⟩
    · simp
    · have h3 : 'e' ∉ es := by rcases h1 with rfl | rfl | rfl <;> decide
      simp [h3, hd h2]
  simp [hs', hd hw, hd hf, he']

theorem fraction_nil_iff {fp : List Char} (h : AllDig fp) : fraction fp = [] ↔ digitsValue fp = 0 := by
  obtain ⟨gp, -, -, g3, g4, g5⟩ := fraction_spec fp h
  rw [g3]
  constructor
  · intro e
    by_cases hg : gp = []
    · rw [g4, hg]; simp [digitsValue]
    · rw [if_neg hg] at e; cases e
  · intro e
    rw [if_pos (g5 e)]

/-- Sign, whole digits and a fraction that is not empty are a REAL token. -/
theorem stepReal_of {x : ℚ} {ip fp : List Char} (h1 : AllDig ip) (h0 : ip ≠ []) (h2 : AllDig fp) (hf : digitsValue fp ≠ 0) :
    IsStepReal (signText x ++ ip ++ fraction fp) := by
  obtain ⟨gp, g1, -, g3, -, -⟩ := fraction_spec fp h2
  have hg : gp ≠ [] := by
    intro hg
    rw [if_pos hg] at g3
    exact hf ((fraction_nil_iff h2).mp g3)
  rw [g3, if_neg hg]
  refine ⟨signText x, ip, gp, [], by simp, ?_, h0, h1, g1, .inl rfl⟩
  unfold signText
  split
  · exact .inr (.inr rfl)
  · exact .inl rfl

theorem not_real_of {t : List Char} (h : ∀ c ∈ t, c ≠ '.') : ¬ IsStepReal t := fun hr => h _ (stepReal_chars hr).1 rfl

theorem whole_chars {x : ℚ} {ip : List Char} (h : AllDig ip) : ∀ c ∈ signText x ++ ip, c ≠ '.' := by
  intro c hc
  rcases List.mem_append.mp hc with hc | hc
  · rw [sign_chars x c hc]; decide
  · rintro rfl; exact absurd (h _ hc) (by decide)

/-- C117. An exported number is a REAL token of the exchange format exactly if the number that is read from it lies between 1e-4 and 1e6 in size and is
not a whole number. -/
theorem C117_real_iff (x : ℚ) : ∃ v, readNumber (streamText x) = some (v, []) ∧
    (IsStepReal (streamText x) ↔ 1 / 10 ^ 4 ≤ |v| ∧ |v| < 10 ^ 6 ∧ ∀ z : ℤ, v ≠ z) := by
  have hrd := general_read (p := 6) (by decide) x (r := []) (by intro c hc; simp at hc)
  rw [List.append_nil] at hrd
  refine ⟨_, hrd, ?_⟩
  unfold streamText generalText generalValue
  by_cases hx : x = 0
  · rw [if_pos hx, if_pos hx]
    constructor
    · intro h; exact absurd h (not_real_of (by decide))
    · intro h; exact absurd h.1 (by norm_num)
  rw [if_neg hx, if_neg hx]
  obtain ⟨s1, s2, -, -⟩ := significant_spec (p := 6) (by decide) hx
  dsimp only
  generalize significant 6 x = s at s1 s2
  obtain ⟨m, e⟩ := s
  dsimp only at s1 s2 ⊢
  have hm1 : (10 : ℚ) ^ (5 : ℤ) ≤ m := by exact_mod_cast s1
  have hm2 : (m : ℚ) < (10 : ℚ) ^ (6 : ℤ) := by exact_mod_cast s2
  obtain ⟨v, hv⟩ : ∃ v : ℚ, v = (m : ℚ) * (10 : ℚ) ^ (e - (((6 : ℕ) : ℤ) - 1)) := ⟨_, rfl⟩
  rw [← hv]
  have hv0 : 0 < v := by
    rw [hv]
    have : (0 : ℚ) < m := lt_of_lt_of_le (by positivity) hm1
    positivity
  have habs : |if x < 0 then -v else v| = v := by
    split
    · rw [abs_neg, abs_of_pos hv0]
    · exact abs_of_pos hv0
  rw [habs]
  have hlo : (10 : ℚ) ^ e ≤ v := by
    have h := mul_le_mul_of_nonneg_right hm1 (by positivity : (0 : ℚ) ≤ (10 : ℚ) ^ (e - (((6 : ℕ) : ℤ) - 1)))
    rw [← zpow_add₀ (by norm_num), ← hv] at h
    rwa [show (5 : ℤ) + (e - (((6 : ℕ) : ℤ) - 1)) = e by push_cast; ring] at h
  have hhi : v < (10 : ℚ) ^ (e + 1) := by
    have h := mul_lt_mul_of_pos_right hm2 (by positivity : (0 : ℚ) < (10 : ℚ) ^ (e - (((6 : ℕ) : ℤ) - 1)))
    rw [← zpow_add₀ (by norm_num), ← hv] at h
    rwa [show (6 : ℤ) + (e - (((6 : ℕ) : ℤ) - 1)) = e + 1 by push_cast; ring] at h
  have hint : (∀ z : ℤ, (if x < 0 then -v else v) ≠ z) ↔ ∀ z : ℤ, v ≠ z := by
    split
    · constructor
      · intro h z hz; exact h (-z) (by rw [hz]; push_cast; ring)
      · intro h z hz; exact h (-z) (by rw [show v = -(-v) by ring, hz]; push_cast; ring)
    · exact Iff.rfl
  rw [hint]
  by_cases hr4 : -4 ≤ e ∧ e < ((6 : ℕ) : ℤ)
  · rw [if_pos hr4]
    have hlow : (1 / 10 ^ 4 : ℚ) ≤ v := by
      refine le_trans ?_ hlo
      rw [show (1 / 10 ^ 4 : ℚ) = (10 : ℚ) ^ (-4 : ℤ) by norm_num]
      exact zpow_le_zpow_right₀ (by norm_num) hr4.1
    have hhigh : v < 10 ^ 6 := by
      refine lt_of_lt_of_le hhi ?_
      rw [show (10 ^ 6 : ℚ) = (10 : ℚ) ^ (6 : ℤ) by norm_num]
      exact zpow_le_zpow_right₀ (by norm_num) (by have := hr4.2; push_cast at this; omega)
    by_cases he : 0 ≤ e
    · rw [if_pos he]
      have hq : v = (m : ℚ) / 10 ^ (6 - 1 - e.toNat) := by
        rw [hv, div_eq_mul_inv, ← zpow_natCast, ← zpow_neg]
        congr 2
        have := hr4.2; push_cast at this; omega
      by_cases h0 : m % 10 ^ (6 - 1 - e.toNat) = 0
      · have hf : fraction (padded (6 - 1 - e.toNat) (m % 10 ^ (6 - 1 - e.toNat))) = [] := by
          rw [fraction_nil_iff (padded_dig _ _), padded_value, Nat.mod_mod, h0]
        rw [hf, List.append_nil]
        constructor
        · intro h; exact absurd h (not_real_of (whole_chars (decimal_dig _)))
        · intro h
          obtain ⟨k, hk⟩ := Nat.dvd_of_mod_eq_zero h0
          refine absurd ?_ (h.2.2 (k : ℤ))
          rw [hq, div_eq_iff (by positivity)]
          have : (m : ℚ) = ((10 ^ (6 - 1 - e.toNat) * k : Nat) : ℚ) := by exact_mod_cast hk
          rw [this]; push_cast; ring
      · constructor
        · intro _
          refine ⟨hlow, hhigh, ?_⟩
          intro z hz
          apply h0
          rw [hq, div_eq_iff (by positivity)] at hz
          have hz' : (m : ℤ) = z * 10 ^ (6 - 1 - e.toNat) := by exact_mod_cast hz
          have : (10 ^ (6 - 1 - e.toNat) : ℤ) ∣ (m : ℤ) := ⟨z, by rw [hz']; ring⟩
          exact Nat.mod_eq_zero_of_dvd (by exact_mod_cast this)
        · intro _
          exact stepReal_of (decimal_dig _) (decimal_ne _) (padded_dig _ _) (by rwa [padded_value, Nat.mod_mod])
    · rw [if_neg he]
      constructor
      · intro _
        refine ⟨hlow, hhigh, ?_⟩
        intro z hz
        have hv1 : v < 1 := lt_of_lt_of_le hhi (zpow_le_one_of_nonpos₀ (by norm_num) (by omega))
        rw [hz] at hv0 hv1
        have h1 : (0 : ℤ) < z := by exact_mod_cast hv0
        have h2 : z < (1 : ℤ) := by exact_mod_cast hv1
        omega
      · intro _
        have hd0 : AllDig ['0'] := by intro c hc; simp at hc; subst hc; decide
        have := stepReal_of (x := x) (ip := ['0']) (fp := List.replicate (e.natAbs - 1) '0' ++ padded 6 m) hd0 (by simp)
          ((zeros_dig _).append (padded_dig _ _)) (by
            rw [digitsValue_append, padded_value, Nat.mod_eq_of_lt s2]
            have : 10 ^ 5 ≤ m := s1
            intro h; omega)
        simpa using this
  · rw [if_neg hr4]
    constructor
    · intro h
      refine absurd ?_ (stepReal_chars h).2
      apply List.mem_append_right
      unfold exponentText
      exact List.mem_cons_self
    · rintro ⟨h1, h2, -⟩
      exfalso
      rcases not_and_or.mp hr4 with h | h
      · have : (10 : ℚ) ^ (e + 1) ≤ (10 : ℚ) ^ (-4 : ℤ) := zpow_le_zpow_right₀ (by norm_num) (by omega)
        rw [show (10 : ℚ) ^ (-4 : ℤ) = 1 / 10 ^ 4 by norm_num] at this
        linarith
      · have : (10 : ℚ) ^ (6 : ℤ) ≤ (10 : ℚ) ^ e := zpow_le_zpow_right₀ (by norm_num) (by push_cast at h; omega)
        rw [show (10 : ℚ) ^ (6 : ℤ) = 10 ^ 6 by norm_num] at this
        linarith

/-- C117. No whole number below a million is exported as a REAL token, and no number of a million or more. -/
theorem C117_whole_counterexample (z : ℤ) (x : ℚ) (hx : 10 ^ 6 ≤ |x|) : (|z| < 10 ^ 6 → ¬ IsStepReal (streamText z)) ∧ ¬ IsStepReal (streamText x) := by
  refine ⟨fun hz h => ?_, fun h => ?_⟩
  · obtain ⟨v, h1, h2⟩ := C117_real_iff z
    obtain ⟨v', h3, -, h4⟩ := C117_stream_partial z
    rw [h1] at h3
    simp only [Option.some.injEq, Prod.mk.injEq, and_true] at h3
    exact (h2.mp h).2.2 z (h3.trans (h4 ⟨z, 0, hz, by simp⟩))
  · obtain ⟨v, h1, h2⟩ := C117_real_iff x
    have hrd := general_read (p := 6) (by decide) x (r := []) (by intro c hc; simp at hc)
    rw [List.append_nil] at hrd
    rw [streamText, hrd] at h1
    simp only [Option.some.injEq, Prod.mk.injEq, and_true] at h1
    have hv := (h2.mp h).2.1
    have hx0 : x ≠ 0 := by rintro rfl; norm_num at hx
    have hlog : (6 : ℤ) ≤ Int.log 10 |x| := by
      rw [← Int.zpow_le_iff_le_log (by decide) (abs_pos.mpr hx0)]
      exact_mod_cast hx
    obtain ⟨s1, -, -, -⟩ := significant_spec (p := 6) (by decide) hx0
    have he : (6 : ℤ) ≤ (significant 6 x).2 := by
      unfold significant
      dsimp only
      split
      · dsimp only; omega
      · exact hlog
    have hval : |v| = ((significant 6 x).1 : ℚ) * (10 : ℚ) ^ ((significant 6 x).2 - (((6 : ℕ) : ℤ) - 1)) := by
      rw [← h1, generalValue, if_neg hx0]
      have : (0 : ℚ) ≤ ((significant 6 x).1 : ℚ) * (10 : ℚ) ^ ((significant 6 x).2 - (((6 : ℕ) : ℤ) - 1)) := by positivity
      split
      · rw [abs_neg, abs_of_nonneg this]
      · rw [abs_of_nonneg this]
    have h5 : (10 : ℚ) ^ (5 : ℤ) ≤ ((significant 6 x).1 : ℚ) := by exact_mod_cast s1
    have h6 : (10 : ℚ) ^ (1 : ℤ) ≤ (10 : ℚ) ^ ((significant 6 x).2 - (((6 : ℕ) : ℤ) - 1)) :=
      zpow_le_zpow_right₀ (by norm_num) (by push_cast; omega)
    have h7 := mul_le_mul h5 h6 (by positivity) (by positivity)
    rw [← hval] at h7
    norm_num at h7 hv
    linarith

example : IsStepReal (streamText (-1 / 3)) ∧ streamText (-1 / 3) = "-0.333333".toList ∧ HasDigits 6 (123456 / 1000) := by
  refine ⟨⟨['-'], ['0'], "333333".toList, [], by decide +kernel, .inr (.inr rfl), by decide, by decide, by decide, .inl rfl⟩, by decide +kernel,
    ⟨123456, -3, by norm_num, by norm_num⟩⟩

end Cmm.Text
