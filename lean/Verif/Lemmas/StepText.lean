import Verif.Model.StepText
import Verif.Spec.StepText
import Verif.Lemmas.Step
import Verif.Props.Text
import Mathlib.Data.List.TakeWhile
/-!
Lemmas about the characters of the STEP export.
-/
namespace Cmm.Step
open Cmm.Text

/-! ### Steps of the reader -/

theorem lexAll_blank (n : Nat) (s : List Char) : lexAll (n + 1) (' ' :: s) = lexAll n s := by
  simp [lexAll, lexStep]

theorem lexAll_line (n : Nat) (s : List Char) : lexAll (n + 1) ('\n' :: s) = lexAll n s := by
  simp [lexAll, lexStep]

theorem lexStep_sym {c : Char} {s : List Char} (h1 : c ≠ ' ') (h2 : c ≠ '\n') (h3 : c ≠ '/') :
    lexStep (c :: s) = (lexOne (c :: s)).map fun p => (some p.1, p.2) := by
  rw [lexStep] <;> simp_all

theorem lexAll_one {c : Char} {s r : List Char} {y : Sym} (h1 : c ≠ ' ') (h2 : c ≠ '\n') (h3 : c ≠ '/') (h : lexOne (c :: s) = some (y, r)) (n : Nat) :
    lexAll (n + 1) (c :: s) = (lexAll n r).map (y :: ·) := by
  rw [lexAll, lexStep_sym h1 h2 h3, h]; rfl

theorem lexAll_none {c : Char} {s : List Char} (h1 : c ≠ ' ') (h2 : c ≠ '\n') (h3 : c ≠ '/') (h : lexOne (c :: s) = none) (n : Nat) :
    lexAll n (c :: s) = none := by
  rcases n with _ | n
  · rfl
  · rw [lexAll, lexStep_sym h1 h2 h3, h]; rfl

theorem lexAll_mono {n : Nat} {s : List Char} {l : List Sym} (h : lexAll n s = some l) : lexAll (n + 1) s = some l := by
  induction n generalizing s l with
  | zero =>
    rcases s with _ | ⟨c, s⟩
    · simpa [lexAll] using h
    · simp [lexAll] at h
  | succ n ih =>
    rcases s with _ | ⟨c, s⟩
    · simpa [lexAll] using h
    rw [lexAll] at h ⊢
    rcases hs : lexStep (c :: s) with _ | p
    · rw [hs] at h; simp at h
    rw [hs] at h
    rw [Option.bind_some] at h ⊢
    rcases hl : lexAll n p.2 with _ | l'
    · rw [hl] at h; simp at h
    · rw [hl] at h; rw [ih hl]; exact h

theorem lexAll_le {n m : Nat} (hnm : n ≤ m) {s : List Char} {l : List Sym} (h : lexAll n s = some l) : lexAll m s = some l := by
  obtain ⟨k, rfl⟩ := Nat.exists_eq_add_of_le hnm
  induction k with
  | zero => exact h
  | succ k ih => exact lexAll_mono (ih (by omega))

/-! ### Symbols -/

theorem lexOne_atom {c : Char} {s : List Char} (h : isDig c = true ∨ c = '-' ∨ isUp c = true) : lexOne (c :: s) = readAtom (c :: s) := by
  have key : ∀ d ∈ ['(', ')', ',', ';', '=', '#', '\'', '.'], c ≠ d := by
    rintro d hd rfl
    revert h; revert c; decide
  simp only [List.forall_mem_cons, List.not_mem_nil, IsEmpty.forall_iff, implies_true, and_true] at key
  obtain ⟨k1, k2, k3, k4, k5, k6, k7, k8⟩ := key
  unfold lexOne
  split <;> first | rfl | (rename_i e; injection e with e _; contradiction)

theorem atom_blank {c : Char} (h : isDig c = true ∨ c = '-' ∨ isUp c = true) : c ≠ ' ' ∧ c ≠ '\n' ∧ c ≠ '/' := by
  refine ⟨?_, ?_, ?_⟩ <;> rintro rfl <;> revert h <;> decide

/-- A number at the beginning. -/
theorem lexAll_number {t r : List Char} {v : ℚ} (h : readNumber (t ++ r) = some (v, r)) (ht : ∃ c ∈ t.head?, isDig c = true ∨ c = '-') (n : Nat) :
    lexAll (n + 1) (t ++ r) = (lexAll n r).map (.number v :: ·) := by
  obtain ⟨c, hc, hd⟩ := ht
  rcases t with _ | ⟨d, t⟩
  · simp at hc
  simp only [List.head?_cons, Option.mem_def, Option.some.injEq] at hc
  subst hc
  have hd' : isDig d = true ∨ d = '-' ∨ isUp d = true := by tauto
  have hu : isUp d = false := by
    rcases hd with hd | rfl
    · simp only [isDig, Bool.and_eq_true, decide_eq_true_eq] at hd
      simp only [isUp, Bool.and_eq_false_iff, decide_eq_false_iff_not]
      left
      intro h
      have h1 : 65 ≤ d.toNat := h
      have h2 : d.toNat ≤ 57 := hd.2
      omega
    · decide
  obtain ⟨h1, h2, h3⟩ := atom_blank hd'
  refine lexAll_one h1 h2 h3 ?_ n
  rw [lexOne_atom hd', readAtom]
  rw [List.cons_append] at h
  rw [if_neg (by simp [hu]), readReal]
  show Option.map _ (match readNumber (d :: (t ++ r)) with | some p => some p | none => _) = _
  rw [h]; rfl

theorem readNumber_head {s r : List Char} {v : ℚ} (h : readNumber s = some (v, r)) : ∃ c ∈ s.head?, isDig c = true ∨ c = '-' := by
  have key : ∀ {s : List Char}, readUnsigned s ≠ none → ∃ c ∈ s.head?, isDig c = true := by
    intro s hs
    rcases s with _ | ⟨c, s⟩
    · exact absurd (by simp [readUnsigned]) hs
    by_cases hc : isDig c = true
    · exact ⟨c, rfl, hc⟩
    · exact absurd (by simp [readUnsigned, hc]) hs
  unfold readNumber at h
  split at h
  · exact ⟨'-', rfl, Or.inr rfl⟩
  · obtain ⟨c, h1, h2⟩ := key (s := s) (by intro e; rw [e] at h; simp at h)
    exact ⟨c, h1, Or.inl h2⟩

theorem stream_head (x : ℚ) : ∃ c ∈ (streamText x).head?, isDig c = true ∨ c = '-' := by
  have := general_read (p := 6) (by decide) x (r := []) (by intro c hc; simp at hc)
  rw [List.append_nil] at this
  exact readNumber_head this

theorem lexAll_stream (x : ℚ) {r : List Char} (hr : Stops r) (n : Nat) :
    lexAll (n + 1) (streamText x ++ r) = (lexAll n r).map (.number (generalValue 6 x) :: ·) :=
  lexAll_number (general_read (by decide) x hr) (stream_head x) n

theorem readNumber_decimal (k : Nat) {r : List Char} (hr : Stops r) : readNumber (decimal k ++ r) = some ((k : ℚ), r) := by
  have h := readUnsigned_spec (fp := []) (decimal_dig k) (decimal_ne k) (by intro c hc; simp at hc) hr.noDig fun c hc => (hr c hc).2.1
  have e := readNumber_sign (x := 0) (v := k) (t := decimal k ++ r) (r := r) (head_dig (decimal_dig k) (decimal_ne k)) (by
    have : fraction [] = [] := rfl
    rw [this, List.append_nil] at h
    rw [h, Option.map_some, readExponent_none hr, decimal_value]
    simp [digitsValue])
  simpa [signText] using e

theorem lexAll_int (k : Nat) {r : List Char} (hr : Stops r) (n : Nat) : lexAll (n + 1) (decimal k ++ r) = (lexAll n r).map (.number k :: ·) := by
  refine lexAll_number (readNumber_decimal k hr) ?_ n
  obtain ⟨c, h1, h2⟩ := head_dig (t := []) (decimal_dig k) (decimal_ne k)
  exact ⟨c, by simpa using h1, Or.inl h2⟩

theorem lexAll_ref (k : Nat) {r : List Char} (hr : NoDig r) (n : Nat) : lexAll (n + 1) ('#' :: decimal k ++ r) = (lexAll n r).map (.ref k :: ·) := by
  obtain ⟨e1, e2⟩ := take_digits (decimal_dig k) hr
  rw [List.cons_append]
  refine lexAll_one (by decide) (by decide) (by decide) ?_ n
  simp only [lexOne, e1, e2, decimal_ne, if_false, decimal_value]

theorem takeWhile_all {p : Char → Bool} {a r : List Char} (ha : ∀ c ∈ a, p c = true) (hr : ∀ c ∈ r.head?, p c = false) :
    (a ++ r).takeWhile p = a ∧ (a ++ r).dropWhile p = r := by
  induction a with
  | nil =>
    rcases r with _ | ⟨c, r⟩
    · simp
    · have : p c = false := hr c rfl
      simp [this]
  | cons c a ih =>
    obtain ⟨e1, e2⟩ := ih fun x hx => ha x (List.mem_cons_of_mem _ hx)
    simp only [List.cons_append, List.takeWhile_cons, List.dropWhile_cons, ha c List.mem_cons_self, if_true, e1, e2, and_self]

theorem lexAll_word {w r : List Char} (hw : ∀ c ∈ w, isWord c = true) (h0 : w.head?.any isUp = true) (hr : ∀ c ∈ r.head?, isWord c = false) (n : Nat) :
    lexAll (n + 1) (w ++ r) = (lexAll n r).map (.word w :: ·) := by
  obtain ⟨e1, e2⟩ := takeWhile_all hw hr
  rcases w with _ | ⟨c, w⟩
  · simp at h0
  have hu : isUp c = true := by simpa using h0
  obtain ⟨h1, h2, h3⟩ := atom_blank (Or.inr (Or.inr hu))
  rw [List.cons_append] at *
  refine lexAll_one h1 h2 h3 ?_ n
  rw [lexOne_atom (Or.inr (Or.inr hu)), readAtom, e1, e2]
  simp [hu]

theorem lexAll_str {t r : List Char} (ht : ∀ c ∈ t, c ≠ '\'') (hr : r.head? ≠ some '\'') (n : Nat) :
    lexAll (n + 1) ('\'' :: t ++ '\'' :: r) = (lexAll n r).map (.str t :: ·) := by
  obtain ⟨e1, e2⟩ := takeWhile_all (p := (· ≠ '\'')) (a := t) (r := '\'' :: r) (by simpa using ht) (by simp)
  rw [List.cons_append]
  refine lexAll_one (by decide) (by decide) (by decide) ?_ n
  show readString _ = _
  rw [readString, e1, e2]
  simp [hr]

theorem lexAll_enum {t r : List Char} (ht : ∀ c ∈ t, isWord c = true) (n : Nat) :
    lexAll (n + 1) ('.' :: t ++ '.' :: r) = (lexAll n r).map (.enum t :: ·) := by
  obtain ⟨e1, e2⟩ := takeWhile_all (p := isWord) (a := t) (r := '.' :: r) ht (by intro c hc; simp at hc; subst hc; decide)
  rw [List.cons_append]
  refine lexAll_one (by decide) (by decide) (by decide) ?_ n
  show readEnum _ = _
  rw [readEnum, e1, e2]
  rfl

/-! ### Instances -/

/-- The literals of the export. -/
def lits : List String := ["''", ".UNSPECIFIED.", ".F.", ".T.", "'shell_1'", "0.", ".BOTH.", "'Default'", "'Document'", "'3D Mechanical Parts'", "'design'",
  "'A'", "'First version'", ".MADE.", "'tool'", "'Draft International Standard'", "'automotive_design'",
  "'data for automotive mechanical design processes'", "'mechanical'"]

/-- The text goes on with a comma or a closing parenthesis. -/
def Bd (r : List Char) : Prop := ∃ s, r = ',' :: s ∨ r = ')' :: s

theorem Bd.stops {r : List Char} (h : Bd r) : Stops r := by
  obtain ⟨s, rfl | rfl⟩ := h
  · exact stops_of (by decide)
  · exact stops_of (by decide)

theorem Bd.quote {r : List Char} (h : Bd r) : r.head? ≠ some '\'' := by
  obtain ⟨s, rfl | rfl⟩ := h <;> simp

/-- The spelling of a literal. -/
def shape (s : String) : Bool :=
  match s.toList with
  | '\'' :: t => t.getLast? == some '\'' && t.dropLast.all (· ≠ '\'')
  | '.' :: t => t.getLast? == some '.' && t.dropLast.all isWord
  | _ => s == "0."

theorem lits_shape : ∀ s ∈ lits, shape s = true := by decide +kernel

theorem getLast_split {t : List Char} {c : Char} (h : t.getLast? = some c) : t = t.dropLast ++ [c] := by
  rcases List.eq_nil_or_concat t with rfl | ⟨a, b, rfl⟩
  · simp at h
  · simp at h; subst h; simp

theorem lexAll_lit {s : String} (h : s ∈ lits) : ∃ y, Says (.lit s) y ∧ ∀ (r : List Char), Bd r → ∀ n, lexAll (n + 1) (s.toList ++ r) =
    (lexAll n r).map (y :: ·) := by
  have hs := lits_shape s h
  unfold shape at hs
  split at hs
  · rename_i t e
    simp only [Bool.and_eq_true, beq_iff_eq, List.all_eq_true, decide_eq_true_eq] at hs
    have e' := getLast_split hs.1
    refine ⟨.str t.dropLast, Or.inl ⟨t.dropLast, by rw [e, List.cons_append, ← e'], rfl⟩, fun r hr n => ?_⟩
    rw [e]; conv_lhs => rw [e']
    rw [show '\'' :: (t.dropLast ++ ['\'']) ++ r = '\'' :: t.dropLast ++ '\'' :: r by simp]
    exact lexAll_str hs.2 hr.quote n
  · rename_i t e
    simp only [Bool.and_eq_true, beq_iff_eq, List.all_eq_true] at hs
    have e' := getLast_split hs.1
    refine ⟨.enum t.dropLast, Or.inr (Or.inl ⟨t.dropLast, by rw [e, List.cons_append, ← e'], rfl⟩), fun r hr n => ?_⟩
    rw [e]; conv_lhs => rw [e']
    rw [show '.' :: (t.dropLast ++ ['.']) ++ r = '.' :: t.dropLast ++ '.' :: r by simp]
    exact lexAll_enum hs.2 n
  · have hs' : s = "0." := by simpa using hs
    subst hs'
    refine ⟨.number 0, Or.inr (Or.inr ⟨rfl, rfl⟩), fun r hr n => ?_⟩
    have e : "0.".toList ++ r = '0' :: '.' :: r := by simp
    rw [e]
    refine lexAll_one (by decide) (by decide) (by decide) ?_ n
    rw [lexOne_atom (Or.inl (by decide)), readAtom, if_neg (by simp; decide), readReal]
    have hd : isDig '0' = true := by decide
    have hp : isDig '.' = false := by decide
    have hn : readNumber ('0' :: '.' :: r) = none := by
      obtain ⟨t, rfl | rfl⟩ := hr
      · simp [readNumber, readUnsigned, hd, hp, show isDig ',' = false by decide]
      · simp [readNumber, readUnsigned, hd, hp, show isDig ')' = false by decide]
    rw [hn]
    simp [hd, hp, digitsValue]

/-- The tokens go on with a comma or a closing parenthesis. -/
def Ends : List (Tok ℚ) → Prop
  | .comma :: _ => True
  | .rpar :: _ => True
  | _ => False

/-- Literals are known, numbers are finite, and every literal or number is followed by a comma or a closing parenthesis. -/
def Spaced : List (Tok ℚ) → Prop
  | [] => True
  | .lit s :: r => s ∈ lits ∧ Ends r ∧ Spaced r
  | .num x :: r => x ≠ none ∧ Ends r ∧ Spaced r
  | .int _ :: r => Ends r ∧ Spaced r
  | .ref _ :: r => Ends r ∧ Spaced r
  | .lpar :: r => Spaced r
  | .rpar :: r => Spaced r
  | .comma :: r => Spaced r

theorem Ends.bd {kw : Kw} {r : List (Tok ℚ)} (h : Ends r) (t : List Char) : Bd (bodyText kw r ++ t) := by
  unfold Ends at h
  split at h
  · rename_i r'
    rw [bodyText, commaText.eq_def]
    split
    · split <;> exact ⟨_, Or.inl rfl⟩
    · exact ⟨_, Or.inl rfl⟩
  · exact ⟨_, Or.inr rfl⟩
  · exact h.elim

theorem map_map_append (o : Option (List Sym)) (y : Sym) (ys : List Sym) :
    (o.map (ys ++ ·)).map (y :: ·) = o.map (y :: ys ++ ·) := by
  rw [Option.map_map]; rfl

theorem body_lex (kw : Kw) (b : List (Tok ℚ)) (h : Spaced b) : ∃ ys k, List.Forall₂ Says b ys ∧
    ∀ n r, lexAll (n + k) (bodyText kw b ++ r) = (lexAll n r).map (ys ++ ·) := by
  induction b with
  | nil => exact ⟨[], 0, .nil, fun n r => by simp [bodyText]⟩
  | cons t b ih =>
    have one : ∀ y, Says t y → (∀ n r, lexAll (n + 1) (bodyText kw (t :: b) ++ r) = (lexAll n (bodyText kw b ++ r)).map (y :: ·)) → Spaced b →
        ∃ ys k, List.Forall₂ Says (t :: b) ys ∧ ∀ n r, lexAll (n + k) (bodyText kw (t :: b) ++ r) = (lexAll n r).map (ys ++ ·) := by
      intro y hy hstep hb
      obtain ⟨ys, k, i1, i2⟩ := ih hb
      refine ⟨y :: ys, k + 1, .cons hy i1, fun n r => ?_⟩
      rw [← Nat.add_assoc, hstep, i2, map_map_append]
    cases t with
    | lit s =>
      obtain ⟨h1, h2, h3⟩ := h
      obtain ⟨y, e1, e2⟩ := lexAll_lit h1
      refine one y e1 (fun n r => ?_) h3
      rw [bodyText, tokText, List.append_assoc]
      · exact e2 _ (h2.bd r) n
      · simp
    | num x =>
      obtain ⟨h1, h2, h3⟩ := h
      obtain ⟨v, rfl⟩ := Option.ne_none_iff_exists'.mp h1
      refine one (.number (generalValue 6 v)) ⟨v, _, rfl, rfl, general_six v⟩ (fun n r => ?_) h3
      rw [bodyText, tokText, List.append_assoc]
      · exact lexAll_stream v (h2.bd r).stops n
      · simp
    | int k =>
      obtain ⟨h2, h3⟩ := h
      refine one (.number k) rfl (fun n r => ?_) h3
      rw [bodyText, tokText, List.append_assoc]
      · exact lexAll_int k (h2.bd r).stops n
      · simp
    | ref k =>
      obtain ⟨h2, h3⟩ := h
      refine one (.ref k) rfl (fun n r => ?_) h3
      rw [bodyText, tokText, List.append_assoc]
      · exact lexAll_ref k (h2.bd r).stops.noDig n
      · simp
    | lpar =>
      refine one .lpar rfl (fun n r => ?_) h
      rw [bodyText, tokText, List.append_assoc]
      · exact lexAll_one (by decide) (by decide) (by decide) rfl n
      · simp
    | rpar =>
      refine one .rpar rfl (fun n r => ?_) h
      rw [bodyText, tokText, List.append_assoc]
      · exact lexAll_one (by decide) (by decide) (by decide) rfl n
      · simp
    | comma =>
      obtain ⟨ys, k, i1, i2⟩ := ih h
      have hc : commaText kw b = [','] ∨ commaText kw b = [',', ' '] := by
        rw [commaText.eq_def]
        split
        · split <;> simp
        · simp
      rcases hc with hc | hc
      · refine one .comma rfl (fun n r => ?_) h
        rw [bodyText, hc, List.append_assoc]
        exact lexAll_one (by decide) (by decide) (by decide) rfl n
      · refine ⟨.comma :: ys, k + 1 + 1, .cons rfl i1, fun n r => ?_⟩
        rw [bodyText, hc, List.append_assoc, ← map_map_append, ← i2, ← Nat.add_assoc, ← Nat.add_assoc]
        show lexAll (n + k + 1 + 1) (',' :: ' ' :: _) = _
        rw [lexAll_one (by decide) (by decide) (by decide) rfl (n + k + 1), lexAll_blank]; rfl

/-- The tokens after the keyword begin with a parenthesis and are spaced. -/
def Ok (l : Line ℚ) : Prop := (∃ b, l.body = .lpar :: b) ∧ Spaced l.body

theorem kwText_word : ∀ kw : Kw, (∀ c ∈ (kwText kw).toList, isWord c = true) ∧ (kwText kw).toList.head?.any isUp = true ∧ (kw, kwText kw) ∈ keywords := by
  intro kw
  cases kw <;> decide +kernel

theorem line_lex (l : Line ℚ) (h : Ok l) : ∃ ys k, LineSays l ys ∧ ∀ n r, lexAll (n + k) (lineText l ++ r) = (lexAll n r).map (ys ++ ·) := by
  obtain ⟨⟨b, hb⟩, hs⟩ := h
  obtain ⟨bs, k, h1, h2⟩ := body_lex l.kw l.body hs
  obtain ⟨w1, w2, w3⟩ := kwText_word l.kw
  refine ⟨_, 2 + k + 5, ⟨kwText l.kw, bs, w3, h1, rfl⟩, fun n r => ?_⟩
  have e : lineText l ++ r = '#' :: decimal l.id ++ (' ' :: '=' :: ' ' :: ((kwText l.kw).toList ++ (bodyText l.kw l.body ++ ';' :: '\n' :: r))) := by
    have : " = ".toList = [' ', '=', ' '] := by decide
    simp [lineText, this]
  rw [e, show n + (2 + k + 5) = n + 2 + k + 4 + 1 by omega, lexAll_ref _ (by intro c hc; simp at hc; subst hc; decide),
    show n + 2 + k + 4 = n + 2 + k + 3 + 1 by omega, lexAll_blank, show n + 2 + k + 3 = n + 2 + k + 2 + 1 by omega,
    lexAll_one (by decide) (by decide) (by decide) rfl, show n + 2 + k + 2 = n + 2 + k + 1 + 1 by omega, lexAll_blank, lexAll_word w1 w2, h2,
    show n + 2 = n + 1 + 1 by omega, lexAll_one (by decide) (by decide) (by decide) rfl, lexAll_line]
  · simp [Option.map_map, Function.comp_def]
  · rw [hb, bodyText]
    · intro c hc
      simp [tokText] at hc; subst hc; decide
    · simp

theorem lines_lex (ls : List (Line ℚ)) (h : ∀ l ∈ ls, Ok l) : ∃ yss k, List.Forall₂ LineSays ls yss ∧
    ∀ n r, lexAll (n + k) (ls.flatMap lineText ++ r) = (lexAll n r).map (yss.flatten ++ ·) := by
  induction ls with
  | nil => exact ⟨[], 0, .nil, fun n r => by simp⟩
  | cons l ls ih =>
    obtain ⟨ys, k, h1, h2⟩ := line_lex l (h l List.mem_cons_self)
    obtain ⟨yss, j, h3, h4⟩ := ih fun x hx => h x (List.mem_cons_of_mem _ hx)
    refine ⟨ys :: yss, j + k, .cons h1 h3, fun n r => ?_⟩
    rw [List.flatMap_cons, List.append_assoc, ← Nat.add_assoc, h2, h4, Option.map_map]
    simp [Function.comp_def]

/-! ### Lists in parentheses -/

/-- Tokens that can stand before a comma or a closing parenthesis. -/
def Item (x : List (Tok ℚ)) : Prop := ∀ r, Ends r → Spaced r → Spaced (x ++ r)

theorem item_sepBy : ∀ l : List (List (Tok ℚ)), (∀ x ∈ l, Item x) → Item (sepBy l)
  | [], _ => fun _ _ h => h
  | [x], h => h x (by simp)
  | x :: y :: l, h => fun r he hs => by
    rw [sepBy, List.append_assoc]
    exact h x (by simp) _ trivial (item_sepBy (y :: l) (fun z hz => h z (List.mem_cons_of_mem _ hz)) r he hs)

theorem spaced_paren {l : List (List (Tok ℚ))} (h : ∀ x ∈ l, Item x) {r : List (Tok ℚ)} (hr : Spaced r) : Spaced (paren l ++ r) := by
  rw [paren, List.append_assoc]
  exact item_sepBy l h _ trivial hr

theorem spaced_list {A : Type} (l : List A) (f : A → Tok ℚ) (h : ∀ a, Item [f a]) {r : List (Tok ℚ)} (hr : Spaced r) :
    Spaced (paren (l.map fun a => [f a]) ++ r) :=
  spaced_paren (fun x hx => by obtain ⟨a, -, rfl⟩ := List.mem_map.1 hx; exact h a) hr

theorem spaced_grid {A B : Type} (l : List A) (m : List B) (f : A → B → Tok ℚ) (h : ∀ a b, Item [f a b]) {r : List (Tok ℚ)} (hr : Spaced r) :
    Spaced (paren (l.map fun a => paren (m.map fun b => [f a b])) ++ r) :=
  spaced_paren (fun x hx => by obtain ⟨a, -, rfl⟩ := List.mem_map.1 hx; exact fun r' _ hr' => spaced_list m _ (h a) hr') hr

theorem item_ref (n : Nat) : Item [.ref n] := fun _ he hs => ⟨he, hs⟩
theorem item_int (n : Nat) : Item [.int n] := fun _ he hs => ⟨he, hs⟩
theorem item_num (x : ℚ) : Item [.num (some x)] := fun _ he hs => ⟨by simp, he, hs⟩

/-! ### The lines of an export -/

open Cmm.Nurbs Cmm.Geom

/-- All lines are readable. -/
def AllOk (lines : List (Line ℚ)) : Prop := ∀ l ∈ lines, Ok l

theorem AllOk.put {w : Out ℚ} (h : AllOk w.lines) {kw : Kw} {b : List (Tok ℚ)} (hb : Spaced b) : AllOk (w.put kw (.lpar :: b)).lines := by
  intro l hl
  simp only [Out.put, List.mem_append, List.mem_singleton] at hl
  rcases hl with hl | rfl
  · exact h l hl
  · exact ⟨⟨_, rfl⟩, hb⟩

theorem AllOk.put' {w : Out ℚ} (h : AllOk w.lines) {kw : Kw} {b : List (Tok ℚ)} (h1 : ∃ b', b = .lpar :: b') (hb : Spaced b) : AllOk (w.put kw b).lines := by
  obtain ⟨b', rfl⟩ := h1
  exact h.put hb

theorem foldPut_ok {V : Type} {kw : Kw} {body : V → List (Tok ℚ)} : ∀ (l : List V), (∀ v ∈ l, Spaced (body v)) → ∀ {w : Out ℚ},
    AllOk w.lines → AllOk (l.foldl (fun w v => w.put kw (.lpar :: body v)) w).lines
  | [], _, _, h => h
  | v :: l, hb, _, h => foldPut_ok l (fun x hx => hb x (List.mem_cons_of_mem _ hx)) (h.put (hb v List.mem_cons_self))

theorem curve_ok {w : Out ℚ} (h : AllOk w.lines) (c : Curve ℚ) : AllOk (curveToStep c w).1.lines := by
  unfold curveToStep
  dsimp only
  refine AllOk.put' (foldPut_ok _ (fun v _ => by simp [Spaced, Ends, lits]) h) (by simp [curveBody]) ?_
  simp only [curveBody, List.append_assoc, List.cons_append, List.nil_append]
  refine ⟨by simp [lits], trivial, trivial, spaced_list _ _ (fun _ => item_ref _) ⟨by simp [lits], trivial, by simp [lits], trivial, by simp [lits], trivial,
    spaced_list _ _ (fun _ => item_int _) (spaced_list _ _ (fun _ => item_num _) ⟨by simp [lits], trivial, spaced_list _ _ (fun _ => item_num _) trivial⟩)⟩⟩

theorem surf_ok {w : Out ℚ} (h : AllOk w.lines) (s : Surface ℚ) (flat : List (Vec4 ℚ)) (hw : ∀ p ∈ flat, p.w ≠ 0) : AllOk (putSurface s flat w).lines := by
  unfold putSurface
  dsimp only
  refine AllOk.put' (foldPut_ok _ (fun v hv => by simp [Spaced, Ends, lits, nanDiv, hw v hv]) h) (by simp [surfaceBody]) ?_
  simp only [surfaceBody, List.append_assoc, List.cons_append, List.nil_append]
  exact ⟨by simp [lits], trivial, trivial, trivial, spaced_grid _ _ _ (fun _ _ => item_ref _) ⟨by simp [lits], trivial, by simp [lits], trivial,
    by simp [lits], trivial, by simp [lits], trivial, spaced_list _ _ (fun _ => item_int _) (spaced_list _ _ (fun _ => item_num _)
    (spaced_list _ _ (fun _ => item_int _) (spaced_list _ _ (fun _ => item_num _) ⟨by simp [lits], trivial,
    spaced_grid _ _ _ (fun _ _ => item_num _) trivial⟩)))⟩⟩

theorem putCurves_ok : ∀ (cs : List (Curve ℚ)) {w : Out ℚ}, AllOk w.lines → AllOk (putCurves cs w).1.lines
  | [], _, h => h
  | c :: cs, _, h => putCurves_ok cs (curve_ok h c)

theorem putVertices_ok : ∀ (cs : List (Vec3 ℚ)) {w : Out ℚ}, AllOk w.lines → AllOk (putVertices cs w).1.lines
  | [], _, h => h
  | _ :: cs, _, h => putVertices_ok cs ((h.put (by simp [Spaced, Ends, lits])).put (by simp [Spaced, Ends, lits]))

theorem putEdges_ok (vs cs : List Nat) : ∀ (n i : Nat) {w : Out ℚ}, AllOk w.lines → AllOk (putEdges vs cs n i w).1.lines
  | 0, _, _, h => h
  | n + 1, i, _, h => putEdges_ok vs cs n (i + 1) (h.put (by simp [Spaced, Ends, lits]))

theorem putTail_ok (sid : Nat) (edges : List Nat) {w : Out ℚ} (h : AllOk w.lines) : AllOk (putTail sid edges w).lines := by
  have h0 := h.put (kw := .edgeLoop) (b := [.lit "''", .comma] ++ paren (edges.map fun i => [.ref i]) ++ [.rpar]) (by
    simp only [List.append_assoc, List.cons_append, List.nil_append]
    exact ⟨by simp [lits], trivial, spaced_list _ _ (fun _ => item_ref _) trivial⟩)
  unfold putTail
  dsimp only
  iterate 24 refine AllOk.put ?_ (by simp [Spaced, Ends, lits])
  exact h0

theorem surface_ok {w : Out ℚ} (h : AllOk w.lines) {s : Surface ℚ} {w' : Out ℚ} {id : Nat} (hr : surfaceToStep s w = .ok (w', id))
    (hw : ∀ flat, s.flat = .ok flat → ∀ p ∈ flat, p.w ≠ 0) : AllOk w'.lines := by
  obtain ⟨flat, bs, ps, e1, -, -, -, -, -, rfl⟩ := surface_parts hr
  exact putTail_ok _ _ (putEdges_ok _ _ _ _ (putVertices_ok _ (putCurves_ok _ (surf_ok h _ _ (hw flat e1)))))

/-! ### Fixed text -/

theorem cut_append {p : Char → Bool} {a : List Char} (h : a.dropWhile p ≠ []) (r : List Char) :
    (a ++ r).takeWhile p = a.takeWhile p ∧ (a ++ r).dropWhile p = a.dropWhile p ++ r := by
  induction a with
  | nil => simp at h
  | cons c a ih =>
    by_cases hc : p c = true
    · simp only [List.dropWhile_cons, hc, if_true] at h
      simp [hc, ih h]
    · simp [hc]

/-- The text ends with a blank or a line end. -/
def LastSep (a : List Char) : Prop := ∀ c ∈ a.getLast?, c = ' ' ∨ c = '\n'

theorem LastSep.suffix {a b : List Char} (h : LastSep a) (hb : b <:+ a) : LastSep b := by
  intro c hc
  obtain ⟨t, rfl⟩ := hb
  rcases List.eq_nil_or_concat b with rfl | ⟨b, d, rfl⟩
  · simp at hc
  · simp at hc; subst hc
    exact h d (by simp)

theorem LastSep.drop {a : List Char} (h : LastSep a) {p : Char → Bool} (hp : p ' ' = false ∧ p '\n' = false) (ha : a ≠ []) : a.dropWhile p ≠ [] := by
  intro e
  rw [List.dropWhile_eq_nil_iff] at e
  have h1 := e _ (List.getLast_mem ha)
  rcases h _ (List.getLast?_eq_some_getLast ha) with h2 | h2 <;> rw [h2] at h1 <;> simp [hp] at h1

theorem LastSep.ne {c : Char} {s : List Char} (h : LastSep (c :: s)) (h1 : c ≠ ' ') (h2 : c ≠ '\n') : s ≠ [] := by
  rintro rfl
  rcases h c (by simp) with h | h <;> contradiction

theorem dropComment_append {s t : List Char} (h : dropComment s = some t) (r : List Char) : dropComment (s ++ r) = some (t ++ r) ∧ t <:+ s := by
  fun_induction dropComment s with
  | case1 s => simp at h; subst h; exact ⟨rfl, ['*', '/'], rfl⟩
  | case2 c s hc ih =>
    obtain ⟨i1, i2⟩ := ih h
    refine ⟨?_, i2.trans (List.suffix_cons c s)⟩
    rw [List.cons_append]
    unfold dropComment
    split
    · rename_i e
      injection e with e1 e2
      rcases s with _ | ⟨d, s⟩
      · simp [dropComment] at h
      · injection e2 with e2 e3
        exact absurd e2 (by rintro rfl; exact hc s e1 rfl)
    · rename_i e; injection e with e1 e2; subst e2; exact i1
    · rename_i e; cases e
  | case3 => simp at h

theorem lexOne_append {a t : List Char} {y : Sym} (h : lexOne a = some (y, t)) (hy : ∀ v, y ≠ .number v) (hl : LastSep a) (r : List Char) :
    lexOne (a ++ r) = some (y, t ++ r) ∧ t <:+ a := by
  unfold lexOne at h
  split at h
  · simp only [Option.some.injEq, Prod.mk.injEq] at h; obtain ⟨rfl, rfl⟩ := h; exact ⟨rfl, List.suffix_cons _ _⟩
  · simp only [Option.some.injEq, Prod.mk.injEq] at h; obtain ⟨rfl, rfl⟩ := h; exact ⟨rfl, List.suffix_cons _ _⟩
  · simp only [Option.some.injEq, Prod.mk.injEq] at h; obtain ⟨rfl, rfl⟩ := h; exact ⟨rfl, List.suffix_cons _ _⟩
  · simp only [Option.some.injEq, Prod.mk.injEq] at h; obtain ⟨rfl, rfl⟩ := h; exact ⟨rfl, List.suffix_cons _ _⟩
  · simp only [Option.some.injEq, Prod.mk.injEq] at h; obtain ⟨rfl, rfl⟩ := h; exact ⟨rfl, List.suffix_cons _ _⟩
  · rename_i s
    have hs := hl.ne (by decide) (by decide)
    obtain ⟨c1, c2⟩ := cut_append ((hl.suffix (List.suffix_cons _ _)).drop (p := isDig) (by decide) hs) r
    split at h
    · simp at h
    · rename_i h0
      simp only [Option.some.injEq, Prod.mk.injEq] at h; obtain ⟨rfl, rfl⟩ := h
      rw [List.cons_append, lexOne, c1, c2, if_neg h0]
      exact ⟨rfl, (List.dropWhile_suffix _).trans (List.suffix_cons _ _)⟩
  · rename_i s
    unfold readString at h
    split at h
    · rename_i d u e
      obtain ⟨c1, c2⟩ := cut_append (p := (· ≠ '\'')) (a := s) (by rw [e]; simp) r
      have hd : d = '\'' := by
        have := List.head?_dropWhile_not (fun c => decide (c ≠ '\'')) s
        rw [e] at this; simpa using this
      have hsuf : d :: u <:+ '\'' :: s := by rw [← e]; exact (List.dropWhile_suffix _).trans (List.suffix_cons _ _)
      have hu : u ≠ [] := (hl.suffix hsuf).ne (by rw [hd]; decide) (by rw [hd]; decide)
      split at h
      · simp at h
      · rename_i hq
        simp only [Option.some.injEq, Prod.mk.injEq] at h; obtain ⟨rfl, rfl⟩ := h
        refine ⟨?_, (List.suffix_cons _ _).trans hsuf⟩
        rw [List.cons_append]
        show readString _ = _
        rw [readString, c1, c2, e, List.cons_append]
        dsimp only
        rw [if_neg (by rw [List.head?_append_of_ne_nil _ hu]; exact hq)]
    · simp at h
  · rename_i s
    have hs := hl.ne (by decide) (by decide)
    obtain ⟨c1, c2⟩ := cut_append ((hl.suffix (List.suffix_cons _ _)).drop (p := isWord) (by decide) hs) r
    unfold readEnum at h
    split at h
    · rename_i u e
      simp only [Option.some.injEq, Prod.mk.injEq] at h; obtain ⟨rfl, rfl⟩ := h
      refine ⟨?_, (List.suffix_cons _ _).trans (by rw [← e]; exact (List.dropWhile_suffix _).trans (List.suffix_cons _ _))⟩
      rw [List.cons_append]
      show readEnum _ = _
      rw [readEnum, c1, c2, e, List.cons_append]
      rfl
    · simp at h
  · unfold readAtom at h
    split at h
    · rename_i hu
      simp only [Option.some.injEq, Prod.mk.injEq] at h; obtain ⟨rfl, rfl⟩ := h
      rcases a with _ | ⟨c, a⟩
      · simp at hu
      have hc : isUp c = true := by simpa using hu
      obtain ⟨c1, c2⟩ := cut_append (hl.drop (p := isWord) (by decide) (by simp)) r
      refine ⟨?_, List.dropWhile_suffix _⟩
      rw [List.cons_append] at *
      rw [lexOne_atom (Or.inr (Or.inr hc)), readAtom, if_pos (by simpa using hc), c1, c2]
    · rcases hr : readReal a with _ | p
      · rw [hr] at h; simp at h
      · rw [hr] at h
        simp only [Option.map_some, Option.some.injEq, Prod.mk.injEq] at h
        exact absurd h.1.symm (hy _)

theorem lexStep_append {c : Char} {s t : List Char} {o : Option Sym} (h : lexStep (c :: s) = some (o, t)) (hy : ∀ v, o ≠ some (.number v))
    (hl : LastSep (c :: s)) (r : List Char) : lexStep (c :: s ++ r) = some (o, t ++ r) ∧ t <:+ c :: s := by
  by_cases h1 : c = ' '
  · subst h1
    simp only [lexStep, Option.some.injEq, Prod.mk.injEq] at h; obtain ⟨rfl, rfl⟩ := h; exact ⟨rfl, List.suffix_cons _ _⟩
  by_cases h2 : c = '\n'
  · subst h2
    simp only [lexStep, Option.some.injEq, Prod.mk.injEq] at h; obtain ⟨rfl, rfl⟩ := h; exact ⟨rfl, List.suffix_cons _ _⟩
  have sym : lexStep (c :: s) = (lexOne (c :: s)).map (fun p => (some p.1, p.2)) →
      lexStep (c :: s ++ r) = (lexOne (c :: s ++ r)).map (fun p => (some p.1, p.2)) → lexStep (c :: s ++ r) = some (o, t ++ r) ∧ t <:+ c :: s := by
    intro e1 e2
    rw [e1] at h
    rcases ho : lexOne (c :: s) with _ | ⟨y, u⟩
    · rw [ho] at h; simp at h
    · rw [ho] at h
      simp only [Option.map_some, Option.some.injEq, Prod.mk.injEq] at h
      obtain ⟨rfl, rfl⟩ := h
      obtain ⟨k1, k2⟩ := lexOne_append ho (fun v e => hy v (by rw [e])) hl r
      rw [e2, k1]
      exact ⟨rfl, k2⟩
  by_cases h3 : c = '/'
  · subst h3
    rcases s with _ | ⟨d, s⟩
    · exact absurd rfl (hl.ne (by decide) (by decide))
    by_cases h4 : d = '*'
    · subst h4
      rw [lexStep] at h
      rcases hd : dropComment s with _ | u
      · rw [hd] at h; simp at h
      · rw [hd] at h
        simp only [Option.map_some, Option.some.injEq, Prod.mk.injEq] at h
        obtain ⟨rfl, rfl⟩ := h
        obtain ⟨k1, k2⟩ := dropComment_append hd r
        rw [List.cons_append, List.cons_append, lexStep, k1]
        exact ⟨rfl, k2.trans ((List.suffix_cons _ _).trans (List.suffix_cons _ _))⟩
    · apply sym
      · rw [lexStep] <;> simp_all
      · rw [List.cons_append, List.cons_append, lexStep] <;> simp_all
  · exact sym (lexStep_sym h1 h2 h3) (by rw [List.cons_append]; exact lexStep_sym h1 h2 h3)

theorem lexAll_fixed {n : Nat} {a : List Char} {ys : List Sym} (h : lexAll n a = some ys) (hy : ∀ v, .number v ∉ ys) (hl : LastSep a) :
    ∃ k, ∀ m r, lexAll (m + k) (a ++ r) = (lexAll m r).map (ys ++ ·) := by
  induction n generalizing a ys with
  | zero =>
    rcases a with _ | ⟨c, a⟩
    · simp only [lexAll, Option.some.injEq] at h; subst h; exact ⟨0, fun m r => by simp⟩
    · simp [lexAll] at h
  | succ n ih =>
    rcases a with _ | ⟨c, a⟩
    · simp only [lexAll, Option.some.injEq] at h; subst h; exact ⟨0, fun m r => by simp⟩
    rw [lexAll] at h
    rcases hs : lexStep (c :: a) with _ | ⟨o, t⟩
    · rw [hs] at h; simp at h
    rw [hs, Option.bind_some] at h
    rcases hr : lexAll n t with _ | l
    · rw [hr] at h; simp at h
    rw [hr, Option.map_some, Option.some.injEq] at h
    dsimp only at h
    subst h
    have ho : ∀ v, o ≠ some (.number v) := by
      rintro v rfl
      exact hy v (by simp)
    have key := fun r => lexStep_append hs ho hl r
    obtain ⟨k, hk⟩ := ih hr (fun v hv => hy v (List.mem_append_right _ hv)) (hl.suffix (key []).2)
    refine ⟨k + 1, fun m r => ?_⟩
    have e := (key r).1
    rw [List.cons_append] at e ⊢
    rw [← Nat.add_assoc, lexAll, e, Option.bind_some, hk, Option.map_map]
    simp [Function.comp_def]

/-! ### The time -/

theorem date_chars (d : DateTime) : ∀ c ∈ dateText d, c ≠ '\'' := by
  have dg : ∀ c, isDig c = true → c ≠ '\'' := by rintro c h rfl; revert h; decide
  have h1 : ∀ n, ∀ c ∈ decimal n, c ≠ '\'' := fun n c hc => dg c (decimal_dig n c hc)
  have h2 : ∀ n, ∀ c ∈ padded 2 n, c ≠ '\'' := fun n c hc => dg c (padded_dig 2 n c hc)
  have h3 : ∀ c ∈ "+0000".toList, c ≠ '\'' := by decide +kernel
  intro c hc
  unfold dateText at hc
  simp only [List.append_assoc, List.cons_append, List.mem_append, List.mem_cons] at hc
  rcases hc with hc | rfl | hc | rfl | hc | rfl | hc | rfl | hc | rfl | hc | hc
  · exact h1 _ c hc
  · decide
  · exact h2 _ c hc
  · decide
  · exact h2 _ c hc
  · decide
  · exact h2 _ c hc
  · decide
  · exact h2 _ c hc
  · decide
  · exact h2 _ c hc
  · exact h3 c hc

/-! ### Numbers that are not finite -/

theorem nan_stuck (id : Nat) (a b c : Option ℚ) (ha : a = none) (r : List Char) (n : Nat) :
    lexAll n (lineText ⟨id, .cartesianPoint, pointBody a b c⟩ ++ r) = none := by
  subst ha
  obtain ⟨w1, w2, -⟩ := kwText_word .cartesianPoint
  have e : ∃ r', lineText ⟨id, .cartesianPoint, pointBody none b c⟩ ++ r =
      '#' :: decimal id ++ (' ' :: '=' :: ' ' :: ((kwText .cartesianPoint).toList ++ ('(' :: ('\'' :: [] ++ '\'' :: (',' :: ' ' :: '(' :: 'n' :: r'))))) := by
    refine ⟨['a', 'n'] ++ bodyText .cartesianPoint [.comma, .num b, .comma, .num c, .rpar, .rpar] ++ ';' :: '\n' :: r, ?_⟩
    have h1 : " = ".toList = [' ', '=', ' '] := by decide
    have h2 : "''".toList = ['\'', '\''] := by decide
    simp [lineText, h1, pointBody, bodyText, tokText, commaText, h2]
  obtain ⟨r', e⟩ := e
  rcases h : lexAll n (lineText ⟨id, .cartesianPoint, pointBody none b c⟩ ++ r) with _ | l
  · rfl
  have h' := lexAll_le (Nat.le_add_right n 10) h
  rw [e, lexAll_ref _ (by intro c hc; simp at hc; subst hc; decide), lexAll_blank, lexAll_one (by decide) (by decide) (by decide) rfl, lexAll_blank,
    lexAll_word w1 w2 (by intro c hc; simp at hc; subst hc; decide), lexAll_one (by decide) (by decide) (by decide) rfl,
    lexAll_str (by simp) (by simp), lexAll_one (by decide) (by decide) (by decide) rfl, lexAll_blank,
    lexAll_one (by decide) (by decide) (by decide) rfl, lexAll_none (by decide) (by decide) (by decide)] at h'
  · simp at h'
  · have hn : isDig 'n' = false := by decide
    have hu : isUp 'n' = false := by decide
    simp [lexOne, readAtom, readReal, readNumber, readUnsigned, hn, hu]

end Cmm.Step
