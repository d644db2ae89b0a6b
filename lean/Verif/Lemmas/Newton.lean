import Verif.Spec.Newton
import Mathlib.Algebra.Order.BigOperators.Ring.Finset
import Mathlib.Algebra.BigOperators.Field
import Mathlib.Tactic.LinearCombination
import Mathlib.Tactic.FieldSimp
import Mathlib.Tactic.Positivity
import Mathlib.Tactic.Linarith
/-! Lemmas about the Cholesky solver. -/
namespace Cmm.Newton
open Finset
variable {K : Type} {N : Nat} [Field K] [LinearOrder K]

omit [LinearOrder K] in
theorem foldl_sub {α : Type} (l : List α) (g : α → K) (a : K) :
    l.foldl (fun s k => s - g k) a = a - (l.map g).sum := by
  induction l generalizing a with
  | nil => simp
  | cons x l ih => simp only [List.foldl_cons, ih, List.map_cons, List.sum_cons]; ring

omit [LinearOrder K] in
theorem sum_filter_finRange (p : Fin N → Prop) [DecidablePred p] (g : Fin N → K) :
    (((List.finRange N).filter (fun k => p k)).map g).sum = ∑ k, if p k then g k else 0 := by
  rw [Fin.sum_univ_def]
  induction List.finRange N with
  | nil => simp
  | cons x l ih => by_cases h : p x <;> simp [List.filter_cons, h, ih]

omit [LinearOrder K] in
theorem foldl_sub_filter (p : Fin N → Prop) [DecidablePred p] (g : Fin N → K) (a : K) :
    ((List.finRange N).filter (fun k => p k)).foldl (fun s k => s - g k) a = a - ∑ k, if p k then g k else 0 := by
  rw [foldl_sub, sum_filter_finRange]

omit [LinearOrder K] in
theorem dotProduct_eq (a b : Vec N K) : dotProduct a b = ∑ i, a i * b i := by
  rw [Fin.sum_univ_def, dotProduct]
  have : ∀ (l : List (Fin N)) (s : K), l.foldl (fun s i => s + a i * b i) s = s + (l.map fun i => a i * b i).sum := by
    intro l
    induction l with
    | nil => simp
    | cons x l ih => intro s; simp only [List.foldl_cons, ih, List.map_cons, List.sum_cons]; ring
  rw [this, zero_add]

/-- A left fold that fills an array entry by entry, each from entries already filled. -/
theorem fold_update {α : Type} [DecidableEq α] (F : (α → K) → α → K) (y0 : α → K) (l : List α) (hn : l.Nodup)
    (hdep : ∀ pre i post, l = pre ++ i :: post → ∀ y y' : α → K, (∀ k ∈ pre, y k = y' k) → F y i = F y' i) :
    ∀ i ∈ l, (l.foldl (fun y i => Function.update y i (F y i)) y0) i =
      F (l.foldl (fun y i => Function.update y i (F y i)) y0) i := by
  induction l using List.reverseRecOn with
  | nil => simp
  | append_singleton l a ih =>
    rw [List.nodup_append] at hn
    have ha : ∀ k ∈ l, k ≠ a := fun k hk => hn.2.2 k hk a (by simp)
    rw [List.foldl_append]
    set y' := l.foldl (fun y i => Function.update y i (F y i)) y0 with hy'
    simp only [List.foldl_cons, List.foldl_nil]
    intro i hi
    rcases List.mem_append.1 hi with hi | hi
    · rw [Function.update_of_ne (ha i hi)]
      rw [ih hn.1 (fun pre i post h y y' hh => hdep pre i (post ++ [a]) (by simp [h]) y y' hh) i hi]
      obtain ⟨pre, post, h⟩ := List.append_of_mem hi
      refine hdep pre i (post ++ [a]) (by simp [h]) _ _ ?_
      intro k hk
      rw [Function.update_of_ne (ha k (by simp [h, hk]))]
    · obtain rfl : i = a := by simpa using hi
      rw [Function.update_self]
      refine hdep l i [] rfl _ _ ?_
      intro k hk
      rw [Function.update_of_ne (ha k hk)]

theorem finRange_split {pre post : List (Fin N)} {i : Fin N} (h : List.finRange N = pre ++ i :: post) (k : Fin N) :
    k ∈ pre ↔ k < i := by
  have hp : (List.finRange N).Pairwise (· < ·) := List.pairwise_lt_finRange N
  have hm : k ∈ List.finRange N := List.mem_finRange k
  rw [h] at hp hm
  rw [List.pairwise_append] at hp
  obtain ⟨_, h2, h3⟩ := hp
  constructor
  · intro hk; exact h3 k hk i (by simp)
  · intro hk
    rcases List.mem_append.1 hm with hm | hm
    · exact hm
    · rcases List.mem_cons.1 hm with rfl | hm
      · exact absurd hk (lt_irrefl _)
      · exact absurd (List.rel_of_pairwise_cons h2 hm) (not_lt.2 hk.le)

theorem finRange_reverse_split {pre post : List (Fin N)} {i : Fin N} (h : (List.finRange N).reverse = pre ++ i :: post)
    (k : Fin N) : k ∈ pre ↔ i < k := by
  have hp : (List.finRange N).reverse.Pairwise (· > ·) := by
    rw [List.pairwise_reverse]; exact List.pairwise_lt_finRange N
  have hm : k ∈ (List.finRange N).reverse := by simp
  rw [h] at hp hm
  rw [List.pairwise_append] at hp
  obtain ⟨_, h2, h3⟩ := hp
  constructor
  · intro hk; exact h3 k hk i (by simp)
  · intro hk
    rcases List.mem_append.1 hm with hm | hm
    · exact hm
    · rcases List.mem_cons.1 hm with rfl | hm
      · exact absurd hk (lt_irrefl _)
      · exact absurd (List.rel_of_pairwise_cons h2 hm) (not_lt.2 hk.le)

/-- `L` is lower triangular with nonzero diagonal. -/
structure LowTri (L : Sq N K) : Prop where
  low : ∀ i j, i < j → L i j = 0
  diag : ∀ i, L i i ≠ 0

theorem forward_spec (L : Sq N K) (hL : LowTri L) (b y0 : Vec N K) :
    ∀ i, ∑ k, L i k * forwardSubstitution L b y0 k = b i := by
  intro i
  have key := fold_update (fun y i => ((List.finRange N).filter (· < i)).foldl (fun s k => s - L i k * y k) (b i) / L i i)
    y0 (List.finRange N) (List.nodup_finRange N) (by
      intro pre i post h y y' hk
      congr 1
      rw [foldl_sub_filter (fun k => k < i), foldl_sub_filter (fun k => k < i)]
      congr 1
      apply Finset.sum_congr rfl
      intro k _
      by_cases hki : k < i
      · rw [if_pos hki, if_pos hki, hk k ((finRange_split h k).2 hki)]
      · rw [if_neg hki, if_neg hki]) i (List.mem_finRange i)
  change forwardSubstitution L b y0 i = _ at key
  simp only [foldl_sub_filter (fun k => k < i)] at key
  change _ = (b i - ∑ k, if k < i then L i k * forwardSubstitution L b y0 k else 0) / L i i at key
  rw [eq_div_iff (hL.diag i)] at key
  have hs : ∑ k, L i k * forwardSubstitution L b y0 k =
      ∑ k, ((if k < i then L i k * forwardSubstitution L b y0 k else 0) +
        if k = i then L i i * forwardSubstitution L b y0 i else 0) := by
    apply Finset.sum_congr rfl
    intro k _
    rcases lt_trichotomy k i with h | h | h
    · rw [if_pos h, if_neg h.ne, add_zero]
    · subst h; simp
    · rw [if_neg h.le.not_gt, if_neg h.ne', hL.low i k h]; ring
  rw [hs, Finset.sum_add_distrib, Finset.sum_ite_eq' univ i, if_pos (mem_univ i)]
  linear_combination key

theorem backward_spec (L : Sq N K) (hL : LowTri L) (y x0 : Vec N K) :
    ∀ i, ∑ k, L k i * backwardSubstitution L y x0 k = y i := by
  intro i
  have key := fold_update (fun x i => ((List.finRange N).filter (i < ·)).foldl (fun s k => s - L k i * x k) (y i) / L i i)
    x0 (List.finRange N).reverse (List.nodup_reverse.2 (List.nodup_finRange N)) (by
      intro pre i post h y y' hk
      congr 1
      rw [foldl_sub_filter (fun k => i < k), foldl_sub_filter (fun k => i < k)]
      congr 1
      apply Finset.sum_congr rfl
      intro k _
      by_cases hki : i < k
      · rw [if_pos hki, if_pos hki, hk k ((finRange_reverse_split h k).2 hki)]
      · rw [if_neg hki, if_neg hki]) i (by simp)
  change backwardSubstitution L y x0 i = _ at key
  simp only [foldl_sub_filter (fun k => i < k)] at key
  change _ = (y i - ∑ k, if i < k then L k i * backwardSubstitution L y x0 k else 0) / L i i at key
  rw [eq_div_iff (hL.diag i)] at key
  have hs : ∑ k, L k i * backwardSubstitution L y x0 k =
      ∑ k, ((if i < k then L k i * backwardSubstitution L y x0 k else 0) +
        if k = i then L i i * backwardSubstitution L y x0 i else 0) := by
    apply Finset.sum_congr rfl
    intro k _
    rcases lt_trichotomy k i with h | h | h
    · rw [if_neg h.le.not_gt, if_neg h.ne, hL.low k i h]; ring
    · subst h; simp
    · rw [if_pos h, if_neg h.ne', add_zero]
  rw [hs, Finset.sum_add_distrib, Finset.sum_ite_eq' univ i, if_pos (mem_univ i)]
  linear_combination key

/-- Loop order. -/
def Before (a b : Fin N × Fin N) : Prop := a.1 < b.1 ∨ (a.1 = b.1 ∧ a.2 < b.2)

theorem lowerPairs_pairwise : (lowerPairs N).Pairwise Before := by
  unfold lowerPairs
  rw [List.pairwise_flatMap]
  refine ⟨?_, ?_⟩
  · intro i _
    rw [List.pairwise_map]
    exact ((List.pairwise_lt_finRange N).filter _).imp fun h => Or.inr ⟨rfl, h⟩
  · refine (List.pairwise_lt_finRange N).imp ?_
    intro a b hab x hx y hy
    simp only [List.mem_map] at hx hy
    obtain ⟨_, _, rfl⟩ := hx
    obtain ⟨_, _, rfl⟩ := hy
    exact Or.inl hab

theorem mem_lowerPairs (a : Fin N × Fin N) : a ∈ lowerPairs N ↔ a.2 ≤ a.1 := by
  unfold lowerPairs
  simp only [List.mem_flatMap, List.mem_map, List.mem_filter, List.mem_finRange, true_and, decide_eq_true_eq]
  constructor
  · rintro ⟨i, j, h, rfl⟩; exact h
  · intro h; exact ⟨a.1, a.2, h, rfl⟩

theorem lowerPairs_split {pre post : List (Fin N × Fin N)} {x : Fin N × Fin N} (h : lowerPairs N = pre ++ x :: post)
    (a : Fin N × Fin N) : a ∈ pre ↔ a.2 ≤ a.1 ∧ Before a x := by
  have hp := lowerPairs_pairwise (N := N)
  have hm := mem_lowerPairs a
  rw [h] at hp hm
  rw [List.pairwise_append] at hp
  obtain ⟨_, h2, h3⟩ := hp
  constructor
  · intro hk; exact ⟨hm.1 (by simp [hk]), h3 a hk x (by simp)⟩
  · rintro ⟨hle, hb⟩
    rcases List.mem_append.1 (hm.2 hle) with hm | hm
    · exact hm
    · rcases List.mem_cons.1 hm with rfl | hm
      · rcases hb with hb | hb
        · exact absurd hb (lt_irrefl _)
        · exact absurd hb.2 (lt_irrefl _)
      · have := List.rel_of_pairwise_cons h2 hm
        rcases hb with hb | hb <;> rcases this with ht | ht
        · exact absurd hb ht.le.not_gt
        · exact absurd hb (by rw [ht.1]; exact lt_irrefl _)
        · exact absurd ht (by rw [hb.1]; exact lt_irrefl _)
        · exact absurd hb.2 ht.2.le.not_gt

/-- The equation of an entry of the factor. -/
def Eqn (H L : Sq N K) (i j : Fin N) : Prop :=
  L i j * L j j = H i j - ∑ k, if k < j then L i k * L j k else 0

/-- The state of the factor when the pairs in `pre` are done. -/
structure CholInv (H : Sq N K) (pre : List (Fin N × Fin N)) (L : Sq N K) : Prop where
  eqn : ∀ a ∈ pre, Eqn H L a.1 a.2
  pos : ∀ i, (i, i) ∈ pre → 0 < L i i
  undone : ∀ a, a ∉ pre → L a.1 a.2 = 0

/-- Failure of the factorisation at row `i`. -/
structure CholFail (H : Sq N K) : Prop where
  ex : ∃ (i : Fin N) (pre post : List (Fin N × Fin N)) (L : Sq N K), lowerPairs N = pre ++ (i, i) :: post ∧
    CholInv H pre L ∧ H i i - (∑ k, if k < i then L i k * L i k else 0) ≤ 0

omit [LinearOrder K] in
theorem setEntry_self (L : Sq N K) (i j : Fin N) (v : K) : setEntry L i j v i j = v := by simp [setEntry]

omit [LinearOrder K] in
theorem setEntry_of_ne (L : Sq N K) (i j : Fin N) (v : K) (a b : Fin N) (h : (a, b) ≠ (i, j)) :
    setEntry L i j v a b = L a b := by
  unfold setEntry
  by_cases ha : a = i
  · subst ha
    have : b ≠ j := fun hb => h (by rw [hb])
    rw [Function.update_self, Function.update_of_ne this]
  · rw [Function.update_of_ne ha]

variable [IsStrictOrderedRing K]

omit [IsStrictOrderedRing K] in
theorem cholInv_set {H L : Sq N K} {pre post : List (Fin N × Fin N)} {i j : Fin N}
    (h : lowerPairs N = pre ++ (i, j) :: post) (hI : CholInv H pre L) (v : K)
    (hv : v * (if i = j then v else L j j) = H i j - ∑ k, if k < j then L i k * L j k else 0) (hpos : i = j → 0 < v) :
    CholInv H (pre ++ [(i, j)]) (setEntry L i j v) := by
  have hji : j ≤ i := (mem_lowerPairs (i, j)).1 (by rw [h]; simp)
  have hsum : ∀ a b : Fin N, b ≤ a → (Before (a, b) (i, j) ∨ (a, b) = (i, j)) → ∀ k, k < b →
      setEntry L i j v a k = L a k ∧ setEntry L i j v b k = L b k := by
    intro a b hab hbf k hk
    constructor <;> apply setEntry_of_ne <;> intro he <;> simp only [Prod.mk.injEq] at he <;> obtain ⟨rfl, rfl⟩ := he
    · rcases hbf with (hb | hb) | hb
      · exact absurd hb (lt_irrefl _)
      · exact absurd hk hb.2.le.not_gt
      · simp only [Prod.mk.injEq, true_and] at hb; exact absurd hk (by rw [hb]; exact lt_irrefl _)
    · rcases hbf with (hb | hb) | hb
      · exact absurd hb hab.not_gt
      · exact absurd hk (not_lt.2 hb.2.le)
      · simp only [Prod.mk.injEq] at hb; exact absurd hk (by rw [hb.2]; exact lt_irrefl _)
  have hsumeq : ∀ a b : Fin N, b ≤ a → (Before (a, b) (i, j) ∨ (a, b) = (i, j)) →
      (∑ k, if k < b then setEntry L i j v a k * setEntry L i j v b k else 0) = ∑ k, if k < b then L a k * L b k else 0 := by
    intro a b hab hbf
    apply Finset.sum_congr rfl
    intro k _
    by_cases hk : k < b
    · rw [if_pos hk, if_pos hk, (hsum a b hab hbf k hk).1, (hsum a b hab hbf k hk).2]
    · rw [if_neg hk, if_neg hk]
  refine ⟨?_, ?_, ?_⟩
  · rintro ⟨a, b⟩ hab
    rcases List.mem_append.1 hab with hab | hab
    · obtain ⟨hle, hb⟩ := (lowerPairs_split h _).1 hab
      unfold Eqn
      simp only
      rw [hsumeq a b hle (Or.inl hb), setEntry_of_ne, setEntry_of_ne]
      · exact hI.eqn _ hab
      · intro he; simp only [Prod.mk.injEq] at he; obtain ⟨h1, h2⟩ := he
        simp only [Before] at hb hle
        omega
      · intro he; simp only [Prod.mk.injEq] at he; obtain ⟨h1, h2⟩ := he
        simp only [Before] at hb hle
        omega
    · simp only [List.mem_singleton, Prod.mk.injEq] at hab
      obtain ⟨rfl, rfl⟩ := hab
      unfold Eqn
      simp only
      rw [hsumeq a b hji (Or.inr rfl), setEntry_self, ← hv]
      by_cases he : a = b
      · subst he; rw [setEntry_self]; simp
      · rw [if_neg he, setEntry_of_ne]; intro hh; simp only [Prod.mk.injEq, and_true] at hh; exact he hh.symm
  · intro a ha
    rcases List.mem_append.1 ha with ha | ha
    · rw [setEntry_of_ne]
      · exact hI.pos a ha
      · intro he
        have := ((lowerPairs_split h _).1 ha).2
        simp only [Prod.mk.injEq] at he
        simp only [Before] at this
        omega
    · simp only [List.mem_singleton, Prod.mk.injEq] at ha
      obtain ⟨rfl, rfl⟩ := ha
      rw [setEntry_self]; exact hpos rfl
  · rintro ⟨a, b⟩ hab
    simp only [List.mem_append, List.mem_singleton, not_or] at hab
    simp only
    rw [setEntry_of_ne _ _ _ _ _ _ hab.2]
    exact hI.undone _ hab.1

omit [IsStrictOrderedRing K] in
theorem chol_loop (sqrt : K → K) (hs : IsSqrt sqrt) (H : Sq N K) : ∀ (post pre : List (Fin N × Fin N)) (L : Sq N K),
    lowerPairs N = pre ++ post → CholInv H pre L →
    (∃ L', post.foldlM (fun L ij => cholEntry sqrt H L ij.1 ij.2) L = some L' ∧ CholInv H (lowerPairs N) L') ∨
    (post.foldlM (fun L ij => cholEntry sqrt H L ij.1 ij.2) L = none ∧ CholFail H) := by
  intro post
  induction post with
  | nil => intro pre L h hI; left; refine ⟨L, rfl, ?_⟩; rw [h, List.append_nil]; exact hI
  | cons x post ih =>
    obtain ⟨i, j⟩ := x
    intro pre L h hI
    rw [List.foldlM_cons]
    have hji : j ≤ i := (mem_lowerPairs (i, j)).1 (by rw [h]; simp)
    simp only [cholEntry]
    rw [foldl_sub_filter (fun k => k < j)]
    by_cases he : i = j
    · subst he
      rw [if_pos rfl]
      by_cases hle : H i i - (∑ k, if k < i then L i k * L i k else 0) ≤ 0
      · right
        rw [if_pos hle]
        exact ⟨rfl, ⟨⟨i, pre, post, L, h, hI, hle⟩⟩⟩
      · rw [if_neg hle]
        have hp := hs _ (not_le.1 hle)
        exact ih (pre ++ [(i, i)]) _ (by simp [h]) (cholInv_set h hI _ (by rw [if_pos rfl]; exact hp.2) fun _ => hp.1)
    · rw [if_neg he]
      have hlt : j < i := lt_of_le_of_ne hji (Ne.symm he)
      have hjj : 0 < L j j := hI.pos j ((lowerPairs_split h _).2 ⟨le_refl _, Or.inl hlt⟩)
      exact ih (pre ++ [(i, j)]) _ (by simp [h]) (cholInv_set h hI _ (by
        rw [if_neg he]; exact div_mul_cancel₀ _ hjj.ne') fun h => absurd h he)

omit [IsStrictOrderedRing K] in
theorem chol_spec (sqrt : K → K) (hs : IsSqrt sqrt) (H : Sq N K) :
    (∃ L, choleskyDecomposition sqrt H = some L ∧ CholInv H (lowerPairs N) L) ∨
    (choleskyDecomposition sqrt H = none ∧ CholFail H) :=
  chol_loop sqrt hs H (lowerPairs N) [] _ rfl ⟨by simp, by simp, by simp⟩

omit [IsStrictOrderedRing K] in
theorem CholInv.lowTri {H L : Sq N K} (h : CholInv H (lowerPairs N) L) : LowTri L :=
  ⟨fun i j hij => h.undone (i, j) (by rw [mem_lowerPairs]; exact not_le.2 hij),
   fun i => (h.pos i ((mem_lowerPairs _).2 (le_refl _))).ne'⟩

omit [LinearOrder K] [IsStrictOrderedRing K] in
theorem sum_split (L : Sq N K) (i j : Fin N) (hlow : ∀ k, j < k → L j k = 0) :
    ∑ k, L i k * L j k = (∑ k, if k < j then L i k * L j k else 0) + L i j * L j j := by
  have hs : ∑ k, L i k * L j k = ∑ k, ((if k < j then L i k * L j k else 0) + if k = j then L i j * L j j else 0) := by
    apply Finset.sum_congr rfl
    intro k _
    rcases lt_trichotomy k j with h | h | h
    · rw [if_pos h, if_neg h.ne, add_zero]
    · subst h; simp
    · rw [if_neg h.le.not_gt, if_neg h.ne', hlow k h]; ring
  rw [hs, Finset.sum_add_distrib, Finset.sum_ite_eq' univ j, if_pos (mem_univ j)]

omit [IsStrictOrderedRing K] in
theorem CholInv.factor {H L : Sq N K} (h : CholInv H (lowerPairs N) L) (hsym : Symmetric H) (i j : Fin N) :
    H i j = ∑ k, L i k * L j k := by
  have main : ∀ i j, j ≤ i → H i j = ∑ k, L i k * L j k := by
    intro i j hij
    have he := h.eqn (i, j) ((mem_lowerPairs _).2 hij)
    unfold Eqn at he
    rw [sum_split L i j fun k hk => h.lowTri.low j k hk]
    linear_combination -he
  rcases le_total j i with hij | hij
  · exact main i j hij
  · rw [hsym, main j i hij]
    exact Finset.sum_congr rfl fun k _ => mul_comm _ _

omit [LinearOrder K] [IsStrictOrderedRing K] in
theorem quad_factor (L : Sq N K) (x : Vec N K) :
    ∑ i, ∑ j, x i * (∑ k, L i k * L j k) * x j = ∑ k, (∑ r, L r k * x r) ^ 2 := by
  have : ∀ k, (∑ r, L r k * x r) ^ 2 = ∑ i, ∑ j, x i * (L i k * L j k) * x j := by
    intro k
    rw [sq, Finset.sum_mul_sum]
    exact Finset.sum_congr rfl fun i _ => Finset.sum_congr rfl fun j _ => by ring
  simp only [this, Finset.mul_sum, Finset.sum_mul]
  rw [Finset.sum_comm (s := univ) (t := univ) (f := fun k i => ∑ j, x i * (L i k * L j k) * x j)]
  refine Finset.sum_congr rfl fun i _ => ?_
  rw [Finset.sum_comm]

theorem chol_posDef {H L : Sq N K} (h : CholInv H (lowerPairs N) L) (hsym : Symmetric H) : PosDef H := by
  intro x hx
  have hq : ∑ i, ∑ j, x i * H i j * x j = ∑ k, (∑ r, L r k * x r) ^ 2 := by
    rw [← quad_factor]
    exact Finset.sum_congr rfl fun i _ => Finset.sum_congr rfl fun j _ => by rw [h.factor hsym i j]
  rw [hq]
  -- the last nonzero entry
  have hne : (univ.filter fun r => x r ≠ 0).Nonempty := by
    by_contra hc
    apply hx
    funext r
    by_contra hr
    exact hc ⟨r, by simpa using hr⟩
  set r := (univ.filter fun r => x r ≠ 0).max' hne with hr
  have hrm : x r ≠ 0 := by
    have := Finset.max'_mem _ hne
    simpa using this
  have hgt : ∀ s, r < s → x s = 0 := by
    intro s hs
    by_contra hc
    have : s ≤ r := Finset.le_max' _ _ (by simpa using hc)
    exact absurd hs this.not_gt
  have hsum : ∑ s, L s r * x s = L r r * x r := by
    rw [Finset.sum_eq_single r]
    · intro s _ hs
      rcases lt_or_gt_of_ne hs with h1 | h1
      · rw [h.lowTri.low s r h1, zero_mul]
      · rw [hgt s h1, mul_zero]
    · simp
  refine lt_of_lt_of_le ?_ (Finset.single_le_sum (f := fun k => (∑ r, L r k * x r) ^ 2) (fun k _ => sq_nonneg _) (mem_univ r))
  rw [hsum]
  exact pow_pos_of_ne (mul_ne_zero (h.lowTri.diag r) hrm)
where
  pow_pos_of_ne {a : K} (h : a ≠ 0) : 0 < a ^ 2 := by positivity

theorem chol_fail_not_posDef {H : Sq N K} (hsym : Symmetric H) (hf : CholFail H) : ¬ PosDef H := by
  obtain ⟨i, pre, post, L, hsp, hI, hle⟩ := hf.ex
  set d := H i i - (∑ k, if k < i then L i k * L i k else 0) with hd
  -- the entries of `L`
  have hz : ∀ a b, ¬ (b ≤ a ∧ Before (a, b) (i, i)) → L a b = 0 := fun a b hab =>
    hI.undone (a, b) fun hm => hab ((lowerPairs_split hsp _).1 hm)
  have hup : ∀ a b, a < b → L a b = 0 := fun a b hab => hz a b fun h => absurd h.1 (not_le.2 hab)
  have hii : ∀ b, i ≤ b → L i b = 0 := fun b hb => hz i b fun h => by
    rcases h.2 with h | h
    · exact lt_irrefl _ h
    · exact absurd h.2 (not_lt.2 hb)
  have hpos : ∀ a, a < i → 0 < L a a := fun a ha => hI.pos a ((lowerPairs_split hsp _).2 ⟨le_refl _, Or.inl ha⟩)
  have hfac : ∀ a b, b ≤ a → a ≤ i → H a b = (∑ k, L a k * L b k) + if a = i ∧ b = i then d else 0 := by
    intro a b hba hai
    by_cases hab : a = i ∧ b = i
    · obtain ⟨rfl, rfl⟩ := hab
      rw [sum_split L _ _ fun k hk => hup _ k hk, hii _ (le_refl _)]
      simp [hd]
    · rw [if_neg hab]
      have hm : (a, b) ∈ pre := by
        rw [lowerPairs_split hsp]
        refine ⟨hba, ?_⟩
        rcases lt_or_eq_of_le hai with h | h
        · exact Or.inl h
        · exact Or.inr ⟨h, lt_of_le_of_ne (h ▸ hba) fun hb => hab ⟨h, hb⟩⟩
      have he := hI.eqn _ hm
      unfold Eqn at he
      rw [sum_split L a b fun k hk => hup b k hk]
      linear_combination -he
  -- the test vector
  let L' : Sq N K := fun r k => if r < i then L r k else if r = k then 1 else 0
  have hL' : LowTri L' := by
    constructor
    · intro a b hab
      simp only [L']
      by_cases h : a < i
      · rw [if_pos h, hup a b hab]
      · rw [if_neg h, if_neg hab.ne]
    · intro a
      simp only [L']
      by_cases h : a < i
      · rw [if_pos h]; exact (hpos a h).ne'
      · rw [if_neg h]; simp
  let y : Vec N K := fun k => if k < i then -L i k else if k = i then 1 else 0
  have hx := backward_spec L' hL' y y
  set x := backwardSubstitution L' y y with hxd
  have hhigh : ∀ k, ¬ k < i → x k = if k = i then 1 else 0 := by
    intro k hk
    have := hx k
    rw [Finset.sum_eq_single k] at this
    · simpa [L', y, hk] using this
    · intro r _ hr
      simp only [L']
      by_cases h : r < i
      · rw [if_pos h, hup r k (lt_of_lt_of_le h (not_lt.1 hk)), zero_mul]
      · rw [if_neg h, if_neg hr, zero_mul]
    · simp
  have hxi : x i = 1 := by rw [hhigh i (lt_irrefl _), if_pos rfl]
  have hx0 : ∀ k, i < k → x k = 0 := fun k hk => by rw [hhigh k hk.le.not_gt, if_neg hk.ne']
  have hker : ∀ k, ∑ r, L r k * x r = 0 := by
    intro k
    by_cases hk : k < i
    · have h1 := hx k
      have h2 : ∑ r, L r k * x r = ∑ r, (L' r k * x r + if r = i then L i k else 0) := by
        apply Finset.sum_congr rfl
        intro r _
        simp only [L']
        rcases lt_trichotomy r i with h | h | h
        · rw [if_pos h, if_neg h.ne, add_zero]
        · subst h; rw [if_neg (lt_irrefl _), if_neg hk.ne', if_pos rfl, hxi]; ring
        · rw [hx0 r h, if_neg h.ne']; ring
      rw [h2, Finset.sum_add_distrib, h1, Finset.sum_ite_eq' univ i, if_pos (mem_univ i)]
      simp [y, hk]
    · apply Finset.sum_eq_zero
      intro r _
      rcases lt_trichotomy r i with h | h | h
      · rw [hup r k (lt_of_lt_of_le h (not_lt.1 hk)), zero_mul]
      · subst h; rw [hii k (not_lt.1 hk), zero_mul]
      · rw [hx0 r h, mul_zero]
  intro hpd
  have hp := hpd x (fun h => by rw [h] at hxi; simp at hxi)
  have hval : ∑ a, ∑ b, x a * H a b * x b =
      ∑ a, ∑ b, (x a * (∑ k, L a k * L b k) * x b + if a = i ∧ b = i then d else 0) := by
    refine Finset.sum_congr rfl fun a _ => Finset.sum_congr rfl fun b _ => ?_
    by_cases ha : a ≤ i
    · by_cases hb : b ≤ i
      · have : H a b = (∑ k, L a k * L b k) + if a = i ∧ b = i then d else 0 := by
          rcases le_total b a with h | h
          · exact hfac a b h ha
          · rw [hsym a b, hfac b a h hb, Finset.sum_congr rfl fun k _ => mul_comm (L b k) (L a k)]
            simp only [and_comm]
        rw [this]
        by_cases hab : a = i ∧ b = i
        · rw [if_pos hab, hab.1, hab.2, hxi]; ring
        · rw [if_neg hab]; ring
      · rw [hx0 b (not_le.1 hb), if_neg (fun h => hb h.2.le)]; ring
    · rw [hx0 a (not_le.1 ha), if_neg (fun h => ha h.1.le)]; ring
  rw [hval] at hp
  simp only [Finset.sum_add_distrib] at hp
  rw [quad_factor] at hp
  have hdd : ∑ a : Fin N, ∑ b : Fin N, (if a = i ∧ b = i then d else 0) = d := by
    rw [Finset.sum_eq_single i]
    · rw [Finset.sum_eq_single i] <;> simp +contextual
    · intro a _ ha; simp [ha]
    · simp
  rw [hdd] at hp
  simp only [hker] at hp
  simp at hp
  exact absurd hp (not_lt.2 hle)

omit [IsStrictOrderedRing K] in
theorem solve_solves {sqrt : K → K} (hs : IsSqrt sqrt) {H : Sq N K} (hsym : Symmetric H) {b y0 x0 x : Vec N K}
    (h : solveLinearSystem sqrt H b y0 x0 = some x) : Solves H x b := by
  unfold solveLinearSystem at h
  rcases chol_spec sqrt hs H with ⟨L, hL, hI⟩ | ⟨hn, _⟩
  · rw [hL] at h
    simp only [Option.some.injEq] at h
    have hb := backward_spec L hI.lowTri (forwardSubstitution L b y0) x0
    have hf := forward_spec L hI.lowTri b y0
    rw [h] at hb
    intro i
    rw [← hf i]
    simp only [← hb, Finset.mul_sum]
    rw [Finset.sum_comm]
    refine Finset.sum_congr rfl fun j _ => ?_
    rw [hI.factor hsym i j, Finset.sum_mul]
    exact Finset.sum_congr rfl fun k _ => by ring
  · rw [hn] at h; cases h

theorem solve_isSome_iff {sqrt : K → K} (hs : IsSqrt sqrt) {H : Sq N K} (hsym : Symmetric H) (b y0 x0 : Vec N K) :
    (solveLinearSystem sqrt H b y0 x0).isSome ↔ PosDef H := by
  unfold solveLinearSystem
  rcases chol_spec sqrt hs H with ⟨L, hL, hI⟩ | ⟨hn, hf⟩
  · rw [hL]; simpa using chol_posDef hI hsym
  · rw [hn]; simpa using chol_fail_not_posDef hsym hf

/-! ### Comparison of values -/

omit [Field K] [IsStrictOrderedRing K] in
theorem Val.le_trans {a b c : Val K} (h1 : a.le b) (h2 : b.le c) : a.le c := by
  cases a <;> cases b <;> cases c <;> simp_all [Val.le]
  exact _root_.le_trans h1 h2

theorem Val.le_addFin {a b : Val K} {d : K} (hd : d ≤ 0) (h : a.le (b.addFin d)) : a.le b := by
  cases a <;> cases b <;> simp_all [Val.le, Val.addFin]
  linarith

omit [Field K] [IsStrictOrderedRing K] in
theorem Val.le_refl_of_ne {a : Val K} (h : a ≠ .nan) : a.le a := by
  cases a <;> simp_all [Val.le]

omit [Field K] [IsStrictOrderedRing K] in
theorem Val.le_ne_nan {a b : Val K} (h : a.le b) : a ≠ .nan := by
  cases a <;> simp_all [Val.le]

omit [IsStrictOrderedRing K] in
theorem Val.not_le_nan {a : Val K} {d : K} : ¬ a.le ((Val.nan : Val K).addFin d) := by
  cases a <;> simp [Val.le, Val.addFin]

/-! ### Hessian -/

omit [IsStrictOrderedRing K] in
theorem hessian_symm (f : Vec N K → Val K) (p : Vec N K) (h : K) (i j : Fin N) :
    computeHessian f p h i j = computeHessian f p h j i := by
  unfold computeHessian
  cases f p with
  | fin f0 =>
    simp only
    rcases lt_trichotomy i j with hij | hij | hij
    · rw [if_neg hij.ne, if_pos hij, if_neg hij.ne', if_neg hij.le.not_gt]
    · subst hij; rfl
    · rw [if_neg hij.ne', if_neg hij.le.not_gt, if_neg hij.ne, if_pos hij]
  | _ => simp only [eq_comm]

omit [IsStrictOrderedRing K] in
theorem finiteHessian_some {H : Fin N → Fin N → Val K} {M : Sq N K} (h : finiteHessian H = some M) :
    ∀ i j, H i j = .fin (M i j) := by
  unfold finiteHessian at h
  split at h
  · rename_i hc
    simp only [List.all_eq_true, List.mem_finRange, true_implies] at hc
    simp only [Option.some.injEq] at h
    subst h
    intro i j
    have := hc i j
    cases hH : H i j <;> simp_all [Val.toFin?]
  · cases h

omit [IsStrictOrderedRing K] in
theorem finiteHessian_of_fin {H : Fin N → Fin N → Val K} {M : Sq N K} (h : ∀ i j, H i j = .fin (M i j)) :
    finiteHessian H = some M := by
  unfold finiteHessian
  rw [if_pos]
  · congr 1; funext i j; rw [h]; rfl
  · simp only [List.all_eq_true, List.mem_finRange, true_implies]; intro i j; rw [h]; rfl

omit [IsStrictOrderedRing K] in
theorem shifted_symm {H : Sq N K} (hs : Symmetric H) (mu : K) : Symmetric fun i j => if i = j then H i j + mu else H i j := by
  intro i j
  by_cases h : i = j
  · subst h; rfl
  · simp only
    rw [if_neg h, if_neg (Ne.symm h), hs]

theorem solveShifted_descent {sqrt : K → K} (hs : IsSqrt sqrt) {H : Sq N K} (hsym : Symmetric H) {g x : Vec N K}
    (h : solveShifted sqrt H g = some x) : dotProduct g (fun i => -x i) ≤ 0 := by
  unfold solveShifted at h
  obtain ⟨k, _, hk⟩ := List.exists_of_findSome?_eq_some h
  have hsy := shifted_symm hsym (10 ^ k / 10 ^ 6 : K)
  have hso := solve_solves hs hsy hk
  have hpd := (solve_isSome_iff hs hsy g _ _).1 (by rw [hk]; rfl)
  rw [dotProduct_eq]
  have hq : ∑ i, g i * -x i = -∑ i, ∑ j, x i * (if i = j then H i j + 10 ^ k / 10 ^ 6 else H i j) * x j := by
    rw [← Finset.sum_neg_distrib]
    refine Finset.sum_congr rfl fun i _ => ?_
    rw [← hso i, Finset.sum_mul, ← Finset.sum_neg_distrib]
    exact Finset.sum_congr rfl fun j _ => by ring
  rw [hq]
  by_cases hx : x = 0
  · subst hx; simp
  · linarith [hpd x hx]

/-! ### Line search -/

theorem lineSearchFrom_some {tiny : K} (ht : 0 < tiny) {f : Vec N K → Val K} {p d : Vec N K} {gd c : K} (hc : 0 ≤ c)
    (hgd : gd ≤ 0) : ∀ (fuel : Nat) (a0 a : K), 0 ≤ a0 → lineSearchFrom tiny f p d gd (1 / 2) c fuel a0 = some a →
      (f fun i => p i + a * d i).le (f p) := by
  intro fuel
  induction fuel with
  | zero => intro a0 a _ h; cases h
  | succ n ih =>
    intro a0 a h0 h
    unfold lineSearchFrom at h
    split at h
    · rename_i hle
      simp only [Option.some.injEq] at h
      subst h
      exact Val.le_addFin (mul_nonpos_of_nonneg_of_nonpos (mul_nonneg hc h0) hgd) hle
    · refine ih _ a ?_ h
      split
      · exact le_refl _
      · positivity

theorem lineSearchFrom_terminates {tiny : K} (ht : 0 < tiny) {f : Vec N K → Val K} {p d : Vec N K} {gd c : K}
    (hp : f p ≠ .nan) : ∀ (n : Nat) (a0 : K), a0 ≤ tiny * 2 ^ n →
      (lineSearchFrom tiny f p d gd (1 / 2) c (n + 2) a0).isSome := by
  have hzero : ∀ n, (lineSearchFrom tiny f p d gd (1 / 2) c (n + 1) 0).isSome := by
    intro n
    unfold lineSearchFrom
    rw [if_pos]
    · rfl
    · have h1 : (fun i => p i + 0 * d i) = p := by funext i; ring
      have h2 : (f p).addFin (c * 0 * gd) = f p := by
        cases f p <;> simp [Val.addFin]
      rw [h1, h2]
      exact Val.le_refl_of_ne hp
  intro n
  induction n with
  | zero =>
    intro a0 h
    unfold lineSearchFrom
    split
    · rfl
    · rw [if_pos (by simp only [pow_zero, mul_one] at h; linarith)]
      exact hzero 0
  | succ n ih =>
    intro a0 h
    unfold lineSearchFrom
    split
    · rfl
    · split
      · exact hzero (n + 1)
      · apply ih
        rw [pow_succ] at h
        linarith

omit [IsStrictOrderedRing K] in
theorem lineSearchFrom_nan {tiny : K} {f : Vec N K → Val K} {p d : Vec N K} {gd rho c : K} (hp : f p = .nan) :
    ∀ (fuel : Nat) (a0 : K), lineSearchFrom tiny f p d gd rho c fuel a0 = none := by
  intro fuel
  induction fuel with
  | zero => intro a0; rfl
  | succ n ih =>
    intro a0
    unfold lineSearchFrom
    rw [hp, if_neg Val.not_le_nan]
    exact ih _

/-! ### Quadratic functions -/

/-- Gradient of a quadratic function. -/
def quadGrad (a : Sq N K) (b : Vec N K) (x : Vec N K) (i : Fin N) : K := ∑ j, (a i j + a j i) * x j + b i

omit [LinearOrder K] [IsStrictOrderedRing K] in
theorem update_add (x : Vec N K) (i : Fin N) (h : K) : Function.update x i (x i + h) = x + Pi.single i h := by
  funext k
  by_cases hk : k = i
  · subst hk; simp
  · simp [hk]

omit [LinearOrder K] [IsStrictOrderedRing K] in
theorem quadratic_add (a : Sq N K) (b : Vec N K) (c : K) (x : Vec N K) (i : Fin N) (h : K) :
    quadratic a b c (x + Pi.single i h) = quadratic a b c x + h * quadGrad a b x i + h ^ 2 * a i i := by
  have e1 : ∑ r, b r * (x + Pi.single i h : Vec N K) r = ∑ r, b r * x r + h * b i := by
    simp only [Pi.add_apply, mul_add, Finset.sum_add_distrib]
    congr 1
    rw [Finset.sum_eq_single i] <;> simp +contextual [Pi.single_apply, mul_comm]
  have e2 : ∑ r, ∑ s, a r s * (x + Pi.single i h : Vec N K) r * (x + Pi.single i h : Vec N K) s =
      ∑ r, ∑ s, a r s * x r * x s + h * ∑ j, (a i j + a j i) * x j + h ^ 2 * a i i := by
    have : ∀ r s, a r s * (x + Pi.single i h : Vec N K) r * (x + Pi.single i h : Vec N K) s =
        a r s * x r * x s + ((if r = i then h * a i s * x s else 0) + (if s = i then h * a r i * x r else 0)) +
          if r = i then (if s = i then h ^ 2 * a i i else 0) else 0 := by
      intro r s
      simp only [Pi.add_apply, Pi.single_apply]
      by_cases hr : r = i <;> by_cases hs : s = i <;> simp only [hr, hs, if_true, if_false] <;> ring
    simp only [this, Finset.sum_add_distrib]
    simp only [Finset.sum_ite_eq', Finset.mem_univ, if_true]
    rw [Finset.sum_eq_single i (f := fun r => ∑ s, if r = i then h * a i s * x s else 0),
      Finset.sum_eq_single i (f := fun r => ∑ s, if r = i then (if s = i then h ^ 2 * a i i else 0) else 0)]
    · simp only [if_true, Finset.sum_ite_eq', Finset.mem_univ, add_mul, Finset.sum_add_distrib, mul_add, Finset.mul_sum,
        mul_assoc]
    · intro r _ hr; simp [hr]
    · simp
    · intro r _ hr; simp [hr]
    · simp
  unfold quadratic quadGrad
  rw [e1, e2]
  ring

omit [LinearOrder K] [IsStrictOrderedRing K] in
theorem quadGrad_add (a : Sq N K) (b : Vec N K) (x : Vec N K) (i j : Fin N) (h : K) :
    quadGrad a b (x + Pi.single j h) i = quadGrad a b x i + h * (a i j + a j i) := by
  unfold quadGrad
  simp only [Pi.add_apply, mul_add, Finset.sum_add_distrib]
  have : ∑ s, (a i s + a s i) * (Pi.single j h : Vec N K) s = (a i j + a j i) * h := by
    rw [Finset.sum_eq_single j] <;> simp +contextual [Pi.single_apply]
  rw [this]
  ring

end Cmm.Newton
