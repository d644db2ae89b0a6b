import Verif.Model.Vec
/-!
Model of cmmcore/matrix.h: `Matrix2x2`, `solve2x2` and the dynamically sized `MatrixD`, over an arbitrary ordered field `K`.
-/
namespace Cmm.Mat
variable {K : Type}

/-- matrix.h 28-32 `Matrix2x2`, `_m[0][0]`, `_m[0][1]`, `_m[1][0]`, `_m[1][1]`. -/
@[ext] structure M2 (K : Type) where
  a : K
  b : K
  c : K
  d : K
  deriving DecidableEq, Repr

section two
variable [Field K]

/-- matrix.h 33 and the member initialiser of line 31: the default constructor, all entries zero. -/
def M2.zero : M2 K := ⟨0, 0, 0, 0⟩

/-- matrix.h 34: the constructor from nested braces. Its body is empty: the argument is not used. -/
def M2.ofBraces (_arr : List (List K)) : M2 K := M2.zero

/-- matrix.h 35-41: the constructor from two rows. -/
def M2.ofRows (ab cd : K × K) : M2 K := ⟨ab.1, ab.2, cd.1, cd.2⟩

/-- matrix.h 51-57 `fromDiag`. -/
def M2.fromDiag (p q : K) : M2 K := ⟨p, 0, 0, q⟩

/-- matrix.h 59-65 `eye`. -/
def M2.eye : M2 K := ⟨1, 0, 0, 1⟩

/-- matrix.h 77-86 `transpose`. -/
def M2.transpose (m : M2 K) : M2 K := ⟨m.a, m.c, m.b, m.d⟩

/-- matrix.h 89-91 `det`. -/
def M2.det (m : M2 K) : K := m.a * m.d - m.b * m.c

/-- matrix.h 94-108 `inverse`. -/
def M2.inverse [DecidableEq K] (m : M2 K) : Res (M2 K) :=
  if m.det = 0 then .throws
  else .ok ⟨m.d / m.det, -m.b / m.det, -m.c / m.det, m.a / m.det⟩

/-- matrix.h 111-124 `operator*` on matrices (each entry starts at 0 and is summed in order). -/
def M2.mul (m n : M2 K) : M2 K :=
  ⟨0 + m.a * n.a + m.b * n.c, 0 + m.a * n.b + m.b * n.d, 0 + m.c * n.a + m.d * n.c, 0 + m.c * n.b + m.d * n.d⟩

/-- matrix.h 127-135 `operator*` on vectors. -/
def M2.mulVec (m : M2 K) (v : K × K) : K × K := (0 + m.a * v.1 + m.b * v.2, 0 + m.c * v.1 + m.d * v.2)

/-- matrix.h 140-164 `solve2x2`: `none` is the return value false (the result is not written). -/
def solve2x2 [DecidableEq K] (A : M2 K) (b : K × K) : Option (K × K) :=
  if A.det = 0 then none
  else
    let A1 : M2 K := { A with a := b.1, c := b.2 }
    let A2 : M2 K := { A with b := b.1, d := b.2 }
    some (A1.det / A.det, A2.det / A.det)
end two

/-- matrix.h 168-173 `MatrixD`: row-major data. -/
structure MatrixD (K : Type) where
  data : List K
  rows : Nat
  cols : Nat
  deriving DecidableEq, Repr

section dynamic
variable [Field K]

/-- matrix.h 174 the constructor with sizes. -/
def MatrixD.zeros (r c : Nat) : MatrixD K := ⟨List.replicate (r * c) 0, r, c⟩

/-- matrix.h 176-182 `operator()`: unchecked access to `data[i * cols + j]`. -/
def MatrixD.get (m : MatrixD K) (i j : Nat) : K := m.data.getD (i * m.cols + j) 0

/-- A freshly constructed `r × c` matrix after the loops over all `i` and `j` wrote `f i j` into the cell `(i, j)`. -/
def MatrixD.fill (r c : Nat) (f : Nat → Nat → K) : MatrixD K :=
  ⟨(List.range r).flatMap fun i => (List.range c).map fun j => f i j, r, c⟩

/-- The data covers the index range that `rows` and `cols` promise (they are public and can be changed). -/
def MatrixD.covered (m : MatrixD K) : Prop := m.rows * m.cols ≤ m.data.length

instance (m : MatrixD K) : Decidable m.covered := inferInstanceAs (Decidable (_ ≤ _))

/-- matrix.h 187-200 `operator*`. -/
def MatrixD.mul (m n : MatrixD K) : Res (MatrixD K) :=
  if m.cols ≠ n.rows then .throws
  else if ¬ m.covered ∨ ¬ n.covered then .ub
  else .ok (MatrixD.fill m.rows n.cols fun i j => (List.range m.cols).foldl (fun s k => s + m.get i k * n.get k j) 0)

/-- matrix.h 202-210 `transpose`. -/
def MatrixD.transpose (m : MatrixD K) : Res (MatrixD K) :=
  if ¬ m.covered then .ub else .ok (MatrixD.fill m.cols m.rows fun i j => m.get j i)

/-- A table of `n` rows and `m` columns, the array `augmented` of `inverse` (simplified to a list of rows). -/
def table (n m : Nat) (f : Nat → Nat → K) : List (List K) := (List.range n).map fun i => (List.range m).map fun j => f i j

/-- `augmented(i, j)`. -/
def tget (t : List (List K)) (i j : Nat) : K := (t.getD i []).getD j 0

variable [LinearOrder K]

/-- matrix.h 216-222: `[A | I]`. -/
def augment (m : MatrixD K) : List (List K) :=
  table m.rows (2 * m.cols) fun i j => if j < m.cols then m.get i j else if i = j - m.cols then 1 else 0

/-- matrix.h 225-230: the row of largest absolute value in column `i`, from row `i` on; the first one in case of a tie. -/
def pivotRow (n i : Nat) (t : List (List K)) : Nat :=
  (List.range' (i + 1) (n - (i + 1))).foldl (fun p j => if |tget t p i| < |tget t j i| then j else p) i

/-- matrix.h 231-235: swap of two rows. -/
def swapRows (n m i p : Nat) (t : List (List K)) : List (List K) :=
  table n m fun r c => if r = i then tget t p c else if r = p then tget t i c else tget t r c

/-- matrix.h 242-244: division of row `i` by the pivot value (read before the loop). -/
def scaleRow (n m i : Nat) (v : K) (t : List (List K)) : List (List K) :=
  table n m fun r c => if r = i then tget t i c / v else tget t r c

/-- matrix.h 246-253: subtracts `augmented(k, i)` times row `i` from every other row `k`. The loop over `k` writes only row
`k` and reads only rows `k` and `i`, so all rows are written at once here. -/
def clearColumn (n m i : Nat) (t : List (List K)) : List (List K) :=
  table n m fun r c => if r = i then tget t i c else tget t r c - tget t r i * tget t i c

/-- matrix.h 238 the bound for the pivot. -/
def pivotTol : K := 1 / 10 ^ 10

/-- matrix.h 224-254, one pass of the elimination loop. -/
def invStep (n m : Nat) (t : List (List K)) (i : Nat) : Res (List (List K)) :=
  let p := pivotRow n i t
  let t := if p ≠ i then swapRows n m i p t else t
  let v := tget t i i
  if |v| < pivotTol then .throws
  else .ok (clearColumn n m i (scaleRow n m i v t))

/-- matrix.h 212-263 `inverse`. -/
def MatrixD.inverse (m : MatrixD K) : Res (MatrixD K) :=
  if m.rows ≠ m.cols then .throws
  else if ¬ m.covered then .ub
  else do
    let t ← (List.range m.rows).foldlM (invStep m.rows (2 * m.cols)) (augment m)
    .ok (MatrixD.fill m.rows m.cols fun i j => tget t i (j + m.cols))

end dynamic
end Cmm.Mat
