import Verif.Model.Matrix
import Verif.Model.Surface
/-!
Model of cmmcore/binom.h and cmmcore/monomial.h: the binomial table and the monomial form of Bezier patches, over an
arbitrary ordered field `K`.
-/
namespace Cmm.Mono
open Cmm.Mat Cmm.Nurbs
variable {K : Type}

/-- binom.h 28-1052 `binom_coeffs`, copied. -/
def binomCoeffs : List (List Int) :=
  [[1, 0, 0, 0, 0, 0, 0, 0, 0, 0, 0, 0, 0, 0, 0, 0, 0, 0, 0, 0, 0, 0, 0, 0, 0, 0, 0, 0, 0, 0, 0],
   [1, 1, 0, 0, 0, 0, 0, 0, 0, 0, 0, 0, 0, 0, 0, 0, 0, 0, 0, 0, 0, 0, 0, 0, 0, 0, 0, 0, 0, 0, 0],
   [1, 2, 1, 0, 0, 0, 0, 0, 0, 0, 0, 0, 0, 0, 0, 0, 0, 0, 0, 0, 0, 0, 0, 0, 0, 0, 0, 0, 0, 0, 0],
   [1, 3, 3, 1, 0, 0, 0, 0, 0, 0, 0, 0, 0, 0, 0, 0, 0, 0, 0, 0, 0, 0, 0, 0, 0, 0, 0, 0, 0, 0, 0],
   [1, 4, 6, 4, 1, 0, 0, 0, 0, 0, 0, 0, 0, 0, 0, 0, 0, 0, 0, 0, 0, 0, 0, 0, 0, 0, 0, 0, 0, 0, 0],
   [1, 5, 10, 10, 5, 1, 0, 0, 0, 0, 0, 0, 0, 0, 0, 0, 0, 0, 0, 0, 0, 0, 0, 0, 0, 0, 0, 0, 0, 0, 0],
   [1, 6, 15, 20, 15, 6, 1, 0, 0, 0, 0, 0, 0, 0, 0, 0, 0, 0, 0, 0, 0, 0, 0, 0, 0, 0, 0, 0, 0, 0, 0],
   [1, 7, 21, 35, 35, 21, 7, 1, 0, 0, 0, 0, 0, 0, 0, 0, 0, 0, 0, 0, 0, 0, 0, 0, 0, 0, 0, 0, 0, 0, 0],
   [1, 8, 28, 56, 70, 56, 28, 8, 1, 0, 0, 0, 0, 0, 0, 0, 0, 0, 0, 0, 0, 0, 0, 0, 0, 0, 0, 0, 0, 0, 0],
   [1, 9, 36, 84, 126, 126, 84, 36, 9, 1, 0, 0, 0, 0, 0, 0, 0, 0, 0, 0, 0, 0, 0, 0, 0, 0, 0, 0, 0, 0, 0],
   [1, 10, 45, 120, 210, 252, 210, 120, 45, 10, 1, 0, 0, 0, 0, 0, 0, 0, 0, 0, 0, 0, 0, 0, 0, 0, 0, 0, 0, 0, 0],
   [1, 11, 55, 165, 330, 462, 462, 330, 165, 55, 11, 1, 0, 0, 0, 0, 0, 0, 0, 0, 0, 0, 0, 0, 0, 0, 0, 0, 0, 0, 0],
   [1, 12, 66, 220, 495, 792, 924, 792, 495, 220, 66, 12, 1, 0, 0, 0, 0, 0, 0, 0, 0, 0, 0, 0, 0, 0, 0, 0, 0, 0, 0],
   [1, 13, 78, 286, 715, 1287, 1716, 1716, 1287, 715, 286, 78, 13, 1, 0, 0, 0, 0, 0, 0, 0, 0, 0, 0, 0, 0, 0, 0, 0, 0, 0],
   [1, 14, 91, 364, 1001, 2002, 3003, 3432, 3003, 2002, 1001, 364, 91, 14, 1, 0, 0, 0, 0, 0, 0, 0, 0, 0, 0, 0, 0, 0, 0,
     0, 0],
   [1, 15, 105, 455, 1365, 3003, 5005, 6435, 6435, 5005, 3003, 1365, 455, 105, 15, 1, 0, 0, 0, 0, 0, 0, 0, 0, 0, 0, 0, 0,
     0, 0, 0],
   [1, 16, 120, 560, 1820, 4368, 8008, 11440, 12870, 11440, 8008, 4368, 1820, 560, 120, 16, 1, 0, 0, 0, 0, 0, 0, 0, 0, 0,
     0, 0, 0, 0, 0],
   [1, 17, 136, 680, 2380, 6188, 12376, 19448, 24310, 24310, 19448, 12376, 6188, 2380, 680, 136, 17, 1, 0, 0, 0, 0, 0, 0,
     0, 0, 0, 0, 0, 0, 0],
   [1, 18, 153, 816, 3060, 8568, 18564, 31824, 43758, 48620, 43758, 31824, 18564, 8568, 3060, 816, 153, 18, 1, 0, 0, 0,
     0, 0, 0, 0, 0, 0, 0, 0, 0],
   [1, 19, 171, 969, 3876, 11628, 27132, 50388, 75582, 92378, 92378, 75582, 50388, 27132, 11628, 3876, 969, 171, 19, 1,
     0, 0, 0, 0, 0, 0, 0, 0, 0, 0, 0],
   [1, 20, 190, 1140, 4845, 15504, 38760, 77520, 125970, 167960, 184756, 167960, 125970, 77520, 38760, 15504, 4845, 1140,
     190, 20, 1, 0, 0, 0, 0, 0, 0, 0, 0, 0, 0],
   [1, 21, 210, 1330, 5985, 20349, 54264, 116280, 203490, 293930, 352716, 352716, 293930, 203490, 116280, 54264, 20349,
     5985, 1330, 210, 21, 1, 0, 0, 0, 0, 0, 0, 0, 0, 0],
   [1, 22, 231, 1540, 7315, 26334, 74613, 170544, 319770, 497420, 646646, 705432, 646646, 497420, 319770, 170544, 74613,
     26334, 7315, 1540, 231, 22, 1, 0, 0, 0, 0, 0, 0, 0, 0],
   [1, 23, 253, 1771, 8855, 33649, 100947, 245157, 490314, 817190, 1144066, 1352078, 1352078, 1144066, 817190, 490314,
     245157, 100947, 33649, 8855, 1771, 253, 23, 1, 0, 0, 0, 0, 0, 0, 0],
   [1, 24, 276, 2024, 10626, 42504, 134596, 346104, 735471, 1307504, 1961256, 2496144, 2704156, 2496144, 1961256,
     1307504, 735471, 346104, 134596, 42504, 10626, 2024, 276, 24, 1, 0, 0, 0, 0, 0, 0],
   [1, 25, 300, 2300, 12650, 53130, 177100, 480700, 1081575, 2042975, 3268760, 4457400, 5200300, 5200300, 4457400,
     3268760, 2042975, 1081575, 480700, 177100, 53130, 12650, 2300, 300, 25, 1, 0, 0, 0, 0, 0],
   [1, 26, 325, 2600, 14950, 65780, 230230, 657800, 1562275, 3124550, 5311735, 7726160, 9657700, 10400600, 9657700,
     7726160, 5311735, 3124550, 1562275, 657800, 230230, 65780, 14950, 2600, 325, 26, 1, 0, 0, 0, 0],
   [1, 27, 351, 2925, 17550, 80730, 296010, 888030, 2220075, 4686825, 8436285, 13037895, 17383860, 20058300, 20058300,
     17383860, 13037895, 8436285, 4686825, 2220075, 888030, 296010, 80730, 17550, 2925, 351, 27, 1, 0, 0, 0],
   [1, 28, 378, 3276, 20475, 98280, 376740, 1184040, 3108105, 6906900, 13123110, 21474180, 30421755, 37442160, 40116600,
     37442160, 30421755, 21474180, 13123110, 6906900, 3108105, 1184040, 376740, 98280, 20475, 3276, 378, 28, 1, 0, 0],
   [1, 29, 406, 3654, 23751, 118755, 475020, 1560780, 4292145, 10015005, 20030010, 34597290, 51895935, 67863915,
     77558760, 77558760, 67863915, 51895935, 34597290, 20030010, 10015005, 4292145, 1560780, 475020, 118755, 23751, 3654,
     406, 29, 1, 0],
   [1, 30, 435, 4060, 27405, 142506, 593775, 2035800, 5852925, 14307150, 30045015, 54627300, 86493225, 119759850,
     145422675, 155117520, 145422675, 119759850, 86493225, 54627300, 30045015, 14307150, 5852925, 2035800, 593775, 142506,
     27405, 4060, 435, 30, 1]]

/-- binom.h 1054-1056 `binomial_coefficient`: no bounds check, an index outside the table is undefined. -/
def binomialCoefficient (n k : Int) : Res Int :=
  if n < 0 ∨ 31 ≤ n ∨ k < 0 ∨ 31 ≤ k then .ub
  else .ok ((binomCoeffs.getD n.toNat []).getD k.toNat 0)

/-- `Tensor2D<vec3>`. -/
abbrev Tensor (K : Type) := List (List (Vec3 K))

/-- `t[i][j]`. -/
def tcell [Zero K] (t : Tensor K) (i j : Nat) : Vec3 K := (t.getD i []).getD j 0

section
variable [Field K] [LinearOrder K]

/-- A table entry as used in a `double` expression. -/
def binomD (n k : Nat) : Res K := do
  let b ← binomialCoefficient n k
  .ok (b : K)

/-- monomial.h 23-26, one row of `bpmat`, from column `k` on. -/
def bpRow (n j : Nat) : Nat → Nat → Res (List K)
  | 0, _ => .ok []
  | len + 1, k =>
    if k ≤ j then do
      let a ← binomD n j
      let b ← binomD j k
      let rest ← bpRow n j len (k + 1)
      .ok ((-1) ^ (j - k) * a * b :: rest)
    else do
      let rest ← bpRow n j len (k + 1)
      .ok (0 :: rest)

/-- monomial.h 18-29 `bpmat`; `N` is `n + 1`, the size of the matrix (the callers pass `n - 1` for a size `n`). -/
def bpmat (N : Nat) : Res (MatrixD K) := do
  let rows ← mapRes (fun j => bpRow (N - 1) j N 0) (List.range N)
  .ok ⟨rows.flatten, N, N⟩

/-- monomial.h 36-49 `getVectorTensor2DComponent`: the sizes are those of the tensor. Rows of different lengths would
overwrite each other or run past the end; this is reported as undefined here. -/
def getComponent (t : Tensor K) (c : Nat) : Res (MatrixD K) :=
  match t with
  | [] => .ub
  | r0 :: rest =>
    if (r0 :: rest).all fun r => decide (r.length = r0.length) then
      .ok ⟨(r0 :: rest).flatMap fun r => r.map fun p => p.coord c, (r0 :: rest).length, r0.length⟩
    else .ub

/-- The three components of every point of an `n` by `m` tensor set from three matrices: monomial.h 51-61
`setVectorTensor2DComponent` for the components 0, 1, 2. -/
def setComponents (n m : Nat) (x y z : MatrixD K) : Tensor K :=
  (List.range n).map fun i => (List.range m).map fun j => ⟨x.get i j, y.get i j, z.get i j⟩

/-- `A * P * B` for the three components of `P`: monomial.h 182-188 and 217-222. -/
def sandwich (A : MatrixD K) (t : Tensor K) (B : MatrixD K) : Res (MatrixD K × MatrixD K × MatrixD K) := do
  let one : Nat → Res (MatrixD K) := fun c => do
    let cfs ← getComponent t c
    let l ← A.mul cfs
    l.mul B
  let x ← one 0
  let y ← one 1
  let z ← one 2
  .ok (x, y, z)

/-- monomial.h 137-143 `Monomial2D`. -/
structure Monomial (K : Type) where
  n : Nat
  m : Nat
  coefficients : Tensor K
  Mu : MatrixD K
  Mv : MatrixD K
  MuInv : MatrixD K
  MvInv : MatrixD K

/-- monomial.h 145 the default constructor. -/
def Monomial.empty : Monomial K := ⟨0, 0, [], ⟨[], 0, 0⟩, ⟨[], 0, 0⟩, ⟨[], 0, 0⟩, ⟨[], 0, 0⟩⟩

/-- monomial.h 147-153 the constructor from sizes and coefficients. -/
def Monomial.make (n m : Nat) (c : Tensor K) : Res (Monomial K) := do
  let Mu ← bpmat n
  let Mv ← bpmat m
  let MuInv ← Mu.inverse
  let MvInv ← Mv.inverse
  .ok ⟨n, m, c, Mu, Mv, MuInv, MvInv⟩

/-- monomial.h 163-168 the constructor from coefficients, and 191-200 `set`: the size is read off the first row. -/
def Monomial.ofCoeffs (c : Tensor K) : Res (Monomial K) :=
  match c with
  | [] => .ub
  | r0 :: rest => Monomial.make (r0 :: rest).length r0.length (r0 :: rest)

/-- nurbs.h 992-1003 `control_points3d`. A zero weight gives no finite coordinates and is reported as undefined here. -/
def controlPoints3d (s : Surface K) : Res (Tensor K) :=
  if s.covered = false then .ub
  else mapRes (fun i => mapRes (fun j => if (cell s.cpts i j).w = 0 then .ub else .ok (cell s.cpts i j).toVec3)
    (List.range s.sv)) (List.range s.su)

/-- monomial.h 175-189 the constructor from a surface. -/
def Monomial.ofSurface (s : Surface K) : Res (Monomial K) := do
  let Mu ← bpmat s.su
  let Mv ← bpmat s.sv
  let MuInv ← Mu.inverse
  let MvInv ← Mv.inverse
  let cpts ← controlPoints3d s
  let MvT ← Mv.transpose
  let r ← sandwich Mu cpts MvT
  .ok ⟨s.su, s.sv, setComponents s.su s.sv r.1 r.2.1 r.2.2, Mu, Mv, MuInv, MvInv⟩

/-- monomial.h 202-232 `to_bezier` into a default-constructed surface (an existing grid would keep its rows and weights).
With an empty size the degree becomes -1 and the knot generation writes out of bounds. -/
def Monomial.toBezier (q : Monomial K) : Res (Surface K) := do
  let T ← q.MvInv.transpose
  let r ← sandwich q.MuInv q.coefficients T
  if q.n = 0 ∨ q.m = 0 then .ub
  else
  let ku ← Nurbs.generateKnots q.n (q.n - 1)
  let kv ← Nurbs.generateKnots q.m (q.m - 1)
  (⟨(setComponents q.n q.m r.1 r.2.1 r.2.2).map fun row => row.map fun p => ⟨p.x, p.y, p.z, 1⟩, q.n - 1, q.m - 1, q.n, q.m,
    ku, kv, 0, 0, 0, 0⟩ : Surface K).updateInterval

/-- monomial.h 250-256 `operator=`: the conversion matrices are not assigned. -/
def Monomial.assign (dst src : Monomial K) : Monomial K :=
  { dst with n := src.n, m := src.m, coefficients := src.coefficients }

/-- `SurfaceParameter`. -/
inductive Param where
  | U
  | V
  deriving DecidableEq

/-- monomial.h 63-99 `compute_partial_derivative` into an empty tensor: undefined without rows or with a row shorter than the
first; for `V` and empty rows the size `m - 1` is negative, which throws. -/
def partialDerivative (c : Tensor K) (v : Param) : Res (Tensor K) :=
  match c with
  | [] => .ub
  | r0 :: rest =>
    match v with
    | .U =>
      if rest.all fun r => decide (r0.length ≤ r.length) then
        .ok ((List.range ((r0 :: rest).length - 1)).map fun i => (List.range r0.length).map fun j =>
          (tcell (r0 :: rest) (i + 1) j).smul ((i + 1 : Nat) : K))
      else .ub
    | .V =>
      if r0.length = 0 then .throws
      else if rest.all fun r => decide (r0.length ≤ r.length) then
        .ok ((List.range (r0 :: rest).length).map fun i => (List.range (r0.length - 1)).map fun j =>
          (tcell (r0 :: rest) i (j + 1)).smul ((j + 1 : Nat) : K))
      else .ub

/-- `result[i][j] += p`. -/
def addCell (t : Tensor K) (i j : Nat) (p : Vec3 K) : Tensor K := t.modify i fun r => r.modify j (· + p)

/-- monomial.h 101-135 `cross` of two tensors into an empty one: the four nested loops over the coefficients. -/
def crossTensor (a b : Tensor K) : Res (Tensor K) :=
  match a, b with
  | a0 :: as, b0 :: bs =>
    if as.all (fun r => decide (a0.length ≤ r.length)) && bs.all (fun r => decide (b0.length ≤ r.length)) then
      if a0.length + b0.length = 0 then .throws
      else
      let n1 := (a0 :: as).length
      let n2 := (b0 :: bs).length
      let zero : Tensor K := List.replicate (n1 + n2 - 1) (List.replicate (a0.length + b0.length - 1) 0)
      let idx := (List.range n1).flatMap fun i1 => (List.range a0.length).flatMap fun j1 =>
        (List.range n2).flatMap fun i2 => (List.range b0.length).map fun j2 => (i1, j1, i2, j2)
      .ok (idx.foldl (fun t q => addCell t (q.1 + q.2.2.1) (q.2.1 + q.2.2.2)
        ((tcell (a0 :: as) q.1 q.2.1).cross (tcell (b0 :: bs) q.2.2.1 q.2.2.2))) zero)
    else .ub
  | _, _ => .ub

/-- monomial.h 234-239 `computePartialDerivative`. -/
def Monomial.partialDerivative (q : Monomial K) (v : Param) : Res (Monomial K) := do
  let c ← Mono.partialDerivative q.coefficients v
  Monomial.ofCoeffs c

/-- monomial.h 241-248 `computeNormal`. -/
def Monomial.normal (q : Monomial K) : Res (Monomial K) := do
  let cu ← Mono.partialDerivative q.coefficients .U
  let cv ← Mono.partialDerivative q.coefficients .V
  let c ← crossTensor cu cv
  Monomial.ofCoeffs c

end
end Cmm.Mono
