import Verif.Model.Monomial
import Mathlib.Data.Nat.Choose.Basic
import Mathlib.Algebra.BigOperators.Group.Finset.Basic
import Mathlib.Algebra.Polynomial.Derivative
/-! Bernstein and monomial forms of polynomial patches, stated independently of the code. -/
namespace Cmm.Mono
open Finset Cmm.Nurbs
variable {K : Type} [Field K]

/-- The Bernstein polynomial `B_{i,n}`. -/
def bernstein (n i : Nat) (t : K) : K := (n.choose i : K) * t ^ i * (1 - t) ^ (n - i)

/-- The value of a Bezier patch with `n` by `m` control points `P i j`, in one coordinate. -/
def bezierValue (n m : Nat) (P : Nat → Nat → K) (u v : K) : K :=
  ∑ i ∈ range n, ∑ j ∈ range m, bernstein (n - 1) i u * bernstein (m - 1) j v * P i j

/-- The Bezier patch with the given control points. -/
def bezier (n m : Nat) (P : Nat → Nat → Vec3 K) (u v : K) : Vec3 K :=
  ⟨bezierValue n m (fun i j => (P i j).x) u v, bezierValue n m (fun i j => (P i j).y) u v,
   bezierValue n m (fun i j => (P i j).z) u v⟩

/-- `∑ t[i][j] u^i v^j`, in the coordinate `φ`. -/
def monoValue (φ : Vec3 K → K) (t : Tensor K) (u v : K) : K :=
  ∑ i ∈ range t.length, ∑ j ∈ range (t.getD i []).length, φ (tcell t i j) * u ^ i * v ^ j

/-- The polynomial patch with the coefficients `t`. -/
def mono (t : Tensor K) (u v : K) : Vec3 K :=
  ⟨monoValue (·.x) t u v, monoValue (·.y) t u v, monoValue (·.z) t u v⟩

/-- All rows have length `m` and there are `n` of them. -/
def Rect (t : Tensor K) (n m : Nat) : Prop := t.length = n ∧ ∀ r ∈ t, r.length = m

open Polynomial in
/-- The patch in the coordinate `φ` as a polynomial in `u`, for fixed `v`. -/
noncomputable def polyU (φ : Vec3 K → K) (t : Tensor K) (v : K) : K[X] :=
  ∑ i ∈ range t.length, ∑ j ∈ range (t.getD i []).length, C (φ (tcell t i j) * v ^ j) * X ^ i

open Polynomial in
/-- The patch in the coordinate `φ` as a polynomial in `v`, for fixed `u`. -/
noncomputable def polyV (φ : Vec3 K → K) (t : Tensor K) (u : K) : K[X] :=
  ∑ i ∈ range t.length, ∑ j ∈ range (t.getD i []).length, C (φ (tcell t i j) * u ^ i) * X ^ j

variable [LinearOrder K]

/-- A polynomial Bezier patch: size 2 to 9 in both directions, full degree, knots 0 and 1, and the same nonzero weight `w`
everywhere. -/
structure BezierPatch (s : Surface K) (w : K) : Prop where
  size_u : 2 ≤ s.su ∧ s.su ≤ 9
  size_v : 2 ≤ s.sv ∧ s.sv ≤ 9
  rows : s.cpts.length = s.su
  cols : ∀ r ∈ s.cpts, r.length = s.sv
  degree : s.du = s.su - 1 ∧ s.dv = s.sv - 1
  knots_u : s.ku = List.replicate s.su 0 ++ List.replicate s.su 1
  knots_v : s.kv = List.replicate s.sv 0 ++ List.replicate s.sv 1
  weight : w ≠ 0 ∧ ∀ r ∈ s.cpts, ∀ q ∈ r, q.w = w

end Cmm.Mono
