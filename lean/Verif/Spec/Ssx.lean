import Verif.Model.Ssx
/-! Specification vocabulary for the parameter step and point inversion. -/
namespace Cmm.Ssx
open Cmm.Mat
variable {K : Type} [Field K] [LinearOrder K]

/-- The three tangent systems in the matrix notation of the source: rows `(x, y)`, `(x, z)` and `(y, z)` of `[du dv]`. -/
def tangentMats (du dv : Vec3 K) : List (M2 K) :=
  [⟨du.x, dv.x, du.y, dv.y⟩, ⟨du.x, dv.x, du.z, dv.z⟩, ⟨du.y, dv.y, du.z, dv.z⟩]

/-- The plane through `o` spanned by `a` and `b`, as the functions point inversion calls. -/
def plane (o a b : Vec3 K) : SurfFns K := ⟨fun u v => .ok (o + a.smul u + b.smul v), fun _ _ => .ok a, fun _ _ => .ok b⟩

/-- The straight line through `o` with direction `a`. -/
def line (o a : Vec3 K) : CurveFns K := ⟨fun u => .ok (o + a.smul u), fun _ => .ok a, fun _ => .ok ⟨0, 0, 0⟩⟩

/-- `u'` is the Newton iterate after `u` for the foot point of `P`: `u' = u - C'·(C-P) / (C''·(C-P) + C'·C')`, the denominator at least `eps`. -/
def NewtonStep (eps : K) (F : CurveFns K) (P : Vec3 K) (u u' : K) : Prop :=
  ∃ c c1 c2, F.pt u = .ok c ∧ F.d1 u = .ok c1 ∧ F.d2 u = .ok c2 ∧ eps ≤ |c2.dot (c - P) + c1.dot c1| ∧
    u' = u - c1.dot (c - P) / (c2.dot (c - P) + c1.dot c1)

/-- `uv'` is the Gauss-Newton iterate after `uv`: the displacement solves the normal equations. -/
def GaussStep (F : SurfFns K) (P : Vec3 K) (uv uv' : K × K) : Prop :=
  ∃ s du dv, F.pt uv.1 uv.2 = .ok s ∧ F.du uv.1 uv.2 = .ok du ∧ F.dv uv.1 uv.2 = .ok dv ∧
    du.dot (s - P + du.smul (uv'.1 - uv.1) + dv.smul (uv'.2 - uv.2)) = 0 ∧
    dv.dot (s - P + du.smul (uv'.1 - uv.1) + dv.smul (uv'.2 - uv.2)) = 0

/-- A chain of `n` steps of the relation `R`. -/
inductive Chain {α : Type} (R : α → α → Prop) : Nat → α → α → Prop
  | zero (a : α) : Chain R 0 a a
  | succ {n : Nat} {a b c : α} : R a b → Chain R n b c → Chain R (n + 1) a c

end Cmm.Ssx
