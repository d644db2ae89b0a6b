import Verif.Model.Boundary
import Verif.Spec.Surface
/-! Specification vocabulary for boundary intersections. -/
namespace Cmm.Bnd
open Cmm.Nurbs
variable {K : Type}

/-- `seqs` pairs the points `pts`: each sequence starts with the first point left and continues with the nearest of the others (the first of equally
near ones), a point alone is the last one. -/
def Pairing {α : Type} [LinearOrder K] (dist : α → α → K) : List α → List (List α) → Prop
  | pts, [] => pts = []
  | pts, s :: r => (∃ a, pts = [a] ∧ s = [a] ∧ r = []) ∨
      ∃ a pre b post, pts = a :: (pre ++ b :: post) ∧ s = [a, b] ∧ (∀ c ∈ pre, dist a b < dist a c) ∧ (∀ c ∈ post, dist a b ≤ dist a c) ∧
        Pairing dist (pre ++ post) r

/-- The list without the elements that have an equal one further on. -/
def keepLast {α : Type} (same : α → α → Bool) : List α → List α
  | [] => []
  | p :: ps => if ps.any (same p) then keepLast same ps else p :: keepLast same ps

/-- Two points have the same key (their coordinates truncate to the same multiples of 1/15). -/
def SameKey [Field K] [LinearOrder K] [FloorRing K] (a b : Vec3 K) : Prop := Hash.vec3Equal a b = .ok true

/-- The parameters, on the surface it bounds, of the point with curve parameter `t` on boundary `i`. -/
def OnBoundary (s : Surface K) (i : Nat) (t : K) (uv : K × K) : Prop :=
  (i = 0 ∧ uv = (s.u0, t)) ∨ (i = 1 ∧ uv = (s.u1, t)) ∨ (i = 2 ∧ uv = (t, s.v0)) ∨ (i = 3 ∧ uv = (t, s.v1))

end Cmm.Bnd
