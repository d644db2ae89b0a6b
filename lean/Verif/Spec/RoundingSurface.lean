import Verif.Spec.Surface
/-! Specification vocabulary for C146 and C147. -/
namespace Cmm.Nurbs
variable {K : Type} [Field K] [LinearOrder K]

/-- `f` is a valid surface with weights one and the same degrees and domain as `s`, and nowhere further than `δ` from `s` in any coordinate. -/
def CloseSurface (δ : K) (f s : Surface K) : Prop :=
  ValidSurface f ∧ SurfUnit f ∧ f.du = s.du ∧ f.dv = s.dv ∧
    ∀ a b, (SurfInDomain f a b ↔ SurfInDomain s a b) ∧ (SurfInDomain s a b → ∃ r r', f.evaluate a b = .ok r ∧ s.evaluate a b = .ok r' ∧
      |r.x - r'.x| ≤ δ ∧ |r.y - r'.y| ≤ δ ∧ |r.z - r'.z| ≤ δ)

/-- `f` is a valid surface with weights one and the degrees of `s`, defined exactly on `[u0, u1] × [v0, v1]`, and there nowhere further than `δ` from `s` in any coordinate. -/
def ClosePart (δ : K) (f s : Surface K) (u0 u1 v0 v1 : K) : Prop :=
  ValidSurface f ∧ SurfUnit f ∧ f.du = s.du ∧ f.dv = s.dv ∧
    ∀ a b, (SurfInDomain f a b ↔ (u0 ≤ a ∧ a ≤ u1) ∧ v0 ≤ b ∧ b ≤ v1) ∧ (SurfInDomain f a b → ∃ r r', f.evaluate a b = .ok r ∧ s.evaluate a b = .ok r' ∧
      |r.x - r'.x| ≤ δ ∧ |r.y - r'.y| ≤ δ ∧ |r.z - r'.z| ≤ δ)

end Cmm.Nurbs
