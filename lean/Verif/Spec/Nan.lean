import Verif.Model.Nan
import Verif.Model.KDTree
/-! Specification vocabulary for inputs with NaN. -/
namespace Cmm
variable {K : Type}

/-- No coordinate of the point is NaN. -/
def Vec3.Defined (p : Vec3 (Dbl K)) : Prop := p.x ≠ .nan ∧ p.y ≠ .nan ∧ p.z ≠ .nan

/-- The tree after inserting the points one after another into an empty tree. -/
def KD.insertAll [LT K] [DecidableLT K] (points : List (Vec3 (Dbl K))) : KD.KDTree (Dbl K) :=
  points.foldl KD.KDTree.insert KD.KDTree.empty0

end Cmm
