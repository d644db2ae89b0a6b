import Verif.Model.Vec
/-!
Model of `AABB` of cmmcore/aabb.h. The scalar code path is modelled here, the NEON and SSE2 paths in `Model/AABBSimd` (C122): NEON computes the same
(for finite doubles), SSE2 is undefined. `std::min`, `std::max` are the order's minimum and maximum; for doubles with NaN see `Model/Nan` (C125).
-/
namespace Cmm

variable {K : Type}

/-- aabb.h 15-16 `AABB`: `min`, `max`. -/
@[ext] structure AABB (K : Type) where
  min : Vec3 K
  max : Vec3 K
  deriving DecidableEq, Repr

/-- aabb.h 18-21 `AABB()`: `min = DBL_MAX`, `max = lowest`; both constants are parameters. -/
def AABB.init (big low : K) : AABB K := ⟨⟨big, big, big⟩, ⟨low, low, low⟩⟩

/-- aabb.h 44-98 `intersects`. -/
def AABB.intersects [LE K] [DecidableLE K] (a b : AABB K) : Bool :=
  decide (a.min.x ≤ b.max.x) && decide (b.min.x ≤ a.max.x) &&
  decide (a.min.y ≤ b.max.y) && decide (b.min.y ≤ a.max.y) &&
  decide (a.min.z ≤ b.max.z) && decide (b.min.z ≤ a.max.z)

/-- aabb.h 100-188 `intersection`: the returned flag and the output parameter `result` afterwards. -/
def AABB.intersection [LE K] [DecidableLE K] [Min K] [Max K] (a b : AABB K) (result : AABB K) : Bool × AABB K :=
  if a.min.x ≤ b.max.x ∧ b.min.x ≤ a.max.x ∧ a.min.y ≤ b.max.y ∧ b.min.y ≤ a.max.y ∧
     a.min.z ≤ b.max.z ∧ b.min.z ≤ a.max.z then
    (true, ⟨⟨Max.max a.min.x b.min.x, Max.max a.min.y b.min.y, Max.max a.min.z b.min.z⟩,
            ⟨Min.min a.max.x b.max.x, Min.min a.max.y b.max.y, Min.min a.max.z b.max.z⟩⟩)
  else (false, result)

/-- aabb.h 196-245 `merge`. -/
def AABB.merge [Min K] [Max K] (a b : AABB K) : AABB K :=
  ⟨⟨Min.min a.min.x b.min.x, Min.min a.min.y b.min.y, Min.min a.min.z b.min.z⟩,
   ⟨Max.max a.max.x b.max.x, Max.max a.max.y b.max.y, Max.max a.max.z b.max.z⟩⟩

/-- aabb.h 252-289 `volume`. -/
def AABB.volume [Sub K] [Mul K] (a : AABB K) : K :=
  (a.max.x - a.min.x) * (a.max.y - a.min.y) * (a.max.z - a.min.z)

/-- aabb.h 291-298 `expand`. -/
def AABB.expand [Min K] [Max K] (a : AABB K) (p : Vec3 K) : AABB K :=
  ⟨⟨Min.min a.min.x p.x, Min.min a.min.y p.y, Min.min a.min.z p.z⟩,
   ⟨Max.max a.max.x p.x, Max.max a.max.y p.y, Max.max a.max.z p.z⟩⟩

/-- aabb.h 26-32 `AABB(const std::vector<vec3>&)`: `pts[0]` of an empty vector is undefined behaviour. -/
def AABB.ofPoints [Min K] [Max K] : List (Vec3 K) → Res (AABB K)
  | [] => .ub
  | p :: ps => .ok (ps.foldl AABB.expand ⟨p, p⟩)

/-- The C++ conversion of `bool` to `double` in a comparison `bool == double`. -/
def boolToNum [Zero K] [One K] (b : Bool) : K := if b then 1 else 0

/-- aabb.h 33-36 `infinity`: the chained comparisons associate to the left,
`((max.x == max.y) == max.z) == DBL_MIN`, comparing the converted truth value with the next number.
`dmin`/`dmax` are `numeric_limits<double>::min()/max()`. -/
def AABB.infinity [Zero K] [One K] [DecidableEq K] (dmin dmax : K) (a : AABB K) : Bool :=
  decide (boolToNum (K := K) (decide (boolToNum (K := K) (decide (a.max.x = a.max.y)) = a.max.z)) = dmin) &&
  decide (boolToNum (K := K) (decide (boolToNum (K := K) (decide (a.min.x = a.min.y)) = a.min.z)) = dmax)

end Cmm
