import Verif.Model.AABB
/-!
Model of the SIMD code paths of `AABB` (cmmcore/aabb.h): NEON and SSE2 are the same sequence of operations on registers with two doubles, and differ in the
alignment that loads and stores need. `Model/AABB` is the scalar path.
-/
namespace Cmm
variable {K : Type}

/-- aabb.h 15-16, vec.h 225-226: the doubles of a box in memory. `vec3` is three doubles of 8 bytes without padding, so `max` begins 24 bytes after `min`. -/
def AABB.word (a : AABB K) : Nat → K
  | 0 => a.min.x
  | 1 => a.min.y
  | 2 => a.min.z
  | 3 => a.max.x
  | 4 => a.max.y
  | _ => a.max.z

/-- An access to the two doubles from number `i` on of a box at address `addr`: `vld1q_f64`, `vst1q_f64` need the alignment 8 of a double, `_mm_load_pd` and
`_mm_store_pd` the alignment 16. A wrong alignment is undefined behaviour (a general-protection exception on x86-64). -/
def access (align addr i : Nat) : Res Unit := if (addr + 8 * i) % align = 0 then .ok () else .ub

/-- A load of two doubles. -/
def AABB.load (align addr : Nat) (a : AABB K) (i : Nat) : Res (K × K) := do
  access align addr i
  .ok (a.word i, a.word (i + 1))

section
variable [LinearOrder K]

/-- aabb.h 50-69 (NEON) and 72-92 (SSE2) `intersects`. The mask 3 is: both lanes true. -/
def AABB.intersectsSimd (align addr1 addr2 : Nat) (a b : AABB K) : Res Bool := do
  let min1 ← a.load align addr1 0
  let max1 ← a.load align addr1 3
  let min2 ← b.load align addr2 0
  let max2 ← b.load align addr2 3
  let xy := (decide (min1.1 ≤ max2.1) && decide (max1.1 ≥ min2.1)) && (decide (min1.2 ≤ max2.2) && decide (max1.2 ≥ min2.2))
  let z := decide (a.min.z ≤ b.max.z) && decide (a.max.z ≥ b.min.z)
  .ok (xy && z)

/-- aabb.h 101-136 (NEON) and 138-171 (SSE2) `intersection`, with the output parameter `result` at `addr3`. -/
def AABB.intersectionSimd (align addr1 addr2 addr3 : Nat) (a b result : AABB K) : Res (Bool × AABB K) := do
  let min1 ← a.load align addr1 0
  let max1 ← a.load align addr1 3
  let min2 ← b.load align addr2 0
  let max2 ← b.load align addr2 3
  let xy := (decide (min1.1 ≤ max2.1) && decide (max1.1 ≥ min2.1)) && (decide (min1.2 ≤ max2.2) && decide (max1.2 ≥ min2.2))
  let z := decide (a.min.z ≤ b.max.z) && decide (a.max.z ≥ b.min.z)
  if xy && z then
    access align addr3 0
    access align addr3 3
    .ok (true, ⟨⟨Max.max min1.1 min2.1, Max.max min1.2 min2.2, Max.max a.min.z b.min.z⟩, ⟨Min.min max1.1 max2.1, Min.min max1.2 max2.2, Min.min a.max.z b.max.z⟩⟩)
  else .ok (false, result)

/-- aabb.h 197-217 (NEON) and 219-238 (SSE2) `merge`; the new box is at `addr3`. -/
def AABB.mergeSimd (align addr1 addr2 addr3 : Nat) (a b : AABB K) : Res (AABB K) := do
  let min1 ← a.load align addr1 0
  let max1 ← a.load align addr1 3
  let min2 ← b.load align addr2 0
  let max2 ← b.load align addr2 3
  access align addr3 0
  access align addr3 3
  .ok ⟨⟨Min.min min1.1 min2.1, Min.min min1.2 min2.2, Min.min a.min.z b.min.z⟩, ⟨Max.max max1.1 max2.1, Max.max max1.2 max2.2, Max.max a.max.z b.max.z⟩⟩
end

/-- aabb.h 253-268 (NEON) and 270-284 (SSE2) `volume`. -/
def AABB.volumeSimd [Sub K] [Mul K] (align addr : Nat) (a : AABB K) : Res K := do
  let lo ← a.load align addr 0
  let hi ← a.load align addr 3
  .ok ((hi.1 - lo.1) * (hi.2 - lo.2) * (a.max.z - a.min.z))

end Cmm
