import Verif.Model.AABBSimd
import Mathlib.Algebra.Order.Field.Rat
/-!
C122: the box operations on the different processors. `alignas(16)` puts every box at an address divisible by 16.
-/
namespace Cmm
variable {K : Type} [LinearOrder K]

theorem access_ok {align addr i : Nat} (h8 : align ∣ 8) (ha : addr % 16 = 0) : access align addr i = .ok () := by
  unfold access
  rw [if_pos]
  obtain ⟨k, hk⟩ := h8
  have h1 : 8 ∣ addr + 8 * i := by omega
  exact Nat.mod_eq_zero_of_dvd ((Dvd.intro k hk.symm).trans h1)

/-- C122 (partial: true for NEON, false for SSE2). With instructions that need no more than the alignment of a double, as on ARM, the four operations give the same results
as the scalar code, on every pair of boxes. -/
theorem C122_neon_partial [Sub K] [Mul K] (a b result : AABB K) (addr1 addr2 addr3 : Nat) (h1 : addr1 % 16 = 0) (h2 : addr2 % 16 = 0)
    (h3 : addr3 % 16 = 0) :
    a.intersectsSimd 8 addr1 addr2 b = .ok (a.intersects b) ∧
    a.intersectionSimd 8 addr1 addr2 addr3 b result = .ok (a.intersection b result) ∧
    a.mergeSimd 8 addr1 addr2 addr3 b = .ok (a.merge b) ∧ a.volumeSimd 8 addr1 = .ok a.volume := by
  have l : ∀ (c : AABB K) addr i, addr % 16 = 0 → c.load 8 addr i = .ok (c.word i, c.word (i + 1)) := by
    intro c addr i h
    show Res.bind _ _ = _
    rw [access_ok (by decide) h]; rfl
  refine ⟨?_, ?_, ?_, ?_⟩
  · show Res.bind _ _ = _
    rw [l a addr1 0 h1]
    show Res.bind _ _ = _
    rw [l a addr1 3 h1]
    show Res.bind _ _ = _
    rw [l b addr2 0 h2]
    show Res.bind _ _ = _
    rw [l b addr2 3 h2]
    show Res.ok _ = _
    simp only [AABB.word, AABB.intersects, ge_iff_le, Bool.and_assoc]
  · show Res.bind _ _ = _
    rw [l a addr1 0 h1]
    show Res.bind _ _ = _
    rw [l a addr1 3 h1]
    show Res.bind _ _ = _
    rw [l b addr2 0 h2]
    show Res.bind _ _ = _
    rw [l b addr2 3 h2]
    show (if _ then Res.bind _ _ else _) = _
    rw [access_ok (by decide) h3]
    show (if _ then Res.bind _ _ else _) = _
    rw [access_ok (by decide) h3]
    show (if _ then Res.ok _ else _) = _
    unfold AABB.intersection
    simp only [AABB.word, Bool.and_eq_true, decide_eq_true_eq, ge_iff_le, and_assoc]
    split <;> rfl
  · show Res.bind _ _ = _
    rw [l a addr1 0 h1]
    show Res.bind _ _ = _
    rw [l a addr1 3 h1]
    show Res.bind _ _ = _
    rw [l b addr2 0 h2]
    show Res.bind _ _ = _
    rw [l b addr2 3 h2]
    show Res.bind _ _ = _
    rw [access_ok (by decide) h3]
    show Res.bind _ _ = _
    rw [access_ok (by decide) h3]
    rfl
  · show Res.bind _ _ = _
    rw [l a addr1 0 h1]
    show Res.bind _ _ = _
    rw [l a addr1 3 h1]
    rfl

/-- C122. With the aligned instructions of the x86-64 path all four operations are undefined behaviour, on every pair of boxes and at every address a box can have:
`max` begins 24 bytes after the aligned address. -/
theorem C122_x86_counterexample [Sub K] [Mul K] (a b result : AABB K) (addr1 addr2 addr3 : Nat) (h1 : addr1 % 16 = 0) :
    a.intersectsSimd 16 addr1 addr2 b = .ub ∧ a.intersectionSimd 16 addr1 addr2 addr3 b result = .ub ∧
    a.mergeSimd 16 addr1 addr2 addr3 b = .ub ∧ a.volumeSimd 16 addr1 = .ub := by
  have l0 : a.load 16 addr1 0 = .ok (a.word 0, a.word 1) := by
    show Res.bind _ _ = _
    rw [access, if_pos (by omega)]; rfl
  have l3 : a.load 16 addr1 3 = .ub := by
    show Res.bind _ _ = _
    rw [access, if_neg (by omega)]; rfl
  refine ⟨?_, ?_, ?_, ?_⟩ <;>
  · show Res.bind _ _ = _
    rw [l0]
    show Res.bind _ _ = _
    rw [l3]
    rfl

/-- Two overlapping boxes, at addresses 32 and 96. -/
example : (⟨⟨0, 0, 0⟩, ⟨2, 2, 2⟩⟩ : AABB ℚ).intersectsSimd 8 32 96 ⟨⟨1, 1, 1⟩, ⟨3, 3, 3⟩⟩ = .ok true ∧
    (⟨⟨0, 0, 0⟩, ⟨2, 3, 4⟩⟩ : AABB ℚ).volumeSimd 8 32 = .ok 24 := by decide +kernel

end Cmm
