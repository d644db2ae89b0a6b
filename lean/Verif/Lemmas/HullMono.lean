import Verif.Lemmas.Hull2d
/-! Convex hulls of points that lie in a convex hull. -/
namespace Cmm.Geom
variable {K : Type} [Field K] [LinearOrder K] [IsStrictOrderedRing K]

/-- A hull that contains some points contains their hull. -/
theorem hull_weights {l2 : List (Vec3 K)} : ∀ (w : List K) (l1 : List (Vec3 K)), w.length = l1.length → (∀ x ∈ w, 0 ≤ x) →
    (∀ v ∈ l1, InHull l2 v) → ∃ u : List K, u.length = l2.length ∧ (∀ x ∈ u, 0 ≤ x) ∧ u.sum = w.sum ∧
      (List.zipWith (fun a v => a * v.x) w l1).sum = (List.zipWith (fun a v => a * v.x) u l2).sum ∧
      (List.zipWith (fun a v => a * v.y) w l1).sum = (List.zipWith (fun a v => a * v.y) u l2).sum ∧
      (List.zipWith (fun a v => a * v.z) w l1).sum = (List.zipWith (fun a v => a * v.z) u l2).sum
  | [], _, _, _, _ => by
    refine ⟨l2.map fun _ => 0, by simp, by simp, by rw [sum_zero]; rfl, ?_, ?_, ?_⟩
    · rw [zipWith_zero (fun v : Vec3 K => v.x)]; simp
    · rw [zipWith_zero (fun v : Vec3 K => v.y)]; simp
    · rw [zipWith_zero (fun v : Vec3 K => v.z)]; simp
  | a :: w, [], h, _, _ => by simp at h
  | a :: w, v :: l1, h, hw, hv => by
    obtain ⟨u, hl, hu, hs, hx, hy, hz⟩ := hull_weights w l1 (by simpa using h) (fun x hx => hw x (List.mem_cons_of_mem _ hx))
      (fun x hx => hv x (List.mem_cons_of_mem _ hx))
    obtain ⟨c, cl, cn, cs, cx, cy, cz⟩ := hv v List.mem_cons_self
    have ha := hw a List.mem_cons_self
    refine ⟨List.zipWith (· + ·) (c.map (a * ·)) u, by simp [hl, cl], ?_, ?_, ?_, ?_, ?_⟩
    · apply nonneg_zipWith _ _ _ hu
      intro x hx
      obtain ⟨y, hy, rfl⟩ := List.mem_map.1 hx
      exact mul_nonneg ha (cn y hy)
    · rw [zipWith_sumw _ _ (by simp [hl, cl]), sum_scalew, cs, hs, List.sum_cons, mul_one]
    · rw [zipWith_addw (fun v : Vec3 K => v.x) _ _ _ (by simp [cl]) hl, zipWith_scalew (fun v : Vec3 K => v.x), ← cx, ← hx]
      simp
    · rw [zipWith_addw (fun v : Vec3 K => v.y) _ _ _ (by simp [cl]) hl, zipWith_scalew (fun v : Vec3 K => v.y), ← cy, ← hy]
      simp
    · rw [zipWith_addw (fun v : Vec3 K => v.z) _ _ _ (by simp [cl]) hl, zipWith_scalew (fun v : Vec3 K => v.z), ← cz, ← hz]
      simp

theorem hull_mono {l1 l2 : List (Vec3 K)} {p : Vec3 K} (h : ∀ v ∈ l1, InHull l2 v) (hp : InHull l1 p) : InHull l2 p := by
  obtain ⟨w, hl, hw, hs, hx, hy, hz⟩ := hp
  obtain ⟨u, ul, un, us, ux, uy, uz⟩ := hull_weights w l1 hl hw h
  exact ⟨u, ul, un, us.trans hs, hx.trans ux, hy.trans uy, hz.trans uz⟩

theorem hull_mem {p : Vec3 K} : ∀ {l : List (Vec3 K)}, p ∈ l → InHull l p
  | v :: l, h => by
    rcases List.mem_cons.1 h with rfl | h
    · refine ⟨1 :: l.map fun _ => 0, by simp, ?_, ?_, ?_, ?_, ?_⟩
      · intro x hx
        rcases List.mem_cons.1 hx with rfl | hx
        · exact zero_le_one
        · obtain ⟨_, _, rfl⟩ := List.mem_map.1 hx
          exact le_refl _
      · rw [List.sum_cons, sum_zero, add_zero]
      · rw [List.zipWith_cons_cons, List.sum_cons, zipWith_zero (fun v : Vec3 K => v.x)]; ring
      · rw [List.zipWith_cons_cons, List.sum_cons, zipWith_zero (fun v : Vec3 K => v.y)]; ring
      · rw [List.zipWith_cons_cons, List.sum_cons, zipWith_zero (fun v : Vec3 K => v.z)]; ring
    · obtain ⟨w, hl, hw, hs, hx, hy, hz⟩ := hull_mem h
      refine ⟨0 :: w, by simp [hl], ?_, by simpa using hs, by simpa using hx, by simpa using hy, by simpa using hz⟩
      intro x hx'
      rcases List.mem_cons.1 hx' with rfl | hx'
      · exact le_refl _
      · exact hw x hx'

end Cmm.Geom
