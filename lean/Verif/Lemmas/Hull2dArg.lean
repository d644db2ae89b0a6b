import Verif.Model.Hull2dArg
import Verif.Props.Hull2d
/-!
Lemmas about the argument of `convex_hull2d`.
-/
namespace Cmm.Hull2d
open Cmm.Geom
variable {K : Type} [Field K] [LinearOrder K]

/-- The loop keeps the points that `farthest` keeps, at the front; behind them the vector is unchanged. -/
theorem keepLoop_spec (blank p0 : Vec2 K) (tail : List (Vec2 K)) : ∀ (k : Nat) (kept : List (Vec2 K)) (i : Nat), i + k = tail.length →
    kept.length ≤ i →
    keepLoop blank k (p0 :: (kept ++ tail.drop kept.length)) (i + 1) (kept.length + 1) =
      (p0 :: ((kept ++ farthest p0 (tail.drop i)) ++ tail.drop (kept ++ farthest p0 (tail.drop i)).length),
        (kept ++ farthest p0 (tail.drop i)).length + 1)
  | 0, kept, i, hi, _ => by
    rw [Nat.add_zero] at hi
    rw [hi, List.drop_length]
    simp [keepLoop, farthest]
  | k + 1, kept, i, hi, hk => by
    have hlt : i < tail.length := by omega
    have get : ∀ j, i ≤ j → (p0 :: (kept ++ tail.drop kept.length)).getD (j + 1) blank = tail.getD j blank := by
      intro j hj
      rw [List.getD_cons_succ]
      simp only [List.getD_eq_getElem?_getD]
      rw [List.getElem?_append_right (by omega), List.getElem?_drop]
      rw [show kept.length + (j - kept.length) = j by omega]
    have hd : tail.drop i = tail[i] :: tail.drop (i + 1) := List.drop_eq_getElem_cons hlt
    have gi : tail.getD i blank = tail[i] := by rw [List.getD_eq_getElem?_getD, List.getElem?_eq_getElem hlt]; rfl
    unfold keepLoop
    rw [get i le_rfl, get (i + 1) (by omega), List.getD_cons_zero, gi]
    have write : (p0 :: (kept ++ tail.drop kept.length)).set (kept.length + 1) tail[i] =
        p0 :: ((kept ++ [tail[i]]) ++ tail.drop (kept ++ [tail[i]]).length) := by
      rw [List.set_cons_succ, List.set_append_right _ _ (le_refl _), Nat.sub_self, List.drop_eq_getElem_cons (show kept.length < tail.length by omega),
        List.set_cons_zero, List.length_append, List.length_singleton, List.append_assoc]
      rfl
    cases k with
    | zero =>
      have hn : tail.drop (i + 1) = [] := List.drop_eq_nil_of_le (by omega)
      rw [if_neg (by simp), write, hd, hn]
      unfold keepLoop
      simp [farthest]
    | succ k =>
      have hlt' : i + 1 < tail.length := by omega
      have hd' : tail.drop (i + 1) = tail[i + 1] :: tail.drop (i + 2) := List.drop_eq_getElem_cons hlt'
      have gi' : tail.getD (i + 1) blank = tail[i + 1] := by rw [List.getD_eq_getElem?_getD, List.getElem?_eq_getElem hlt']; rfl
      rw [gi']
      have hf : farthest p0 (tail.drop i) = if orientation p0 tail[i] tail[i + 1] = 0 then farthest p0 (tail.drop (i + 1))
          else tail[i] :: farthest p0 (tail.drop (i + 1)) := by
        rw [hd, hd']; rw [farthest]
      by_cases ho : orientation p0 tail[i] tail[i + 1] = 0
      · rw [if_pos ⟨by omega, ho⟩, hf, if_pos ho]
        exact keepLoop_spec blank p0 tail (k + 1) kept (i + 1) (by omega) (by omega)
      · rw [if_neg (fun h => ho h.2), hf, if_neg ho, write]
        have := keepLoop_spec blank p0 tail (k + 1) (kept ++ [tail[i]]) (i + 1) (by omega) (by simp; omega)
        rw [show (kept ++ [tail[i]]).length = kept.length + 1 by simp] at this
        rw [show (kept ++ [tail[i]]).length = kept.length + 1 by simp, this]
        simp

/-- What the function does with its argument once the lowest point is in front. -/
theorem ref_cases (sort : StdSort (Vec2 K)) (p q r : Vec2 K) (rest : List (Vec2 K)) :
    ∃ o tail, (((p :: q :: r :: rest).set 0 ((p :: q :: r :: rest).getD (lowestGo (q :: r :: rest) 1 0 p) p)).set (lowestGo (q :: r :: rest) 1 0 p) p) = o :: tail ∧
      convexHull2dRef sort (p :: q :: r :: rest) = (hullFrom sort o tail,
        o :: (farthest o (sort.run (comparator o) tail) ++ (sort.run (comparator o) tail).drop (farthest o (sort.run (comparator o) tail)).length)) := by
  unfold convexHull2dRef
  dsimp only
  generalize hl : ((p :: q :: r :: rest).set 0 ((p :: q :: r :: rest).getD (lowestGo (q :: r :: rest) 1 0 p) p)).set (lowestGo (q :: r :: rest) 1 0 p) p = l
  have hlen : l.length = rest.length + 3 := by rw [← hl]; simp
  match l, hlen with
  | o :: tail, _ =>
    refine ⟨o, tail, rfl, ?_⟩
    dsimp only
    generalize hs : sort.run (comparator o) tail = s
    have := keepLoop_spec p o s s.length [] 0 (by simp) (by simp)
    simp only [List.nil_append, List.length_nil, List.drop_zero, Nat.zero_add] at this
    rw [show (o :: s).length - 1 = s.length by simp, this]
    dsimp only
    unfold hullFrom
    rw [hs, List.take_succ_cons, List.take_left]
    match farthest o s with
    | [] => rfl
    | [_] => rfl
    | _ :: _ :: _ => rfl

end Cmm.Hull2d
