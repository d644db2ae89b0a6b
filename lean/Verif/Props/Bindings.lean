import Verif.Model.Bindings
import Verif.Props.Ccx
/-! C136, C137: the example bindings for Python and JavaScript. -/
namespace Cmm.Bind
open Cmm.Nurbs Cmm.Ccx

section python
variable {K : Type}

/-- The array of a list of points, three columns. -/
def coords (P : List (Vec3 K)) : Arr K := ⟨3, P.map fun p => [p.x, p.y, p.z]⟩
/-- The points with weight one. -/
def unitPoints [One K] (P : List (Vec3 K)) : List (Vec4 K) := P.map fun p => ⟨p.x, p.y, p.z, 1⟩

/-- C136. Rows are turned into control points in order: the first three columns are the coordinates, the fourth is the weight if there are exactly four
columns, and the weight is one otherwise. Arrays with rows but fewer than three columns are read out of bounds. -/
theorem C136_points [One K] [Zero K] (a : Arr K) (h : ∀ r ∈ a.rows, r.length = a.cols) :
    (3 ≤ a.cols → toPoints a.cols a.rows = .ok (a.rows.map fun r => ⟨r.getD 0 0, r.getD 1 0, r.getD 2 0, if a.cols = 4 then r.getD 3 0 else 1⟩)) ∧
    (a.cols < 3 → a.rows ≠ [] → toPoints a.cols a.rows = .ub) := by
  obtain ⟨cols, rows⟩ := a
  simp only at h ⊢
  constructor
  · intro hc
    induction rows with
    | nil => rfl
    | cons r rows ih =>
      have hr := h r List.mem_cons_self
      have e : toPoint cols r = .ok ⟨r.getD 0 0, r.getD 1 0, r.getD 2 0, if cols = 4 then r.getD 3 0 else 1⟩ := by
        match r, hr with
        | [], hr => simp at hr; omega
        | [_], hr => simp at hr; omega
        | [_, _], hr => simp at hr; omega
        | [x, y, z], hr => have : cols ≠ 4 := by simp at hr; omega
                           simp [toPoint, this]
        | x :: y :: z :: w :: rest, _ =>
          by_cases c4 : cols = 4 <;> simp [toPoint, c4]
      rw [toPoints, e, Res.ok_bind, ih (fun r hr => h r (List.mem_cons_of_mem _ hr)), Res.ok_bind]
      rfl
  · intro hc hne
    match rows, hne with
    | r :: rows, _ =>
      have hr := h r List.mem_cons_self
      have e : toPoint cols r = .ub := by
        match r, hr with
        | [], _ => rfl
        | [_], _ => rfl
        | [_, _], _ => rfl
        | _ :: _ :: _ :: _, hr => simp at hr; omega
      rw [toPoints, e]; rfl

example : toPoints (K := ℚ) 4 [[1, 2, 3, 4], [5, 6, 7, 8]] = .ok [⟨1, 2, 3, 4⟩, ⟨5, 6, 7, 8⟩] ∧
    toPoints (K := ℚ) 5 [[1, 2, 3, 4, 5]] = .ok [⟨1, 2, 3, 1⟩] ∧ toPoints (K := ℚ) 2 [[1, 2]] = .ub := ⟨rfl, rfl, rfl⟩

theorem toPoints_coords [One K] (P : List (Vec3 K)) : toPoints 3 (coords P).rows = .ok (unitPoints P) := by
  unfold coords unitPoints
  induction P with
  | nil => rfl
  | cons p P ih =>
    simp only [List.map_cons] at ih ⊢
    rw [toPoints, ih]; rfl

variable [Field K] [LinearOrder K]

/-- C136. A fourth column of ones changes nothing. -/
theorem C136_four_columns (sqrt : K → K) (fuel : Nat) (P Q : List (Vec3 K)) (d1 d2 : Nat) (tol : K) :
    pyccx sqrt fuel ⟨4, P.map fun p => [p.x, p.y, p.z, 1]⟩ ⟨4, Q.map fun p => [p.x, p.y, p.z, 1]⟩ d1 d2 tol =
      pyccx sqrt fuel (coords P) (coords Q) d1 d2 tol := by
  have key : ∀ P : List (Vec3 K), toPoints 4 (P.map fun p => [p.x, p.y, p.z, 1]) = toPoints (coords P).cols (coords P).rows := by
    intro P
    rw [show (coords P).cols = 3 from rfl, toPoints_coords]
    unfold unitPoints
    induction P with
    | nil => rfl
    | cons p P ih => simp only [List.map_cons]; rw [toPoints, ih]; rfl
  unfold pyccx
  simp only [key]

/-- C136. Too few rows for the degree, or rows with fewer than three columns: the call is undefined. -/
theorem C136_undefined (sqrt : K → K) (fuel : Nat) (a b : Arr K) (d1 d2 : Nat) (tol : K) :
    ((∀ r ∈ a.rows, r.length = a.cols) → a.cols < 3 → a.rows ≠ [] → pyccx sqrt fuel a b d1 d2 tol = some .undefined) ∧
    (∀ P Q : List (Vec3 K), P.length < d1 ∨ P = [] → pyccx sqrt fuel (coords P) (coords Q) d1 d2 tol = some .undefined) := by
  constructor
  · intro h hc hne
    unfold pyccx
    rw [(C136_points a h).2 hc hne]
    rfl
  · intro P Q h
    unfold pyccx
    rw [show (coords P).cols = 3 from rfl, show (coords Q).cols = 3 from rfl, toPoints_coords, toPoints_coords]
    have e : (Curve.make (unitPoints P) d1 false : Res (Curve K)) = .ub := by
      rcases h with h | rfl
      · unfold Curve.make Curve.generateKnots generateKnots
        simp [unitPoints, h]
      · have : (Curve.make ([] : List (Vec4 K)) d1 false : Res (Curve K)) = .ub := by
          unfold Curve.make Curve.generateKnots generateKnots
          simp only [Bool.false_eq_true, ↓reduceIte, List.length_nil, List.isEmpty_nil]
          split
          · rfl
          · rw [Res.ok_bind]
            unfold Curve.updateInterval
            simp only [List.replicate_succ, List.cons_append, minElement, maxElement]
            rfl
        exact this
    simp only [Res.ok_bind, e]
    rfl

variable [IsStrictOrderedRing K]

/-- C136. Two polygons given as arrays of coordinates, more points than the degree: the call returns, for every tolerance that the steps of the polygons,
at most `d`, reach after `m ≤ 38` halvings. Every pair returned is genuine and every crossing of the two curves is accounted for. -/
theorem C136_returns_partial (sqrt : K → K) (hs : Newton.IsSqrt sqrt) (hs0 : sqrt 0 = 0) (tol : K) (ht : 0 < tol) (m : Nat) (hm : m ≤ 38)
    (P Q : List (Vec3 K)) (p q : Nat) (l1 : 1 ≤ p) (l2 : 1 ≤ q) (g1 : p ≤ 8) (g2 : q ≤ 8) (n1 : p < P.length) (n2 : q < Q.length) (d : K) (hd : 0 ≤ d)
    (s1 : ∀ a ∈ P, |a.x| ≤ d / 2 ∧ |a.y| ≤ d / 2 ∧ |a.z| ≤ d / 2) (s2 : ∀ a ∈ Q, |a.x| ≤ d / 2 ∧ |a.y| ≤ d / 2 ∧ |a.z| ≤ d / 2)
    (hm1 : 3 * (p * (d * (P.length - p))) ^ 2 < tol ^ 2 * 4 ^ m) (hm2 : 3 * (q * (d * (Q.length - q))) ^ 2 < tol ^ 2 * 4 ^ m) :
    ∃ c1 c2 res, Curve.make (unitPoints P) p false = .ok c1 ∧ Curve.make (unitPoints Q) q false = .ok c2 ∧
      pyccx sqrt (m + 1) (coords P) (coords Q) p q tol = some (.returns res) ∧ (∀ r ∈ res, Genuine tol c1 c2 r) ∧
      ∀ (s t : K) X, 0 ≤ s → s ≤ P.length - p → 0 ≤ t → t ≤ Q.length - q → c1.evaluate s = .ok X → c2.evaluate t = .ok X → ∃ r ∈ res, Accounts tol c1 c2 r s t := by
  have steps : ∀ P : List (Vec3 K), (∀ a ∈ P, |a.x| ≤ d / 2 ∧ |a.y| ≤ d / 2 ∧ |a.z| ≤ d / 2) → ∀ i, i + 1 < (unitPoints P).length →
      |(ix (unitPoints P) (i + 1)).x - (ix (unitPoints P) i).x| ≤ d ∧ |(ix (unitPoints P) (i + 1)).y - (ix (unitPoints P) i).y| ≤ d ∧
      |(ix (unitPoints P) (i + 1)).z - (ix (unitPoints P) i).z| ≤ d := by
    intro P h i hi
    have hl : (unitPoints P).length = P.length := by unfold unitPoints; simp
    have at' : ∀ j, j < (unitPoints P).length → |(ix (unitPoints P) j).x| ≤ d / 2 ∧ |(ix (unitPoints P) j).y| ≤ d / 2 ∧ |(ix (unitPoints P) j).z| ≤ d / 2 := by
      intro j hj
      have := mem_ix hj
      unfold unitPoints at this
      obtain ⟨a, ha, e⟩ := List.mem_map.1 this
      unfold unitPoints
      rw [← e]
      exact h a ha
    obtain ⟨a1, a2, a3⟩ := at' i (by omega)
    obtain ⟨b1, b2, b3⟩ := at' (i + 1) hi
    rw [abs_le] at *
    refine ⟨⟨?_, ?_⟩, ?_, ?_⟩
    · linarith [a1.2, b1.1]
    · linarith [a1.1, b1.2]
    · rw [abs_le] at *; constructor <;> linarith [a2.1, a2.2, b2.1, b2.2]
    · rw [abs_le] at *; constructor <;> linarith [a3.1, a3.2, b3.1, b3.2]
  have un : ∀ P : List (Vec3 K), ∀ q ∈ unitPoints P, q.w = 1 := by
    intro P q hq
    unfold unitPoints at hq
    obtain ⟨a, _, rfl⟩ := List.mem_map.1 hq
    rfl
  have hl : ∀ P : List (Vec3 K), (unitPoints P).length = P.length := fun P => by unfold unitPoints; simp
  obtain ⟨c1, c2, res, e1, e2, h, ⟨a1, a2⟩, ⟨b1, b2⟩, g, _, cov⟩ := C56_default_knots_return sqrt hs hs0 tol ht m hm (unitPoints P) (unitPoints Q) p q l1 l2 g1 g2
    (by rw [hl]; exact n1) (by rw [hl]; exact n2) (un P) (un Q) d d hd hd (steps P s1) (steps Q s2) (by rw [hl]; exact hm1) (by rw [hl]; exact hm2)
  rw [hl] at a2 b2
  refine ⟨c1, c2, res, e1, e2, ?_, g, ?_⟩
  · unfold pyccx
    rw [show (coords P).cols = 3 from rfl, show (coords Q).cols = 3 from rfl, toPoints_coords, toPoints_coords]
    simp only [Res.ok_bind, e1, e2, h]
  · intro s t X s1 s2 t1 t2
    exact cov s t X (by rw [a1]; exact s1) (by rw [a2]; exact s2) (by rw [b1]; exact t1) (by rw [b2]; exact t2)

/-- The first curve of examples/cython_extension/main.py, without its column of ones. -/
noncomputable def mainPts1 : List (Vec3 ℝ) :=
  [⟨3.4010600706713725, -8.32449941107185, 0⟩, ⟨-8.810365135453477, -20.535924617196706, 0⟩, ⟨-27.93062218951618, -15.412667180485142, 0⟩,
   ⟨-30.403077120132302, -1.3906784826577496, 0⟩, ⟨-19.044632940199335, 14.830860932605066, 0⟩, ⟨-11.915763049431774, 8.849028836551192, 0⟩,
   ⟨-11.915763049431774, -3.0771495877502932, 0⟩, ⟨-9.530367975341662, -7.208775052198893, 0⟩, ⟨2.3687040367011853, -2.8778670244252527, 0⟩,
   ⟨7.14440983507993, 7.363667110515598, 0⟩, ⟨-5.366851382410716, 14.58704714233555, 0⟩, ⟨-1.3388931087918676, 21.563675523010822, 0⟩,
   ⟨22.576560659599533, 21.563675523010822, 0⟩, ⟨26.007323209822314, 8.759895376874768, 0⟩, ⟨21.5671841214819, -0.762013626096274, 0⟩]

/-- The second curve of examples/cython_extension/main.py, without its column of ones. -/
noncomputable def mainPts2 : List (Vec3 ℝ) :=
  [⟨4.37279151943463, -20.892226148409897, 0⟩, ⟨-15.809185905268865, -11.481215518559384, 0⟩, ⟨-35.25126648817195, -13.182177164920892, 0⟩,
   ⟨-37.89488535289974, 1.8105304406079412, 0⟩, ⟨-26.932162804362278, 6.922531919219425, 0⟩, ⟨-16.490714012944952, -5.521102189840634, 0⟩,
   ⟨-5.700055848926429, -8.4124503306897, 0⟩, ⟨-3.570738782457898, 3.663506836575011, 0⟩, ⟨-18.01099552734597, 6.209713709056174, 0⟩,
   ⟨-24.479875410126734, 13.919024549420557, 0⟩, ⟨-10.347966765600773, 20.508841774709857, 0⟩, ⟨-4.567607633985612, 8.112821613930501, 0⟩,
   ⟨7.947204243224508, 5.906122621487608, 0⟩, ⟨14.368356550514143, 11.294109154267478, 0⟩, ⟨4.096253430758647, 23.535924950734287, 0⟩,
   ⟨10.390107546103732, 24.086565835712964, 0⟩, ⟨23.621237154766042, 22.928991989312816, 0⟩, ⟨28.468027125719846, 14.534105506005556, 0⟩,
   ⟨26.406040106065035, -9.034513976263923, 0⟩, ⟨14.747143888629237, -5.9105221501637235, 0⟩, ⟨-0.3180697667356718, -11.393811493577273, 0⟩,
   ⟨-6.0732707230977505, -11.89732633357251, 0⟩]

/-- The call of examples/cython_extension/main.py returns. -/
example : ∃ res, pyccx Real.sqrt 31 ⟨4, mainPts1.map fun p => [p.x, p.y, p.z, 1]⟩ ⟨4, mainPts2.map fun p => [p.x, p.y, p.z, 1]⟩ 3 3 (1 / 10 ^ 5) =
    some (.returns res) := by
  rw [C136_four_columns]
  obtain ⟨_, _, res, _, _, h, _⟩ := C136_returns_partial Real.sqrt Geom.real_isSqrt Real.sqrt_zero (1 / 10 ^ 5) (by norm_num) 30 (by norm_num) mainPts1 mainPts2
    3 3 (by norm_num) (by norm_num) (by norm_num) (by norm_num) (by norm_num [mainPts1]) (by norm_num [mainPts2]) 80 (by norm_num)
    (by norm_num [mainPts1, abs_of_pos, abs_of_neg]) (by norm_num [mainPts2, abs_of_pos, abs_of_neg]) (by norm_num [mainPts1]) (by norm_num [mainPts2])
  exact ⟨res, h⟩

/-- C136. With tolerance zero the call ends the Python process: the pieces of a line crossing itself never become small, until `split` refuses to cut them and
the exception finds no handler. -/
theorem C136_zero_tolerance_counterexample :
    pyccx (K := ℚ) (fun x => x) 50 (coords [⟨0, 0, 0⟩, ⟨1, 1, 0⟩]) (coords [⟨0, 0, 0⟩, ⟨1, 1, 0⟩]) 1 1 0 = some .aborts := by decide +kernel

end python

section javascript
variable {K : Type}

theorem writeDoubles_spec : ∀ (js : List K) (i : Nat) (out : List K), out.length = i + js.length → writeDoubles i js out = out.take i ++ js := by
  intro js
  induction js with
  | nil => intro i out h; rw [writeDoubles, List.append_nil, List.take_of_length_le (by simp at h; omega)]
  | cons x js ih =>
    intro i out h
    have h' : out.length = i + (js.length + 1) := h
    rw [writeDoubles, ih (i + 1) _ (by rw [List.length_set]; omega)]
    rw [List.take_add_one, List.take_set_of_le (le_refl _), List.getElem?_set_self (by omega)]
    simp

theorem resize_length {A : Type} (l : List A) (n : Nat) (v : A) : (resize l n v).length = n := by
  unfold resize
  rw [List.length_append, List.length_take, List.length_replicate]; omega

/-- C137. The vector of numbers holds the JavaScript array afterwards, whatever it held before. -/
theorem C137_doubles [Zero K] (js out : List K) : convertDoubles js out = js := by
  unfold convertDoubles
  rw [writeDoubles_spec _ _ _ (by rw [resize_length]; omega)]
  rfl

theorem writeRow_spec (nan : K) (js : List (List K)) : ∀ f out, f ≤ js.length → js.length ≤ out.length →
    writeRow nan js js.length f out = .ok (out.take (js.length - f) ++ (js.drop (js.length - f)).map (jsPoint nan) ++ out.drop js.length) := by
  intro f
  induction f with
  | zero => intro out _ h; rw [writeRow]; simp
  | succ f ih =>
    intro out hf h
    have hlt : js.length - (f + 1) < js.length := by omega
    rw [writeRow, if_neg (by omega), List.getElem?_eq_getElem hlt]
    simp only
    rw [ih _ (by omega) (by rw [List.length_set]; exact h)]
    rw [show js.length - f = js.length - (f + 1) + 1 by omega, List.take_add_one, List.take_set_of_le (le_refl _),
      List.getElem?_set_self (by omega), List.drop_set_of_lt (by omega)]
    simp [-List.map_drop]
    rw [List.drop_eq_getElem_cons hlt]
    rfl

/-- The rows of the JavaScript array all have `m` columns. -/
def Rect (m : Nat) (js : List (List (List K))) : Prop := ∀ r ∈ js, r.length = m

theorem writeRows_spec (nan : K) (m : Nat) : ∀ (js : List (List (List K))) (out : List (List (Vec4 K))), Rect m js → out.length = js.length →
    (∀ r ∈ out, m ≤ r.length) →
    writeRows nan m js out = .ok (List.zipWith (fun row r => row.map (jsPoint nan) ++ r.drop m) js out) := by
  intro js
  induction js with
  | nil => intro out _ h _; cases out with
    | nil => rfl
    | cons => simp at h
  | cons row js ih =>
    intro out hr h hm
    match out, h with
    | r :: out, h =>
      have e := hr row List.mem_cons_self
      have hm' : m ≤ r.length := hm r List.mem_cons_self
      have w := writeRow_spec nan row row.length r (le_refl _) (by omega)
      rw [e] at w
      rw [writeRows, w, Res.ok_bind, ih out (fun r hr' => hr r (List.mem_cons_of_mem _ hr')) (by simpa using h) (fun r hr' => hm r (List.mem_cons_of_mem _ hr')),
        Res.ok_bind]
      simp

/-- C137. A rectangular JavaScript array (not empty) written into a new net gives the net of its points. -/
theorem C137_new_net [Zero K] [One K] (nan : K) (m : Nat) (js : List (List (List K))) (hne : js ≠ []) (hr : Rect m js) :
    convertNet nan js [] = .ok (js.map (List.map (jsPoint nan))) := by
  match js, hne with
  | first :: js, _ =>
    have e : first.length = m := hr first List.mem_cons_self
    unfold convertNet
    simp only [e]
    rw [writeRows_spec nan m _ _ hr (resize_length _ _ _) (by
      intro r hr'
      unfold resize at hr'
      simp only [List.take_nil, List.nil_append] at hr'
      rw [List.eq_of_mem_replicate hr', List.length_replicate])]
    congr 1
    unfold resize
    simp only [List.take_nil, List.nil_append, List.length_nil, Nat.sub_zero]
    generalize hL : (first :: js) = L
    rw [show L.map (List.map (jsPoint nan)) = List.zipWith (fun row r => List.map (jsPoint nan) row ++ List.drop m r) L
      (List.replicate L.length (List.replicate m (⟨0, 0, 0, 1⟩ : Vec4 K))) from ?_]
    clear hL hr
    induction L with
    | nil => rfl
    | cons a L ih => simp [List.replicate_succ, ih]

example : convertNet (K := ℚ) 7 [[[0, 0, 0, 1], [1, 0, 0, 1]], [[0, 1, 0, 1], [1, 1, 0, 2]]] [] =
    .ok [[⟨0, 0, 0, 1⟩, ⟨1, 0, 0, 1⟩], [⟨0, 1, 0, 1⟩, ⟨1, 1, 0, 2⟩]] :=
  C137_new_net 7 2 _ (by simp) (by simp [Rect])

/-- C137 (partial: the rows the net had before are at least as wide). The points are written, and the rows that were there keep what they had beyond them. -/
theorem C137_reused_net_partial [Zero K] [One K] (nan : K) (m : Nat) (js : List (List (List K))) (hne : js ≠ []) (hr : Rect m js) (out : List (List (Vec4 K)))
    (hw : ∀ r ∈ out, m ≤ r.length) (hl : js.length ≤ out.length) :
    convertNet nan js out = .ok (List.zipWith (fun row r => row.map (jsPoint nan) ++ r.drop m) js (out.take js.length)) := by
  match js, hne with
  | first :: js, _ =>
    have e : first.length = m := hr first List.mem_cons_self
    unfold convertNet
    simp only [e]
    have er : resize out (first :: js).length (List.replicate m ⟨0, 0, 0, 1⟩) = out.take (first :: js).length := by
      unfold resize
      rw [Nat.sub_eq_zero_of_le hl, List.replicate_zero, List.append_nil]
    rw [er, writeRows_spec nan m _ _ hr (by rw [List.length_take]; omega) (fun r hr' => hw r (List.mem_of_mem_take hr'))]

/-- C137. A net that already has a narrower first row is written out of bounds; one with a wider row keeps the old points at its end; an array whose second
row is shorter makes the call throw, and so does an empty array. -/
theorem C137_reused_net_counterexample [Zero K] [One K] (nan : K) (first : List (List K)) (js : List (List (List K))) (r : List (Vec4 K))
    (out : List (List (Vec4 K))) (h : r.length < first.length) : convertNet nan (first :: js) (r :: out) = .ub := by
  have key : ∀ f (r : List (Vec4 K)), f ≤ first.length → first.length - f ≤ r.length → r.length < first.length → writeRow nan first first.length f r = .ub := by
    intro f
    induction f with
    | zero => intro r _ h1 h2; omega
    | succ f ih =>
      intro r h0 h1 h2
      rw [writeRow]
      by_cases c : r.length ≤ first.length - (f + 1)
      · rw [if_pos c]
      · rw [if_neg c, List.getElem?_eq_getElem (by omega)]
        simp only
        exact ih _ (by omega) (by rw [List.length_set]; omega) (by rw [List.length_set]; exact h2)
  unfold convertNet resize
  simp only [List.length_cons, List.take_succ_cons, List.cons_append]
  rw [writeRows, key _ r (le_refl _) (by omega) h]
  rfl

example : convertNet (K := ℚ) 7 [[[0, 0, 0, 1], [1, 0, 0, 1]]] [[⟨5, 5, 5, 1⟩]] = .ub := C137_reused_net_counterexample _ _ _ _ _ (by decide)

/-- C137. A wider net keeps old points, a ragged or empty array throws. -/
theorem C137_stale_and_ragged_counterexample :
    convertNet (K := ℚ) 7 [[[0, 0, 0, 1]]] [[⟨5, 5, 5, 1⟩, ⟨6, 6, 6, 1⟩]] = .ok [[⟨0, 0, 0, 1⟩, ⟨6, 6, 6, 1⟩]] ∧
    convertNet (K := ℚ) 7 [[[0, 0, 0, 1], [1, 0, 0, 1]], [[0, 1, 0, 1]]] [] = .throws ∧ convertNet (K := ℚ) 7 [] [] = .throws ∧
    convertNet (K := ℚ) 7 [[[0, 0, 0]]] [] = .ok [[⟨0, 0, 0, 7⟩]] := by decide +kernel

end javascript

end Cmm.Bind
