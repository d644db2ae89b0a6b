import Verif.Lemmas.MemoryView
import Verif.Lemmas.Serialization
namespace Cmm.MV

theorem encSize_length (n : Nat) : (encSize n).length = 8 := by simp [encSize, Cmm.Ser.encDouble]

theorem decSize_encSize {n : Nat} (h : n < 2 ^ 64) (rest : List Byte) : decSize (encSize n ++ rest) = some n := by
  unfold decSize encSize
  rw [Cmm.Ser.decDouble_encDouble]
  simp only [BitVec.toNat_ofNat, Option.some.injEq]
  exact Nat.mod_eq_of_lt h

theorem flatMap_encSize_length (l : List Nat) : (l.flatMap encSize).length = 8 * l.length := by
  induction l with
  | nil => rfl
  | cons a l ih => simp [encSize_length, ih]; omega

theorem decSizes_flatMap {l : List Nat} (h : ∀ x ∈ l, x < 2 ^ 64) (rest : List Byte) :
    decSizes l.length (l.flatMap encSize ++ rest) = some l := by
  induction l with
  | nil => rfl
  | cons a l ih =>
    simp only [List.flatMap_cons, List.append_assoc, List.length_cons, decSizes]
    rw [decSize_encSize (h a (by simp))]
    have : (encSize a ++ (l.flatMap encSize ++ rest)).drop 8 = l.flatMap encSize ++ rest := by
      rw [List.drop_append, encSize_length]
      rw [List.drop_eq_nil_of_le (by rw [encSize_length])]; simp
    rw [this, ih (fun x hx => h x (by simp [hx]))]
    rfl

theorem decSize_some {b : List Byte} (h : 8 ≤ b.length) : ∃ n, decSize b = some n ∧ n < 2 ^ 64 := by
  unfold decSize
  rcases b with _ | ⟨b0, _ | ⟨b1, _ | ⟨b2, _ | ⟨b3, _ | ⟨b4, _ | ⟨b5, _ | ⟨b6, _ | ⟨b7, rest⟩⟩⟩⟩⟩⟩⟩⟩ <;>
    simp at h
  simp only [Cmm.Ser.decDouble]
  exact ⟨_, rfl, BitVec.isLt _⟩

theorem decSizes_some {n : Nat} {b : List Byte} (h : 8 * n ≤ b.length) :
    ∃ l, decSizes n b = some l ∧ l.length = n := by
  induction n generalizing b with
  | zero => exact ⟨[], rfl, rfl⟩
  | succ n ih =>
    obtain ⟨x, hx, _⟩ := decSize_some (b := b) (by omega)
    obtain ⟨l, hl, hn⟩ := ih (b := b.drop 8) (by rw [List.length_drop]; omega)
    exact ⟨x :: l, by simp [decSizes, hx, hl], by simp [hn]⟩

theorem wrap_add_small {a b : Nat} (h : a + b < 2 ^ 64) : wrap ((a : Int) + b) = a + b := by
  rw [← Nat.cast_add, wrap_nat h]

theorem slice8_take {buf : List Byte} {pos n k : Nat} (hk : pos + n ≤ k) : slice8 (buf.take k) pos n = slice8 buf pos n := by
  unfold slice8
  rw [List.length_take]
  by_cases h : pos + n ≤ buf.length
  · rw [if_pos (by omega), if_pos h, List.drop_take, List.take_take, min_eq_left (by omega)]
  · rw [if_neg (by omega), if_neg h]

/-- `readSize` in closed form on a real buffer. -/
theorem readSize_eq {buf : List Byte} {pos : Nat} (hb : buf.length < 2 ^ 63) (hp : pos ≤ buf.length) :
    (buf.length < pos + 8 ∧ readSize buf pos = .throws) ∨
    (pos + 8 ≤ buf.length ∧ ∃ n, n < 2 ^ 64 ∧ readSize buf pos = .ok n) := by
  unfold readSize readN
  have hw : wrap ((pos : Int) + (8 : Nat)) = pos + 8 := wrap_add_small (by omega)
  rw [hw]
  by_cases h : pos + 8 > buf.length
  · left; rw [if_pos h]; exact ⟨h, rfl⟩
  · right
    rw [if_neg h]
    unfold slice8
    rw [if_pos (by omega)]
    simp only [Res.ok_bind]
    obtain ⟨n, hn, hlt⟩ := decSize_some (b := (buf.drop pos).take 8) (by rw [List.length_take, List.length_drop]; omega)
    rw [hn]
    exact ⟨by omega, n, hlt, rfl⟩

theorem readSize_take {buf : List Byte} {pos n k : Nat} (hb : buf.length < 2 ^ 63) (hp : pos ≤ buf.length)
    (h : readSize buf pos = .ok n) (hpk : pos ≤ k) :
    readSize (buf.take k) pos = if pos + 8 ≤ k then .ok n else .throws := by
  rcases readSize_eq hb hp with ⟨_, h'⟩ | ⟨h8, _⟩
  · rw [h] at h'; cases h'
  have hl : (buf.take k).length = min k buf.length := List.length_take
  by_cases hk : pos + 8 ≤ k
  · rw [if_pos hk, ← h]
    unfold readSize readN
    have hw : wrap ((pos : Int) + (8 : Nat)) = pos + 8 := wrap_add_small (by omega)
    rw [hw, if_neg (by omega), if_neg (by omega), slice8_take hk]
  · rw [if_neg hk]
    rcases readSize_eq (buf := buf.take k) (pos := pos) (by omega) (by omega) with ⟨_, h'⟩ | ⟨h', _⟩
    · exact h'
    · omega

theorem readSizes_eq {buf : List Byte} {pos n : Nat} (hb : buf.length < 2 ^ 63) (hp : pos ≤ buf.length)
    :
    (readSizes buf pos n = .throws ∧ (n < 2 ^ 60 → buf.length < pos + 8 * n)) ∨
    (n < 2 ^ 60 ∧ pos + 8 * n ≤ buf.length ∧ ∃ l, l.length = n ∧ readSizes buf pos n = .ok l) := by
  unfold readSizes
  by_cases hc : wrap (pos + wrap (8 * n)) > buf.length
  · left
    rw [if_pos hc]
    refine ⟨rfl, fun hn => ?_⟩
    have e1 : wrap (8 * (n : Int)) = 8 * n := by
      have := wrap_nat (n := 8 * n) (by omega); push_cast at this; exact this
    rw [e1, wrap_add_small (by omega)] at hc
    omega
  · rw [if_neg hc]
    by_cases hn : n ≥ 2 ^ 60
    · left; rw [if_pos hn]; exact ⟨rfl, fun h => by omega⟩
    · right
      rw [if_neg hn]
      have e1 : wrap (8 * (n : Int)) = 8 * n := by
        have := wrap_nat (n := 8 * n) (by omega); push_cast at this; exact this
      rw [e1, wrap_add_small (by omega)] at hc
      unfold slice8
      rw [if_pos (by omega)]
      simp only [Res.ok_bind]
      obtain ⟨l, hl, hn'⟩ := decSizes_some (n := n) (b := (buf.drop pos).take (8 * n))
        (by rw [List.length_take, List.length_drop]; omega)
      rw [hl]
      exact ⟨by omega, by omega, l, hn', rfl⟩

theorem readSizes_take {buf : List Byte} {pos n k : Nat} {l : List Nat} (hb : buf.length < 2 ^ 63)
    (hp : pos ≤ buf.length) (h : readSizes buf pos n = .ok l) (hpk : pos ≤ k) :
    readSizes (buf.take k) pos n = if pos + 8 * n ≤ k then .ok l else .throws := by
  rcases readSizes_eq (n := n) hb hp with ⟨h', _⟩ | ⟨hn, h8, _⟩
  · rw [h] at h'; cases h'
  have hl : (buf.take k).length = min k buf.length := List.length_take
  by_cases hk : pos + 8 * n ≤ k
  · rw [if_pos hk, ← h]
    unfold readSizes
    have e1 : wrap (8 * (n : Int)) = 8 * n := by
      have := wrap_nat (n := 8 * n) (by omega); push_cast at this; exact this
    rw [e1, wrap_add_small (by omega), if_neg (by omega), if_neg (by omega), if_neg (by omega), if_neg (by omega),
      slice8_take hk]
  · rw [if_neg hk]
    rcases readSizes_eq (buf := buf.take k) (pos := pos) (n := n) (by omega) (by omega) with ⟨h', _⟩ | ⟨_, h', _⟩
    · exact h'
    · omega

/-- Number of bytes `deserialize` consumes for a result with this shape. -/
def consumed (typeName : List Byte) (esz : Nat) (shape : List Nat) : Nat :=
  8 + typeName.length + 8 + 8 * shape.length + 8 * shape.length + 8 + totalSize shape * esz

/-- Complete case analysis of `deserialize` on a real buffer. -/
theorem deserialize_cases (typeName : List Byte) (esz : Nat) (buf : List Byte) (hb : buf.length < 2 ^ 63) :
    deserialize typeName esz buf = .throws ∨
    ∃ ndim shape strides off,
      readSize buf 0 = .ok typeName.length ∧ typeName.length < 2 ^ 63 - 1 ∧ 8 + typeName.length ≤ buf.length ∧
      (buf.drop 8).take typeName.length = typeName ∧
      readSize buf (8 + typeName.length) = .ok ndim ∧
      readSizes buf (8 + typeName.length + 8) ndim = .ok shape ∧ shape.length = ndim ∧ ndim < 2 ^ 60 ∧
      readSizes buf (8 + typeName.length + 8 + 8 * ndim) ndim = .ok strides ∧ strides.length = ndim ∧
      readSize buf (8 + typeName.length + 8 + 8 * ndim + 8 * ndim) = .ok off ∧
      totalSize shape * esz < 2 ^ 63 ∧ consumed typeName esz shape ≤ buf.length ∧
      deserialize typeName esz buf = .ok ((buf.drop (8 + typeName.length + 8 + 8 * ndim + 8 * ndim + 8)).take
        (totalSize shape * esz), ⟨shape, strides, 0⟩) := by
  unfold deserialize
  rcases readSize_eq (pos := 0) hb (by omega) with ⟨_, h⟩ | ⟨h8, nl, hnl, h⟩
  · left; rw [h]; rfl
  rw [h]; simp only [Res.ok_bind]
  by_cases hc : wrap (8 + (nl : Int)) > buf.length
  · left; rw [if_pos hc]
  rw [if_neg hc]
  by_cases hc2 : nl ≥ 2 ^ 63 - 1
  · left; rw [if_pos hc2]
  rw [if_neg hc2]
  have e0 : wrap (8 + (nl : Int)) = 8 + nl := by
    have := wrap_add_small (a := 8) (b := nl) (by omega); exact this
  rw [e0] at hc
  have hs : slice8 buf 8 nl = .ok ((buf.drop 8).take nl) := by unfold slice8; rw [if_pos (by omega)]
  rw [hs]; simp only [Res.ok_bind]
  by_cases hname : (buf.drop 8).take nl ≠ typeName
  · left; rw [if_pos hname]
  rw [if_neg hname]
  have hname' : (buf.drop 8).take nl = typeName := by simpa using hname
  have hnl' : nl = typeName.length := by
    have := congrArg List.length hname'
    rw [List.length_take, List.length_drop] at this
    omega
  rw [hnl'] at hname' h hc hc2 ⊢
  clear hs hname e0 hnl hnl'
  rcases readSize_eq (pos := 8 + typeName.length) hb (by omega) with ⟨_, h2⟩ | ⟨h82, ndim, hnd, h2⟩
  · left; rw [h2]; rfl
  rw [h2]; simp only [Res.ok_bind]
  rcases readSizes_eq (pos := 8 + typeName.length + 8) (n := ndim) hb (by omega) with ⟨h3, _⟩ | ⟨hn3, h83, shape, hsl, h3⟩
  · left; rw [h3]; rfl
  rw [h3]; simp only [Res.ok_bind]
  rcases readSizes_eq (pos := 8 + typeName.length + 8 + 8 * ndim) (n := ndim) hb (by omega) with
    ⟨h4, _⟩ | ⟨_, h84, strides, hstl, h4⟩
  · left; rw [h4]; rfl
  rw [h4]; simp only [Res.ok_bind]
  rcases readSize_eq (pos := 8 + typeName.length + 8 + 8 * ndim + 8 * ndim) hb (by omega) with
    ⟨_, h5⟩ | ⟨h85, off, _, h5⟩
  · left; rw [h5]; rfl
  rw [h5]; simp only [Res.ok_bind]
  by_cases hc6 : wrap (((8 + typeName.length + 8 + 8 * ndim + 8 * ndim + 8 : Nat) : Int) +
      wrap ((totalSize shape : Int) * esz)) > buf.length
  · left; rw [if_pos hc6]
  rw [if_neg hc6]
  by_cases hc7 : totalSize shape * esz ≥ 2 ^ 63
  · left; rw [if_pos hc7]
  rw [if_neg hc7]
  have e6 : wrap ((totalSize shape : Int) * esz) = totalSize shape * esz := by
    rw [← Nat.cast_mul, wrap_nat (by omega)]
  rw [e6, wrap_add_small (by omega)] at hc6
  right
  refine ⟨ndim, shape, strides, off, by first | exact h | trivial, by omega, by omega, hname', by first | exact h2 | rfl,
    by first | exact h3 | rfl, hsl, hn3, by first | exact h4 | rfl, hstl, by first | exact h5 | rfl, by omega, ?_, ?_⟩
  · unfold consumed; rw [hsl]; omega
  · unfold slice8
    rw [if_pos (by omega)]
    rfl

theorem slice8_at {buf pre mid post : List Byte} {pos n : Nat} (h : buf = pre ++ (mid ++ post)) (hp : pos = pre.length)
    (hn : n = mid.length) : slice8 buf pos n = .ok mid := by
  subst h hp hn
  unfold slice8
  rw [if_pos (by simp), List.drop_left, List.take_left]

theorem readSize_at {buf pre post : List Byte} {pos n : Nat} (h : buf = pre ++ (encSize n ++ post))
    (hp : pos = pre.length) (hb : buf.length < 2 ^ 63) (hn : n < 2 ^ 64) : readSize buf pos = .ok n := by
  have hl : buf.length = pos + (8 + post.length) := by rw [h, hp]; simp [encSize_length]
  unfold readSize readN
  rw [wrap_add_small (by omega), if_neg (by omega), slice8_at h hp (by rw [encSize_length])]
  simp only [Res.ok_bind]
  have := decSize_encSize hn []
  rw [List.append_nil] at this
  rw [this]

theorem readSizes_at {buf pre post : List Byte} {pos n : Nat} {l : List Nat}
    (h : buf = pre ++ (l.flatMap encSize ++ post)) (hp : pos = pre.length) (hn : n = l.length)
    (hb : buf.length < 2 ^ 63) (hx : ∀ x ∈ l, x < 2 ^ 64) : readSizes buf pos n = .ok l := by
  have hl : buf.length = pos + (8 * n + post.length) := by rw [h, hp, hn]; simp only [List.length_append, flatMap_encSize_length]
  unfold readSizes
  have e1 : wrap (8 * (n : Int)) = 8 * n := by
    have := wrap_nat (n := 8 * n) (by omega); push_cast at this; exact this
  rw [e1, wrap_add_small (by omega), if_neg (by omega), if_neg (by omega),
    slice8_at h hp (by rw [flatMap_encSize_length, hn])]
  simp only [Res.ok_bind]
  have := decSizes_flatMap hx []
  rw [List.append_nil] at this
  rw [hn, this]

theorem deserialize_encoded (typeName : List Byte) (esz : Nat) (shape strides : List Nat) (off : Nat)
    (data extra : List Byte) (buf : List Byte)
    (hbuf : buf = encSize typeName.length ++ (typeName ++ (encSize shape.length ++ (shape.flatMap encSize ++
      (strides.flatMap encSize ++ (encSize off ++ (data ++ extra)))))))
    (hb : buf.length < 2 ^ 63) (hsl : strides.length = shape.length) (hoff : off < 2 ^ 64)
    (hsh : ∀ d ∈ shape, d < 2 ^ 64) (hst : ∀ s ∈ strides, s < 2 ^ 64) (hd : data.length = totalSize shape * esz) :
    deserialize typeName esz buf = .ok (data, ⟨shape, strides, 0⟩) := by
  have hlen : buf.length = 8 + typeName.length + 8 + 8 * shape.length + 8 * shape.length + 8 + data.length + extra.length := by
    rw [hbuf]; simp only [List.length_append, encSize_length, flatMap_encSize_length, hsl]; omega
  unfold deserialize
  rw [readSize_at (pre := []) (pos := 0) (n := typeName.length) (by rw [List.nil_append]; exact hbuf) rfl hb (by omega)]
  simp only [Res.ok_bind]
  have e0 : wrap (8 + (typeName.length : Int)) = 8 + typeName.length := by
    have := wrap_add_small (a := 8) (b := typeName.length) (by omega); exact this
  rw [e0, if_neg (by omega), if_neg (by omega),
    slice8_at (pre := encSize typeName.length) (mid := typeName) hbuf (by rw [encSize_length]) rfl]
  simp only [Res.ok_bind]
  rw [if_neg (by simp)]
  rw [readSize_at (pre := encSize typeName.length ++ typeName) (n := shape.length)
    (by rw [hbuf]; simp only [List.append_assoc]; rfl) (by simp [encSize_length]) hb (by omega)]
  simp only [Res.ok_bind]
  rw [readSizes_at (pre := encSize typeName.length ++ (typeName ++ encSize shape.length)) (l := shape)
    (by rw [hbuf]; simp only [List.append_assoc]; rfl) (by simp [encSize_length]; omega) rfl hb hsh]
  simp only [Res.ok_bind]
  rw [readSizes_at (pre := encSize typeName.length ++ (typeName ++ (encSize shape.length ++ shape.flatMap encSize)))
    (l := strides)
    (by rw [hbuf]; simp only [List.append_assoc]; rfl)
    (by simp only [List.length_append, encSize_length, flatMap_encSize_length]; omega) hsl.symm hb hst]
  simp only [Res.ok_bind]
  rw [readSize_at (pre := encSize typeName.length ++ (typeName ++ (encSize shape.length ++ (shape.flatMap encSize ++
      strides.flatMap encSize)))) (n := off)
    (by rw [hbuf]; simp only [List.append_assoc]; rfl)
    (by simp only [List.length_append, encSize_length, flatMap_encSize_length]; omega) hb hoff]
  simp only [Res.ok_bind]
  have e6 : wrap ((totalSize shape : Int) * esz) = totalSize shape * esz := by
    rw [← Nat.cast_mul, wrap_nat (by omega)]
  rw [e6, ← hd, wrap_add_small (by omega), if_neg (by omega), if_neg (by omega)]
  rw [slice8_at (pre := encSize typeName.length ++ (typeName ++ (encSize shape.length ++ (shape.flatMap encSize ++
      (strides.flatMap encSize ++ encSize off))))) (mid := data) (post := extra)
    (by rw [hbuf]; simp only [List.append_assoc])
    (by simp only [List.length_append, encSize_length, flatMap_encSize_length]; omega) rfl]
  rfl

end Cmm.MV
