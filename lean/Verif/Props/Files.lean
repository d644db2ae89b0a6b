import Verif.Model.Files
import Verif.Props.Serialization
import Verif.Props.MemoryView
/-!
C110: files of curves and of array views. `eqd` is the `==` of C++ on doubles.
-/
namespace Cmm.Files
open Cmm.Ser (Byte Curve F64 Fault Holdable WrapsAround serializeCurves deserializeCurves)
open Cmm.MV (View Storable totalSize deserialize)

/-! ### Curves -/

/-- C110. Curves written to a file that can be opened, on a device with room, are reported as written and are read back: same number and order, same
degrees, control points and knots, and the flag `is_periodic()` had. The other files stay as they were. -/
theorem C110_curves_roundtrip_partial (eqd : F64 → F64 → Bool) (d : Disk) (name : String) (cs : List Curve) (early room : Nat)
    (hl : cs.length < 2 ^ 31) (hc : ∀ c ∈ cs, Holdable c)
    (hroom : 4 + (cs.map fun c => 13 + 32 * c.cpts.length + 8 * c.knots.length).sum ≤ room) :
    ∃ d' out, writeCurves eqd d name cs true early room = some (true, d') ∧ readCurves d' name = .ok out ∧
      (∀ other, other ≠ name → d' other = d other) ∧
      out.length = cs.length ∧
      ∀ (i : Nat) (c o : Curve), cs[i]? = some c → out[i]? = some o →
        o.degree = c.degree ∧ o.cpts = c.cpts ∧ o.knots = c.knots ∧ (o.periodic = true ↔ WrapsAround eqd c) := by
  obtain ⟨b, out, h1, h2, h3, h4⟩ := Cmm.Ser.C01_curves_roundtrip eqd cs hl hc
  have hlen := Cmm.Ser.C61_list_size eqd cs b h1
  have hr : b.length ≤ room := by omega
  refine ⟨d.set name b, out, ?_, ?_, ?_, h3, h4⟩
  · simp only [writeCurves, h1, Option.bind_eq_bind, Option.bind_some, if_true, List.take_of_length_le hr]
    rw [decide_eq_true (by omega)]
  · simp [readCurves, Disk.set, h2]
  · intro o ho; simp [Disk.set, ho]

/-- C110. If the file cannot be opened the answer is `false` and no file changes; a file that is not there cannot be read: an exception. -/
theorem C110_not_opened (eqd : F64 → F64 → Bool) (d : Disk) (name : String) (cs : List Curve) (early room : Nat)
    (hc : ∀ c ∈ cs, Holdable c) (hl : cs.length < 2 ^ 31) :
    writeCurves eqd d name cs false early room = some (false, d) ∧ (d name = none → readCurves d name = .error .throws) := by
  obtain ⟨b, _, h1, _⟩ := Cmm.Ser.C01_curves_roundtrip eqd cs hl hc
  exact ⟨by simp [writeCurves, h1], fun h => by simp [readCurves, h]⟩

/-- C110. As long as the stream hands all the bytes to the device within `write`, the answer says whether the file is complete: `true` exactly if
the contents are the encoding of the curves. -/
theorem C110_report_partial (eqd : F64 → F64 → Bool) (d d' : Disk) (name : String) (cs : List Curve) (early room : Nat) (b : List Byte) (ok : Bool)
    (hb : serializeCurves eqd cs = some b) (he : b.length ≤ early) (h : writeCurves eqd d name cs true early room = some (ok, d')) :
    ok = true ↔ d' name = some b := by
  simp only [writeCurves, hb, Option.bind_eq_bind, Option.bind_some, if_true, Option.some.injEq, Prod.mk.injEq] at h
  obtain ⟨rfl, rfl⟩ := h
  simp only [Disk.set, if_true, Option.some.injEq, List.take_eq_self_iff, decide_eq_true_eq]
  omega

/-- C110 (violated: a failed write can be reported as done). Bytes the stream still holds are handed over after the answer was computed: if the device
takes what `write` handed over but not all the rest, the answer is `true`, the file is incomplete, and reading it runs past the end of the buffer. -/
theorem C110_late_failure_counterexample (eqd : F64 → F64 → Bool) (d : Disk) (name : String) (cs : List Curve) (early room : Nat)
    (hl : cs.length < 2 ^ 31) (hc : ∀ c ∈ cs, Holdable c) (he : early ≤ room)
    (hr : room < 4 + (cs.map fun c => 13 + 32 * c.cpts.length + 8 * c.knots.length).sum) :
    ∃ d', writeCurves eqd d name cs true early room = some (true, d') ∧ readCurves d' name = .error .ub := by
  obtain ⟨b, _, h1, _⟩ := Cmm.Ser.C01_curves_roundtrip eqd cs hl hc
  have hlen := Cmm.Ser.C61_list_size eqd cs b h1
  refine ⟨d.set name (b.take room), ?_, ?_⟩
  · simp only [writeCurves, h1, Option.bind_eq_bind, Option.bind_some, if_true]
    rw [decide_eq_true (by omega)]
  · simp only [readCurves, Disk.set, if_true]
    exact Cmm.Ser.C04_every_truncation_reads_out_of_bounds eqd cs hl hc b (b.take room) (b.drop room) h1 (List.take_append_drop _ _).symm
      (by intro h; have := congrArg List.length h; simp at this; omega)

/-- C110 (violated: a crash loses the old file). At every point where writing can be interrupted the other files are as before, and the file itself has
its old contents, or the new curves can be read from it, or the old contents are gone and reading runs past the end of the buffer. -/
theorem C110_crash_partial (eqd : F64 → F64 → Bool) (d : Disk) (name : String) (cs : List Curve) (hl : cs.length < 2 ^ 31)
    (hc : ∀ c ∈ cs, Holdable c) :
    ∃ b states, serializeCurves eqd cs = some b ∧ crashStates eqd d name cs = some states ∧
      ∀ d' ∈ states, (∀ other, other ≠ name → d' other = d other) ∧
        (d' = d ∨ readCurves d' name = deserializeCurves b ∨ (∃ k < b.length, d' name = some (b.take k) ∧ readCurves d' name = .error .ub)) := by
  obtain ⟨b, _, h1, _⟩ := Cmm.Ser.C01_curves_roundtrip eqd cs hl hc
  refine ⟨b, d :: (List.range (b.length + 1)).map fun k => d.set name (b.take k), h1,
    by simp only [crashStates, h1, Option.bind_eq_bind, Option.bind_some], ?_⟩
  intro d' hd
  rcases List.mem_cons.1 hd with rfl | hd
  · exact ⟨fun _ _ => rfl, .inl rfl⟩
  obtain ⟨k, hk, rfl⟩ := List.mem_map.1 hd
  rw [List.mem_range] at hk
  refine ⟨fun o ho => by simp [Disk.set, ho], .inr ?_⟩
  by_cases hkb : k = b.length
  · left; subst hkb; simp [readCurves, Disk.set]
  · refine .inr ⟨k, by omega, by simp [Disk.set], ?_⟩
    simp only [readCurves, Disk.set, if_true]
    exact Cmm.Ser.C04_every_truncation_reads_out_of_bounds eqd cs hl hc b (b.take k) (b.drop k) h1 (List.take_append_drop _ _).symm
      (by intro h; have := congrArg List.length h; simp at this; omega)

/-- C110. The interrupted states do occur: for every number of bytes below the size of the encoding there is a point where the file holds just those. -/
theorem C110_crash_loses_file_counterexample (eqd : F64 → F64 → Bool) (d : Disk) (name : String) (cs : List Curve) (hl : cs.length < 2 ^ 31)
    (hc : ∀ c ∈ cs, Holdable c) (k : Nat) (hk : k < 4 + (cs.map fun c => 13 + 32 * c.cpts.length + 8 * c.knots.length).sum) :
    ∃ b states, serializeCurves eqd cs = some b ∧ crashStates eqd d name cs = some states ∧
      ∃ d' ∈ states, d' name = some (b.take k) ∧ readCurves d' name = .error .ub := by
  obtain ⟨b, _, h1, _⟩ := Cmm.Ser.C01_curves_roundtrip eqd cs hl hc
  have hlen := Cmm.Ser.C61_list_size eqd cs b h1
  refine ⟨b, d :: (List.range (b.length + 1)).map fun k => d.set name (b.take k), h1,
    by simp only [crashStates, h1, Option.bind_eq_bind, Option.bind_some], d.set name (b.take k),
    List.mem_cons_of_mem _ (List.mem_map.2 ⟨k, by rw [List.mem_range]; omega, rfl⟩), by simp [Disk.set], ?_⟩
  simp only [readCurves, Disk.set, if_true]
  exact Cmm.Ser.C04_every_truncation_reads_out_of_bounds eqd cs hl hc b (b.take k) (b.drop k) h1 (List.take_append_drop _ _).symm
    (by intro h; have := congrArg List.length h; simp at this; omega)

/-! ### Array views -/

/-- What a program can do with an open stream: write a view (of which the stream takes some number of bytes), or read. -/
inductive Op where
  | write (mem : List Byte) (v : View) (accepted : Nat)
  | read

/-- The stream after an operation. -/
def step (typeName : List Byte) (esz : Nat) (s : Option Stream) : Op → Option Stream
  | .write mem v accepted => (writeView typeName esz mem v accepted s).2
  | .read => (readView typeName esz s).2

theorem put_prefix {s : Stream} {b data : List Byte} (h1 : b <+: s.bytes) (h2 : b.length ≤ s.pos) : b <+: (s.put data).bytes := by
  obtain ⟨r, hr⟩ := h1
  unfold Stream.put
  simp only [List.append_assoc]
  rw [← hr, List.take_append, List.take_of_length_le h2, List.append_assoc]
  exact ⟨_, rfl⟩

/-- C110. A view written at the start of a seekable stream, whatever was in the file before, is what `read_from_file` gives, after any further writes and
reads: the same shape and strides, and the bytes of the view's data from its offset on. -/
theorem C110_view_history (typeName : List Byte) (esz : Nat) (mem b : List Byte) (v : View) (old : List Byte) (accepted : Nat) (ops : List Op)
    (hs : Storable esz v) (hb : v.serialize typeName esz mem = .ok b) (ha : b.length ≤ accepted) :
    ∃ s', writeView typeName esz mem v accepted (some ⟨old, 0, true, true⟩) = (.ok (), s') ∧
      ∃ s'', ops.foldl (step typeName esz) s' = some s'' ∧
        (s''.bytes.length < 2 ^ 63 → (readView typeName esz (some s'')).1 =
          .ok ((mem.drop (v.offset * esz)).take (totalSize v.shape * esz), ⟨v.shape, v.strides, 0⟩)) := by
  have ht : b.take accepted = b := List.take_of_length_le ha
  refine ⟨some ((⟨old, 0, true, true⟩ : Stream).put b), by simp [writeView, hb, ht], ?_⟩
  have key : ∀ (ops : List Op) (s : Stream), s.seekable = true → s.readable = true → b <+: s.bytes → b.length ≤ s.pos →
      ∃ s'', ops.foldl (step typeName esz) (some s) = some s'' ∧ s''.seekable = true ∧ s''.readable = true ∧ b <+: s''.bytes := by
    intro ops
    induction ops with
    | nil => intro s h1 h2 h3 _; exact ⟨s, rfl, h1, h2, h3⟩
    | cons o ops ih =>
      intro s h1 h2 h3 h4
      rw [List.foldl_cons]
      cases o with
      | read =>
        have e : step typeName esz (some s) .read = some { s with pos := s.bytes.length } := by simp [step, readView, h1, h2]
        rw [e]
        exact ih _ h1 h2 h3 h3.length_le
      | write m w a =>
        cases hser : w.serialize typeName esz m with
        | ok c =>
          have e : step typeName esz (some s) (.write m w a) = some (s.put (c.take a)) := by simp [step, writeView, hser]
          rw [e]
          exact ih _ h1 h2 (put_prefix h3 h4) (by simp only [Stream.put]; omega)
        | throws =>
          have e : step typeName esz (some s) (.write m w a) = some s := by simp [step, writeView, hser]
          rw [e]; exact ih _ h1 h2 h3 h4
        | ub =>
          have e : step typeName esz (some s) (.write m w a) = some s := by simp [step, writeView, hser]
          rw [e]; exact ih _ h1 h2 h3 h4
  obtain ⟨s'', e, h1, h2, r, h3⟩ := key ops ((⟨old, 0, true, true⟩ : Stream).put b) rfl rfl
    ⟨old.drop b.length, by simp [Stream.put]⟩ (by simp [Stream.put])
  refine ⟨s'', e, fun hlen => ?_⟩
  simp only [readView, h1, h2, if_true, ne_eq, not_true_eq_false, if_false, ← h3]
  exact (Cmm.MV.C21_roundtrip typeName esz mem b r v hs (by rw [h3]; exact hlen) hb).1

/-- C110. A second view written to the same stream is therefore never read back; its bytes follow the first ones and nothing of the first is lost. -/
theorem C110_view_second (typeName : List Byte) (esz : Nat) (mem b mem2 b2 : List Byte) (v v2 : View) (accepted : Nat)
    (hb : v.serialize typeName esz mem = .ok b) (hb2 : v2.serialize typeName esz mem2 = .ok b2) (ha : b.length ≤ accepted)
    (ha2 : b2.length ≤ accepted) :
    (writeView typeName esz mem2 v2 accepted (writeView typeName esz mem v accepted (some ⟨[], 0, true, true⟩)).2) =
      (.ok (), some ⟨b ++ b2, b.length + b2.length, true, true⟩) := by
  simp [writeView, hb, hb2, List.take_of_length_le ha, List.take_of_length_le ha2, Stream.put, List.drop_eq_nil_of_le]

/-- C110. The errors of `write_to_file` and `read_from_file` are exceptions: a null pointer, a stream that takes fewer bytes than the encoding has, a
stream that cannot be positioned, and one that cannot be read. A null pointer stays one, and reading never changes the file. -/
theorem C110_view_errors (typeName : List Byte) (esz : Nat) (mem b : List Byte) (v : View) (accepted : Nat) (s : Stream)
    (hb : v.serialize typeName esz mem = .ok b) :
    writeView typeName esz mem v accepted none = (.throws, none) ∧ readView typeName esz none = (.throws, none) ∧
      ((writeView typeName esz mem v accepted (some s)).1 = .throws ↔ accepted < b.length) ∧
      (s.seekable = false → readView typeName esz (some s) = (.throws, some s)) ∧
      (s.readable = false → (readView typeName esz (some s)).1 = .throws) ∧
      ∃ s', (readView typeName esz (some s)).2 = some s' ∧ s'.bytes = s.bytes := by
  refine ⟨rfl, rfl, ?_, fun h => by simp [readView, h], fun h => ?_, ?_⟩
  · simp only [writeView, hb, List.length_take]
    constructor
    · intro h
      by_contra hc
      rw [if_neg (by omega)] at h
      cases h
    · intro h
      rw [if_pos (by omega)]
  · unfold readView
    cases hk : s.seekable with
    | false => simp [hk]
    | true =>
      simp only [hk, h, if_true, Bool.false_eq_true, if_false, List.length_nil]
      by_cases h0 : (0 : Nat) ≠ s.bytes.length
      · rw [if_pos h0]
      · rw [if_neg h0]; rfl
  · unfold readView
    cases hk : s.seekable with
    | false => exact ⟨s, by simp [hk], rfl⟩
    | true => exact ⟨{ s with pos := (if s.readable then s.bytes else []).length }, by simp [hk], rfl⟩

/-- C110. Writing a view whose elements are not all in memory is undefined behaviour, and so is nothing else. -/
theorem C110_view_undefined_iff (typeName : List Byte) (esz : Nat) (mem : List Byte) (v : View) (accepted : Nat) (s : Stream) :
    (writeView typeName esz mem v accepted (some s)).1 = .ub ↔ mem.length < v.offset * esz + (totalSize v.shape * esz) % 2 ^ 64 := by
  change _ ↔ mem.length < v.offset * esz + Cmm.MV.wrap (totalSize v.shape * esz)
  unfold writeView View.serialize
  by_cases h : v.offset * esz + Cmm.MV.wrap (totalSize v.shape * esz) ≤ mem.length
  · simp only [if_pos h]
    constructor
    · intro e
      split at e <;> cases e
    · intro e; omega
  · simp only [if_neg h, true_iff]
    omega

/-- C110. A view written behind the end of the file: what was there is kept, the gap reads as zeros, the encoding follows, and the position is its end. -/
theorem C110_view_gap (typeName : List Byte) (esz : Nat) (mem b : List Byte) (v : View) (accepted : Nat) (s : Stream)
    (hb : v.serialize typeName esz mem = .ok b) (ha : b.length ≤ accepted) (hp : s.bytes.length ≤ s.pos) :
    ∃ s', writeView typeName esz mem v accepted (some s) = (.ok (), some s') ∧ s'.pos = s.pos + b.length ∧
      s'.bytes.length = s.pos + b.length ∧ s'.bytes.take s.bytes.length = s.bytes ∧
      (∀ i, s.bytes.length ≤ i → i < s.pos → s'.bytes[i]? = some 0#8) ∧ s'.bytes.drop s.pos = b := by
  refine ⟨s.put b, by simp [writeView, hb, List.take_of_length_le ha], rfl, ?_, ?_, ?_, ?_⟩ <;>
    simp only [Stream.put, List.take_of_length_le hp, List.drop_eq_nil_of_le (show s.bytes.length ≤ s.pos + b.length by omega),
      List.append_nil]
  · simp only [List.length_append, List.length_replicate]; omega
  · rw [List.append_assoc, List.take_left]
  · intro i h1 h2
    rw [List.getElem?_append_left (by simp only [List.length_append, List.length_replicate]; omega),
      List.getElem?_append_right h1, List.getElem?_replicate, if_pos (by omega)]
  · rw [List.drop_append_of_le_length (by simp only [List.length_append, List.length_replicate]; omega),
      List.drop_eq_nil_of_le (by simp only [List.length_append, List.length_replicate]; omega), List.nil_append]

/-- C110. If the stream of an empty file takes only part of a view, the part is not mistaken for a view: reading it is an exception. -/
theorem C110_view_incomplete (typeName : List Byte) (esz : Nat) (mem b : List Byte) (v : View) (accepted : Nat) (hs : Storable esz v)
    (hb : v.serialize typeName esz mem = .ok b) (hlen : b.length < 2 ^ 63) (ha : accepted < b.length) :
    (writeView typeName esz mem v accepted (some ⟨[], 0, true, true⟩)).1 = .throws ∧
      (readView typeName esz (writeView typeName esz mem v accepted (some ⟨[], 0, true, true⟩)).2).1 = .throws := by
  refine ⟨((C110_view_errors typeName esz mem b v accepted _ hb).2.2.1).2 ha, ?_⟩
  simp only [writeView, hb, Stream.put, readView, if_true]
  simp only [List.take_nil, List.length_nil, Nat.sub_zero, List.replicate_zero, List.nil_append, List.drop_nil, List.append_nil, ne_eq,
    not_true_eq_false, if_false]
  exact Cmm.MV.C21_prefix_rejected typeName esz mem b v hs hlen hb accepted ha

/-- C110 (violated: torn writes). A view written over a file that holds a view of the same shape, of which the stream takes only the first bytes, leaves
a file that is accepted although it is neither the old nor the new one: shape and strides are right and the data are first new, then old. -/
theorem C110_view_torn_counterexample (typeName : List Byte) (esz : Nat) (mem1 mem2 b1 b2 : List Byte) (v : View) (k : Nat)
    (hs : Storable esz v) (h1 : v.serialize typeName esz mem1 = .ok b1) (h2 : v.serialize typeName esz mem2 = .ok b2) (hlen : b1.length < 2 ^ 63)
    (hk : k < totalSize v.shape * esz) :
    ∃ s', writeView typeName esz mem2 v (b2.length - totalSize v.shape * esz + k) (some ⟨b1, 0, true, true⟩) = (.throws, some s') ∧
      (readView typeName esz (some s')).1 = .ok (((mem2.drop (v.offset * esz)).take k) ++
        (((mem1.drop (v.offset * esz)).take (totalSize v.shape * esz)).drop k), ⟨v.shape, v.strides, 0⟩) := by
  have e6 : Cmm.MV.wrap ((totalSize v.shape : Int) * esz) = totalSize v.shape * esz := by
    rw [← Nat.cast_mul, Cmm.MV.wrap_nat (by have := hs.data; omega)]
  have l1 := (Cmm.MV.C21_roundtrip typeName esz mem1 b1 [] v hs (by simpa using hlen) h1).2
  have hb1 := h1
  have hb2 := h2
  unfold View.serialize at h1 h2
  simp only [e6] at h1 h2
  split at h1
  swap
  · cases h1
  split at h2
  swap
  · cases h2
  rename_i m1 m2
  injection h1 with h1
  injection h2 with h2
  generalize hd1 : (mem1.drop (v.offset * esz)).take (totalSize v.shape * esz) = D1 at h1
  generalize hd2 : (mem2.drop (v.offset * esz)).take (totalSize v.shape * esz) = D2 at h2
  have ln1 : D1.length = totalSize v.shape * esz := by rw [← hd1, List.length_take, List.length_drop]; omega
  have ln2 : D2.length = totalSize v.shape * esz := by rw [← hd2, List.length_take, List.length_drop]; omega
  generalize hH : Cmm.MV.encSize typeName.length ++ (typeName ++ (Cmm.MV.encSize v.shape.length ++ (v.shape.flatMap Cmm.MV.encSize ++
      (v.strides.flatMap Cmm.MV.encSize ++ Cmm.MV.encSize v.offset)))) = H
  have e1 : b1 = H ++ D1 := by rw [← h1, ← hH]; simp only [List.append_assoc]
  have e2 : b2 = H ++ D2 := by rw [← h2, ← hH]; simp only [List.append_assoc]
  have lb1 : b1.length = H.length + totalSize v.shape * esz := by rw [e1, List.length_append, ln1]
  have lb2 : b2.length = H.length + totalSize v.shape * esz := by rw [e2, List.length_append, ln2]
  have etake : b2.take (b2.length - totalSize v.shape * esz + k) = H ++ D2.take k := by
    rw [lb2, e2, Nat.add_sub_cancel, List.take_length_add_append]
  refine ⟨⟨H ++ (D2.take k ++ D1.drop k), H.length + k, true, true⟩, ?_, ?_⟩
  · simp only [writeView, hb2, etake]
    rw [if_pos (by rw [List.length_append, lb2, List.length_take, ln2]; omega)]
    have hl : (H ++ D2.take k).length = H.length + k := by rw [List.length_append, List.length_take, ln2]; omega
    simp only [Stream.put, hl, List.take_zero, Nat.zero_sub, List.replicate_zero, List.nil_append, Nat.zero_add, List.append_assoc]
    rw [e1, List.drop_length_add_append]
  · simp only [readView, if_true, ne_eq, not_true_eq_false, if_false]
    have ek : D2.take k = (mem2.drop (v.offset * esz)).take k := by
      rw [← hd2, List.take_take, Nat.min_eq_left (by omega)]
    rw [← ek]
    refine Cmm.MV.deserialize_encoded typeName esz v.shape v.strides v.offset _ [] _ ?_ ?_ hs.wf.len hs.wf.off hs.shape hs.strides ?_
    · rw [← hH]; simp only [List.append_assoc, List.append_nil]
    · simp only [List.length_append, List.length_take, List.length_drop, ln1, ln2]; omega
    · simp only [List.length_append, List.length_take, List.length_drop, ln1, ln2]; omega

/-! ### Non-vacuity -/

open Cmm.Ser (sampleCurve) in
example : (∀ c ∈ [sampleCurve], Holdable c) ∧ [sampleCurve].length < 2 ^ 31 ∧
    4 + ([sampleCurve].map fun c => 13 + 32 * c.cpts.length + 8 * c.knots.length).sum = 113 := by
  refine ⟨?_, by decide, by decide⟩
  have : Holdable sampleCurve := ⟨by decide, by decide, by decide, by decide, by decide⟩
  simpa using this

open Cmm.Ser (sampleCurve) in
example : ∃ b d', serializeCurves (fun a b => a == b) [sampleCurve] = some b ∧ b.length ≤ 113 ∧
    writeCurves (fun a b => a == b) (fun _ => none) "f" [sampleCurve] true 113 50 = some (false, d') := ⟨_, _, rfl, by decide, rfl⟩

example : ∃ b, (⟨[2, 2], [2, 1], 1⟩ : View).serialize [105#8] 2 [0#8, 1#8, 2#8, 3#8, 4#8, 5#8, 6#8, 7#8, 8#8, 9#8] = .ok b ∧
    Storable 2 ⟨[2, 2], [2, 1], 1⟩ ∧ b.length = 65 ∧ 3 < totalSize [2, 2] * 2 := by
  refine ⟨_, rfl, ⟨⟨rfl, by decide⟩, by decide, by decide, by decide +kernel⟩, ?_, ?_⟩ <;> decide +kernel

/-- A view written three bytes behind the end of a file. -/
example : ∃ b s, (⟨[2], [1], 0⟩ : View).serialize [105#8] 1 [8#8, 9#8] = .ok b ∧
    writeView [105#8] 1 [8#8, 9#8] ⟨[2], [1], 0⟩ 100 (some ⟨[7#8], 4, true, true⟩) = (.ok (), some s) ∧
    s.bytes.take 4 = [7#8, 0#8, 0#8, 0#8] ∧ s.bytes.drop (s.bytes.length - 2) = [8#8, 9#8] :=
  ⟨_, _, rfl, rfl, by decide +kernel, by decide +kernel⟩

end Cmm.Files
