import Verif.Spec.MVHeap
import Mathlib.Data.List.Forall2
/-!
Property C124: the memory behind `MemoryView` objects.
-/
namespace Cmm.MVHeap

/-- The block a managing view owns. -/
def ownedBlock : Option Obj → Option Nat
  | some ⟨true, .block a⟩ => some a
  | _ => none

/-- The blocks the living managing views own. -/
def owned (os : List (Option Obj)) : List Nat := os.filterMap ownedBlock

/-- An object and what the program knows of it. -/
def Fits : Option Obj → Ref → Prop
  | none, r => r.alive = false
  | some o, r => r.alive = true ∧ (o.managed = true ↔ r.kind = .owner) ∧ (o.managed = true → ∃ a, o.data = .block a)

/-- The invariant; `D` are the deserialized blocks. -/
structure Inv (s : State) (rs : List Ref) (D : List Nat) : Prop where
  fits : List.Forall₂ Fits s.objs rs
  live : s.live.Perm (owned s.objs ++ D)
  nodup : s.live.Nodup
  lasting : ∀ i o, s.obj i = some o → ∀ r, rs[i]? = some r → r.kind = .lasting → o.data = .caller ∨ ∃ a ∈ D, o.data = .block a
  base : ∀ i o, s.obj i = some o → ∀ r k, rs[i]? = some r → r.kind = .of k →
    k < rs.length ∧ ∀ ok, s.obj k = some ok → ok.managed = true ∧ ok.data = o.data

theorem fits_get {os : List (Option Obj)} {rs : List Ref} (h : List.Forall₂ Fits os rs) {i : Nat} {r : Ref} (hr : rs[i]? = some r) :
    ∃ o, os[i]? = some o ∧ Fits o r := by
  induction h generalizing i with
  | nil => simp at hr
  | cons a b ih =>
    cases i with
    | zero => simp only [List.getElem?_cons_zero, Option.some.injEq] at hr; subst hr; exact ⟨_, rfl, a⟩
    | succ i => exact ih (by simpa using hr)

theorem fits_append {os : List (Option Obj)} {rs : List Ref} (h : List.Forall₂ Fits os rs) {o : Option Obj} {r : Ref} (hf : Fits o r) :
    List.Forall₂ Fits (os ++ [o]) (rs ++ [r]) := by
  induction h with
  | nil => exact .cons hf .nil
  | cons a b ih => exact .cons a ih

theorem fits_kill {os : List (Option Obj)} {rs : List Ref} (h : List.Forall₂ Fits os rs) (i : Nat) :
    List.Forall₂ Fits (os.set i none) (rs.modify i fun r => { r with alive := false }) := by
  induction h generalizing i with
  | nil => simp
  | cons a b ih =>
    cases i with
    | zero => simpa using ⟨rfl, b⟩
    | succ i => simpa using ⟨a, ih i⟩

theorem owned_kill {os : List (Option Obj)} {i : Nat} {o : Option Obj} (h : os[i]? = some o) :
    (owned os).Perm ((ownedBlock o).toList ++ owned (os.set i none)) := by
  induction os generalizing i with
  | nil => simp at h
  | cons x os ih =>
    cases i with
    | zero =>
      simp only [List.getElem?_cons_zero, Option.some.injEq] at h
      subst h
      have hn : ownedBlock none = none := rfl
      cases hb : ownedBlock x <;> simp [owned, List.filterMap_cons, hb, hn]
    | succ i =>
      have := ih (i := i) (by simpa using h)
      cases hb : ownedBlock x with
      | none => simpa [owned, List.filterMap_cons, hb] using this
      | some a =>
        simp only [owned, List.filterMap_cons, hb, List.set_cons_succ] at this ⊢
        exact (this.cons a).trans (List.perm_middle.symm)

theorem owned_length {os : List (Option Obj)} {rs : List Ref} (h : List.Forall₂ Fits os rs) : (owned os).length = owners rs := by
  induction h with
  | nil => rfl
  | @cons o r os rs a b ih =>
    simp only [owned, owners, List.countP_cons] at ih ⊢
    cases o with
    | none =>
      have : r.alive = false := a
      simp [List.filterMap_cons, ownedBlock, this, ih]
    | some o =>
      obtain ⟨h1, h2, h3⟩ := a
      cases hm : o.managed with
      | false =>
        have : r.kind ≠ .owner := fun e => by rw [h2.mpr e] at hm; cases hm
        have hb : ownedBlock (some o) = none := by obtain ⟨m, d⟩ := o; simp only at hm; subst hm; rfl
        simp [List.filterMap_cons, hb, this, ih]
      | true =>
        obtain ⟨x, hx⟩ := h3 hm
        have hb : ownedBlock (some o) = some x := by obtain ⟨m, d⟩ := o; simp only at hm hx; subst hm hx; rfl
        simp [List.filterMap_cons, hb, h1, h2.mp hm, ih]

theorem obj_some {s : State} {i : Nat} {o : Obj} (h : s.obj i = some o) : s.objs[i]? = some (some o) := by
  unfold State.obj at h
  cases hc : s.objs[i]? with
  | none => simp [hc] at h
  | some x => rw [hc] at h; simp only [Option.join_some] at h; rw [h]

theorem Inv.lengths {s : State} {rs : List Ref} {D : List Nat} (I : Inv s rs D) : s.objs.length = rs.length := I.fits.length_eq

theorem Inv.alive {s : State} {rs : List Ref} {D : List Nat} (I : Inv s rs D) {i : Nat} (h : MVHeap.alive rs i = true) :
    ∃ o r, s.obj i = some o ∧ rs[i]? = some r ∧ r.alive = true ∧ Fits (some o) r := by
  unfold MVHeap.alive at h
  cases hr : rs[i]? with
  | none => simp [hr] at h
  | some r =>
    rw [hr] at h
    have ha : r.alive = true := by simpa using h
    obtain ⟨o, e, f⟩ := fits_get I.fits hr
    cases o with
    | none => rw [show r.alive = false from f] at ha; cases ha
    | some o => exact ⟨o, r, by simp [State.obj, e], rfl, ha, f⟩

/-- The memory of a usable view is there. -/
theorem Inv.valid {s : State} {rs : List Ref} {D : List Nat} (I : Inv s rs D) {i : Nat} (h : usable rs i = true) :
    MVHeap.alive rs i = true ∧ ∃ o, s.obj i = some o ∧ s.valid o.data = true := by
  have hown : ∀ k ok, s.obj k = some ok → ok.managed = true → s.valid ok.data = true := by
    intro k ok hk hm
    obtain ⟨r, hr⟩ : ∃ r, rs[k]? = some r := by
      have := (List.getElem?_eq_some_iff.mp (obj_some hk)).1
      rw [I.lengths] at this
      exact ⟨_, List.getElem?_eq_getElem this⟩
    obtain ⟨o, e, f⟩ := fits_get I.fits hr
    rw [obj_some hk, Option.some.injEq] at e
    subst e
    obtain ⟨a, ha⟩ := f.2.2 hm
    have hb : ownedBlock (some ok) = some a := by obtain ⟨m, d⟩ := ok; simp only at hm ha; subst hm ha; rfl
    have : a ∈ owned s.objs := List.mem_filterMap.mpr ⟨some ok, List.mem_of_getElem? (obj_some hk), hb⟩
    rw [ha]
    simp only [State.valid, decide_eq_true_eq]
    exact I.live.mem_iff.mpr (List.mem_append_left _ this)
  unfold usable at h
  cases hr : rs[i]? with
  | none => simp [hr] at h
  | some r =>
    have ha : r.alive = true := by
      rw [hr] at h
      obtain ⟨al, k⟩ := r
      cases al with
      | true => rfl
      | false => simp at h
    have hal : MVHeap.alive rs i = true := by simp [MVHeap.alive, hr, ha]
    obtain ⟨o, r', e, hr', -, f⟩ := I.alive hal
    rw [hr, Option.some.injEq] at hr'
    subst hr'
    refine ⟨hal, o, e, ?_⟩
    cases hk : r.kind with
    | lasting =>
      rcases I.lasting i o e r hr hk with h1 | ⟨a, ha, h1⟩
      · rw [h1]; rfl
      · rw [h1]
        simp only [State.valid, decide_eq_true_eq]
        exact I.live.mem_iff.mpr (List.mem_append_right _ ha)
    | owner => exact hown i o e (f.2.1.mpr hk)
    | of k =>
      rw [hr] at h
      obtain ⟨al, kk⟩ := r
      simp only at ha hk
      subst ha hk
      simp only at h
      obtain ⟨ok, -, ek, -⟩ := I.alive h
      obtain ⟨-, hb⟩ := I.base i o e _ k hr rfl
      obtain ⟨hm, hd⟩ := hb ok ek
      rw [← hd]
      exact hown k ok ek hm

theorem obj_append_lt {live live' : List Nat} {objs : List (Option Obj)} {x : Option Obj} {i : Nat} (h : i < objs.length) :
    (⟨live', objs ++ [x]⟩ : State).obj i = (⟨live, objs⟩ : State).obj i := by
  simp [State.obj, List.getElem?_append_left h]

theorem obj_append_len {live : List Nat} {objs : List (Option Obj)} {x : Obj} : (⟨live, objs ++ [some x]⟩ : State).obj objs.length = some x := by
  simp [State.obj]

/-- Adding a new view keeps the invariant. -/
theorem Inv.add {s : State} {rs : List Ref} {D : List Nat} (I : Inv s rs D) (live' D' : List Nat) (o : Obj) (kd : Kind)
    (hm : o.managed = true ↔ kd = .owner) (hb : o.managed = true → ∃ a, o.data = .block a)
    (hl : live'.Perm (owned s.objs ++ (ownedBlock (some o)).toList ++ D')) (hn : live'.Nodup) (hD : ∀ a ∈ D, a ∈ D')
    (h1 : kd = .lasting → o.data = .caller ∨ ∃ a ∈ D', o.data = .block a)
    (h2 : ∀ k, kd = .of k → k < rs.length ∧ ∀ ok, s.obj k = some ok → ok.managed = true ∧ ok.data = o.data) :
    Inv ⟨live', s.objs ++ [some o]⟩ (rs ++ [⟨true, kd⟩]) D' := by
  have hlen := I.lengths
  have split : ∀ i x, (⟨live', s.objs ++ [some o]⟩ : State).obj i = some x → (i < s.objs.length ∧ s.obj i = some x) ∨ (i = s.objs.length ∧ x = o) := by
    intro i x hx
    have h := obj_some hx
    have hlt := (List.getElem?_eq_some_iff.mp h).1
    simp only [List.length_append, List.length_cons, List.length_nil] at hlt
    by_cases hi : i < s.objs.length
    · left
      rw [obj_append_lt (live := s.live) hi] at hx
      exact ⟨hi, hx⟩
    · right
      have : i = s.objs.length := by omega
      subst this
      rw [obj_append_len, Option.some.injEq] at hx
      exact ⟨rfl, hx.symm⟩
  refine ⟨fits_append I.fits ⟨rfl, hm, hb⟩, ?_, hn, ?_, ?_⟩
  · have : owned (s.objs ++ [some o]) = owned s.objs ++ (ownedBlock (some o)).toList := by
      simp only [owned, List.filterMap_append]
      cases hx : ownedBlock (some o) <;> simp [hx]
    rw [this]
    exact hl
  · intro i x hx r hr hk
    rcases split i x hx with ⟨hi, hx⟩ | ⟨rfl, rfl⟩
    · rw [List.getElem?_append_left (by omega)] at hr
      rcases I.lasting i x hx r hr hk with h | ⟨a, ha, h⟩
      · exact .inl h
      · exact .inr ⟨a, hD a ha, h⟩
    · rw [hlen, List.getElem?_append_right (le_refl _)] at hr
      simp only [Nat.sub_self, List.getElem?_cons_zero, Option.some.injEq] at hr
      subst hr
      exact h1 hk
  · intro i x hx r k hr hk
    have main : k < rs.length ∧ ∀ ok, s.obj k = some ok → ok.managed = true ∧ ok.data = x.data := by
      rcases split i x hx with ⟨hi, hx⟩ | ⟨rfl, rfl⟩
      · rw [List.getElem?_append_left (by omega)] at hr
        exact I.base i x hx r k hr hk
      · rw [hlen, List.getElem?_append_right (le_refl _)] at hr
        simp only [Nat.sub_self, List.getElem?_cons_zero, Option.some.injEq] at hr
        subst hr
        exact h2 k hk
    refine ⟨by simp only [List.length_append, List.length_cons, List.length_nil]; omega, fun ok hok => ?_⟩
    rw [obj_append_lt (live := s.live) (by omega)] at hok
    exact main.2 ok hok

theorem Inv.step (A : Allocator) {s : State} {rs rs' : List Ref} {D : List Nat} (I : Inv s rs D) (op : Op) (hd : ∀ i, op ≠ .duplicate i)
    (h : carefulStep rs op = some rs') :
    ∃ s' D', s.step A op = .ok s' ∧ Inv s' rs' D' ∧ D'.length = D.length + (if op = .deserialize then 1 else 0) := by
  have hlen := I.lengths
  cases op with
  | duplicate i => exact absurd rfl (hd i)
  | view =>
    simp only [carefulStep, Option.some.injEq] at h
    subst h
    exact ⟨_, D, rfl, I.add s.live D ⟨false, .caller⟩ .lasting (by simp) (by simp) (by simpa [ownedBlock] using I.live) I.nodup (fun _ h => h)
      (fun _ => .inl rfl) (by simp), by simp⟩
  | deserialize =>
    simp only [carefulStep, Option.some.injEq] at h
    subst h
    refine ⟨_, A.pick s.live :: D, rfl, I.add (A.pick s.live :: s.live) (A.pick s.live :: D) ⟨false, .block (A.pick s.live)⟩ .lasting (by simp)
      (by simp) ?_ ?_ (fun a h => by simp [h]) (fun _ => .inr ⟨_, by simp, rfl⟩) (by simp), by simp⟩
    · simp only [ownedBlock, Option.toList_none, List.append_nil]
      exact (I.live.cons _).trans List.perm_middle.symm
    · exact List.nodup_cons.mpr ⟨A.fresh _, I.nodup⟩
  | copy i =>
    simp only [carefulStep] at h
    split at h
    case isFalse => cases h
    case isTrue hu =>
      simp only [Option.some.injEq] at h
      subst h
      obtain ⟨-, o, e, v⟩ := I.valid hu
      refine ⟨⟨A.pick s.live :: s.live, s.objs ++ [some ⟨true, .block (A.pick s.live)⟩]⟩, D, by simp [State.step, State.copy, e, v],
        I.add _ D ⟨true, .block (A.pick s.live)⟩ .owner (by simp) (by simp) ?_ ?_ (fun _ h => h) (by simp) (by simp), by simp⟩
      · simp only [ownedBlock, Option.toList_some]
        refine (I.live.cons _).trans ?_
        rw [List.append_assoc]
        exact List.perm_middle.symm
      · exact List.nodup_cons.mpr ⟨A.fresh _, I.nodup⟩
  | slice i =>
    simp only [carefulStep] at h
    split at h
    case isFalse => cases h
    case isTrue ha =>
      simp only [Option.some.injEq] at h
      subst h
      obtain ⟨o, r, e, hr, hal, f⟩ := I.alive ha
      have hne : derived rs i ≠ .owner := by unfold derived; split <;> simp
      refine ⟨⟨s.live, s.objs ++ [some ⟨false, o.data⟩]⟩, D, by simp [State.step, State.slice, e],
        I.add _ D ⟨false, o.data⟩ (derived rs i) (by simp [hne]) (by simp) (by simpa [ownedBlock] using I.live) I.nodup (fun _ h => h) ?_ ?_, by simp⟩
      · intro hk
        refine I.lasting i o e r hr ?_
        unfold derived at hk
        rw [hr] at hk
        obtain ⟨al, kd⟩ := r
        cases kd <;> simp_all
      · intro k hk
        unfold derived at hk
        rw [hr] at hk
        obtain ⟨al, kd⟩ := r
        cases kd with
        | lasting => simp at hk
        | owner =>
          simp only [Kind.of.injEq] at hk
          subst hk
          refine ⟨(List.getElem?_eq_some_iff.mp hr).1, fun ok hok => ?_⟩
          rw [e, Option.some.injEq] at hok
          subst hok
          exact ⟨f.2.1.mpr rfl, rfl⟩
        | of k' =>
          simp only [Kind.of.injEq] at hk
          subst hk
          exact I.base i o e _ _ hr rfl
  | read i =>
    simp only [carefulStep] at h
    split at h
    case isFalse => cases h
    case isTrue hu =>
      simp only [Option.some.injEq] at h
      subst h
      obtain ⟨-, o, e, v⟩ := I.valid hu
      exact ⟨s, D, by simp [State.step, State.read, e, v], I, by simp⟩
  | destroy i =>
    simp only [carefulStep] at h
    split at h
    case isFalse => cases h
    case isTrue ha =>
      simp only [Option.some.injEq] at h
      subst h
      obtain ⟨o, r, e, hr, hal, f⟩ := I.alive ha
      have e' := obj_some e
      have hi := (List.getElem?_eq_some_iff.mp e').1
      -- what is left of the invariant apart from the blocks
      have rest : ∀ live', live'.Perm (owned (s.objs.set i none) ++ D) → live'.Nodup →
          Inv ⟨live', s.objs.set i none⟩ (rs.modify i fun r => { r with alive := false }) D := by
        intro live' hp hn
        have hobj : ∀ j x, (⟨live', s.objs.set i none⟩ : State).obj j = some x → j ≠ i ∧ s.obj j = some x := by
          intro j x hx
          by_cases hj : j = i
          · subst hj
            simp [State.obj, hi] at hx
          · refine ⟨hj, ?_⟩
            simpa [State.obj, List.getElem?_set_ne (Ne.symm hj)] using hx
        have href : ∀ j, j ≠ i → ∀ q, (rs.modify i fun r => { r with alive := false })[j]? = some q → rs[j]? = some q := by
          intro j hj q hq
          simpa [List.getElem?_modify, Ne.symm hj] using hq
        refine ⟨fits_kill I.fits i, hp, hn, ?_, ?_⟩
        · intro j x hx q hq hk
          obtain ⟨hj, hx⟩ := hobj j x hx
          exact I.lasting j x hx q (href j hj q hq) hk
        · intro j x hx q k hq hk
          obtain ⟨hj, hx⟩ := hobj j x hx
          obtain ⟨b1, b2⟩ := I.base j x hx q k (href j hj q hq) hk
          refine ⟨by simpa using b1, fun ok hok => b2 ok (hobj k ok hok).2⟩
      have hown := owned_kill e'
      cases hm : o.managed with
      | false =>
        have hb : ownedBlock (some o) = none := by obtain ⟨m, d⟩ := o; simp only at hm; subst hm; rfl
        rw [hb] at hown
        refine ⟨⟨s.live, s.objs.set i none⟩, D, by simp [State.step, State.destroy, e, hm], rest _ (I.live.trans (hown.append_right D)) I.nodup, by simp⟩
      | true =>
        obtain ⟨a, hx⟩ := f.2.2 hm
        have hb : ownedBlock (some o) = some a := by obtain ⟨m, d⟩ := o; simp only at hm hx; subst hm hx; rfl
        rw [hb] at hown
        have hl := I.live.trans (hown.append_right D)
        have hmem : a ∈ s.live := hl.mem_iff.mpr (by simp)
        refine ⟨⟨s.live.erase a, s.objs.set i none⟩, D, by simp [State.step, State.destroy, e, hm, hx, hmem],
          rest _ ?_ (I.nodup.erase a), by simp⟩
        have := hl.erase a
        simpa using this

/-- **C124** (without generated copies): in every history of a careful program nothing is undefined (in particular no block is freed twice or
read after it was freed), and the blocks in use afterwards are those of the living copies and, for each `deserialize`, one more. -/
theorem C124_history_partial (A : Allocator) (ops : List Op) (hd : ∀ i, Op.duplicate i ∉ ops) (rs : List Ref) (h : careful [] ops = some rs) :
    ∃ s, State.init.run A ops = .ok s ∧ s.live.length = owners rs + ops.count .deserialize := by
  have key : ∀ ops (s : State) rs0 D, (∀ i, Op.duplicate i ∉ ops) → Inv s rs0 D → careful rs0 ops = some rs →
      ∃ s' D', s.run A ops = .ok s' ∧ Inv s' rs D' ∧ D'.length = D.length + ops.count .deserialize := by
    intro ops
    induction ops with
    | nil =>
      intro s rs0 D _ I h
      simp only [careful, Option.some.injEq] at h
      subst h
      exact ⟨s, D, rfl, I, by simp⟩
    | cons op ops ih =>
      intro s rs0 D hd I h
      simp only [careful, Option.bind_eq_some_iff] at h
      obtain ⟨r1, h1, h2⟩ := h
      obtain ⟨s1, D1, e1, I1, l1⟩ := I.step A op (fun i e => hd i (by simp [e])) h1
      obtain ⟨s2, D2, e2, I2, l2⟩ := ih s1 r1 D1 (fun i hi => hd i (by simp [hi])) I1 h2
      refine ⟨s2, D2, by simp only [State.run, e1]; exact e2, I2, ?_⟩
      rw [l2, l1, List.count_cons]
      by_cases hc : op = .deserialize <;> simp [hc]
      omega
  obtain ⟨s, D, e, I, l⟩ := key ops State.init [] [] hd ⟨.nil, .refl _, by simp [State.init], by simp [State.obj, State.init], by simp [State.obj, State.init]⟩ h
  refine ⟨s, e, ?_⟩
  rw [I.live.length_eq, List.length_append, owned_length I.fits, l]
  simp

/-- **C124**: misuse is never reported. No call throws, and every call on a view that does not exist or has been destroyed is undefined. -/
theorem C124_misuse_partial (A : Allocator) (s : State) (ops : List Op) (i : Nat) : s.run A ops ≠ .throws ∧
    (s.obj i = none → ∀ op ∈ [Op.copy i, .duplicate i, .slice i, .read i, .destroy i], s.run A (op :: ops) = .ub) := by
  constructor
  · induction ops generalizing s with
    | nil => simp [State.run]
    | cons op ops ih =>
      have hs : s.step A op ≠ .throws := by
        cases op <;> simp only [State.step, State.copy, State.duplicate, State.slice, State.read, State.destroy] <;> (repeat' split) <;> simp
      unfold State.run
      rcases h : s.step A op with s' | _ | _
      · exact ih s'
      · exact absurd h hs
      · simp [bind, Res.bind]
  · intro h op hop
    simp only [List.mem_cons, List.not_mem_nil, or_false] at hop
    rcases hop with rfl | rfl | rfl | rfl | rfl <;>
      simp [State.run, State.step, State.copy, State.duplicate, State.slice, State.read, State.destroy, h, bind, Res.bind]

/-- A view that was destroyed. -/
example (A : Allocator) : State.init.run A [.view, .destroy 0] = .ok ⟨[], [none]⟩ ∧ (⟨[], [none]⟩ : State).obj 0 = none := by
  simp [State.run, State.step, State.init, State.view, State.destroy, State.obj, bind, Res.bind]

/-- **C124** is false for `deserialize`: its memory is never freed. Also after all views are destroyed, one block is left for each call. -/
theorem C124_deserialize_counterexample (A : Allocator) (ops : List Op) (hd : ∀ i, Op.duplicate i ∉ ops) (rs : List Ref)
    (h : careful [] ops = some rs) (hall : ∀ r ∈ rs, r.alive = false) :
    ∃ s, State.init.run A ops = .ok s ∧ s.live.length = ops.count .deserialize := by
  obtain ⟨s, e, l⟩ := C124_history_partial A ops hd rs h
  refine ⟨s, e, ?_⟩
  have : owners rs = 0 := by
    unfold owners
    rw [List.countP_eq_zero]
    intro r hr
    simp [hall r hr]
  omega

/-- **C124** is false for the generated copy constructor: duplicating the result of `copy()` and destroying both frees the block twice. -/
theorem C124_duplicate_counterexample (A : Allocator) :
    careful [] [.view, .copy 0, .duplicate 1, .destroy 2, .read 1] ≠ none ∧
    State.init.run A [.view, .copy 0, .duplicate 1, .destroy 2, .read 1] = .ub ∧
    State.init.run A [.view, .copy 0, .duplicate 1, .destroy 2, .destroy 1] = .ub := by
  refine ⟨by decide, ?_, ?_⟩ <;>
  simp [State.run, State.step, State.init, State.view, State.copy, State.duplicate, State.destroy, State.read, State.obj, State.valid, bind, Res.bind]

/-- A history of a careful program: a view, a copy of it, a slice of the copy, a deserialized view; the copy is destroyed last. -/
example : careful [] [.view, .copy 0, .slice 1, .read 2, .deserialize, .copy 3, .destroy 2, .destroy 1, .read 3, .destroy 3] =
    some [⟨true, .lasting⟩, ⟨false, .owner⟩, ⟨false, .of 1⟩, ⟨false, .lasting⟩, ⟨true, .owner⟩] := by decide

/-- Reading a slice after its owner is destroyed is not careful. -/
example : careful [] [.view, .copy 0, .slice 1, .destroy 1, .read 2] = none := by decide

/-- An allocator. -/
example : Allocator where
  pick used := used.foldr max 0 + 1
  fresh used := by
    have : ∀ (l : List Nat) b, b ∈ l → b ≤ l.foldr max 0 := by
      intro l
      induction l with
      | nil => simp
      | cons x l ih =>
        intro b hb
        rcases List.mem_cons.mp hb with rfl | hb
        · simp
        · exact Nat.le_trans (ih b hb) (by simp)
    intro hm
    have := this used _ hm
    omega

end Cmm.MVHeap
