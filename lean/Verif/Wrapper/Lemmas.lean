import Verif.Wrapper.Model

/-!
# Calls of compiled functions from Python: reference counts
-/

namespace Verif.Wrapper.Lemmas
open Spec Model

/-- References that nobody is known to hold. -/
def net (h : Heap) (i : Id) : Int := h.rc i - h.uses i

/-- The references `l` come in addition. -/
def Step (h h' : Heap) (l : List Id) : Prop := ∀ i, net h' i = net h i + l.count i

/-- No reference is missing. -/
def NN (h : Heap) : Prop := ∀ i, 0 ≤ net h i

theorem Step.refl (h : Heap) : Step h h [] := fun i => by simp

theorem Step.trans {h h' h'' : Heap} {l l' : List Id} (a : Step h h' l) (b : Step h' h'' l') :
    Step h h'' (l ++ l') := fun i => by
  rw [b i, a i, List.count_append]; omega

theorem Step.nn {h h' : Heap} {l : List Id} (a : Step h h' l) (n : NN h) : NN h' := fun i => by
  rw [a i]; have := n i; omega

theorem Step.perm {h h' : Heap} {l l' : List Id} (a : Step h h' l) (e : ∀ i, l.count i = l'.count i) :
    Step h h' l' := fun i => by rw [a i, e i]

theorem rc_out {h : Heap} {i : Id} (hi : h.length ≤ i) : h.rc i = 0 := by
  unfold Heap.rc; rw [List.getElem?_eq_none hi]; rfl

theorem lt_of_rc {h : Heap} {i : Id} (hi : 0 < h.rc i) : i < h.length := by
  apply Nat.lt_of_not_le; intro hh; rw [rc_out hh] at hi; omega

theorem lt_of_net {h : Heap} {i : Id} (hi : 0 < net h i) : i < h.length := by
  apply lt_of_rc; unfold net at hi; omega

theorem uses_pos {h : Heap} {i x : Id} {o : Obj} (e : h.obj i = some o) (hx : x ∈ o.refs) :
    0 < h.uses x := by
  unfold Heap.uses
  rw [List.count_pos_iff, List.mem_flatMap]
  unfold Heap.obj at e
  cases hc : h[i]? with
  | none => simp [hc] at e
  | some c =>
    rw [hc] at e
    simp only [Option.map_some, Option.some.injEq] at e
    exact ⟨c, List.mem_of_getElem? hc, by rw [e]; exact hx⟩

theorem lt_of_ref {h : Heap} (n : NN h) {i x : Id} {o : Obj} (e : h.obj i = some o) (hx : x ∈ o.refs) :
    x < h.length := by
  apply lt_of_rc
  have h1 := uses_pos e hx
  have h2 := n x
  unfold net at h2
  omega

theorem lt_of_obj {h : Heap} {i : Id} {o : Obj} (e : h.obj i = some o) : i < h.length := by
  apply Nat.lt_of_not_le; intro hh
  unfold Heap.obj at e; rw [List.getElem?_eq_none hh] at e; cases e

theorem obj_of_lt {h : Heap} {i : Id} (hi : i < h.length) : ∃ o, h.obj i = some o := by
  unfold Heap.obj; rw [List.getElem?_eq_getElem hi]; exact ⟨_, rfl⟩

/-! ## Primitive operations -/

@[simp] theorem length_incref (h : Heap) (i : Id) : (incref h i).length = h.length := by simp [incref]
@[simp] theorem length_decref (h : Heap) (i : Id) : (decref h i).length = h.length := by simp [decref]
@[simp] theorem length_setObj (h : Heap) (i : Id) (o : Obj) : (setObj h i o).length = h.length := by
  simp [setObj]
@[simp] theorem length_alloc (h : Heap) (o : Obj) : (alloc h o).1.length = h.length + 1 := by simp [alloc]

theorem obj_incref (h : Heap) (i j : Id) : (incref h i).obj j = h.obj j := by
  unfold Heap.obj incref
  rw [List.getElem?_modify]
  split
  · cases h[j]? <;> rfl
  · cases h[j]? <;> rfl

theorem obj_decref (h : Heap) (i j : Id) : (decref h i).obj j = h.obj j := by
  unfold Heap.obj decref
  rw [List.getElem?_modify]
  split
  · cases h[j]? <;> rfl
  · cases h[j]? <;> rfl

theorem obj_setObj (h : Heap) (i j : Id) (o : Obj) :
    (setObj h i o).obj j = if i = j ∧ j < h.length then some o else h.obj j := by
  unfold Heap.obj setObj
  rw [List.getElem?_modify]
  by_cases e : i = j
  · by_cases l : j < h.length
    · simp [e, l]
    · simp [e, l]
  · simp [e]

theorem obj_alloc (h : Heap) (o : Obj) (j : Id) :
    (alloc h o).1.obj j = if j = h.length then some o else h.obj j := by
  unfold Heap.obj alloc
  dsimp only
  split
  · subst j; simp
  · next e =>
    by_cases l : j < h.length
    · rw [List.getElem?_append_left l]
    · have e' : @Ne Nat j h.length := e
      have l' : @LE.le Nat _ h.length j := Nat.le_of_not_lt l
      rw [List.getElem?_eq_none (by simp; omega), List.getElem?_eq_none (by omega)]

theorem obj_alloc_lt {h : Heap} {o : Obj} {j : Id} (hj : j < h.length) : (alloc h o).1.obj j = h.obj j := by
  rw [obj_alloc, if_neg (Nat.ne_of_lt hj)]

theorem obj_alloc_new (h : Heap) (o : Obj) : (alloc h o).1.obj h.length = some o := by
  rw [obj_alloc, if_pos rfl]

theorem uses_incref (h : Heap) (i j : Id) : (incref h i).uses j = h.uses j := by
  have : (incref h i).flatMap (fun c => c.obj.refs) = h.flatMap (fun c => c.obj.refs) := by
    unfold incref
    induction h generalizing i with
    | nil => simp
    | cons c h ih =>
      cases i with
      | zero => simp
      | succ i => simp [ih]
  unfold Heap.uses; rw [this]

theorem uses_decref (h : Heap) (i j : Id) : (decref h i).uses j = h.uses j := by
  have : (decref h i).flatMap (fun c => c.obj.refs) = h.flatMap (fun c => c.obj.refs) := by
    unfold decref
    induction h generalizing i with
    | nil => simp
    | cons c h ih =>
      cases i with
      | zero => simp
      | succ i => simp [ih]
  unfold Heap.uses; rw [this]

theorem net_incref {h : Heap} {i : Id} (hi : i < h.length) (j : Id) :
    net (incref h i) j = net h j + [i].count j := by
  unfold net
  rw [uses_incref]
  unfold Heap.rc incref
  rw [List.getElem?_modify]
  by_cases e : i = j
  · subst e; simp [List.getElem?_eq_getElem hi]; omega
  · simp [e]

theorem net_decref {h : Heap} {i : Id} (hi : i < h.length) (j : Id) :
    net (decref h i) j = net h j - [i].count j := by
  unfold net
  rw [uses_decref]
  unfold Heap.rc decref
  rw [List.getElem?_modify]
  by_cases e : i = j
  · subst e; simp [List.getElem?_eq_getElem hi]; omega
  · simp [e]

theorem net_alloc (h : Heap) (o : Obj) (j : Id) :
    net (alloc h o).1 j = net h j + [h.length].count j - o.refs.count j := by
  unfold net alloc Heap.uses
  simp only [List.flatMap_append, List.count_append, List.flatMap_singleton]
  by_cases e : h.length = j
  · subst e
    rw [rc_out (Nat.le_refl _)]
    simp [Heap.rc]; omega
  · have : Heap.rc (h ++ [⟨o, 1⟩]) j = h.rc j := by
      unfold Heap.rc
      by_cases l : j < h.length
      · rw [List.getElem?_append_left l]
      · have e' : @Ne Nat h.length j := e
        have l' : @LE.le Nat _ h.length j := Nat.le_of_not_lt l
        rw [List.getElem?_eq_none (by simp; omega), List.getElem?_eq_none (by omega)]
    rw [this]
    simp [e]; omega

theorem uses_setObj {h : Heap} {i : Id} {o o' : Obj} (e : h.obj i = some o) (j : Id) :
    (setObj h i o').uses j + o.refs.count j = h.uses j + o'.refs.count j := by
  unfold Heap.uses setObj
  induction h generalizing i with
  | nil => simp [Heap.obj] at e
  | cons c h ih =>
    cases i with
    | zero =>
      simp only [Heap.obj, List.getElem?_cons_zero, Option.map_some, Option.some.injEq] at e
      simp [List.count_append, e]; omega
    | succ i =>
      have := ih (i := i) (by simpa [Heap.obj] using e)
      simp only [List.modify_succ_cons, List.flatMap_cons, List.count_append]
      omega

theorem rc_setObj (h : Heap) (i : Id) (o : Obj) (j : Id) : (setObj h i o).rc j = h.rc j := by
  unfold Heap.rc setObj
  rw [List.getElem?_modify]
  by_cases e : i = j
  · simp [e]; cases h[j]? <;> rfl
  · simp [e]

theorem net_setObj {h : Heap} {i : Id} {o : Obj} (o' : Obj) (e : h.obj i = some o) (j : Id) :
    net (setObj h i o') j = net h j + o.refs.count j - o'.refs.count j := by
  unfold net
  have := uses_setObj (o' := o') e j
  rw [rc_setObj]
  omega

theorem length_foldl_incref (xs : List Id) (h : Heap) : (xs.foldl incref h).length = h.length := by
  induction xs generalizing h with
  | nil => rfl
  | cons x xs ih => rw [List.foldl_cons, ih, length_incref]

theorem length_foldl_decref (xs : List Id) (h : Heap) : (xs.foldl decref h).length = h.length := by
  induction xs generalizing h with
  | nil => rfl
  | cons x xs ih => rw [List.foldl_cons, ih, length_decref]

theorem obj_foldl_incref (xs : List Id) (h : Heap) (j : Id) : (xs.foldl incref h).obj j = h.obj j := by
  induction xs generalizing h with
  | nil => rfl
  | cons x xs ih => rw [List.foldl_cons, ih, obj_incref]

theorem obj_foldl_decref (xs : List Id) (h : Heap) (j : Id) : (xs.foldl decref h).obj j = h.obj j := by
  induction xs generalizing h with
  | nil => rfl
  | cons x xs ih => rw [List.foldl_cons, ih, obj_decref]

theorem net_foldl_incref {xs : List Id} {h : Heap} (hx : ∀ x ∈ xs, x < h.length) (j : Id) :
    net (xs.foldl incref h) j = net h j + xs.count j := by
  induction xs generalizing h with
  | nil => simp
  | cons x xs ih =>
    rw [List.foldl_cons, ih (fun y hy => by rw [length_incref]; exact hx y (List.mem_cons_of_mem _ hy)),
      net_incref (hx x List.mem_cons_self)]
    simp only [List.count_cons, List.count_nil]; omega

theorem net_foldl_decref {xs : List Id} {h : Heap} (hx : ∀ x ∈ xs, x < h.length) (j : Id) :
    net (xs.foldl decref h) j = net h j - xs.count j := by
  induction xs generalizing h with
  | nil => simp
  | cons x xs ih =>
    rw [List.foldl_cons, ih (fun y hy => by rw [length_decref]; exact hx y (List.mem_cons_of_mem _ hy)),
      net_decref (hx x List.mem_cons_self)]
    simp only [List.count_cons, List.count_nil]; omega

/-! ## Steps -/

theorem alloc_fst (h : Heap) (o : Obj) : (alloc h o).2 = h.length := rfl

theorem items_refs {h : Heap} {i : Id} {xs : List Id} (e : items h i = some xs) :
    ∃ o, h.obj i = some o ∧ o.refs = xs := by
  unfold items at e
  split at e
  all_goals first | (cases e; exact ⟨_, by assumption, rfl⟩) | cases e

theorem step_alloc (h : Heap) (o : Obj) (ho : o.refs = []) : Step h (alloc h o).1 [h.length] := fun i => by
  rw [net_alloc, ho]; simp

theorem step_getIter {h : Heap} {i : Id} (hi : i < h.length) :
    Step h (getIter h i).1 [(getIter h i).2] := fun j => by
  unfold getIter
  rw [net_alloc, net_incref hi, alloc_fst]
  simp [Obj.refs]; omega

theorem step_next {h : Heap} {it : Id} {h' : Heap} {x : Id} (n : NN h) (e : next h it = some (h', x)) :
    Step h h' [x] := by
  unfold next at e
  split at e
  case h_2 => cases e
  case h_1 c k hc =>
  simp only [Option.bind_eq_bind, Option.pure_def] at e
  cases hi : items h c with
  | none => simp [hi] at e
  | some xs =>
    cases hk : xs[k]? with
    | none => simp [hi, hk] at e
    | some y =>
      simp only [hi, hk, Option.bind_some, Option.some.injEq, Prod.mk.injEq] at e
      obtain ⟨e1, e2⟩ := e
      subst e2 e1
      obtain ⟨o, ho, hr⟩ := items_refs hi
      have hy : y < h.length := lt_of_ref n ho (by rw [hr]; exact List.mem_of_getElem? hk)
      intro j
      rw [net_incref (by rw [length_setObj]; exact hy), net_setObj _ hc]
      simp [Obj.refs]

theorem step_toObj {h : Heap} {t : Ty} {c : CAtom} {h' : Heap} {x : Id} (e : toObj h t c = some (h', x)) :
    Step h h' [x] := by
  unfold toObj at e
  cases hu : uncast t c with
  | none => simp [hu] at e
  | some a =>
    simp only [hu, Option.map_some, Option.some.injEq] at e
    have := step_alloc h (.atom a) rfl
    rw [e] at this
    have e2 : x = h.length := by rw [← alloc_fst h (.atom a), e]
    rw [e2]; exact this

theorem net_setItem {h : Heap} {i x : Id} {h' : Heap} (e : setItem h i x = some h') (j : Id) :
    net h' j = net h j - [x].count j := by
  unfold setItem at e
  split at e
  case h_3 => cases e
  all_goals
    next xs hc =>
    simp only [Option.some.injEq] at e
    rw [← e, net_setObj _ hc]
    simp only [Obj.refs, List.count_append]; omega

theorem step_listAppend {h : Heap} {i x : Id} {h' : Heap} (hx : x < h.length)
    (e : listAppend h i x = some h') : Step h h' [] := by
  unfold listAppend at e
  split at e
  case h_2 => cases e
  case h_1 xs hc =>
  simp only [Option.some.injEq] at e
  intro j
  rw [← e, net_setObj _ (by rw [obj_incref]; exact hc), net_incref hx]
  simp only [Obj.refs, List.count_append, List.count_nil]; omega

theorem step_setAdd {h : Heap} {i x : Id} {h' : Heap} (hx : x < h.length)
    (e : setAdd h i x = some h') : Step h h' [] := by
  unfold setAdd at e
  split at e
  case h_2 => cases e
  case h_1 xs hc =>
  split at e
  · cases e; exact Step.refl _
  · simp only [Option.some.injEq] at e
    intro j
    rw [← e, net_setObj _ (by rw [obj_incref]; exact hc), net_incref hx]
    simp only [Obj.refs, List.count_append, List.count_nil]; omega

theorem step_dictSet {h : Heap} {i k v : Id} {h' : Heap} (hk : k < h.length) (hv : v < h.length)
    (e : dictSet h i k v = some h') : Step h h' [] := by
  unfold dictSet at e
  split at e
  case h_2 => cases e
  case h_1 xs hc =>
  split at e
  · cases e
  · simp only [Option.some.injEq] at e
    intro j
    rw [← e, net_setObj _ (by rw [obj_incref, obj_incref]; exact hc),
      net_incref (by rw [length_incref]; exact hv), net_incref hk]
    simp only [Obj.refs, List.count_append, List.count_nil, List.flatMap_append, List.flatMap_cons,
      List.flatMap_nil, List.count_cons, List.append_nil]; omega

theorem step_clear {h : Heap} {i : Id} {h' : Heap} (n : NN h) (e : clear h i = some h') : Step h h' [] := by
  unfold clear at e
  split at e
  case h_3 => cases e
  all_goals
    next xs hc =>
    simp only [Option.some.injEq] at e
    intro j
    rw [← e, net_setObj _ (by rw [obj_foldl_decref]; exact hc),
      net_foldl_decref (xs := xs) (fun x hx => lt_of_ref n hc hx)]
    simp only [Obj.refs, List.count_nil]; omega

theorem Step.lt_of_mem {h h' : Heap} {l : List Id} (a : Step h h' l) (n : NN h) {x : Id} (hx : x ∈ l) :
    x < h'.length := by
  apply lt_of_net
  rw [a x]
  have := n x
  have := List.count_pos_iff.2 hx
  omega

/-! ## Arguments -/

theorem step_checkLoop {t : Ty} {it : Id} {k : Nat} {h : Heap} {b : Bool} {h' : Heap} {b' : Bool} (n : NN h)
    (e : checkLoop t h it k b = some (h', b')) : ∃ l, l.length = k ∧ Step h h' l := by
  induction k generalizing h b with
  | zero => cases e; exact ⟨[], rfl, Step.refl _⟩
  | succ k ih =>
    simp only [checkLoop, Option.bind_eq_bind] at e
    cases hn : next h it with
    | none => simp [hn] at e
    | some p =>
      obtain ⟨h1, x⟩ := p
      have s := step_next n hn
      cases ho : h1.obj x with
      | none => simp [hn, ho] at e
      | some o =>
        simp only [hn, ho, Option.bind_some] at e
        obtain ⟨l, hl, s'⟩ := ih (s.nn n) e
        exact ⟨x :: l, by simp [hl], s.trans s'⟩

theorem step_castLoop {L : Lang} {t : Ty} {it : Id} {k : Nat} {h : Heap} {h' : Heap} {cs : List CAtom}
    {b' : Bool} (n : NN h) (e : castLoop L t h it k = some (h', cs, b')) :
    ∃ l, l.length = k ∧ Step h h' l := by
  induction k generalizing h h' cs b' with
  | zero => cases e; exact ⟨[], rfl, Step.refl _⟩
  | succ k ih =>
    simp only [castLoop, Option.bind_eq_bind, Option.pure_def] at e
    cases hn : next h it with
    | none => simp [hn] at e
    | some p =>
      obtain ⟨h1, x⟩ := p
      have s := step_next n hn
      simp only [hn, Option.bind_some] at e
      cases ho : h1.obj x with
      | none => simp [ho] at e
      | some o =>
        simp only [ho, Option.bind_some] at e
        cases o with
        | atom a =>
          simp only at e
          cases hc : cast L t a with
          | none => simp [hc] at e
          | some c =>
            simp only [hc, Option.bind_some] at e
            cases hr : castLoop L t h1 it k with
            | none => simp [hr] at e
            | some r =>
              obtain ⟨h2, cs2, b2⟩ := r
              simp only [hr, Option.bind_some, Option.some.injEq, Prod.mk.injEq] at e
              obtain ⟨l, hl, s'⟩ := ih (s.nn n) hr
              rw [← e.1]
              exact ⟨x :: l, by simp [hl], s.trans s'⟩
        | _ => simp at e

/-- The references lost in the check of an argument. -/
def checkLeak (h : Heap) (k : Arg) (i : Id) : Nat :=
  match k, h.obj i with
  | .tuple _, some (.tuple xs) => xs.length + 1
  | .list _ _, some (.list xs) => xs.length + 1
  | .set _ _, some (.set xs) => xs.length + 1
  | _, _ => 0

/-- The references lost in the conversion of an argument. -/
def castLeak (h : Heap) (k : Arg) (i : Id) : Nat :=
  match k, items h i with
  | .list _ _, some xs => xs.length + 1
  | .set _ _, some xs => xs.length + 1
  | _, _ => 0

theorem step_checkArg {h : Heap} {k : Arg} {i : Id} {h' : Heap} {b : Bool} (n : NN h)
    (e : checkArg h k i = some (h', b)) : ∃ l, l.length = checkLeak h k i ∧ Step h h' l := by
  unfold checkArg at e
  simp only [Option.bind_eq_bind, Option.pure_def] at e
  cases ho : h.obj i with
  | none => simp [ho] at e
  | some o =>
    simp only [ho, Option.bind_some] at e
    have key : ∀ xs, o.refs = xs → ∀ t, checkLoop t (getIter h i).1 (getIter h i).2 xs.length true
        = some (h', b) → ∃ l, l.length = xs.length + 1 ∧ Step h h' l := fun xs _ t e => by
      have s := step_getIter (lt_of_obj ho)
      obtain ⟨l, hl, s'⟩ := step_checkLoop (s.nn n) e
      exact ⟨_ :: l, by simp [hl], s.trans s'⟩
    cases k <;> cases o <;> simp [isKind] at e <;> simp only [checkLeak, ho]
    all_goals first
      | (obtain ⟨e1, _⟩ := e; subst e1; exact ⟨[], rfl, Step.refl _⟩)
      | (obtain ⟨e1, _⟩ := e; subst h; exact ⟨[], rfl, Step.refl _⟩)
      | (simp only [items, ho, Option.bind_some, elem] at e; exact key _ rfl _ e)

theorem step_castArg {L : Lang} {h : Heap} {k : Arg} {i : Id} {h' : Heap} {c : CVal} {b : Bool} (n : NN h)
    (e : castArg L h k i = some (h', c, b)) : ∃ l, l.length = castLeak h k i ∧ Step h h' l := by
  unfold castArg at e
  simp only [Option.bind_eq_bind, Option.pure_def] at e
  split at e
  · cases ho : h.obj i with
    | none => simp [ho] at e
    | some o =>
      simp only [ho, Option.bind_some] at e
      cases o with
      | atom a =>
        simp only at e
        rename_i t
        cases hc : cast L t a with
        | none => simp [hc] at e
        | some c =>
          simp [hc] at e
          rw [← e.1]
          exact ⟨[], rfl, Step.refl _⟩
      | _ => simp at e
  · rename_i t
    cases hx : items h i with
    | none => simp [hx] at e
    | some xs =>
      simp only [hx, Option.bind_some] at e
      cases hc : castTuple L t h xs with
      | none => simp [hc] at e
      | some c =>
        simp [hc] at e
        rw [← e.1]
        exact ⟨[], rfl, Step.refl _⟩
  · rename_i hk1 hk2
    cases hx : items h i with
    | none => simp [hx] at e
    | some xs =>
      simp only [hx, Option.bind_some] at e
      cases hc : castLoop L (elem k) (getIter h i).1 (getIter h i).2 xs.length with
      | none => simp [hc] at e
      | some c =>
        obtain ⟨h1, cs, b1⟩ := c
        simp [hc] at e
        rw [← e.1]
        obtain ⟨o, ho, _⟩ := items_refs hx
        have s := step_getIter (lt_of_obj ho)
        obtain ⟨l, hl, s'⟩ := step_castLoop (s.nn n) hc
        refine ⟨_ :: l, ?_, s.trans s'⟩
        cases k with
        | atom t => exact absurd rfl (hk1 t)
        | tuple t => exact absurd rfl (hk2 t)
        | list t f => simp [castLeak, hx, hl]
        | set t f => simp [castLeak, hx, hl]

end Verif.Wrapper.Lemmas
