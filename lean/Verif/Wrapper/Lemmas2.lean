import Verif.Wrapper.Lemmas

/-!
# Calls of compiled functions from Python: conversion of the arguments
-/

namespace Verif.Wrapper.Lemmas
open Spec Model

/-- The objects below `n` are not changed. -/
def Keep (n : Nat) (h h' : Heap) : Prop := h.length ≤ h'.length ∧ ∀ i, i < n → h'.obj i = h.obj i

theorem Keep.refl (n : Nat) (h : Heap) : Keep n h h := ⟨Nat.le_refl _, fun _ _ => rfl⟩

theorem Keep.trans {n n' : Nat} {h h' h'' : Heap} (a : Keep n h h') (b : Keep n' h' h'') (l : n ≤ n') :
    Keep n h h'' := ⟨Nat.le_trans a.1 b.1, fun i hi => by
  rw [b.2 i (Nat.lt_of_lt_of_le hi l), a.2 i hi]⟩

/-- The state after some steps of an iterator. -/
def walk (it c : Id) : Nat → List Id → Heap → Heap
  | _, [], h => h
  | k, y :: ys, h => walk it c (k + 1) ys (incref (setObj h it (.iter c (k + 1))) y)

theorem walk_length (it c : Id) (ys : List Id) (k : Nat) (h : Heap) : (walk it c k ys h).length = h.length := by
  induction ys generalizing k h with
  | nil => rfl
  | cons y ys ih => rw [walk, ih, length_incref, length_setObj]

theorem walk_obj (it c : Id) (ys : List Id) (k : Nat) (h : Heap) {j : Id} (hj : j ≠ it) :
    (walk it c k ys h).obj j = h.obj j := by
  induction ys generalizing k h with
  | nil => rfl
  | cons y ys ih =>
    rw [walk, ih, obj_incref, obj_setObj, if_neg]
    rintro ⟨e, _⟩; exact hj e.symm

theorem items_congr {h h' : Heap} {i : Id} (e : h'.obj i = h.obj i) : items h' i = items h i := by
  unfold items; rw [e]

theorem next_eq {h : Heap} {it c : Id} {k : Nat} {xs : List Id} {y : Id} {ys : List Id}
    (hit : h.obj it = some (.iter c k)) (hc : items h c = some xs) (hd : xs.drop k = y :: ys) :
    next h it = some (incref (setObj h it (.iter c (k + 1))) y, y) := by
  have hk : xs[k]? = some y := by
    have := congrArg (·[0]?) hd
    simpa using this
  unfold next
  rw [hit]
  simp [hc, hk]

theorem drop_succ {α : Type} {xs : List α} {k : Nat} {y : α} {ys : List α} (hd : xs.drop k = y :: ys) :
    xs.drop (k + 1) = ys := by
  rw [← List.tail_drop, hd]; rfl

/-- The elements of a container pass the check. -/
def allAre (t : Ty) (h : Heap) (ys : List Id) : Bool :=
  ys.all fun y => match h.obj y with
    | some o => check t o
    | none => false

theorem allAre_congr {t : Ty} {h h' : Heap} {ys : List Id} (e : ∀ y ∈ ys, h'.obj y = h.obj y) :
    allAre t h' ys = allAre t h ys := by
  unfold allAre
  induction ys with
  | nil => rfl
  | cons y ys ih =>
    simp only [List.all_cons]
    rw [ih (fun z hz => e z (List.mem_cons_of_mem _ hz)), e y List.mem_cons_self]

theorem checkLoop_eq {t : Ty} {it c : Id} {xs ys : List Id} {k : Nat} {h : Heap} {b : Bool}
    (hit : h.obj it = some (.iter c k)) (hc : items h c = some xs) (hd : xs.drop k = ys) (hci : c ≠ it)
    (hy : ∀ y ∈ ys, y ≠ it ∧ y < h.length) :
    checkLoop t h it ys.length b = some (walk it c k ys h, b && allAre t h ys) := by
  induction ys generalizing k h b with
  | nil => simp [checkLoop, walk, allAre]
  | cons y ys ih =>
    simp only [List.length_cons, checkLoop, next_eq hit hc hd, Option.bind_eq_bind, Option.bind_some]
    obtain ⟨h1, h2⟩ := hy y List.mem_cons_self
    have hob : ∀ j, j ≠ it → (incref (setObj h it (.iter c (k + 1))) y).obj j = h.obj j := fun j hj => by
      rw [obj_incref, obj_setObj, if_neg]
      rintro ⟨e, _⟩; exact hj e.symm
    obtain ⟨o, ho⟩ := obj_of_lt h2
    rw [hob y h1, ho]
    simp only [Option.bind_some]
    rw [ih (k := k + 1)]
    · rw [walk]
      congr 2
      rw [allAre_congr (fun z hz => hob z (hy z (List.mem_cons_of_mem _ hz)).1)]
      simp [allAre, ho, Bool.and_assoc]
    · rw [obj_incref, obj_setObj, if_pos ⟨rfl, lt_of_obj hit⟩]
    · rw [items_congr (hob c hci), hc]
    · exact drop_succ hd
    · intro z hz
      rw [length_incref, length_setObj]
      exact hy z (List.mem_cons_of_mem _ hz)

theorem castTuple_congr {L : Lang} {t : Ty} {h h' : Heap} {ys : List Id} (e : ∀ y ∈ ys, h'.obj y = h.obj y) :
    castTuple L t h' ys = castTuple L t h ys := by
  induction ys with
  | nil => rfl
  | cons y ys ih =>
    simp only [castTuple]
    rw [ih (fun z hz => e z (List.mem_cons_of_mem _ hz)), e y List.mem_cons_self]

theorem castLoop_eq {L : Lang} {t : Ty} {it c : Id} {xs ys : List Id} {k : Nat} {h : Heap}
    (hit : h.obj it = some (.iter c k)) (hc : items h c = some xs) (hd : xs.drop k = ys) (hci : c ≠ it)
    (hy : ∀ y ∈ ys, y ≠ it) :
    castLoop L t h it ys.length = (castTuple L t h ys).map fun r => (walk it c k ys h, r.1, r.2) := by
  induction ys generalizing k h with
  | nil => simp [castLoop, walk, castTuple]
  | cons y ys ih =>
    simp only [List.length_cons, castLoop, next_eq hit hc hd, Option.bind_eq_bind, Option.bind_some]
    have h1 := hy y List.mem_cons_self
    have hob : ∀ j, j ≠ it → (incref (setObj h it (.iter c (k + 1))) y).obj j = h.obj j := fun j hj => by
      rw [obj_incref, obj_setObj, if_neg]
      rintro ⟨e, _⟩; exact hj e.symm
    rw [hob y h1]
    simp only [castTuple, Option.bind_eq_bind, Option.pure_def]
    rw [ih (k := k + 1)]
    · rw [castTuple_congr (fun z hz => hob z (hy z (List.mem_cons_of_mem _ hz))), walk]
      cases h.obj y with
      | none => rfl
      | some o =>
        cases o with
        | atom a =>
          simp only [Option.bind_some]
          cases cast L t a with
          | none => rfl
          | some r =>
            simp only [Option.bind_some]
            cases castTuple L t h ys with
            | none => rfl
            | some r' => rfl
        | _ => rfl
    · rw [obj_incref, obj_setObj, if_pos ⟨rfl, lt_of_obj hit⟩]
    · rw [items_congr (hob c hci), hc]
    · exact drop_succ hd
    · intro z hz
      exact hy z (List.mem_cons_of_mem _ hz)

/-! ## One argument -/

/-- The answer of the check. -/
def okArg (h : Heap) (k : Arg) (i : Id) : Bool :=
  match k, h.obj i with
  | .atom t, some o => check t o
  | .tuple t, some (.tuple xs) => allAre t h xs
  | .list t _, some (.list xs) => allAre t h xs
  | .set t _, some (.set xs) => allAre t h xs
  | _, _ => false

/-- The converted argument. -/
def castVal (L : Lang) (h : Heap) (k : Arg) (i : Id) : Option (CVal × Bool) :=
  match k, h.obj i with
  | .atom t, some (.atom a) => (cast L t a).map fun r => (.atom r.1, r.2)
  | .tuple t, some (.tuple xs) => (castTuple L t h xs).map fun r => (.seq r.1, r.2)
  | .list t _, some (.list xs) => (castTuple L t h xs).map fun r => (.seq r.1, r.2)
  | .set t _, some (.set xs) => (castTuple L t h xs).map fun r => (.seq r.1, r.2)
  | _, _ => none

theorem getIter_obj {h : Heap} {i j : Id} (hj : j < h.length) : (getIter h i).1.obj j = h.obj j := by
  unfold getIter
  rw [obj_alloc_lt (by rw [length_incref]; exact hj), obj_incref]

theorem getIter_snd (h : Heap) (i : Id) : (getIter h i).2 = h.length := by
  unfold getIter; rw [alloc_fst, length_incref]

theorem getIter_length (h : Heap) (i : Id) : (getIter h i).1.length = h.length + 1 := by
  unfold getIter; rw [length_alloc, length_incref]

theorem getIter_new (h : Heap) (i : Id) : (getIter h i).1.obj h.length = some (.iter i 0) := by
  unfold getIter
  have := obj_alloc_new (incref h i) (.iter i 0)
  rwa [length_incref] at this

theorem keep_walk (h : Heap) (i : Id) (xs : List Id) :
    Keep h.length h (walk h.length i 0 xs (getIter h i).1) := by
  refine ⟨by rw [walk_length, getIter_length]; omega, fun j hj => ?_⟩
  rw [walk_obj _ _ _ _ _ (Nat.ne_of_lt hj), getIter_obj hj]

theorem checkIter {t : Ty} {h : Heap} {i : Id} {xs : List Id} (n : NN h) (hx : items h i = some xs) :
    checkLoop t (getIter h i).1 (getIter h i).2 xs.length true =
      some (walk h.length i 0 xs (getIter h i).1, allAre t h xs) := by
  obtain ⟨o, ho, hr⟩ := items_refs hx
  have hl : ∀ y ∈ xs, y < h.length := fun y hy => lt_of_ref n ho (by rw [hr]; exact hy)
  rw [getIter_snd, checkLoop_eq (xs := xs) (ys := xs) (c := i) (k := 0) (getIter_new h i)
    (by rw [items_congr (getIter_obj (lt_of_obj ho)), hx]) rfl (Nat.ne_of_lt (lt_of_obj ho))]
  · rw [allAre_congr (fun y hy => getIter_obj (hl y hy))]; rfl
  · intro y hy
    refine ⟨Nat.ne_of_lt (hl y hy), ?_⟩
    rw [getIter_length]; exact Nat.lt_succ_of_lt (hl y hy)

theorem castIter {L : Lang} {t : Ty} {h : Heap} {i : Id} {xs : List Id} (n : NN h) (hx : items h i = some xs) :
    castLoop L t (getIter h i).1 (getIter h i).2 xs.length =
      (castTuple L t h xs).map fun r => (walk h.length i 0 xs (getIter h i).1, r.1, r.2) := by
  obtain ⟨o, ho, hr⟩ := items_refs hx
  have hl : ∀ y ∈ xs, y < h.length := fun y hy => lt_of_ref n ho (by rw [hr]; exact hy)
  rw [getIter_snd, castLoop_eq (xs := xs) (ys := xs) (c := i) (k := 0) (getIter_new h i)
    (by rw [items_congr (getIter_obj (lt_of_obj ho)), hx]) rfl (Nat.ne_of_lt (lt_of_obj ho))]
  · rw [castTuple_congr (fun y hy => getIter_obj (hl y hy))]
  · intro y hy
    exact Nat.ne_of_lt (hl y hy)

theorem checkArg_spec {h : Heap} {k : Arg} {i : Id} (n : NN h) (hi : i < h.length) :
    ∃ H l, checkArg h k i = some (H, okArg h k i) ∧ Keep h.length h H ∧ l.length = checkLeak h k i ∧
      Step h H l := by
  have key : ∃ H, checkArg h k i = some (H, okArg h k i) ∧ Keep h.length h H := by
    obtain ⟨o, ho⟩ := obj_of_lt hi
    unfold checkArg okArg
    simp only [ho, Option.bind_eq_bind, Option.bind_some, Option.pure_def]
    cases k <;> cases o <;> simp only [isKind, elem] <;>
      first
      | exact ⟨_, rfl, Keep.refl _ _⟩
      | (rename_i xs
         refine ⟨_, ?_, keep_walk h i xs⟩
         simp only [items, ho, Option.bind_some, if_true]
         exact checkIter n (by simp [items, ho]))
  obtain ⟨H, e, kp⟩ := key
  obtain ⟨l, hl, s⟩ := step_checkArg n e
  exact ⟨H, l, e, kp, hl, s⟩

theorem okArg_kind {h : Heap} {k : Arg} {i : Id} (ok : okArg h k i = true) :
    (∃ t o, k = .atom t ∧ h.obj i = some o ∧ check t o = true) ∨
    (∃ t xs, k = .tuple t ∧ h.obj i = some (.tuple xs)) ∨
    (∃ t f xs, k = .list t f ∧ h.obj i = some (.list xs)) ∨
    (∃ t f xs, k = .set t f ∧ h.obj i = some (.set xs)) := by
  unfold okArg at ok
  cases ho : h.obj i with
  | none => cases k <;> simp [ho] at ok
  | some o =>
    cases k <;> cases o <;> simp [ho] at ok <;> simp_all

theorem castArg_spec {L : Lang} {h : Heap} {k : Arg} {i : Id} (n : NN h) (ok : okArg h k i = true) :
    ∃ H, castArg L h k i = (castVal L h k i).map (fun r => (H, r.1, r.2)) ∧ Keep h.length h H ∧
      ((castVal L h k i).isSome → ∃ l, l.length = castLeak h k i ∧ Step h H l) := by
  have key : ∃ H, castArg L h k i = (castVal L h k i).map (fun r => (H, r.1, r.2)) ∧
      Keep h.length h H := by
    rcases okArg_kind ok with ⟨t, o, rfl, ho, hc⟩ | ⟨t, xs, rfl, ho⟩ | ⟨t, f, xs, rfl, ho⟩ |
      ⟨t, f, xs, rfl, ho⟩
    · refine ⟨h, ?_, Keep.refl _ _⟩
      unfold castArg castVal
      simp only [ho, Option.bind_eq_bind, Option.bind_some, Option.pure_def]
      cases o with
      | atom a => simp only; cases cast L t a <;> rfl
      | _ => rfl
    · refine ⟨h, ?_, Keep.refl _ _⟩
      unfold castArg castVal
      simp only [ho, items, Option.bind_eq_bind, Option.bind_some, Option.pure_def]
      cases castTuple L t h xs <;> rfl
    · refine ⟨_, ?_, keep_walk h i xs⟩
      unfold castArg castVal
      simp only [ho, items, Option.bind_eq_bind, Option.bind_some, Option.pure_def, elem]
      rw [castIter n (by simp [items, ho])]
      cases castTuple L t h xs <;> rfl
    · refine ⟨_, ?_, keep_walk h i xs⟩
      unfold castArg castVal
      simp only [ho, items, Option.bind_eq_bind, Option.bind_some, Option.pure_def, elem]
      rw [castIter n (by simp [items, ho])]
      cases castTuple L t h xs <;> rfl
  obtain ⟨H, e, kp⟩ := key
  refine ⟨H, e, kp, fun hs => ?_⟩
  cases hv : castVal L h k i with
  | none => simp [hv] at hs
  | some r =>
    rw [hv] at e
    exact step_castArg n e

/-! ## All arguments -/

/-- The converted arguments. -/
def castVals (L : Lang) (h : Heap) : List Arg → List Id → Option (Option (List CVal × Bool))
  | [], [] => some (some ([], false))
  | k :: ks, i :: is =>
    if okArg h k i then
      (castVal L h k i).bind fun r =>
        (castVals L h ks is).map fun x => x.map fun x => (r.1 :: x.1, r.2 || x.2)
    else some none
  | _, _ => none

/-- The references lost in the conversion of all arguments. -/
def argsLeak (h : Heap) : List Arg → List Id → Nat
  | k :: ks, i :: is => checkLeak h k i + castLeak h k i + argsLeak h ks is
  | _, _ => 0

/-- The references lost when an argument is refused. -/
def failLeak (h : Heap) : List Arg → List Id → Nat
  | k :: ks, i :: is =>
    checkLeak h k i + if okArg h k i then castLeak h k i + failLeak h ks is else 0
  | _, _ => 0

section congr
variable {h h' : Heap} (n : NN h) (kp : Keep h.length h h')
include n kp

theorem ref_congr {i x : Id} {o : Obj} (e : h.obj i = some o) (hx : x ∈ o.refs) : h'.obj x = h.obj x :=
  kp.2 x (lt_of_ref n e hx)

theorem okArg_congr {k : Arg} {i : Id} (hi : i < h.length) : okArg h' k i = okArg h k i := by
  obtain ⟨o, ho⟩ := obj_of_lt hi
  unfold okArg
  rw [kp.2 i hi, ho]
  cases k <;> cases o <;> simp only <;>
    exact allAre_congr (fun y hy => ref_congr n kp ho hy)

theorem castVal_congr {L : Lang} {k : Arg} {i : Id} (hi : i < h.length) :
    castVal L h' k i = castVal L h k i := by
  obtain ⟨o, ho⟩ := obj_of_lt hi
  unfold castVal
  rw [kp.2 i hi, ho]
  cases k <;> cases o <;> simp only <;>
    (rename_i xs; rw [castTuple_congr (ys := xs) (fun y hy => ref_congr n kp ho hy)])

theorem castVals_congr {L : Lang} {ks : List Arg} {is : List Id} (hi : ∀ i ∈ is, i < h.length) :
    castVals L h' ks is = castVals L h ks is := by
  induction ks generalizing is with
  | nil => cases is <;> rfl
  | cons k ks ih =>
    cases is with
    | nil => rfl
    | cons i is =>
      simp only [castVals]
      rw [okArg_congr n kp (hi i List.mem_cons_self), castVal_congr n kp (hi i List.mem_cons_self),
        ih (fun j hj => hi j (List.mem_cons_of_mem _ hj))]

omit n in
theorem checkLeak_congr {k : Arg} {i : Id} (hi : i < h.length) : checkLeak h' k i = checkLeak h k i := by
  unfold checkLeak; rw [kp.2 i hi]

omit n in
theorem castLeak_congr {k : Arg} {i : Id} (hi : i < h.length) : castLeak h' k i = castLeak h k i := by
  unfold castLeak; rw [items_congr (kp.2 i hi)]

omit n in
theorem argsLeak_congr {ks : List Arg} {is : List Id} (hi : ∀ i ∈ is, i < h.length) :
    argsLeak h' ks is = argsLeak h ks is := by
  induction ks generalizing is with
  | nil => cases is <;> rfl
  | cons k ks ih =>
    cases is with
    | nil => rfl
    | cons i is =>
      simp only [argsLeak]
      rw [checkLeak_congr kp (hi i List.mem_cons_self), castLeak_congr kp (hi i List.mem_cons_self),
        ih (fun j hj => hi j (List.mem_cons_of_mem _ hj))]

theorem failLeak_congr {ks : List Arg} {is : List Id} (hi : ∀ i ∈ is, i < h.length) :
    failLeak h' ks is = failLeak h ks is := by
  induction ks generalizing is with
  | nil => cases is <;> rfl
  | cons k ks ih =>
    cases is with
    | nil => rfl
    | cons i is =>
      simp only [failLeak]
      rw [checkLeak_congr kp (hi i List.mem_cons_self), castLeak_congr kp (hi i List.mem_cons_self),
        okArg_congr n kp (hi i List.mem_cons_self),
        ih (fun j hj => hi j (List.mem_cons_of_mem _ hj))]

end congr

theorem castArgs_spec {L : Lang} {h : Heap} {ks : List Arg} {is : List Id} (n : NN h)
    (hi : ∀ i ∈ is, i < h.length) :
    ∃ H, castArgs L h ks is = (castVals L h ks is).map (fun r => (H, r)) ∧ Keep h.length h H ∧
      (∀ r, castVals L h ks is = some r → ∃ l, Step h H l ∧
        l.length = if r.isSome then argsLeak h ks is else failLeak h ks is) := by
  induction ks generalizing is h with
  | nil =>
    cases is with
    | nil =>
      refine ⟨h, rfl, Keep.refl _ _, fun r hr => ⟨[], Step.refl _, ?_⟩⟩
      simp only [castVals, Option.some.injEq] at hr
      subst hr
      rfl
    | cons i is => exact ⟨h, rfl, Keep.refl _ _, fun r hr => by simp [castVals] at hr⟩
  | cons k ks ih =>
    cases is with
    | nil => exact ⟨h, rfl, Keep.refl _ _, fun r hr => by simp [castVals] at hr⟩
    | cons i is =>
      have hil := hi i List.mem_cons_self
      have hisl : ∀ j ∈ is, j < h.length := fun j hj => hi j (List.mem_cons_of_mem _ hj)
      obtain ⟨h1, l1, e1, k1, hl1, s1⟩ := checkArg_spec (k := k) n hil
      have n1 := s1.nn n
      simp only [castArgs, castVals, Option.bind_eq_bind, Option.pure_def, e1, Option.bind_some]
      by_cases ok : okArg h k i = true
      case neg =>
        simp only [ok, Bool.false_eq_true, if_false]
        refine ⟨h1, rfl, k1, fun r hr => ⟨l1, s1, ?_⟩⟩
        simp only [Option.some.injEq] at hr
        subst hr
        simp [failLeak, ok, hl1]
      simp only [ok, if_true]
      have ok1 : okArg h1 k i = true := by rw [okArg_congr n k1 hil, ok]
      obtain ⟨h2, e2, k2, s2⟩ := castArg_spec (L := L) n1 ok1
      rw [castVal_congr n k1 hil] at e2 s2
      have k12 : Keep h.length h h2 := k1.trans k2 k1.1
      cases hv : castVal L h k i with
      | none =>
        rw [hv] at e2
        rw [e2]
        exact ⟨h2, rfl, k12, fun r hr => by simp at hr⟩
      | some r1 =>
        rw [hv] at e2 s2
        rw [e2]
        obtain ⟨l2, hl2, s2⟩ := s2 rfl
        have s12 := s1.trans s2
        have n2 := s12.nn n
        obtain ⟨h3, e3, k3, s3⟩ := ih (is := is) n2
          (fun j hj => Nat.lt_of_lt_of_le (hisl j hj) k12.1)
        rw [castVals_congr n k12 hisl] at e3 s3
        simp only [Option.map_some, Option.bind_some]
        rw [e3]
        refine ⟨h3, ?_, k12.trans k3 k12.1, ?_⟩
        · cases castVals L h ks is <;> rfl
        · intro r hr
          cases hw : castVals L h ks is with
          | none => simp [hw] at hr
          | some w =>
            obtain ⟨l3, s3, hl3⟩ := s3 w hw
            refine ⟨(l1 ++ l2) ++ l3, s12.trans s3, ?_⟩
            rw [hw] at hr
            simp only [Option.map_some, Option.some.injEq] at hr
            subst hr
            rw [argsLeak_congr k12 hisl, failLeak_congr n k12 hisl] at hl3
            rw [castLeak_congr k1 hil] at hl2
            cases w with
            | none => simp [failLeak, ok] at hl3 ⊢; omega
            | some w => simp [argsLeak] at hl3 ⊢; omega

end Verif.Wrapper.Lemmas
