import Verif.Memory.Lemmas

/-! # Array variables: lemmas about executions -/

namespace Verif.Memory.Lemmas
open Spec Model

/-- What was found out about a statement fits the state in which it is executed. -/
def StepOk (P : St) (e : Event Ann) : Prop :=
  match e.act with
  | .assign r none => ∃ sh d, P.mem = some (sh, d) ∧ newShape r e.shape (some sh) = some sh
  | .assign r (some st) => Fresh r ∧ (st = .unallocated → P.mem = none)
  | .len (some s) => P.mem.map (·.1) = some s
  | _ => True

def srcEvent (e : Event Ann) : Event Atom := ⟨e.act.src, e.shape, e.value⟩

def TraceAll (S : St → Event Ann → Prop) (P : St) : List (Event Ann) → Prop
  | [] => True
  | e :: t => S P e ∧ ∀ P', python P (srcEvent e) = some P' → TraceAll S P' t

theorem TraceAll.mono {S S' : St → Event Ann → Prop} (h : ∀ P e, S P e → S' P e) {P : St}
    {t : List (Event Ann)} (ht : TraceAll S P t) : TraceAll S' P t := by
  induction t generalizing P with
  | nil => trivial
  | cons e t ih => exact ⟨h _ _ ht.1, fun P' hp => ih (ht.2 P' hp)⟩

/-- … and `x` is bound. -/
def StepOk' (P : St) (e : Event Ann) : Prop := StepOk P e ∧ P.mem ≠ none

theorem srcPath_cons (e : Event Ann) (t : List (Event Ann)) :
    srcPath (e :: t) = srcEvent e :: srcPath t := rfl

theorem srcPath_append (t u : List (Event Ann)) : srcPath (t ++ u) = srcPath t ++ srcPath u :=
  List.map_append

theorem pythons_append (P : St) (t u : List (Event Atom)) :
    pythons P (t ++ u) = (pythons P t).bind (fun P => pythons P u) := by
  induction t generalizing P with
  | nil => rfl
  | cons e t ih =>
    simp only [List.cons_append, pythons]
    cases python P e with
    | none => rfl
    | some P' => exact ih P'

theorem pythons_split {P P' : St} {t u : List (Event Ann)}
    (h : pythons P (srcPath (t ++ u)) = some P') :
    ∃ Q, pythons P (srcPath t) = some Q ∧ pythons Q (srcPath u) = some P' := by
  rw [srcPath_append, pythons_append] at h
  cases hq : pythons P (srcPath t) with
  | none => rw [hq] at h; cases h
  | some Q => rw [hq] at h; exact ⟨Q, rfl, h⟩

theorem traceAll_append {S : St → Event Ann → Prop} {P Q : St} {t u : List (Event Ann)}
    (h : TraceAll S P t)
    (hq : pythons P (srcPath t) = some Q) (h' : TraceAll S Q u) :
    TraceAll S P (t ++ u) := by
  induction t generalizing P with
  | nil => cases hq; exact h'
  | cons e t ih =>
    refine ⟨h.1, fun P' hp => ?_⟩
    rw [srcPath_cons, pythons, hp] at hq
    exact ih (h.2 P' hp) hq

/-! ## C and Fortran follow Python -/

theorem cStep_ok {P P' : St} {e : Event Ann} {k : Nat} (h : StepOk P e)
    (hp : python P (srcEvent e) = some P') :
    cStep ⟨P.mem, k, P.out⟩ e = some ⟨P'.mem, k, P'.out⟩ := by
  obtain ⟨m, o⟩ := P
  obtain ⟨a, s, n⟩ := e
  simp only [StepOk, srcEvent, python, cStep] at *
  cases a with
  | assign r st =>
    cases st with
    | none =>
      simp only at h
      obtain ⟨sh, d, rfl, h2⟩ := h
      cases r with
      | lit s' self =>
        simp only [newShape, Option.some.injEq] at h2
        subst h2
        cases self <;> (simp only [Ann.src, Option.some.injEq] at hp; subst hp; rfl)
      | dyn self =>
        simp only [newShape, Option.some.injEq] at h2
        subst h2
        cases self <;> (simp only [Ann.src, Option.some.injEq] at hp; subst hp; rfl)
      | same fn =>
        simp only [Ann.src, Option.some.injEq] at hp; subst hp; rfl
    | some st =>
      simp only at h
      cases r with
      | lit s' self =>
        have h1 : self = false := h.1
        subst h1
        simp only [Ann.src, Option.some.injEq] at hp
        subst hp
        simp only [newShape, compute, Option.some.injEq, CSt.mk.injEq, and_true, true_and]
        cases st <;> simp_all
      | dyn self =>
        have h1 : self = false := h.1
        subst h1
        simp only [Ann.src, Option.some.injEq] at hp
        subst hp
        simp only [newShape, compute, Option.some.injEq, CSt.mk.injEq, and_true, true_and]
        cases st <;> simp_all
      | same fn => exact absurd h.1 (by simp [Fresh])
  | use =>
    cases m with
    | none => cases hp
    | some x => simp only [Ann.src, Option.some.injEq] at hp; subst hp; rfl
  | len st =>
    cases m with
    | none => cases hp
    | some x =>
      simp only [Ann.src, Option.some.injEq] at hp
      subst hp
      cases st with
      | none => rfl
      | some s' =>
        simp only [Option.map_some, Option.some.injEq] at h
        subst h; rfl
  | del =>
    cases m with
    | none => cases hp
    | some x => simp only [Ann.src, Option.some.injEq] at hp; subst hp; rfl

theorem cSteps_ok {P P' : St} {t : List (Event Ann)} {k : Nat} (h : TraceAll StepOk P t)
    (hp : pythons P (srcPath t) = some P') :
    cSteps ⟨P.mem, k, P.out⟩ t = some ⟨P'.mem, k, P'.out⟩ := by
  induction t generalizing P with
  | nil => cases hp; rfl
  | cons e t ih =>
    rw [srcPath_cons, pythons] at hp
    cases hq : python P (srcEvent e) with
    | none => rw [hq] at hp; cases hp
    | some Q =>
      rw [hq] at hp
      rw [cSteps, cStep_ok h.1 hq]
      exact ih (h.2 Q hq) hp

/-- Fortran's test for the shape is right. -/
def ShapesOk (P : St) (e : Event Ann) : Prop :=
  match e.act with
  | .assign r (some st) => (st = .allocated → P.mem ≠ none) ∧
      ∀ old d new, P.mem = some (old, d) → newShape r e.shape (some old) = some new →
        sizeDiffers old new = false → old = new
  | _ => True

theorem fStep_ok {P P' : St} {e : Event Ann} (h : StepOk P e) (hs : ShapesOk P e)
    (hp : python P (srcEvent e) = some P') : fStep P e = some P' := by
  obtain ⟨m, o⟩ := P
  obtain ⟨a, s, n⟩ := e
  simp only [StepOk, ShapesOk, srcEvent, python, fStep] at *
  cases a with
  | assign r st =>
    cases st with
    | none =>
      simp only at h
      obtain ⟨sh, d, rfl, h2⟩ := h
      cases r with
      | lit s' self =>
        simp only [newShape, Option.some.injEq] at h2
        subst h2
        cases self <;> (simp only [Ann.src, Option.some.injEq] at hp; subst hp; rfl)
      | dyn self =>
        simp only [newShape, Option.some.injEq] at h2
        subst h2
        cases self <;> (simp only [Ann.src, Option.some.injEq] at hp; subst hp; rfl)
      | same fn =>
        simp only [Ann.src, Option.some.injEq] at hp; subst hp; rfl
    | some st =>
      simp only at h hs
      have key : ∀ new, (∀ x, newShape r s x = some new) →
          (∀ d, compute r n d = .made n) → fAllocate m st r s n = some (new, .made n) := by
        intro new h1 h2
        cases m with
        | none =>
          cases st with
          | allocated => exact absurd rfl (hs.1 rfl)
          | _ => simp only [fAllocate, h1, h2, Option.map_some]
        | some x =>
          obtain ⟨old, d⟩ := x
          have h3 := hs.2 old d new rfl (h1 _)
          cases st with
          | unallocated => exact absurd (h.2 rfl) (by simp)
          | _ =>
            simp only [fAllocate, h1, h2, Option.map_some]
            split
            · rfl
            · rename_i hd
              rw [h3 (by simpa using hd)]
      cases r with
      | lit s' self =>
        have h1 : self = false := h.1
        subst h1
        simp only [Ann.src] at hp ⊢
        rw [key s' (fun _ => rfl) (fun _ => rfl), Option.map_some, hp]
      | dyn self =>
        have h1 : self = false := h.1
        subst h1
        simp only [Ann.src] at hp ⊢
        rw [key s (fun _ => rfl) (fun _ => rfl), Option.map_some, hp]
      | same fn => exact absurd h.1 (by simp [Fresh])
  | use =>
    cases m with
    | none => cases hp
    | some x => simp only [Ann.src, Option.some.injEq] at hp; subst hp; rfl
  | len st =>
    cases m with
    | none => cases hp
    | some x =>
      simp only [Ann.src, Option.some.injEq] at hp
      subst hp
      cases st with
      | none => rfl
      | some s' =>
        simp only [Option.map_some, Option.some.injEq] at h
        subst h; rfl
  | del =>
    cases m with
    | none => cases hp
    | some x => simp only [Ann.src, Option.some.injEq] at hp; subst hp; rfl

theorem size_foldl (s : Shape) (k : Nat) : s.foldl (· * ·) k = k * size s := by
  induction s generalizing k with
  | nil => simp [size]
  | cons n s ih => simp only [List.foldl_cons, ih, size, Nat.mul_assoc]

theorem fSteps_ok {P P' : St} {t : List (Event Ann)} (h : TraceAll StepOk' P t)
    (hd : Distinct P (srcPath t)) (hp : pythons P (srcPath t) = some P') :
    fSteps P t = some P' := by
  induction t generalizing P with
  | nil => cases hp; rfl
  | cons e t ih =>
    rw [srcPath_cons] at hd
    rw [srcPath_cons, pythons] at hp
    cases hq : python P (srcEvent e) with
    | none => rw [hq] at hp; cases hp
    | some Q =>
      rw [hq] at hp
      have hs : ShapesOk P e := by
        have h1 := h.1
        have h2 := hd.1
        obtain ⟨a, s, n⟩ := e
        simp only [StepOk', StepOk, ShapesOk, srcEvent, given] at *
        cases a with
        | assign r st =>
          cases st with
          | none => trivial
          | some st =>
            simp only at h1 ⊢
            refine ⟨fun _ => h1.2, fun old d new hm hn hz => ?_⟩
            have h3 := h2 old d new hm (by
              cases r with
              | lit s' self => simpa [newShape, Ann.src] using hn
              | dyn self => simpa [newShape, Ann.src] using hn
              | same fn => exact absurd h1.1.1 (by simp [Fresh]))
            rcases h3 with h3 | ⟨k, hk, hk'⟩
            · exact h3
            · simp only [sizeDiffers, size_foldl, Nat.one_mul, List.any_eq_false, bne_iff_ne, ne_eq,
                Decidable.not_not] at hz
              exact absurd (hz k hk).symm hk'
        | _ => trivial
      rw [fSteps, fStep_ok h.1.1 hs hq]
      exact ih (h.2 Q hq) (hd.2 Q hq) hp

end Verif.Memory.Lemmas
