import Verif.Recursion.Spec

/-!
# How the compiler visits the functions of a module
-/

namespace Verif.Recursion

/-- A function has not been visited, is being visited (a provisional definition
without a body is in the scope, semantic.py 6545-6550), or has been visited. -/
inductive Status where
  | syn
  | active
  | sem
deriving DecidableEq

/-- What the visit changes: the status of the functions in the scope, the flag
`is_recursive` (core.py 2677-2679) and the functions that have been translated. -/
structure St where
  status : Nat → Status
  marked : Nat → Bool
  done : List Nat

def St.set (st : St) (g : Nat) (s : Status) : St :=
  { st with status := fun x => if x = g then s else st.status x }

/-- `func.set_recursive()` (core.py 1972-1975). -/
def St.mark (st : St) (g : Nat) : St :=
  { st with marked := fun x => if x = g then true else st.marked x }

/-- A call in the text, or a function that is visited if it has not been visited
yet (semantic.py 3716-3722 and 6562-6571). -/
inductive Item where
  | call (g : Nat)
  | define (g : Nat)

/-- The result: the state, or a fatal error. -/
inductive Res where
  | ok (st : St)
  | fatal

/-- Continue unless there was a fatal error. -/
def andThen : Option Res → (St → Option Res) → Option Res
  | some (.ok st), k => k st
  | some .fatal, _ => some .fatal
  | none, _ => none

/-- The end of `_visit_FunctionDef` (semantic.py 6601-6612 and 6694): a recursive
`@inline` function is a fatal error. -/
def finish (P : Prog) (g : Nat) (st : St) : Option Res :=
  if st.marked g && P.inl g then some .fatal
  else some (.ok { st.set g .sem with done := st.done ++ [g] })

/-- Everything that is visited in the body of a function: the calls, then the
functions defined inside that have not been called (semantic.py 6557-6571). -/
def Prog.items (P : Prog) (g : Nat) : List Item :=
  (P.body g).map .call ++ (P.sub g).map .define

/-- Visiting statements; `cur` is the function that contains them
(`current_function_name`).  `none`: the fuel has run out.

A call (`_handle_function`, semantic.py 1733-1776) of an `@inline` function visits
its body again at this place, without changing `cur` (`_visit_InlineFunctionCall`,
6716-6990); a call of a function that has not been visited visits it first
(`_annotate_the_called_function_def`, 1880-1967); a call of a function that is
being visited finds the provisional definition, which is never `@inline`, and marks
it if it is the function `cur`.  A `@private` `@inline` function is not visited on
its own (6364-6365).  Simplifications: functions are identified by numbers, not by
name; every function has one version; calls through function arguments are left
out. -/
def walk (P : Prog) : Nat → Option Nat → List Item → St → Option Res
  | _, _, [], st => some (.ok st)
  | 0, _, _ :: _, _ => none
  | n + 1, cur, .call g :: l, st =>
    match st.status g with
    | .active => walk P n cur l (if cur = some g then st.mark g else st)
    | .syn =>
      if P.inl g then
        andThen (walk P n cur ((P.body g).map .call) st) (walk P n cur l)
      else
        andThen (andThen (walk P n (some g) (P.items g) (st.set g .active)) (finish P g))
          (walk P n cur l)
    | .sem =>
      if P.inl g then
        andThen (walk P n cur ((P.body g).map .call) st) (walk P n cur l)
      else walk P n cur l st
  | n + 1, cur, .define g :: l, st =>
    if st.status g = .syn ∧ ¬ (P.inl g ∧ P.priv g) then
      andThen (andThen (walk P n (some g) (P.items g) (st.set g .active)) (finish P g))
        (walk P n cur l)
    else walk P n cur l st

/-- Nothing has been visited. -/
def St.start : St := ⟨fun _ => .syn, fun _ => false, []⟩

/-- The module (`_visit_Module`, semantic.py 3634-3722): its statements, then the
functions that have not been visited. -/
def run (P : Prog) (n : Nat) : Option Res :=
  walk P n none (P.init.map .call ++ P.top.map .define) St.start

/-- The functions printed with `recursive` (fcode.py 2912). -/
def printed (st : St) (f : Nat) : Bool := st.marked f

end Verif.Recursion
