import Verif.Loops.Spec
/-
Specification for C13–C17 and C57: Python indices and slices.
-/
namespace Verif.Slices.Spec
open Verif.Loops.Spec

/-- Position addressed by `a[i]` on a sequence of length `n`; `none` is `IndexError`. -/
def pyIndex (n : Nat) (i : Int) : Option Int :=
  if 0 ≤ i ∧ i < n then some i else if -(n : Int) ≤ i ∧ i < 0 then some (i + n) else none

/-- Value of a bound once negative values are counted from the end. -/
def wrapV (n : Int) (v : Int) : Int := if v < 0 then v + n else v

/-- A slice bound of Python after `slice.indices(n)`: negative values count from the end, then
the value is clamped to `[lower, upper]` (CPython `PySlice_AdjustIndices`). -/
def clamp (n lower upper v : Int) : Int :=
  let w := if v < 0 then v + n else v
  if w < lower then lower else if upper < w then upper else w

/-- The triple `slice(start, stop, step).indices(n)`, `step ≠ 0`. -/
def pyIndices (n : Nat) (start stop step : Option Int) : Int × Int × Int :=
  let s := step.getD 1
  let lower : Int := if s < 0 then -1 else 0
  let upper : Int := if s < 0 then n - 1 else n
  let a := match start with | none => if s < 0 then upper else lower | some v => clamp n lower upper v
  let b := match stop with | none => if s < 0 then lower else upper | some v => clamp n lower upper v
  (a, b, s)

/-- `l` is the list of positions selected by `a[start:stop:step]` on a sequence of length `n`. -/
def IsPySlice (n : Nat) (start stop step : Option Int) (l : List Int) : Prop :=
  let t := pyIndices n start stop step
  IsRange t.1 t.2.1 t.2.2 l

end Verif.Slices.Spec
