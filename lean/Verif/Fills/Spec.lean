/-
What `numpy.linspace` and `numpy.arange` return.  Numbers are rational: rounding is left out.
-/
namespace Verif.Fills

/-- Conversion of a float to an integer, as `int(x)`, a cast in C or `Int` in Fortran: towards zero. -/
def trunc (q : Rat) : Int := if 0 ≤ q then q.floor else q.ceil

/-- Element `i` of `numpy.linspace(start, stop, num, endpoint)`, for `i < num`: the distance of two elements is
`(stop - start) / (num - 1)` if `stop` is included, and `(stop - start) / num` otherwise; the last element is exactly `stop` if
it is included and there are several elements; a single element is `start`. -/
def npElem (start stop : Rat) (num : Nat) (endpoint : Bool) (i : Nat) : Rat :=
  if endpoint then
    if num = 1 then start else if i + 1 = num then stop else start + i * ((stop - start) / (num - 1))
  else start + i * ((stop - start) / num)

/-- The same with an argument `dtype`: integers are rounded down. -/
def npLinspace (int : Bool) (start stop : Rat) (num : Nat) (endpoint : Bool) (i : Nat) : Rat :=
  if int then (npElem start stop num endpoint i).floor else npElem start stop num endpoint i

/-- Going from `a` in steps of `step`, `b` has not been reached. -/
def Before (step a b : Rat) : Prop := (0 < step ∧ a < b) ∨ (step < 0 ∧ b < a)

/-- Element `i` of `numpy.arange(start, stop, step, dtype)`: NumPy converts the first two elements to the type of the array, and
continues with their distance. -/
def npArange (int : Bool) (start step : Rat) (i : Nat) : Rat :=
  if int then trunc start + i * (trunc (start + step) - trunc start) else start + i * step

/-- `l` is `numpy.arange(start, stop, step)`: it has an element for every `k` for which `start + k * step` is before `stop`. -/
def IsArange (int : Bool) (start stop step : Rat) (l : List Rat) : Prop :=
  (∀ k : Nat, k < l.length ↔ Before step (start + k * step) stop) ∧ ∀ k v, l[k]? = some v → v = npArange int start step k

end Verif.Fills
