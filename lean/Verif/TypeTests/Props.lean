import Verif.TypeTests.Lemmas2
/-
C176 as theorems.
-/
namespace Verif.TypeTests.Props
open Verif.TypeTests.Spec Verif.TypeTests.Model Verif.TypeTests.Lemmas

/-- C176 (part): let a parameter (not optional) be declared with type `t` and get a value of class `c` that the wrapper accepts.  If pyccel translates
`isinstance(x, test)`, and `test` names none of the few classes in `exceptions`, then the literal that it puts there is Python's answer, for all
classes, tuples and unions of classes, and all inheritance graphs. -/
theorem C176_isinstance_partial (bases : Nat → List Nat) (fuel : Nat) (t : Ty) (c : Cls) (ha : accepts false t c = true) (test : Test) (b : Bool)
    (hx : ∀ d ∈ test.classes, d ∉ exceptions (own t) c) (h : build bases fuel t test = some (some b)) : b = true ↔ Inst bases c test :=
  build_ok ha test hx h

/-- C176: and the translation ends, also if a class has several bases that have common bases (a base is defined before the class). -/
theorem C176_isinstance_ends (bases : Nat → List Nat) (hb : ∀ c, ∀ d ∈ bases c, d < c) (t : Ty) (test : Test) :
    ∃ n, ∀ fuel, n ≤ fuel → (build bases fuel t test).isSome := build_ends hb t test

/-- class 1 is a subclass of 0; class 2 is a subclass of 1 and 0 -/
def sampleBases : Nat → List Nat
  | 1 => [0]
  | 2 => [1, 0]
  | _ => []

example : accepts false (.final (.custom 2)) (.user 2) = true ∧
    build sampleBases 9 (.final (.custom 2)) (.cons (.cls .int) (.cons (.cls (.user 0)) .nil)) = some (some true) ∧
    build sampleBases 9 .bool (.cons (.cls .float) (.cons (.cls .int) .nil)) = some (some true) ∧
    build sampleBases 9 (.custom 1) (.cls (.user 2)) = some (some false) ∧
    build sampleBases 9 (.list .int) (.cons (.cls .tuple) (.cons (.cls .list) .nil)) = some (some true) :=
  ⟨by decide, by decide, by decide, by decide, by decide⟩

/-- C176 fails for each of these classes: the answer is wrong.  A boolean of NumPy is taken for an `int` and a `bool`, a `bool` for a boolean of
NumPy; `np.float64` is not taken for a `float` nor `np.complex128` for a `complex`; and a value of these classes given for `float` or `complex` loses
its class. -/
theorem C176_numpy_scalars_violated (bases : Nat → List Nat) (fuel : Nat) (t : Ty) (c d : Cls) (ha : accepts false t c = true)
    (hx : d ∈ exceptions (own t) c) (b : Bool) (h : build bases fuel t (.cls d) = some (some b)) : ¬(b = true ↔ Inst bases c (.cls d)) :=
  fun hc => (single_exact ha h).1 hc hx

example : (accepts false .bool .npBool = true ∧ Cls.int ∈ exceptions (own .bool) .npBool ∧ build sampleBases 9 .bool (.cls .int) = some (some true)) ∧
    (accepts false (.npFloat 64) (.npFloat 64) = true ∧ Cls.float ∈ exceptions (own (.npFloat 64)) (.npFloat 64) ∧
      build sampleBases 9 (.npFloat 64) (.cls .float) = some (some false)) ∧
    (accepts false .float (.npFloat 64) = true ∧ Cls.npFloat 64 ∈ exceptions (own .float) (.npFloat 64) ∧
      build sampleBases 9 .float (.cls (.npFloat 64)) = some (some false)) := by decide

/-- C176 fails: an optional parameter that is `None` is taken for a value of its type: `def f(x : int = None): return isinstance(x, int)` returns
`True` for `f()`. -/
theorem C176_none_violated (bases : Nat → List Nat) : ∃ t test, accepts true t .none = true ∧ build bases 9 t test = some (some true) ∧
    ¬Inst bases .none test :=
  ⟨.int, .cls .int, by decide, rfl, fun h => by
    rw [Inst, sub_ups (by simp)] at h
    simp [ups] at h⟩

end Verif.TypeTests.Props
