import Verif.Paths.Spec
/-
Model for C169–C171: what pyccel makes from `else` blocks of loops, from assertions and from the end of a function.
-/
namespace Verif.Paths.Model
open Verif.Paths.Spec

/-- How the code is made: Fortran, or C with the flags of debug mode or of release mode. -/
inductive Mode where
  | fortran
  | cDebug
  | cRelease
deriving DecidableEq

/-- The generated statements. -/
inductive Gen (σ V : Type) where
  | done
  | act (f : σ → Option σ) (rest : Gen σ V)
  /-- `if (.not. (c)) then; stop 1; end if`, `assert(c);` -/
  | check (c : σ → Option (Bool × σ)) (rest : Gen σ V)
  | ite (c : σ → Option (Bool × σ)) (a b rest : Gen σ V)
  | while (c : σ → Option (Bool × σ)) (body rest : Gen σ V)
  | for (count : σ → Option Nat) (bind : Nat → σ → σ) (body rest : Gen σ V)
  | brk
  | cont
  | ret (e : σ → Option (V × σ))

/-- Assertions: `_print_Assert` (pyccel/codegen/printing/fcode.py:3436-3445, ccode.py:3715-3725); the C macro `assert` expands to nothing
if `NDEBUG` is defined, as `release_flags` do (pyccel/compilers/default_compilers.py:21, 40, 58, 75, 91, 109).
`assert True` is printed as a comment, which is not modelled: it has no effect. -/
def trAssert {σ V : Type} (m : Mode) (c : σ → Option (Bool × σ)) (rest : Gen σ V) : Gen σ V :=
  match m with
  | .cRelease => rest
  | _ => .check c rest

/-- Loops: `_visit_For` and `_visit_While` read `stmt.target`, `stmt.iter`, `stmt.test` and `stmt.body`, not `stmt.orelse`
(pyccel/parser/syntactic.py:1369-1382, 1639-1648).  How conditions and ranges are evaluated is in C59–C61 and C08–C10. -/
def tr {σ V : Type} (m : Mode) : Code σ V → Gen σ V
  | .done => .done
  | .act f r => .act f (tr m r)
  | .assert c r => trAssert m c (tr m r)
  | .ite c a b r => .ite c (tr m a) (tr m b) (tr m r)
  | .while c b _ r => .while c (tr m b) (tr m r)
  | .for n x b _ r => .for n x (tr m b) (tr m r)
  | .brk => .brk
  | .cont => .cont
  | .ret e => .ret e

/-- The meaning of C and Fortran; `failed` is the end of the process (`stop 1`, `abort()`). -/
def run {σ V : Type} : Nat → Gen σ V → σ → Option (Out σ V)
  | 0, _, _ => none
  | _ + 1, .done, s => some (.next s)
  | n + 1, .act f rest, s => match f s with
    | none => some .error
    | some s => run n rest s
  | n + 1, .check c rest, s => match c s with
    | none => some .error
    | some (true, s) => run n rest s
    | some (false, s) => some (.failed s)
  | n + 1, .ite c a b rest, s => match c s with
    | none => some .error
    | some (true, s) => (run n a s).bind (Out.andThen (run n rest))
    | some (false, s) => (run n b s).bind (Out.andThen (run n rest))
  | n + 1, .while c body rest, s => match c s with
    | none => some .error
    | some (false, s) => run n rest s
    | some (true, s) => (run n body s).bind fun
      | .next s => run n (.while c body rest) s
      | .cont s => run n (.while c body rest) s
      | .brk s => run n rest s
      | o => some o
  | n + 1, .for count bind body rest, s => match count s with
    | none => some .error
    | some m => (iter (run n body) bind m 0 s).bind fun
      | .next s => run n rest s
      | .brk s => run n rest s
      | o => some o
  | _ + 1, .brk, s => some (.brk s)
  | _ + 1, .cont, s => some (.cont s)
  | _ + 1, .ret e, s => match e s with
    | none => some .error
    | some (v, s) => some (.ret s v)

/-- What the caller gets: the function has a result if there is a `return` with a value (syntactic.py:1160-1176); nothing checks
that every path has one (pyccel/parser/semantic.py:6340-6714).  `junk` is what C returns at the end of the function (undefined) or the
result variable holds in Fortran.  `assertion` is the end of the process. -/
def genCall {σ V : Type} (m : Mode) (junk : σ → V) (n : Nat) (body : Code σ V) (s : σ) : Option (Result σ V) :=
  (run n (tr m body) s).map fun
    | .next s => if body.hasReturn then .value (junk s) s else .none s
    | .ret s v => .value v s
    | .failed s => .assertion s
    | _ => .error

/-- What a Python program sees that calls the function inside `try: … except AssertionError: …`: it goes on if the function is Python,
and ends with the process if it is compiled. -/
inductive Seen (σ V : Type) where
  | result (r : Result σ V)
  | handler (s : σ)
  | ended

def pySeen {σ V : Type} : Result σ V → Seen σ V
  | .assertion s => .handler s
  | r => .result r

def genSeen {σ V : Type} : Result σ V → Seen σ V
  | .assertion _ => .ended
  | r => .result r

end Verif.Paths.Model
