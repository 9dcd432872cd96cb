/-!
# Array variables: specification

The life of one array variable `x` in a function: statements that assign it, look at it, delete it,
`if` chains, loops, `break`, `continue` and `return`, along any path through the function; and what
Python does along that path.
-/

namespace Verif.Memory.Spec

abbrev Shape := List Nat

/-- The contents of an array: what the right-hand side `n` computed, possibly from the contents `x`
had before; or whatever was in the memory. -/
inductive Data
  | garbage
  | made (n : Nat)
  | madeFrom (n : Nat) (old : Data)
  deriving DecidableEq, Repr

/-- Right-hand sides of `x = …`; `self` says that `x` is read. -/
inductive Rhs
  /-- an expression whose shape is a tuple of integer literals, such as `np.zeros(3)` -/
  | lit (s : Shape) (self : Bool)
  /-- an expression whose shape is known at run time only, such as `np.zeros(n)` or `y + x` -/
  | dyn (self : Bool)
  /-- an expression that reads `x` and has the shape of `x`, such as `x + 1`, or, with `fn`, a call of
  a function, such as `np.sin(x)` -/
  | same (fn : Bool)
  deriving DecidableEq, Repr

/-- Statements without statements inside. -/
inductive Atom
  | assign (r : Rhs)
  /-- a statement that reads or writes elements of `x` -/
  | use
  /-- a statement that evaluates `x.shape` -/
  | len
  | del
  deriving DecidableEq, Repr

mutual
/-- Programs; `α` are the statements without statements inside, `β` the `return` statements.
Conditions of `if` and of loops are left open. -/
inductive Stmt (α β : Type)
  | skip
  | atom (a : α)
  | seq (p q : Stmt α β)
  | ite (c : Chain α β)
  | loop (body : Stmt α β)
  | brk
  | cont
  | ret (b : β)
/-- `if`, `elif`, …, and maybe `else`. -/
inductive Chain (α β : Type)
  | nil
  | els (p : Stmt α β)
  | cons (p : Stmt α β) (c : Chain α β)
end

/-- How the execution of a statement ends. -/
inductive Exit (β : Type)
  | normal
  | brk
  | cont
  | ret (b : β)
  deriving DecidableEq, Repr

/-- A statement that is executed, the shape that an expression has whose shape is not known before,
and the number of the value. -/
structure Event (α : Type) where
  act : α
  shape : Shape
  value : Nat
  deriving DecidableEq, Repr

mutual
/-- The paths through a program. -/
inductive Path {α β : Type} : Stmt α β → List (Event α) → Exit β → Prop
  | skip : Path .skip [] .normal
  | atom (a : α) (s : Shape) (n : Nat) : Path (.atom a) [⟨a, s, n⟩] .normal
  | seq {p q : Stmt α β} {t u : List (Event α)} {e : Exit β} (h : Path p t .normal) (h' : Path q u e) :
      Path (.seq p q) (t ++ u) e
  | seqOut {p q : Stmt α β} {t : List (Event α)} {e : Exit β} (h : Path p t e) (he : e ≠ .normal) :
      Path (.seq p q) t e
  | ite {c : Chain α β} {t : List (Event α)} {e : Exit β} (h : CPath c t e) : Path (.ite c) t e
  | done {p : Stmt α β} : Path (.loop p) [] .normal
  | next {p : Stmt α β} {t u : List (Event α)} {e f : Exit β} (h : Path p t e)
      (he : e = .normal ∨ e = .cont) (h' : Path (.loop p) u f) : Path (.loop p) (t ++ u) f
  | out {p : Stmt α β} {t : List (Event α)} (h : Path p t .brk) : Path (.loop p) t .normal
  | leave {p : Stmt α β} {t : List (Event α)} {b : β} (h : Path p t (.ret b)) :
      Path (.loop p) t (.ret b)
  | brk : Path .brk [] .brk
  | cont : Path .cont [] .cont
  | ret (b : β) : Path (.ret b) [] (.ret b)
inductive CPath {α β : Type} : Chain α β → List (Event α) → Exit β → Prop
  | nil : CPath .nil [] .normal
  | els {p : Stmt α β} {t : List (Event α)} {e : Exit β} (h : Path p t e) : CPath (.els p) t e
  | here {p : Stmt α β} {c : Chain α β} {t : List (Event α)} {e : Exit β} (h : Path p t e) :
      CPath (.cons p c) t e
  | later {p : Stmt α β} {c : Chain α β} {t : List (Event α)} {e : Exit β} (h : CPath c t e) :
      CPath (.cons p c) t e
end

/-- The state of `x`, and the shapes that have been asked for. -/
structure St where
  mem : Option (Shape × Data) := none
  out : List Shape := []
  deriving DecidableEq, Repr

/-- Python: `x` is unbound or an array.  `none`: Python raises. -/
def python (s : St) (e : Event Atom) : Option St :=
  match e.act, s.mem with
  | .assign (.lit sh false), _ => some { s with mem := some (sh, .made e.value) }
  | .assign (.lit sh true), some (_, d) => some { s with mem := some (sh, .madeFrom e.value d) }
  | .assign (.dyn false), _ => some { s with mem := some (e.shape, .made e.value) }
  | .assign (.dyn true), some (_, d) => some { s with mem := some (e.shape, .madeFrom e.value d) }
  | .assign (.same _), some (sh, d) => some { s with mem := some (sh, .madeFrom e.value d) }
  | .use, some _ => some s
  | .len, some (sh, _) => some { s with out := s.out ++ [sh] }
  | .del, some _ => some { s with mem := none }
  | _, none => none

/-- Python along a path. -/
def pythons (s : St) : List (Event Atom) → Option St
  | [] => some s
  | e :: es => (python s e).bind (fun s => pythons s es)

/-- A function: it returns nothing (`void`), or a value at the end of every path; `x` may be what it
returns. -/
structure Fn where
  body : Stmt Atom Unit
  void : Bool
  isResult : Bool

/-- The shape that an assignment gives to `x`. -/
def given (e : Event Atom) : Option Shape :=
  match e.act with
  | .assign (.lit s _) => some s
  | .assign (.dyn _) => some e.shape
  | _ => none

/-- The number of elements. -/
def size : Shape → Nat
  | [] => 1
  | n :: s => n * size s

/-- Whenever `x` gets another shape, the number of its elements before is not equal to each of its
dimensions afterwards. -/
def Distinct (s : St) : List (Event Atom) → Prop
  | [] => True
  | e :: es =>
    (∀ old d new, s.mem = some (old, d) → given e = some new → old = new ∨ ∃ n ∈ new, n ≠ size old) ∧
      ∀ s', python s e = some s' → Distinct s' es

/-- The right-hand side does not read `x`. -/
def Fresh : Rhs → Prop
  | .lit _ self => self = false
  | .dyn self => self = false
  | .same _ => False

/-! ## Conditions on functions -/

mutual
/-- The text contains an assignment of `x`. -/
def assigns : Stmt Atom Unit → Bool
  | .atom (.assign _) => true
  | .seq p q => assigns p || assigns q
  | .ite c => assignsC c
  | .loop b => assigns b
  | _ => false
  termination_by structural p => p
def assignsC : Chain Atom Unit → Bool
  | .nil => false
  | .els p => assigns p
  | .cons p c => assigns p || assignsC c
  termination_by structural c => c
end

mutual
/-- The text contains a `return`. -/
def returns : Stmt Atom Unit → Bool
  | .ret _ => true
  | .seq p q => returns p || returns q
  | .ite c => returnsC c
  | .loop b => returns b
  | _ => false
  termination_by structural p => p
def returnsC : Chain Atom Unit → Bool
  | .nil => false
  | .els p => returns p
  | .cons p c => returns p || returnsC c
  termination_by structural c => c
end

mutual
/-- Code that is fine after `x` has been assigned: no right-hand side reads `x`, except that outside
of `if` there may be `x = x + 1`; no literal shapes and no `x.shape` in loops; no `del x`. -/
def Plain (inIf inLoop : Bool) : Stmt Atom Unit → Prop
  | .atom (.assign (.lit _ self)) => self = false ∧ inLoop = false
  | .atom (.assign (.dyn self)) => self = false
  | .atom (.assign (.same fn)) => fn = false ∧ inIf = false
  | .atom .use => True
  | .atom .len => inLoop = false
  | .atom .del => False
  | .seq p q => Plain inIf inLoop p ∧ Plain inIf inLoop q
  | .ite c => PlainC inLoop c
  | .loop b => Plain inIf true b
  | _ => True
  termination_by structural p => p
def PlainC (inLoop : Bool) : Chain Atom Unit → Prop
  | .nil => True
  | .els p => Plain true inLoop p
  | .cons p c => Plain true inLoop p ∧ PlainC inLoop c
  termination_by structural c => c
end

/-- `x = r` where `r` does not read `x`. -/
def Sets : Stmt Atom Unit → Prop
  | .atom (.assign r) => Fresh r
  | _ => False

/-- Every branch is such an assignment, and there is an `else`. -/
def SetsC : Chain Atom Unit → Prop
  | .nil => False
  | .els p => Sets p
  | .cons p c => Sets p ∧ SetsC c

/-- The first assignment of `x`: one statement, or an `if` with one statement in every branch. -/
def Starts : Stmt Atom Unit → Prop
  | .ite c => SetsC c
  | p => Sets p

mutual
/-- Code without literal shapes: no right-hand side reads `x`, except that there may be `x = x + 1`
outside of `if` and after the text of an assignment (`seen`); in a loop inside an `if` that is not in a
loop `x` is not assigned; a `return` in a loop comes after the text of an assignment. -/
def Dynamic (inIf inLoop seen : Bool) : Stmt Atom Unit → Prop
  | .atom (.assign (.lit _ _)) => False
  | .atom (.assign (.dyn self)) => self = false
  | .atom (.assign (.same fn)) => fn = false ∧ inIf = false ∧ seen = true
  | .seq p q => Dynamic inIf inLoop seen p ∧ Dynamic inIf inLoop (seen || assigns p) q
  | .ite c => DynamicC inLoop seen c
  | .loop b => (inIf = true → inLoop = false → assigns b = false) ∧ Dynamic inIf true seen b
  | .ret _ => inLoop = true → seen = true
  | _ => True
  termination_by structural p => p
def DynamicC (inLoop seen : Bool) : Chain Atom Unit → Prop
  | .nil => True
  | .els p => Dynamic true inLoop seen p
  | .cons p c => Dynamic true inLoop seen p ∧ DynamicC inLoop (seen || assigns p) c
  termination_by structural c => c
end

end Verif.Memory.Spec
