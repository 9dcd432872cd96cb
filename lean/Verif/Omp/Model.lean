import Verif.Omp.Spec

/-!
# OpenMP: model of the code

`SemanticParser._visit_OmpAnnotatedComment` and `_visit_Omp_End_Clause` (parser/semantic.py 4160-4235),
the printing of annotations (codegen/printing/ccode.py 3807-3828, fcode.py 3222-3241) and of vector
statements in C (ccode.py 3526-3542, ast/utilities.py `expand_to_loops`).  Annotations are printed as
they are written: the text of the clauses is not modelled.
-/

namespace Verif.Omp.Model
open Spec

/-! ## Loops -/

/-- What a thread still has to do in a turn of a loop, in C.  The variable over which the loop of a
vector statement runs is one variable of the function (ccode.py 3526-3533: it comes from
`scope.get_temporary_variable`, and is declared at the beginning of the function), which the threads
share, because the user, who does not know it, does not declare it private. -/
inductive Work (κ : Type)
  | store (f : Mem κ → Mem κ)
  /-- `j = 0` -/
  | init (m : Nat) (f : Nat → Mem κ → Mem κ)
  /-- `j < m`, and the store if so -/
  | test (m : Nat) (f : Nat → Mem κ → Mem κ)
  /-- `j += 1` -/
  | inc (m : Nat) (f : Nat → Mem κ → Mem κ)

/-- The body in C. -/
def cWork {κ : Type} : Stmt κ → Work κ
  | .store f => .store f
  | .vec m f => .init m f

/-- The state: the memory, the shared variable, and what each turn has to do. -/
structure State (κ : Type) where
  mem : Mem κ
  j : Nat
  todo : Nat → List (Work κ)

/-- One step of the turn `i`. -/
def cStep {κ : Type} (i : Nat) (s : State κ) : State κ :=
  let put (r : List (Work κ)) : Nat → List (Work κ) := fun x => if x = i then r else s.todo x
  match s.todo i with
  | [] => s
  | .store f :: r => { s with mem := f s.mem, todo := put r }
  | .init m f :: r => { s with j := 0, todo := put (.test m f :: r) }
  | .test m f :: r =>
    if s.j < m then { s with mem := f s.j s.mem, todo := put (.inc m f :: r) }
    else { s with todo := put r }
  | .inc m f :: r => { s with j := s.j + 1, todo := put (.test m f :: r) }

/-- The loop in C with a schedule: which turn makes a step.  It is complete if all turns are done. -/
def cRun {κ : Type} (body : Nat → List (Stmt κ)) (n : Nat) (mem : Mem κ) (sched : List Nat) : State κ :=
  sched.foldl (fun s i => cStep i s) ⟨mem, 0, fun i => if i < n then (body i).map cWork else []⟩

/-- The same in Fortran, where vector statements stay what they are (fcode.py: `language_has_vectors`),
and every thread has its own variable for the loops that the compiler makes of them. -/
structure FState (κ : Type) where
  mem : Mem κ
  todo : Nat → List (Mem κ → Mem κ)

/-- One step of the turn `i`. -/
def fStep {κ : Type} (i : Nat) (s : FState κ) : FState κ :=
  match s.todo i with
  | [] => s
  | f :: r => { mem := f s.mem, todo := fun x => if x = i then r else s.todo x }

/-- The loop in Fortran with a schedule. -/
def fRun {κ : Type} (body : Nat → List (Stmt κ)) (n : Nat) (mem : Mem κ) (sched : List Nat) : FState κ :=
  sched.foldl (fun s i => fStep i s) ⟨mem, fun i => if i < n then stores (body i) else []⟩

/-! ## Barriers -/

/-- A block: annotations that open and close constructs; those that close carry `has_nowait`. -/
inductive Node
  | opens (k : Kind) (nowait : Bool)
  | closes (k : Kind) (nowait : Bool)
  deriving DecidableEq, Repr

/-- The block of a sequence of constructs, as it comes from the parser: `Omp_End_Clause(txt, False)`
(parser/syntax/openmp.py 319-321). -/
def block (rs : List Region) : List Node := rs.flatMap fun r => [.opens r.1 r.2, .closes r.1 false]

/-- The loop over the nodes that follow: semantic.py 4174-4177. -/
def mark (k : Kind) : List Node → List Node
  | [] => []
  | .opens k' b :: r => .opens k' b :: mark k r
  | .closes k' b :: r => .closes k' (b || k' == k) :: mark k r

/-- `_visit_OmpAnnotatedComment` for the nodes of a block, one after the other: semantic.py
4170-4177. -/
def visit : List Node → Nat → List Node
  | l, 0 => l
  | [], _ => []
  | .opens k b :: r, n + 1 => .opens k b :: visit (if b then mark k r else r) n
  | .closes k b :: r, n + 1 => .closes k b :: visit r n

/-- The barriers of the Fortran program: `end single` without `nowait` (fcode.py 3233-3241). -/
def fBarriers (rs : List Region) : List Bool :=
  (visit (block rs) (block rs).length).filterMap fun x =>
    match x with
    | .closes _ b => some !b
    | .opens _ _ => none

/-- The barriers of the C program: `#pragma omp single` without `nowait` (ccode.py 3807-3814). -/
def cBarriers (rs : List Region) : List Bool :=
  (block rs).filterMap fun x =>
    match x with
    | .opens _ b => some !b
    | .closes _ _ => none

/-! ## Blocks -/

/-- `_is_multiline` of the classes of ast/omp.py. -/
def multiline : Word → Bool
  | .parallel | .task | .single | .critical | .master | .masked | .target | .teams | .sections
  | .section => true
  | .for | .simd | .taskloop | .distribute => false

/-- `"masked taskloop" in expr.combined`. -/
def hasMaskedTaskloop : List Word → Bool
  | .masked :: .taskloop :: _ => true
  | _ :: r => hasMaskedTaskloop r
  | [] => false

/-- Whether the annotation is followed by `{`: ccode.py 3816-3823. -/
def opensBrace (c : Word × List Word) : Bool :=
  multiline c.1 &&
    (c.2 == [] || (!c.2.contains .for && !hasMaskedTaskloop c.2 && !c.2.contains .distribute))

/-- Whether an `end` annotation is printed as `}`: it is dropped if one of these words occurs in it
(semantic.py 4216-4223; ccode.py 3827). -/
def closesBrace (c : Word × List Word) : Bool :=
  !(c.1 :: c.2).any fun w => w == .for || w == .distribute || w == .taskloop || w == .simd

/-- `c in txt`, for strings. -/
def isIn (c : List Char) : List Char → Bool
  | [] => c.isPrefixOf []
  | a :: r => c.isPrefixOf (a :: r) || isIn c r

/-- The same for `end critical (name)`: semantic.py 4215 looks for the words in the whole text. -/
def closesCritical (name : List Char) : Bool :=
  !([['f', 'o', 'r'], ['d', 'i', 's', 't', 'r', 'i', 'b', 'u', 't', 'e'],
    ['t', 'a', 's', 'k', 'l', 'o', 'o', 'p'], ['s', 'i', 'm', 'd']].any fun c => isIn c name)

mutual
/-- The text in C. -/
def print : Item → List Tok
  | .stmt n => [.stmt n]
  | .loop c n => .pragma c :: ((if opensBrace c then [.open] else []) ++ [.stmt n])
  | .region c b =>
    .pragma c :: ((if opensBrace c then [.open] else []) ++ (printAll b ++
      if closesBrace c then [.close] else []))
  | .critical name b =>
    .critical name :: .open :: (printAll b ++ if closesCritical name then [.close] else [])

def printAll : List Item → List Tok
  | [] => []
  | i :: r => print i ++ printAll r
end

end Verif.Omp.Model
