/-!
# OpenMP: what a user relies on
-/

namespace Verif.Omp.Spec

/-! ## Loops

The memory, with cells of any type.  (A vector statement such as `a[i, :] = b[i, :] + 1` writes one cell
after the other, see C42.) -/

abbrev Mem (κ : Type) := κ → Int

/-- A statement in the body of the loop, in the turn with a given number: one store, or a vector
statement of `m` stores. -/
inductive Stmt (κ : Type)
  | store (f : Mem κ → Mem κ)
  | vec (m : Nat) (f : Nat → Mem κ → Mem κ)

/-- The stores of a statement in Python, in their order. -/
def Stmt.stores {κ : Type} : Stmt κ → List (Mem κ → Mem κ)
  | .store f => [f]
  | .vec m f => (List.range m).map f

/-- The stores of a body. -/
def stores {κ : Type} (b : List (Stmt κ)) : List (Mem κ → Mem κ) := b.flatMap Stmt.stores

/-- Stores one after the other. -/
def runAll {κ : Type} (l : List (Mem κ → Mem κ)) (m : Mem κ) : Mem κ := l.foldl (fun m f => f m) m

/-- The loop in Python: the turns one after the other. -/
def python {κ : Type} (body : Nat → List (Stmt κ)) : Nat → Mem κ → Mem κ
  | 0, m => m
  | n + 1, m => runAll (stores (body n)) (python body n m)

/-- A store of turn `i` changes only cells that belong to this turn, and what it writes depends only on
these and on cells that belong to no turn. -/
def Local {κ : Type} (own : κ → Option Nat) (i : Nat) (f : Mem κ → Mem κ) : Prop :=
  (∀ m k, own k ≠ some i → f m k = m k) ∧
  ∀ m m' : Mem κ, (∀ k, own k = some i ∨ own k = none → m k = m' k) →
    ∀ k, own k = some i → f m k = f m' k

/-- The turns of the loop are independent. -/
def Independent {κ : Type} (own : κ → Option Nat) (body : Nat → List (Stmt κ)) : Prop :=
  ∀ i, ∀ f ∈ stores (body i), Local own i f

/-! ## Barriers -/

/-- The constructs that end with a barrier, unless `nowait` is given. -/
inductive Kind
  | single
  | sections
  deriving DecidableEq, Repr

/-- A sequence of such constructs in a block, with `nowait` or not. -/
abbrev Region := Kind × Bool

/-- Whether there is a barrier at the end of each construct. -/
def barriers (rs : List Region) : List Bool := rs.map fun r => !r.2

/-! ## Blocks -/

/-- The words of which the name of a construct consists. -/
inductive Word
  | parallel | for | simd | masked | taskloop | sections | section | task | single | critical | master
  | target | teams | distribute
  deriving DecidableEq, Repr

/-- The constructs that the grammar of pyccel accepts (parser/grammar/openmp.tx 12-85): the first word
and the combined ones. -/
def constructs : List (Word × List Word) :=
  let dist := [[], [Word.simd], [.parallel, .for], [.parallel, .for, .simd]]
  [(.for, []), (.for, [.simd]), (.simd, []), (.taskloop, []), (.distribute, []), (.distribute, [.simd]),
   (.task, []), (.single, []), (.critical, []), (.master, []), (.sections, []), (.section, []),
   (.masked, []), (.masked, [.taskloop]), (.masked, [.taskloop, .simd]),
   (.parallel, []), (.parallel, [.for]), (.parallel, [.for, .simd]), (.parallel, [.masked]),
   (.parallel, [.masked, .taskloop]), (.parallel, [.masked, .taskloop, .simd]), (.parallel, [.sections]),
   (.teams, [])] ++ dist.map (fun d => (.teams, .distribute :: d)) ++
  [(.target, []), (.target, [.parallel]), (.target, [.parallel, .for]), (.target, [.parallel, .for, .simd]),
   (.target, [.teams])] ++ dist.map (fun d => (.target, .teams :: .distribute :: d))

/-- Constructs that belong to the loop that follows; the others belong to the statements up to the
`end`. -/
def isLoop (c : Word × List Word) : Bool :=
  (c.1 :: c.2).any fun w => w == .for || w == .simd || w == .taskloop || w == .distribute

/-- A block with annotations. -/
inductive Item
  | stmt (n : Nat)
  /-- a loop with an annotation -/
  | loop (c : Word × List Word) (n : Nat)
  /-- an annotation, statements, and the annotation `end` -/
  | region (c : Word × List Word) (body : List Item)
  /-- `critical (name)`, statements, and `end critical (name)` -/
  | critical (name : List Char) (body : List Item)

/-- C text: statements, pragmas and braces. -/
inductive Tok
  | stmt (n : Nat)
  | pragma (c : Word × List Word)
  | critical (name : List Char)
  | open
  | close
  deriving DecidableEq, Repr

mutual
/-- What C requires: a pragma stands before the loop, or before a block in braces. -/
def right : Item → List Tok
  | .stmt n => [.stmt n]
  | .loop c n => [.pragma c, .stmt n]
  | .region c b => .pragma c :: .open :: (rightAll b ++ [.close])
  | .critical name b => .critical name :: .open :: (rightAll b ++ [.close])

def rightAll : List Item → List Tok
  | [] => []
  | i :: r => right i ++ rightAll r
end

mutual
/-- Loops have constructs for loops, regions the others, as pyccel and OpenMP require; `P` and `Q` are further
requirements on constructs and names. -/
def wellFormed (P : Word × List Word → Prop) (Q : List Char → Prop) : Item → Prop
  | .stmt _ => True
  | .critical name b => Q name ∧ wellFormedAll P Q b
  | .loop c _ => c ∈ constructs ∧ isLoop c = true ∧ P c
  | .region c b => c ∈ constructs ∧ isLoop c = false ∧ P c ∧ wellFormedAll P Q b

def wellFormedAll (P : Word × List Word → Prop) (Q : List Char → Prop) : List Item → Prop
  | [] => True
  | i :: r => wellFormed P Q i ∧ wellFormedAll P Q r
end

/-- The words for loops. -/
def loopWords : List (List Char) :=
  [['f', 'o', 'r'], ['d', 'i', 's', 't', 'r', 'i', 'b', 'u', 't', 'e'],
   ['t', 'a', 's', 'k', 'l', 'o', 'o', 'p'], ['s', 'i', 'm', 'd']]

end Verif.Omp.Spec
