/-
Specification for C177 – C179: Python programs as they are read by Python (indented lines, tests on the types of arguments, assignments to arrays)
and the programs that they have to stand for.
-/
namespace Verif.PyOut.Spec

/-! ## Tests on arguments -/

/-- Classes of scalars (and of other objects without structure). -/
inductive Cls where
  | bool | int | float | complex | str | none
  | npInt (bits : Nat)
  | npFloat (bits : Nat)
  | npComplex (bits : Nat)
deriving DecidableEq, Repr

/-- `issubclass(a, b)`: `bool` is a subclass of `int`, `np.float64` of `float`, `np.complex128` of `complex`. -/
def subclass (a b : Cls) : Bool :=
  a == b || (a == .bool && b == .int) || (a == .npFloat 64 && b == .float) || (a == .npComplex 128 && b == .complex)

/-- Kinds of sequences. -/
inductive Kind where
  | list | set | tuple
deriving DecidableEq, Repr

inductive Order where
  | C | F
deriving DecidableEq, Repr

def Order.flip : Order → Order
  | .C => .F
  | .F => .C

/-- Values, as far as tests on types look at them. -/
inductive Val where
  | obj (c : Cls)
  /-- an array: type of the elements, number of dimensions, and whether it is contiguous in the order of C or of Fortran -/
  | array (dtype : Cls) (ndim : Nat) (c f : Bool)
  | seq (k : Kind) (elems : List Val)

/-- Declared types. -/
inductive Ty where
  | num (c : Cls)
  | array (dtype : Cls) (rank : Nat) (order : Option Order)
  | seq (k : Kind) (elem : Ty)
  /-- other types (strings, dictionaries, …) -/
  | other (c : Nat)
deriving DecidableEq, Repr

/-- The value has exactly the declared type. -/
def Has (v : Val) : Ty → Prop
  | .num c => v = .obj c
  | .array dt r o => ∃ c f, v = .array dt r c f ∧ (o = some .C → c = true) ∧ (o = some .F → f = true)
  | .seq k t => ∃ es, v = .seq k es ∧ ∀ e ∈ es, Has e t
  | .other _ => False

/-- The value is accepted for the declared type if subclasses are accepted too. -/
def Fits (v : Val) : Ty → Prop
  | .num c => ∃ d, v = .obj d ∧ subclass d c = true
  | .array dt r o => ∃ c f, v = .array dt r c f ∧ (o = some .C → c = true) ∧ (o = some .F → f = true)
  | .seq k t => ∃ es, v = .seq k es ∧ ∀ e ∈ es, Fits e t
  | .other _ => False

/-- No value that has exactly the type on the left can be taken for one of the type on the right. -/
def Apart : Ty → Ty → Prop
  | .num c, .num d => subclass c d = false
  | .array dt r _, .array dt' r' _ => dt ≠ dt' ∨ r ≠ r'
  | .seq k _, .seq k' _ => k ≠ k'
  | .other _, _ => True
  | _, .other _ => True
  | .num _, .array .. => True
  | .num _, .seq .. => True
  | .array .., .num _ => True
  | .array .., .seq .. => True
  | .seq .., .num _ => True
  | .seq .., .array .. => True

/-- Types for which tests can be written. -/
def Testable : Ty → Prop
  | .num _ => True
  | .array .. => True
  | .seq _ t => Testable t
  | .other _ => False

/-- Tests in Python, about variables (arguments are `0, 1, …`). -/
inductive Test where
  /-- `isinstance(x, c)` for scalars -/
  | isNum (x : Nat) (c : Cls)
  /-- `isinstance(x, ndarray)` -/
  | isArray (x : Nat)
  /-- `isinstance(x, list)`, … -/
  | isSeq (x : Nat) (k : Kind)
  /-- `x.dtype is result_type(c)` -/
  | dtype (x : Nat) (c : Cls)
  /-- `x.ndim == n` -/
  | ndim (x : Nat) (n : Nat)
  /-- `x.flags['C_CONTIGUOUS']` -/
  | flag (x : Nat) (o : Order)
  | and (a b : Test)
  | or (a b : Test)
  /-- `all(t for y in x)` -/
  | all (t : Test) (y x : Nat)
deriving DecidableEq, Repr

/-- `all(f(e) for e in l)`; `none`: an exception. -/
def allTest (f : Val → Option Bool) : List Val → Option Bool
  | [] => some true
  | e :: l => (f e).bind fun b => if b then allTest f l else some false

/-- The value of a test; `none`: an exception (an attribute that the object does not have). -/
def Test.eval : Test → (Nat → Val) → Option Bool
  | .isNum x c, env => match env x with
    | .obj d => some (subclass d c)
    | _ => some false
  | .isArray x, env => match env x with
    | .array .. => some true
    | _ => some false
  | .isSeq x k, env => match env x with
    | .seq k' _ => some (k' == k)
    | _ => some false
  | .dtype x c, env => match env x with
    | .array d _ _ _ => some (d == c)
    | _ => none
  | .ndim x n, env => match env x with
    | .array _ m _ _ => some (m == n)
    | _ => none
  | .flag x o, env => match env x with
    | .array _ _ c f => some (match o with | .C => c | .F => f)
    | _ => none
  | .and a b, env => (a.eval env).bind fun v => if v then b.eval env else some false
  | .or a b, env => (a.eval env).bind fun v => if v then some true else b.eval env
  | .all t y x, env => match env x with
    | .seq _ es => allTest (fun e => t.eval (fun z => if z = y then e else env z)) es
    | _ => none

/-- One of the functions that stand for the declared types: its types, the imports in its text and the rest of its text. -/
structure Func where
  types : List Ty
  imports : List Nat
  body : Nat
deriving DecidableEq, Repr

/-- A printed function: the imports, then a body or `if … elif …`. -/
inductive Printed where
  | plain (imports : List Nat) (body : Nat)
  | chain (imports : List Nat) (branches : List (Test × Nat))
deriving DecidableEq, Repr

/-- Takes the first branch whose test holds; `some none`: no branch (the function returns `None`), `none`: an exception. -/
def choose (env : Nat → Val) : List (Test × Nat) → Option (Option Nat)
  | [] => some none
  | (t, b) :: l => (t.eval env).bind fun v => if v then some (some b) else choose env l

/-- The body that is run. -/
def Printed.run (env : Nat → Val) : Printed → Option (Option Nat)
  | .plain _ b => some (some b)
  | .chain _ l => choose env l

/-- The imports that are executed. -/
def Printed.imports : Printed → List Nat
  | .plain i _ => i
  | .chain i _ => i

/-- The arguments have exactly the declared types. -/
def Matches (env : Nat → Val) (f : Func) : Prop := ∀ k t, f.types[k]? = some t → Has (env k) t

/-- The arguments are accepted for the declared types. -/
def Accepted (env : Nat → Val) (f : Func) : Prop := ∀ k t, f.types[k]? = some t → Fits (env k) t

/-! ## Blocks -/

/-- Conditions: the literal `True`, or an expression. -/
inductive Cond where
  | tt
  | expr (n : Nat)
deriving DecidableEq, Repr

/-- Lines that open a block. -/
inductive Head where
  /-- `for … in …:`, `while …:` -/
  | loop (n : Nat)
  | if_ (c : Cond)
  | elif_ (c : Cond)
  | else_
  | def_ (n : Nat)
deriving DecidableEq, Repr

/-- The words of a line. -/
inductive Word where
  | stmt (s : Nat)
  | pass
  | doc
  | head (h : Head)
  | comment
  | blank
deriving DecidableEq, Repr

structure Line where
  indent : Nat
  word : Word
deriving DecidableEq, Repr

/-- Statements as Python reads them; a docstring is a statement without effect, like `pass`. -/
inductive Tree where
  | nil
  | stmt (s : Nat) (rest : Tree)
  | pass (rest : Tree)
  | block (h : Head) (body : Tree) (rest : Tree)
deriving DecidableEq, Repr

/-- Lines that Python skips. -/
def Word.skipped : Word → Bool
  | .comment => true
  | .blank => true
  | _ => false

/-- How Python reads lines at indentation `n`: a line that opens a block is followed by at least one statement that is indented further, and all the
statements of a block have the same indentation. -/
inductive Reads : Nat → List Line → Tree → Prop where
  | nil (n : Nat) : Reads n [] .nil
  | skip {n : Nat} (k : Nat) {w : Word} {ls : List Line} {t : Tree} (hw : w.skipped = true) (h : Reads n ls t) : Reads n (⟨k, w⟩ :: ls) t
  | stmt {n s : Nat} {ls : List Line} {t : Tree} (h : Reads n ls t) : Reads n (⟨n, .stmt s⟩ :: ls) (.stmt s t)
  | pass {n : Nat} {ls : List Line} {t : Tree} (h : Reads n ls t) : Reads n (⟨n, .pass⟩ :: ls) (.pass t)
  | doc {n : Nat} {ls : List Line} {t : Tree} (h : Reads n ls t) : Reads n (⟨n, .doc⟩ :: ls) (.pass t)
  | block {n m : Nat} {h : Head} {body rest : List Line} {b t : Tree} (hm : n < m) (hb : Reads m body b) (hne : b ≠ .nil)
      (hr : Reads n rest t) : Reads n (⟨n, .head h⟩ :: (body ++ rest)) (.block h b t)

/-- `elif` and `else` come right after `if` or `elif`. -/
def Tree.Grammatical : Bool → Tree → Prop
  | _, .nil => True
  | _, .stmt _ r => r.Grammatical false
  | _, .pass r => r.Grammatical false
  | o, .block h b r => (match h with
      | .elif_ _ => o = true
      | .else_ => o = true
      | _ => True) ∧ b.Grammatical false ∧ r.Grammatical (match h with
      | .if_ _ => true
      | .elif_ _ => true
      | _ => false)

/-- The lines are a Python program with these statements. -/
def IsProgram (ls : List Line) (t : Tree) : Prop := Reads 0 ls t ∧ t.Grammatical false

mutual
/-- Programs after the semantic stage: statements (`shown`: those that are printed; memory management is not), comments, loops and `if` blocks. -/
inductive Code where
  | nil
  | stmt (s : Nat) (rest : Code)
  | pass (rest : Code)
  | silent (rest : Code)
  | comment (rest : Code)
  | loop (n : Nat) (body : Code) (rest : Code)
  | ifs (chain : Chain) (rest : Code)
/-- The sections of an `if` block, in order. -/
inductive Chain where
  | nil
  | cons (c : Cond) (body : Code) (rest : Chain)
end

/-- How a statement ends. -/
inductive Flow where
  | next | brk | cont | ret
deriving DecidableEq, Repr

/-- What statements, conditions and the heads of loops do. -/
structure Sem (σ : Type) where
  act : Nat → σ → σ → Flow → Prop
  cond : Nat → σ → Bool
  /-- sets up a loop -/
  start : Nat → σ → σ
  /-- one more iteration, if there is one -/
  step : Nat → σ → Option σ

/-- Effects: state before, state after, and how it ended. -/
abbrev Effect (σ : Type) := σ → σ → Flow → Prop

def skip {σ : Type} : Effect σ := fun a b f => a = b ∧ f = .next

/-- One after the other; the second is run only if the first ended normally. -/
def seq {σ : Type} (p q : Effect σ) : Effect σ := fun a c f =>
  (∃ b, p a b .next ∧ q b c f) ∨ (p a c f ∧ f ≠ .next)

def branch {σ : Type} (c : σ → Bool) (p q : Effect σ) : Effect σ := fun a b f => if c a then p a b f else q a b f

/-- The iterations of a loop. -/
inductive Iter {σ : Type} (step : σ → Option σ) (body : Effect σ) : Effect σ where
  | done {a : σ} (h : step a = none) : Iter step body a a .next
  | more {a a' b c : σ} {g f : Flow} (h : step a = some a') (hb : body a' b g) (hg : g = .next ∨ g = .cont) (hr : Iter step body b c f) :
      Iter step body a c f
  | brk {a a' b : σ} (h : step a = some a') (hb : body a' b .brk) : Iter step body a b .next
  | ret {a a' b : σ} (h : step a = some a') (hb : body a' b .ret) : Iter step body a b .ret

def loop {σ : Type} (S : Sem σ) (n : Nat) (body : Effect σ) : Effect σ := fun a b f => Iter (S.step n) body (S.start n a) b f

def Cond.holds {σ : Type} (S : Sem σ) : Cond → σ → Bool
  | .tt, _ => true
  | .expr n, a => S.cond n a

mutual
/-- What a program does. -/
def Code.means {σ : Type} (S : Sem σ) : Code → Effect σ
  | .nil => Spec.skip
  | .stmt s r => seq (S.act s) (r.means S)
  | .pass r => r.means S
  | .silent r => r.means S
  | .comment r => r.means S
  | .loop n b r => seq (Spec.loop S n (b.means S)) (r.means S)
  | .ifs c r => seq (c.means S) (r.means S)
/-- The first section whose condition holds is run. -/
def Chain.means {σ : Type} (S : Sem σ) : Chain → Effect σ
  | .nil => Spec.skip
  | .cons c b r => branch (c.holds S) (b.means S) (r.means S)
end

/-- What the statements that Python has read do (`.1`), and what is done by the `elif` and `else` at the beginning of them (`.2`), which is run if
the conditions before them do not hold. -/
def Tree.sem {σ : Type} (S : Sem σ) : Tree → Effect σ × Effect σ
  | .nil => (Spec.skip, Spec.skip)
  | .stmt s r => (seq (S.act s) (r.sem S).1, Spec.skip)
  | .pass r => ((r.sem S).1, Spec.skip)
  | .block (.loop n) b r => (seq (Spec.loop S n (b.sem S).1) (r.sem S).1, Spec.skip)
  | .block (.if_ c) b r => (seq (branch (c.holds S) (b.sem S).1 (r.sem S).2) (r.sem S).1, Spec.skip)
  | .block (.elif_ c) b r => ((r.sem S).1, branch (c.holds S) (b.sem S).1 (r.sem S).2)
  | .block .else_ b r => ((r.sem S).1, (b.sem S).1)
  | .block (.def_ _) _ r => ((r.sem S).1, Spec.skip)

def Tree.means {σ : Type} (S : Sem σ) (t : Tree) : Effect σ := (t.sem S).1

/-- The functions that a program defines. -/
def Tree.functions : Tree → List (Nat × Tree)
  | .nil => []
  | .stmt _ r => r.functions
  | .pass r => r.functions
  | .block (.def_ n) b r => (n, b) :: r.functions
  | .block _ _ r => r.functions

mutual
/-- Something is printed for one of the statements. -/
def Code.shows : Code → Bool
  | .nil => false
  | .stmt .. => true
  | .pass _ => true
  | .silent r => r.shows
  | .comment r => r.shows
  | .loop .. => true
  | .ifs c r => c.shows || r.shows
def Chain.shows : Chain → Bool
  | .nil => false
  | .cons .. => true
end

mutual
/-- Every block is empty or contains a statement for which something is printed. -/
def Code.Filled : Code → Prop
  | .nil => True
  | .stmt _ r => r.Filled
  | .pass r => r.Filled
  | .silent r => r.Filled
  | .comment r => r.Filled
  | .loop _ b r => (b = .nil ∨ b.shows = true) ∧ b.Filled ∧ r.Filled
  | .ifs c r => c.Filled ∧ r.Filled
def Chain.Filled : Chain → Prop
  | .nil => True
  | .cons _ b r => (b = .nil ∨ b.shows = true) ∧ b.Filled ∧ r.Filled
end

/-- A function: its name, whether it has a docstring, and its body. -/
structure Def where
  name : Nat
  doc : Bool
  body : Code

mutual
/-- Programs as they are written. -/
inductive Src where
  | nil
  | stmt (s : Nat) (rest : Src)
  | pass (rest : Src)
  | comment (rest : Src)
  /-- a statement for which nothing is left (an import, a call that is ignored) -/
  | empty (rest : Src)
  | loop (n : Nat) (body : Src) (rest : Src)
  | ifs (chain : SrcChain) (rest : Src)
/-- Sections with a condition (`some b`: one whose value is known when the program is compiled). -/
inductive SrcChain where
  | nil
  | cons (known : Option Bool) (c : Nat) (body : Src) (rest : SrcChain)
end

mutual
/-- There is a statement that is neither a comment nor left out, and no condition is known to be false. -/
def Src.plain : Src → Bool
  | .nil => true
  | .stmt _ r => r.plain
  | .pass r => r.plain
  | .comment r => r.plain
  | .empty r => r.plain
  | .loop _ b r => b.solid && b.plain && r.plain
  | .ifs c r => c.isCons && c.plain && r.plain
def SrcChain.plain : SrcChain → Bool
  | .nil => true
  | .cons k _ b r => k != some false && b.solid && b.plain && r.plain
/-- One of the statements is an ordinary one. -/
def Src.solid : Src → Bool
  | .nil => false
  | .stmt .. => true
  | .pass _ => true
  | .comment r => r.solid
  | .empty r => r.solid
  | .loop .. => true
  | .ifs _ _ => true
def SrcChain.isCons : SrcChain → Bool
  | .nil => false
  | .cons .. => true
end

/-! ## Assignments to arrays -/

/-- Arrays. -/
structure Arr (α : Type) where
  shape : List Nat
  at_ : List Nat → α

/-- `x.T` -/
def Arr.transpose {α : Type} (x : Arr α) : Arr α := ⟨x.shape.reverse, fun i => x.at_ i.reverse⟩

/-- The right-hand sides `x` and `x.T`. -/
inductive Rhs where
  | var | tr
deriving DecidableEq, Repr

/-- The value of the right-hand side. -/
def Rhs.value {α : Type} (x : Arr α) : Rhs → Arr α
  | .var => x
  | .tr => x.transpose

/-- The left-hand sides: `y = …` for a new name, and `y[:, :] = …` for an array that exists, with its order. -/
inductive Lhs where
  | name
  | slice (o : Order)
deriving DecidableEq, Repr

end Verif.PyOut.Spec
