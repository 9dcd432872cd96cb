import Verif.Types.Model
import Verif.Calls.Spec

/-
Specification for C111, C112, C113: the types of pyccel, what a type annotation means, and Python's parameter lists.
-/
namespace Verif.Stubs
open Verif.Types.Spec (Num)

/-- Text. -/
abbrev Txt := List Char

/-- Layouts of arrays. -/
inductive Order | C | F
deriving DecidableEq, Repr

/-- Types: numbers, strings, classes, arrays (with the number of dimensions and the layout), `tuple[t, ...]`, `tuple[t, u]`, `list[t]`, `set[t]`,
`dict[k, v]` and `Final[t]`. -/
inductive Ty where
  | num (t : Num)
  | str
  | cls (n : Txt)
  | arr (t : Num) (rank : Nat) (o : Option Order)
  | htup (t : Ty)
  | tup (ts : List Ty)
  | list (t : Ty)
  | set (t : Ty)
  | dict (k v : Ty)
  | final (t : Ty)

mutual
/-- Equality of types is decidable. -/
def decTy (a b : Ty) : Decidable (a = b) := by
  cases a <;> cases b <;> first
    | (refine isFalse ?_; intro h; cases h; done)
    | exact decidable_of_iff _ (Iff.of_eq (Ty.num.injEq _ _).symm)
    | exact isTrue rfl
    | exact decidable_of_iff _ (Iff.of_eq (Ty.cls.injEq _ _).symm)
    | exact decidable_of_iff _ (Iff.of_eq (Ty.arr.injEq _ _ _ _ _ _).symm)
    | skip
  case htup.htup t u => exact match decTy t u with
    | isTrue h => isTrue (h ▸ rfl)
    | isFalse h => isFalse (fun e => h (Ty.htup.inj e))
  case tup.tup t u => exact match decTys t u with
    | isTrue h => isTrue (h ▸ rfl)
    | isFalse h => isFalse (fun e => h (Ty.tup.inj e))
  case list.list t u => exact match decTy t u with
    | isTrue h => isTrue (h ▸ rfl)
    | isFalse h => isFalse (fun e => h (Ty.list.inj e))
  case set.set t u => exact match decTy t u with
    | isTrue h => isTrue (h ▸ rfl)
    | isFalse h => isFalse (fun e => h (Ty.set.inj e))
  case dict.dict k v k' v' => exact match decTy k k', decTy v v' with
    | isTrue h, isTrue h' => isTrue (h ▸ h' ▸ rfl)
    | isFalse h, _ => isFalse (fun e => h (Ty.dict.inj e).1)
    | _, isFalse h => isFalse (fun e => h (Ty.dict.inj e).2)
  case final.final t u => exact match decTy t u with
    | isTrue h => isTrue (h ▸ rfl)
    | isFalse h => isFalse (fun e => h (Ty.final.inj e))
/-- Equality of lists of types is decidable. -/
def decTys (a b : List Ty) : Decidable (a = b) := by
  cases a <;> cases b
  · exact isTrue rfl
  · exact isFalse (by intro h; cases h)
  · exact isFalse (by intro h; cases h)
  · rename_i t ts u us
    exact match decTy t u, decTys ts us with
    | isTrue h, isTrue h' => isTrue (h ▸ h' ▸ rfl)
    | isFalse h, _ => isFalse (fun e => h (List.cons.inj e).1)
    | _, isFalse h => isFalse (fun e => h (List.cons.inj e).2)
end

instance : DecidableEq Ty := decTy

/-- How the memory of a variable is managed. -/
inductive Mem | heap | stack | alias
deriving DecidableEq, Repr

/-- What is known of a variable or an argument: its type and memory, or that it is a function with or without result. -/
inductive Ann where
  | var (t : Ty) (m : Mem)
  | proc (args : List Ann)
  | func (res : Ann) (args : List Ann)

/-- The name at the beginning of an annotation, or a string in it. -/
inductive Dt | id (n : Txt) | str (s : Txt)
deriving DecidableEq, Repr

mutual
/-- An annotation: `x`, or `x[a, b]` with an optional `(order=o)`. -/
inductive Syn where
  | name (d : Dt)
  | idx (d : Dt) (args : List SArg) (o : Option Txt)
/-- An argument in brackets: `:`, `...` or an annotation. -/
inductive SArg where
  | slice
  | ell
  | ty (s : Syn)
end

/-- What a name stands for in annotations: a number type, `str`, a class, a union of types named with `TypeAlias`, `list`, `set`, `dict`, `tuple`, `Final` or
`Annotated`. -/
inductive Obj where
  | num (t : Num)
  | str
  | cls (n : Txt)
  | alias (ts : List Ty)
  | list | set | dict | tuple | final | annotated
deriving DecidableEq

/-- The type of the elements of an array that is declared with a type of Python. -/
def npT : Num → Num
  | .pint => .i64
  | .pfloat => .f64
  | .pcomplex => .c128
  | t => t

/-- The layout meant by an annotation for an array with `rank` dimensions. -/
def MeansOrder (rank : Nat) (o : Option Txt) (r : Option Order) : Prop :=
  if rank < 2 then r = none
  else match o with
    | none => r = some .C
    | some s => (s = ['C'] ∨ s = ['c']) ∧ r = some .C ∨ (s = ['F'] ∨ s = ['f']) ∧ r = some .F

/-- `Means env s t`: the type `t` is one of those that the annotation `s` allows.  A name of a union stands for any of its members, wherever it appears. -/
inductive Means (env : Txt → Option Obj) : Syn → Ty → Prop where
  | num {x t} : env x = some (.num t) → Means env (.name (.id x)) (.num t)
  | str {x} : env x = some .str → Means env (.name (.id x)) .str
  | cls {x c} : env x = some (.cls c) → Means env (.name (.id x)) (.cls c)
  | alias {x ts t} : env x = some (.alias ts) → t ∈ ts → Means env (.name (.id x)) t
  | arr {x t rank o r} : Means env (.name (.id x)) (.num t) → rank ≠ 0 → MeansOrder rank o r →
      Means env (.idx (.id x) (List.replicate rank .slice) o) (.arr (npT t) rank r)
  | list {x s t} : env x = some .list → Means env s t → Means env (.idx (.id x) [.ty s] none) (.list t)
  | set {x s t} : env x = some .set → Means env s t → Means env (.idx (.id x) [.ty s] none) (.set t)
  | htup {x s t} : env x = some .tuple → Means env s t → Means env (.idx (.id x) [.ty s, .ell] none) (.htup t)
  | dict {x s u k v} : env x = some .dict → Means env s k → Means env u v → Means env (.idx (.id x) [.ty s, .ty u] none) (.dict k v)
  | tup {x} {ps : List (Syn × Ty)} : env x = some .tuple → (∀ p : Syn × Ty, p ∈ ps → Means env p.1 p.2) →
      Means env (.idx (.id x) (ps.map (fun p => .ty p.1)) none) (.tup (ps.map (·.2)))

/-- The elements of a parameter list: a parameter with an optional default, `/`, `*`, `*args` and `**kwargs`. -/
inductive Item (V : Type) where
  | param (n : String) (d : Option V)
  | slash
  | star
  | vararg (n : String)
  | kwarg (n : String)
deriving DecidableEq

/-- Ordinary parameters up to the first other element. -/
def plain {V : Type} : List (Item V) → List (String × Option V) × List (Item V)
  | .param n d :: l => let r := plain l; ((n, d) :: r.1, r.2)
  | l => ([], l)

/-- The defaults of positional parameters: once a parameter has one, all later ones need one. -/
def defaults {V : Type} : List (String × Option V) → Option (List V)
  | [] => some []
  | (_, none) :: l => defaults l
  | (_, some d) :: l => if l.all (·.2.isSome) then some (d :: l.filterMap (·.2)) else none

/-- The end of a parameter list: `*` with at least one parameter or `*args`, then keyword parameters, then `**kwargs`. -/
def pyTail {V : Type} (l : List (Item V)) : Option (Option String × List (String × Option V) × Option String) :=
  match l with
  | [] => some (none, [], none)
  | [.kwarg n] => some (none, [], some n)
  | .star :: l => match plain l with
    | ([], _) => none
    | (ks, []) => some (none, ks, none)
    | (ks, [.kwarg n]) => some (none, ks, some n)
    | _ => none
  | .vararg v :: l => match plain l with
    | (ks, []) => some (some v, ks, none)
    | (ks, [.kwarg n]) => some (some v, ks, some n)
    | _ => none
  | _ => none

/-- Does the list begin with `/`? -/
def leads {V : Type} : List (Item V) → Bool
  | .slash :: _ => true
  | _ => false

/-- The positional-only parameters, the ordinary ones and the rest. -/
def positional {V : Type} (l : List (Item V)) : List (String × Option V) × List (String × Option V) × List (Item V) :=
  match (plain l).2 with
  | .slash :: r => ((plain l).1, (plain r).1, (plain r).2)
  | r => ([], (plain l).1, r)

/-- Python's grammar of parameter lists: `/` comes once, after at least one parameter and before `*`.  `none` is a syntax error. -/
def pyParams {V : Type} (l : List (Item V)) : Option (Calls.PyArguments V) :=
  if leads l then none
  else match defaults ((positional l).1 ++ (positional l).2.1), pyTail (positional l).2.2 with
    | some ds, some (va, ks, kw) =>
      some ⟨(positional l).1.map (·.1), (positional l).2.1.map (·.1), va, ks.map (·.1), ks.map (·.2), kw, ds⟩
    | _, _ => none

end Verif.Stubs
