/-!
# Types as the user writes them

`Ty` is a type annotation with nothing but its meaning: no objects, no identities, no history.
-/

namespace Verif.Cache.Spec

/-- The memory layout of an array. -/
inductive Order | c | f
  deriving DecidableEq, Repr

/-- The kinds of numbers. -/
inductive Kind | int | float | complex
  deriving DecidableEq, Repr

/-- A type without parameters: a number type of Python, a number type of NumPy with its number of
bytes (per part), or one of the other types (`bool`, a class, …). -/
inductive Atom
  | native (k : Kind)
  | numpy (k : Kind) (bytes : Nat)
  | other (n : Nat)
  deriving DecidableEq, Repr

/-- The numbers that a type holds: those of `np.int64`, `np.float64` and `np.complex128` are those of
`int`, `float` and `complex`. -/
def Atom.value : Atom → Atom
  | .numpy k 8 => .native k
  | a => a

/-- A type annotation.  `generic` is the type of unknown things (such as the elements of `[]`), `inhom` is
`tuple[A, B, …]` and `tuple` is `tuple[A, ...]`. -/
inductive Ty
  | basic (n : Atom)
  | generic
  | string
  | final (t : Ty)
  | tuple (t : Ty)
  | list (t : Ty)
  | set (t : Ty)
  | inhom (ts : List Ty)
  | dict (k v : Ty)
  | array (n : Atom) (rank : Nat) (order : Option Order)

namespace Ty

/-- The type without a `Final` at the outside. -/
def base : Ty → Ty
  | final t => base t
  | t => t

mutual
/-- What an annotation means: `Final[Final[A]]` is `Final[A]` and an array of rank 0 is a scalar. -/
def meaning : Ty → Ty
  | final t => final (base (meaning t))
  | tuple t => tuple (meaning t)
  | list t => list (meaning t)
  | set t => set (meaning t)
  | inhom ts => inhom (meanings ts)
  | dict k v => dict (meaning k) (meaning v)
  | array n 0 _ => basic n
  | array n (r + 1) o => array n (r + 1) o
  | basic n => basic n
  | generic => generic
  | string => string
termination_by structural t => t
/-- `meaning` for each type of a list. -/
def meanings : List Ty → List Ty
  | [] => []
  | t :: ts => meaning t :: meanings ts
termination_by structural ts => ts
end

mutual
/-- The type with each number type replaced by the type of Python that holds the same numbers. -/
def value : Ty → Ty
  | final t => final (value t)
  | tuple t => tuple (value t)
  | list t => list (value t)
  | set t => set (value t)
  | inhom ts => inhom (values ts)
  | dict k v => dict (value k) (value v)
  | array n r o => array n.value r o
  | basic n => basic n.value
  | generic => generic
  | string => string
termination_by structural t => t
/-- `value` for each type of a list. -/
def values : List Ty → List Ty
  | [] => []
  | t :: ts => value t :: values ts
termination_by structural ts => ts
end

mutual
/-- Does the type satisfy `p` in each place? -/
def every (p : Ty → Bool) : Ty → Bool
  | final t => p (final t) && every p t
  | tuple t => p (tuple t) && every p t
  | list t => p (list t) && every p t
  | set t => p (set t) && every p t
  | inhom ts => p (inhom ts) && everys p ts
  | dict k v => p (dict k v) && every p k && every p v
  | array n r o => p (array n r o)
  | basic n => p (basic n)
  | generic => p generic
  | string => p string
termination_by structural t => t
/-- `every` for each type of a list. -/
def everys (p : Ty → Bool) : List Ty → Bool
  | [] => true
  | t :: ts => every p t && everys p ts
termination_by structural ts => ts
end

/-- No `Final` in the type. -/
def plain : Ty → Bool := every fun | final _ => false | _ => true

/-- No `Final`, except perhaps one at the outside: `Final[list[int]]`, not `list[Final[int]]`. -/
def outer : Ty → Bool
  | final t => plain t
  | t => plain t

/-- No `tuple[A, B, …]` in the type. -/
def noInhom : Ty → Bool := every fun | inhom _ => false | _ => true

/-- No unknown type in the type. -/
def known : Ty → Bool := every fun | generic => false | _ => true

/-- Is this `Final` of a type without parameters? -/
def finalBasic : Ty → Bool
  | final t => match meaning t with
    | basic _ => true
    | _ => false
  | _ => false

mutual
/-- The number of parametrised types in an annotation. -/
def size : Ty → Nat
  | final t => size t + 1
  | tuple t => size t + 1
  | list t => size t + 1
  | set t => size t + 1
  | inhom ts => sizes ts + 1
  | dict k v => size k + size v + 1
  | array _ _ _ => 1
  | basic _ => 0
  | generic => 0
  | string => 0
termination_by structural t => t
/-- The number of parametrised types in a list of annotations. -/
def sizes : List Ty → Nat
  | [] => 0
  | t :: ts => size t + sizes ts
termination_by structural ts => ts
end

end Ty

end Verif.Cache.Spec
