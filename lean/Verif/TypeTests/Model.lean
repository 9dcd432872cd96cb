import Verif.TypeTests.Spec
/-
Model for C176: pyccel replaces `isinstance` by `True` or `False` (`_build_PythonIsInstance`, pyccel/parser/semantic.py:8222-8306).
Not modelled: the symbolic types; the removal of branches whose condition is `False` (C26); functions with several implementations (C45).
-/
namespace Verif.TypeTests.Model
open Verif.TypeTests.Spec

/-- The types of pyccel (pyccel/ast/datatypes.py, pyccel/ast/numpytypes.py).  NumPy's boolean type is `PythonNativeBool`
(pyccel/ast/numpyext.py:498-512). -/
inductive Ty where
  | bool | int | float | complex | str | void
  | list (t : Ty) | set (t : Ty) | dict (k v : Ty)
  | htuple (t : Ty)
  /-- a tuple of elements with different types (the types of the elements are not modelled) -/
  | ituple
  | ndarray (t : Ty) (rank : Nat)
  | npInt (bits : Nat) | npFloat (bits : Nat) | npComplex (bits : Nat)
  | custom (c : Nat)
  | final (t : Ty)
deriving DecidableEq, Repr

/-- `underlying_type` (semantic.py:728-729).  `Final[Final[t]]` does not exist (datatypes.py:245-246). -/
def Ty.strip : Ty → Ty
  | .final t => t.strip
  | t => t

/-- What the second argument stands for: `static_type()` is a type, or a family of types (a Python class such as `HomogeneousListType`). -/
inductive Expected where
  | type (t : Ty)
  | family (c : Cls)
deriving DecidableEq, Repr

/-- `class_type` of a class of the user, `static_type()` of others (semantic.py:8273-8280; pyccel/ast/builtins.py:255, 300, 507, 601, 801, 936,
1054, 1170, 1854; numpyext.py:442-817, 3483; `np.bool` inherits from `PythonBool`).  `type(None)` cannot be written. -/
def expected : Cls → Option Expected
  | .bool => some (.type .bool)
  | .int => some (.type .int)
  | .float => some (.type .float)
  | .complex => some (.type .complex)
  | .str => some (.type .str)
  | .none => none
  | .list => some (.family .list)
  | .set => some (.family .set)
  | .dict => some (.family .dict)
  | .tuple => some (.family .tuple)
  | .ndarray => some (.family .ndarray)
  | .npBool => some (.type .bool)
  | .npInt b => if b ∈ [8, 16, 32, 64] then some (.type (.npInt b)) else none
  | .npFloat b => if b ∈ [32, 64] then some (.type (.npFloat b)) else none
  | .npComplex b => if b ∈ [64, 128] then some (.type (.npComplex b)) else none
  | .user c => some (.type (.custom c))

/-- `isinstance(obj.class_type, expected_type)` for a family (semantic.py:8282-8283): `Final[…]` inherits from the type
(datatypes.py:267-272). -/
def inFamily (t : Ty) (c : Cls) : Bool :=
  match t.strip, c with
  | .list _, .list => true
  | .set _, .set => true
  | .dict _ _, .dict => true
  | .htuple _, .tuple => true
  | .ituple, .tuple => true
  | .ndarray _ _, .ndarray => true
  | _, _ => false

/-- A class definition: that of a user's class, or a built-in one. -/
inductive Def where
  | user (c : Nat)
  | bool | int | float | complex | str
  /-- definitions without a type: lists, sets, dictionaries, tuples, arrays and the scalars of NumPy -/
  | other
deriving DecidableEq, Repr

/-- `get_cls_base` (semantic.py:706-741) and `get_builtin_cls_base` (pyccel/ast/class_defs.py:381-428); none: an exception. -/
def clsBase : Ty → Option Def
  | .bool => some .bool
  | .int => some .int
  | .float => some .float
  | .complex => some .complex
  | .str => some .str
  | .void => none
  | .custom c => some (.user c)
  | .final t => clsBase t
  | _ => some .other

/-- `cls_base.class_type` (class_defs.py:95-191). -/
def Def.type : Def → Option Ty
  | .user c => some (.custom c)
  | .bool => some .bool
  | .int => some .int
  | .float => some .float
  | .complex => some .complex
  | .str => some .str
  | .other => none

/-- `cls_base.superclasses` (class_defs.py:177-179). -/
def supers (bases : Nat → List Nat) : Def → List Def
  | .user c => (bases c).map .user
  | .bool => [.int]
  | _ => []

/-- The loop that collects `possible_types` (semantic.py:8289-8293): `pop()` takes the last element, `extend` adds at the end, so the list is held
in reverse order.  `none`: not finished. -/
def collect (bases : Nat → List Nat) : Nat → List Def → List Ty → Option (List Ty)
  | _, [], acc => some acc
  | 0, _ :: _, _ => none
  | n + 1, d :: stack, acc => collect bases n ((supers bases d).reverse ++ stack) (d.type.toList ++ acc)

/-- One class (semantic.py:8272-8306).  Types are compared after `strip`: `Final[t]` has the hash and the equality of `t`
(datatypes.py:254-258).  A type of NumPy has another hash than Python's, so `expected_type in possible_types` tells them apart, although
`==` does not (numpytypes.py:84-98).  The outer `Option`: the loop has not finished; the inner one: an error. -/
def single (bases : Nat → List Nat) (fuel : Nat) (t : Ty) (c : Cls) : Option (Option Bool) :=
  match expected c with
  | none => some none
  | some (.family f) => some (some (inFamily t f))
  | some (.type e) => match clsBase t with
    | none => some none
    | some d => (collect bases fuel [d] [t.strip]).map fun l => some (l.contains e)

/-- `PyccelOr.make_simplified` of the literals (semantic.py:8249-8271; pyccel/ast/operators.py:1532-1535). -/
def build (bases : Nat → List Nat) (fuel : Nat) (t : Ty) : Test → Option (Option Bool)
  | .cls c => single bases fuel t c
  | .nil => some (some false)
  | .cons a b => (build bases fuel t a).bind fun x => (build bases fuel t b).map fun y =>
    x.bind fun x => y.map fun y => x || y

/-- The classes of the objects that the wrapper accepts for a parameter of a scalar type (pyccel/stdlib/cwrapper/cwrapper.h:166-224: `PyFloat_Check` and
`PyComplex_Check` accept subclasses, `PyLong_CheckExact` does not; `PyIs_Bool` accepts NumPy's booleans), of a class
(`PyObject_TypeCheck`, pyccel/codegen/wrapper/c_to_python_wrapper.py:478; subclasses of it are not modelled), or of an optional parameter. -/
def accepts (opt : Bool) (t : Ty) (c : Cls) : Bool :=
  (opt && c == .none) || match t.strip, c with
  | .bool, .bool => true
  | .bool, .npBool => true
  | .int, .int => true
  | .float, .float => true
  | .float, .npFloat 64 => true
  | .complex, .complex => true
  | .complex, .npComplex 128 => true
  | .str, .str => true
  | .npInt a, .npInt b => a == b
  | .npFloat a, .npFloat b => a == b
  | .npComplex a, .npComplex b => a == b
  | .list _, .list => true
  | .set _, .set => true
  | .dict _ _, .dict => true
  | .htuple _, .tuple => true
  | .ituple, .tuple => true
  | .ndarray _ _, .ndarray => true
  | .custom a, .user b => a == b
  | _, _ => false

/-- The class that is written in the annotation. -/
def own (t : Ty) : Cls :=
  match t.strip with
  | .bool => .bool
  | .int => .int
  | .float => .float
  | .complex => .complex
  | .str => .str
  | .void => .none
  | .list _ => .list
  | .set _ => .set
  | .dict _ _ => .dict
  | .htuple _ | .ituple => .tuple
  | .ndarray _ _ => .ndarray
  | .npInt b => .npInt b
  | .npFloat b => .npFloat b
  | .npComplex b => .npComplex b
  | .custom c => .user c
  | .final _ => .none

end Verif.TypeTests.Model
