/-!
# Calling functions: what Python does

The specification used by C43, C44 and C45.  It follows the Python language
reference (8.7 "Function definitions", 6.3.4 "Calls") and does not mention
Pyccel.
-/

namespace Verif.Calls

/-- What the Python grammar puts in a `def` statement's parameter list: the
fields of `ast.arguments`.  `defaults` holds the defaults of the *last*
parameters of `posonly ++ args`; `kwDefaults` has one (possibly absent) default
per keyword-only parameter. -/
structure PyArguments (V : Type) where
  posonly : List String
  args : List String
  vararg : Option String
  kwonly : List String
  kwDefaults : List (Option V)
  kwarg : Option String
  defaults : List V

/-- The conditions enforced by Python's own parser. -/
structure PyArguments.Wf {V : Type} (a : PyArguments V) : Prop where
  defaultsFit : a.defaults.length ≤ a.posonly.length + a.args.length
  kwDefaultsFit : a.kwDefaults.length = a.kwonly.length
  namesDistinct : (a.posonly ++ a.args ++ a.vararg.toList ++ a.kwonly ++ a.kwarg.toList).Nodup
  namesNonempty : ∀ n ∈ a.args ++ a.kwonly, n ≠ ""

namespace Spec

/-- Python's rule for defaults: right-aligned on the positional parameters. -/
def alignRight {V : Type} (names : List String) (ds : List V) : List (String × Option V) :=
  names.zip (List.replicate (names.length - ds.length) none ++ ds.map some)

/-- A Python signature: every parameter with its own default. -/
structure Sig (V : Type) where
  posonly : List (String × Option V)
  normal : List (String × Option V)
  vararg : Bool
  kwonly : List (String × Option V)
  kwarg : Bool

/-- The signature declared by a `def` statement. -/
def signature {V : Type} (a : PyArguments V) : Sig V :=
  let all := alignRight (a.posonly ++ a.args) a.defaults
  { posonly := all.take a.posonly.length
    normal := all.drop a.posonly.length
    vararg := a.vararg.isSome
    kwonly := a.kwonly.zip a.kwDefaults
    kwarg := a.kwarg.isSome }

/-- A call after `*` unpacking: positional values, then keyword values. -/
structure Call (V : Type) where
  pos : List V
  kw : List (String × V)

/-- What each parameter of the function receives. -/
structure Bound (V : Type) where
  /-- the positional-only and ordinary parameters, in order -/
  pos : List V
  /-- the content of `*args` -/
  star : List V
  /-- the keyword-only parameters, in order -/
  kwonly : List V
  /-- the content of `**kwargs` -/
  extra : List (String × V)
  deriving DecidableEq

/-- `Binds s c b`: Python accepts the call `c` of a function with signature `s`
and gives its parameters the values `b`. -/
structure Binds {V : Type} (s : Sig V) (c : Call V) (b : Bound V) : Prop where
  /-- a positional-only parameter takes the positional argument at its position,
  or else its default -/
  posonly : ∀ (i : Nat) (p : String × Option V), s.posonly[i]? = some p →
    (b.pos[i]? = if i < c.pos.length then c.pos[i]? else p.2) ∧ b.pos[i]? ≠ none
  /-- an ordinary parameter takes the positional argument at its position, or
  else the keyword argument with its name, or else its default -/
  normal : ∀ (j : Nat) (p : String × Option V), s.normal[j]? = some p →
    let i := s.posonly.length + j
    (b.pos[i]? = if i < c.pos.length then c.pos[i]?
      else if (c.kw.lookup p.1).isSome then c.kw.lookup p.1 else p.2) ∧ b.pos[i]? ≠ none
  posLength : b.pos.length = s.posonly.length + s.normal.length
  /-- a keyword-only parameter takes the keyword argument with its name, or else
  its default -/
  kwonly : ∀ (j : Nat) (p : String × Option V), s.kwonly[j]? = some p →
    (b.kwonly[j]? = if (c.kw.lookup p.1).isSome then c.kw.lookup p.1 else p.2) ∧
      b.kwonly[j]? ≠ none
  kwonlyLength : b.kwonly.length = s.kwonly.length
  /-- further positional arguments go to `*args`, and are an error without it -/
  star : b.star = c.pos.drop (s.posonly.length + s.normal.length)
  starOk : b.star ≠ [] → s.vararg = true
  /-- "multiple values for argument" -/
  noClash : ∀ (j : Nat) (p : String × Option V), s.normal[j]? = some p →
    s.posonly.length + j < c.pos.length → p.1 ∉ c.kw.map Prod.fst
  /-- keywords naming no ordinary or keyword-only parameter go to `**kwargs`, and
  are an error without it -/
  extra : b.extra = c.kw.filter (fun kv => !((s.normal ++ s.kwonly).map Prod.fst).contains kv.1)
  extraOk : b.extra ≠ [] → s.kwarg = true

/-- An argument as the caller wrote it. -/
inductive CArg (V : Type) where
  | pos (v : V)
  /-- `*t` where `t` has the given elements -/
  | star (vs : List V)
  | kw (name : String) (v : V)

/-- The call the caller means. -/
def unpack {V : Type} : List (CArg V) → Call V
  | [] => ⟨[], []⟩
  | .pos v :: l => ⟨v :: (unpack l).pos, (unpack l).kw⟩
  | .star vs :: l => ⟨vs ++ (unpack l).pos, (unpack l).kw⟩
  | .kw n v :: l => ⟨(unpack l).pos, (n, v) :: (unpack l).kw⟩

/-- Python's parser refuses a call which repeats a keyword. -/
def Call.Wf {V : Type} (c : Call V) : Prop := (c.kw.map Prod.fst).Nodup

/-! ## Overloads -/

/-- An overload with parameter types `tys` accepts the arguments `xs` (`none`: the
argument is omitted, which needs a default): every value given has the type of
its parameter. -/
def Accepts {Ty Obj : Type} (check : Obj → Ty → Bool) :
    (tys : List Ty) → (hasDefault : List Bool) → (xs : List (Option Obj)) → Prop
  | [], [], [] => True
  | t :: ts, _ :: ds, some x :: xs => check x t = true ∧ Accepts check ts ds xs
  | _ :: ts, d :: ds, none :: xs => d = true ∧ Accepts check ts ds xs
  | _, _, _ => False

/-- `k` is the first position of the list whose element satisfies `P`. -/
def First {α : Type} (P : α → Prop) (l : List α) (k : Nat) : Prop :=
  (∃ a, l[k]? = some a ∧ P a) ∧ ∀ j a, j < k → l[j]? = some a → ¬ P a

/-- No value given for a parameter without default belongs to two of the types
the overloads declare for that parameter. -/
def Unambiguous {Ty Obj : Type} (check : Obj → Ty → Bool) (fs : List (List Ty))
    (hasDefault : List Bool) (xs : List (Option Obj)) : Prop :=
  ∀ (i : Nat) (x : Obj), hasDefault[i]? = some false → xs[i]? = some (some x) →
    ∀ f ∈ fs, ∀ g ∈ fs, ∀ u v, f[i]? = some u → g[i]? = some v →
      check x u = true → check x v = true → u = v

end Spec
end Verif.Calls
