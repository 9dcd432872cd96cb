import Verif.Symbols.Spec

/-!
# Conditions examined with SymPy: model

`pyccel_to_sympy` (/repo/pyccel/ast/sympy_helper.py 159-317) with its map of symbols, and its use for the conditions of
`if` (/repo/pyccel/parser/semantic.py 6123-6140).  Simplified: SymPy's own simplifications belong to the oracle;
connectives have two arguments; of the functions only one that isn't handled is there; not modelled: powers, `min`, `max`,
floats, ranges and tuples.
-/

namespace Verif.Symbols.Model
open Verif.Symbols.Spec

/-- The nodes that become symbols: a `Variable`, a `DottedVariable` (an attribute of an object) and a
`PyccelArrayShapeElement`.  Two are equal if all their parts are: /repo/pyccel/ast/variable.py 433-436 and 982-986. -/
inductive Node
  | var (name : String)
  | dot (lhs : Node) (name : String)
  | shape (arr : Node) (axis : ℕ)
deriving DecidableEq

/-- `symbol_map` and `used_names`. -/
structure State where
  map : List (String × Node)
  used : List String

/-- `symbol_map[sym] = expr` -/
def setKey (m : List (String × Node)) (s : String) (n : Node) : List (String × Node) :=
  m.filter (fun p => p.1 ≠ s) ++ [(s, n)]

variable (fresh : List String → String)

/-- The symbol of a node: /repo/pyccel/ast/sympy_helper.py 281-294.  A node that is in the map keeps its symbol, a
`Variable` (a `DottedVariable` is one) gets its name, a shape a new name. -/
def symbol (st : State) (n : Node) : String × State :=
  match st.map.find? (fun p => p.2 = n) with
  | some p => (p.1, st)
  | none =>
    match n with
    | .var x => (x, ⟨setKey st.map x n, st.used⟩)
    | .dot _ x => (x, ⟨setKey st.map x n, st.used⟩)
    | .shape _ _ => (fresh st.used, ⟨setKey st.map (fresh st.used) n, fresh st.used :: st.used⟩)

/-- Numeric expressions: 183-212; a call is a `TypeError` (316-317). -/
def toSympy : State → Arith Node → Option (Arith String × State)
  | st, .lit z => some (.lit z, st)
  | st, .atom n => some (.atom (symbol fresh st n).1, (symbol fresh st n).2)
  | st, .neg a => (toSympy st a).map fun r => (.neg r.1, r.2)
  | st, .add a b => (toSympy st a).bind fun r => (toSympy r.2 b).map fun t => (.add r.1 t.1, t.2)
  | st, .sub a b => (toSympy st a).bind fun r => (toSympy r.2 b).map fun t => (.sub r.1 t.1, t.2)
  | st, .mul a b => (toSympy st a).bind fun r => (toSympy r.2 b).map fun t => (.mul r.1 t.1, t.2)
  | st, .div a b => (toSympy st a).bind fun r => (toSympy r.2 b).map fun t => (.div r.1 t.1, t.2)
  | st, .floorDiv a b => (toSympy st a).bind fun r => (toSympy r.2 b).map fun t => (.floorDiv r.1 t.1, t.2)
  | _, .call _ => none

/-- Conditions: 214-252 and 306-310. -/
def condToSympy : State → Cond Node → Option (Cond String × State)
  | st, .lit b => some (.lit b, st)
  | st, .atom n => some (.atom (symbol fresh st n).1, (symbol fresh st n).2)
  | st, .rel o a b => (toSympy fresh st a).bind fun r => (toSympy fresh r.2 b).map fun t => (.rel o r.1 t.1, t.2)
  | st, .and c d => (condToSympy st c).bind fun r => (condToSympy r.2 d).map fun t => (.and r.1 t.1, t.2)
  | st, .or c d => (condToSympy st c).bind fun r => (condToSympy r.2 d).map fun t => (.or r.1 t.1, t.2)
  | st, .not c => (condToSympy st c).map fun r => (.not r.1, r.2)

/-- The condition of an `IfSection`: /repo/pyccel/parser/semantic.py 6126-6140.  The map is empty at first; a condition
that SymPy finds to be false or true is replaced by a literal. -/
def visitCond (used : List String) (oracle : Cond String → Option Bool) (c : Cond Node) : Cond Node :=
  match condToSympy fresh ⟨[], used⟩ c with
  | none => c
  | some r =>
    match oracle r.1 with
    | some false => .lit false
    | some true => .lit true
    | none => c

/-- `stop - start` of a comprehension's range, as SymPy sees it: /repo/pyccel/parser/semantic.py 5858-5866 (step 1). -/
def rangeSize (used : List String) (start stop : Arith Node) : Option (Arith String × State) :=
  (toSympy fresh ⟨[], used⟩ start).bind fun r => (toSympy fresh r.2 stop).map fun t => (.sub t.1 r.1, t.2)

/-- `symbol_map[expr]`, used when the size is converted back: /repo/pyccel/ast/sympy_helper.py 93-94. -/
def back (m : List (String × Node)) (x : String) : Option Node := (m.find? (fun p => p.1 = x)).map (·.2)

end Verif.Symbols.Model
