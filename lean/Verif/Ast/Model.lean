import Verif.Ast.Spec
/-!
# `PyccelAstNode` (`pyccel/ast/basic.py`)

The attributes of a node (single nodes and tuples of nodes) are flattened into one
list; ignored attributes (`None`, types) are left out.  Nodes are compared by
identity, as is the case for the default `__eq__` of the classes of the semantic
stage.
-/

namespace Verif.Ast

/-- All nodes created so far are the numbers below `size`.  `dead` is not stored by
the code: it records on which nodes `invalidate_node` was called. -/
structure Heap where
  size : Nat
  kids : Nat → List Nat
  users : Nat → List Nat
  stage : Nat → Nat
  dead : Nat → Bool

/-- Result of an operation: a new state, a failed `assert`, or more steps than
allowed (recursion is modelled with a step budget). -/
inductive Res where
  | ok (h : Heap)
  | assertion
  | timeout

/-- `f` with its value at `i` replaced. -/
def put {α : Type} (f : Nat → α) (i : Nat) (a : α) : Nat → α := fun j => if j = i then a else f j

/-- No node. -/
def Heap.empty : Heap := ⟨0, fun _ => [], fun _ => [], fun _ => 0, fun _ => false⟩

/-- `set_current_user_node` (`pyccel/ast/basic.py` 504-506). -/
def addUser (h : Heap) (c p : Nat) : Heap := { h with users := put h.users c (h.users c ++ [p]) }

/-- `set_current_user_node(self)` for each node of a list. -/
def addUsers (h : Heap) (cs : List Nat) (p : Nat) : Heap := cs.foldl (fun h c => addUser h c p) h

/-- `PyccelAstNode.__init__` (`pyccel/ast/basic.py` 73-119): a new node holding `ks`,
created in stage `s`.  The conversion of Python literals is not modelled. -/
def create (h : Heap) (ks : List Nat) (s : Nat) : Heap :=
  addUsers { h with size := h.size + 1, kids := put h.kids h.size ks,
                    stage := put h.stage h.size s } ks h.size

/-- Applies an operation to each node of a list, stopping at the first failure. -/
def each (f : Heap → Nat → Res) : List Nat → Heap → Res
  | [], h => .ok h
  | k :: ks, h => match f h k with
    | .ok h' => each f ks h'
    | r => r

/-- `remove_user_node` and `invalidate_node` (`pyccel/ast/basic.py` 527-547 and
126-149).  The attributes of an invalidated node forget it when they belong to
the same stage. -/
def removeUserFuel : Nat → Heap → Nat → Nat → Bool → Res
  | 0, _, _, _, _ => .timeout
  | f + 1, h, c, p, inv =>
    if p ∈ h.users c then
      let h1 := { h with users := put h.users c ((h.users c).erase p) }
      if h1.users c = [] ∧ inv then
        each (fun h k => removeUserFuel f h k c true)
          ((h1.kids c).filter (fun k => h1.stage k = h1.stage c))
          { h1 with dead := put h1.dead c true }
      else .ok h1
    else .assertion

/-- Number of user links. -/
def Heap.total (h : Heap) : Nat := ((List.range h.size).map (fun i => (h.users i).length)).sum

/-- `c.remove_user_node(p, invalidate)` (`pyccel/ast/basic.py` 527-547) with a
sufficient step budget (see `removeUserFuel_terminates`). -/
def removeUser (h : Heap) (c p : Nat) (inv : Bool) : Res := removeUserFuel (h.total + 1) h c p inv

/-- `invalidate_node` (`pyccel/ast/basic.py` 126-149). -/
def invalidate (h : Heap) (c : Nat) : Res :=
  each (fun h k => removeUser h k c true)
    ((h.kids c).filter (fun k => h.stage k = h.stage c)) { h with dead := put h.dead c true }

/-- What `substitute` receives: `rep v = some l` when `v` is one of the originals and
`l` its replacement, the excluded nodes, and `invalidate`. -/
structure Subst where
  rep : Nat → Option (List Nat)
  excluded : Nat → Bool
  inv : Bool

/-- The loop over the attributes of node `n` (`pyccel/ast/basic.py` 352-398); `sub`
is the recursive call.  The code assigns a tuple attribute once all its elements
are treated, the model after each replaced element; a node under treatment is
not entered again (line 326). -/
def substKids (s : Subst) (sub : Heap → Nat → Res) (n : Nat) :
    List Nat → List Nat → Heap → Res
  | _, [], h => .ok h
  | done, v :: rest, h =>
    if s.excluded v then substKids s sub n (done ++ [v]) rest h
    else match s.rep v with
      | some rs =>
        match removeUser (addUsers h rs n) v n s.inv with
        | .ok h2 => substKids s sub n (done ++ rs) rest
            { h2 with kids := put h2.kids n (done ++ rs ++ rest) }
        | r => r
      | none =>
        match sub h v with
        | .ok h1 => substKids s sub n (done ++ [v]) rest h1
        | r => r

/-- `substitute` (`pyccel/ast/basic.py` 294-399).  `stack` holds the nodes whose flag
`_recursion_in_progress` is set. -/
def substituteFuel (s : Subst) : Nat → List Nat → Heap → Nat → Res
  | 0, _, _, _ => .timeout
  | f + 1, stack, h, n =>
    if n ∈ stack then .ok h
    else substKids s (substituteFuel s f (n :: stack)) n [] (h.kids n) h

/-- `n.substitute(...)`: nested calls visit different nodes, so that the number of
nodes bounds the depth. -/
def substitute (s : Subst) (h : Heap) (n : Nat) : Res := substituteFuel s (h.size + 1) [] h n

/-- `CodeBlock.insert2body` with `back=True` (`pyccel/ast/core.py` 630-638). -/
def insertBack (h : Heap) (p : Nat) (ks : List Nat) : Heap :=
  addUsers { h with kids := put h.kids p (h.kids p ++ ks) } ks p

/-- `FunctionDef.body = body` (`pyccel/ast/core.py` 2489-2497), for a node whose
attributes are `pre ++ [old] ++ post`. -/
def setAttr (h : Heap) (p : Nat) (pre : List Nat) (old new : Nat) (post : List Nat) : Res :=
  match removeUser h old p true with
  | .ok h1 => .ok (addUser { h1 with kids := put h1.kids p (pre ++ [new] ++ post) } new p)
  | r => r

/-- `get_attribute_nodes` (`pyccel/ast/basic.py` 188-240). -/
def getAttributeNodes (h : Heap) (isT excluded : Nat → Bool) : Nat → List Nat → Nat → List Nat
  | 0, _, _ => []
  | f + 1, stack, n =>
    if n ∈ stack then []
    else (h.kids n).flatMap fun v =>
      if excluded v then [] else if isT v then [v]
      else getAttributeNodes h isT excluded f (n :: stack) v

/-- `get_user_nodes` (`pyccel/ast/basic.py` 151-186). -/
def getUserNodes (h : Heap) (isT excluded : Nat → Bool) : Nat → List Nat → Nat → List Nat
  | 0, _, _ => []
  | f + 1, stack, n =>
    if n ∈ stack ∨ h.users n = [] then []
    else (h.users n).filter (fun p => isT p && !excluded p) ++
      ((h.users n).filter (fun p => !(isT p || excluded p))).flatMap fun p =>
        getUserNodes h isT excluded f (n :: stack) p

/-- `self.is_user_of(node)` (`pyccel/ast/basic.py` 257-292). -/
def isUserOf (h : Heap) (self : Nat) (excluded : Nat → Bool) : Nat → List Nat → Nat → Bool
  | 0, _, _ => false
  | f + 1, stack, c =>
    if c ∈ stack then false
    else (h.users c).any fun v =>
      v == self || (!excluded v && isUserOf h self excluded f (c :: stack) v)

end Verif.Ast
