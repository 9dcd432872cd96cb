import Mathlib.Logic.Relation
/-!
# The graph of AST nodes: what consistency means

A node is a number.  `kids p` lists the nodes held by the attributes of `p` (with
repetitions), `users c` the nodes recorded by `c` as its users.
-/

namespace Verif.Ast.Spec

/-- Parent links agree with attributes: each node that is still in use appears in
the user list of each of its attributes as often as it holds it; a discarded node
has been removed from the lists of its attributes.  Attributes of another stage
(`stage`) keep a discarded user. -/
def Links (kids users : Nat → List Nat) (stage : Nat → Nat) (dead : Nat → Bool) : Prop :=
  (∀ c p, dead p = false → (users c).count p = (kids p).count c) ∧
  (∀ c p, dead p = true → stage c = stage p → p ∉ users c) ∧
  (∀ c p, dead p = true → stage c ≠ stage p → (users c).count p = (kids p).count c)

/-- A discarded node is not used. -/
def DeadUnused (users : Nat → List Nat) (dead : Nat → Bool) : Prop :=
  ∀ c, dead c = true → users c = []

/-- `y` can be reached from `x` by following attributes. -/
def Reach (kids : Nat → List Nat) : Nat → Nat → Prop :=
  Relation.ReflTransGen (fun a b => b ∈ kids a)

/-- No node is an attribute of itself, even indirectly. -/
def Acyclic (kids : Nat → List Nat) : Prop :=
  ∀ x y, y ∈ kids x → ¬ Reach kids y x

/-- The nodes of the tree below `n` visited by a substitution: it stops at excluded
nodes and at nodes to be replaced. -/
inductive Inside (kids : Nat → List Nat) (stop : Nat → Prop) (n : Nat) : Nat → Prop
  | root : Inside kids stop n n
  | step {m k : Nat} : Inside kids stop n m → k ∈ kids m → ¬ stop k → Inside kids stop n k

/-- The attributes of a node after a simultaneous replacement: `rep v = some l` when
`v` is to be replaced by `l`. -/
def replaced (rep : Nat → Option (List Nat)) (excluded : Nat → Bool) (l : List Nat) : List Nat :=
  l.flatMap (fun v => if excluded v then [v] else (rep v).getD [v])

/-- `x` is found from `n` by following `next`, stopping at the first node of the
searched type and never entering an excluded node. -/
inductive Found (next : Nat → List Nat) (isT excluded : Nat → Bool) : Nat → Nat → Prop
  | here {n v : Nat} : v ∈ next n → excluded v = false → isT v = true → Found next isT excluded n v
  | there {n v x : Nat} : v ∈ next n → excluded v = false → isT v = false →
      Found next isT excluded v x → Found next isT excluded n x

/-- `p` is an ancestor of `c`: reached by following users from `c`, the nodes in
between not being excluded. -/
inductive Above (users : Nat → List Nat) (excluded : Nat → Bool) (p : Nat) : Nat → Prop
  | here {c : Nat} : p ∈ users c → Above users excluded p c
  | there {c v : Nat} : v ∈ users c → excluded v = false → Above users excluded p v →
      Above users excluded p c

end Verif.Ast.Spec
