import Verif.Layout.SpecArr

/-!
# Reductions: what NumPy computes
-/

namespace Verif.Layout.Spec

/-- The dimensions named by the argument `axis`, for an array of rank `n`; negative numbers count from
the end. -/
def axisMask (n : Nat) (axis : List Int) : List Bool :=
  (List.range n).map (fun k : Nat => axis.any (fun a => decide (a = (k : Int) ∨ a = (k : Int) - n)))

/-- The index of the result to which an element contributes: its indices in the dimensions that stay;
with `keepdims`, 0 in the others. -/
def project (keep : Bool) : List Bool → List Nat → List Nat
  | true :: ms, _ :: is => if keep then 0 :: project keep ms is else project keep ms is
  | false :: ms, i :: is => i :: project keep ms is
  | _, _ => []

/-- The shape of the result. -/
def reducedShape (keep : Bool) : List Bool → List Nat → List Nat
  | true :: ms, _ :: ns => if keep then 1 :: reducedShape keep ms ns else reducedShape keep ms ns
  | false :: ms, n :: ns => n :: reducedShape keep ms ns
  | _, _ => []

/-- `op` applied from the left to `init` and the elements that contribute, in row-major order
(`np.sum`, `np.amax`, … of integers). -/
def reduceAxis (op : Int → Int → Int) (init : Int) (keep : Bool) (mask : List Bool) (a : Arr) : Arr where
  shape := reducedShape keep mask a.shape
  get i := ((indices a.shape).filter (fun j => decide (project keep mask j = i))).foldl
    (fun acc j => op acc (a.get j)) init

/-- A scalar expression with sums of arrays: `all init s` is `np.sum(x, initial=init)` where the elements
of `x` add up to `s`. -/
inductive SExpr
  | num (v : Int)
  | all (init s : Int)
  | add (a b : SExpr)
  | sub (a b : SExpr)
  | mul (a b : SExpr)
  deriving Repr

def SExpr.eval : SExpr → Int
  | num v => v
  | all init s => init + s
  | add a b => a.eval + b.eval
  | sub a b => a.eval - b.eval
  | mul a b => a.eval * b.eval

/-- The axes in range, each named once. -/
def AxisOk (n : Nat) (axis : List Int) : Prop :=
  (∀ a ∈ axis, -(n : Int) ≤ a ∧ a < n) ∧ (axis.map (fun a => if a < 0 then (n : Int) + a else a)).Nodup

/-- A matrix and a vector. -/
structure Two where
  x : Nat → Nat → Int
  y : Nat → Int

/-- What the two statements compute one after the other. -/
def apart (f : Int → Int) (n : Nat) (last : Bool) (s : Two) : Two :=
  let x := fun a b => if a < n ∧ b < n then f (s.x a b) else s.x a b
  ⟨x, fun a => if a < n then sum n (fun k => if last then x a k else x k a) else s.y a⟩

/-- No sum with an initial value is an operand on the right of `-` or a factor. -/
def Plain : SExpr → Prop
  | .num _ | .all _ _ => True
  | .add a b => Plain a ∧ Plain b
  | .sub a b => Plain a ∧ Plain b ∧ ∀ i s, b = .all i s → i = 0
  | .mul a b => Plain a ∧ Plain b ∧ (∀ i s, a = .all i s → i = 0) ∧ (∀ i s, b = .all i s → i = 0)

end Verif.Layout.Spec
