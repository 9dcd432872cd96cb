/-!
# Multi-dimensional arrays: what NumPy does

An array object of NumPy is a view: a buffer, the position of its first element, and for each
dimension a length and a stride (counted in elements).  `x.T` and `x[i, a:b:s]` make new views of the
same buffer.  Nothing here mentions pyccel.
-/

namespace Verif.Layout.Spec

/-- Row-major (`"C"`) or column-major (`"F"`). -/
inductive Order
  | C
  | F
  deriving DecidableEq, Repr

abbrev Var := Nat

/-- Number of elements of an array of this shape. -/
def prod : List Nat → Nat
  | [] => 1
  | n :: ns => n * prod ns

/-- A dimension of a view. -/
structure Dim where
  len : Nat
  stride : Int
  deriving DecidableEq, Repr

/-- An array object. -/
structure View where
  buf : Nat
  off : Int
  dims : List Dim
  deriving DecidableEq, Repr

/-- Dimensions of a new array in row-major order: the last index varies fastest. -/
def rowMajor : List Nat → List Dim
  | [] => []
  | n :: ns => ⟨n, prod ns⟩ :: rowMajor ns

/-- Dimensions of a new array in column-major order: the first index varies fastest; `k` elements
separate two neighbours in the first of these dimensions. -/
def colMajor (k : Nat) : List Nat → List Dim
  | [] => []
  | n :: ns => ⟨n, k⟩ :: colMajor (k * n) ns

/-- Dimensions of a new array. -/
def layout : Order → List Nat → List Dim
  | .C, s => rowMajor s
  | .F, s => colMajor 1 s

/-- Distance of an element from the first one; `none` is an `IndexError`. -/
def addr : List Dim → List Nat → Option Int
  | [], [] => some 0
  | d :: ds, i :: is =>
    if i < d.len then (addr ds is).map (fun a => i * d.stride + a) else none
  | _, _ => none

/-- A subscript: an index, `:`, or `a:b:s` (with a positive step; what the bounds may be is the
subject of C14 to C16, so only bounds in range are used here). -/
inductive Sub
  | at (i : Nat)
  | all
  | sl (start stop step : Nat)
  deriving DecidableEq, Repr

/-- What a list of subscripts selects: the distance of the first element selected, and the remaining
dimensions.  Fewer subscripts than dimensions keep the other dimensions. -/
def select : List Dim → List Sub → Option (Int × List Dim)
  | ds, [] => some (0, ds)
  | [], _ :: _ => none
  | d :: ds, .at i :: ss =>
    if i < d.len then (select ds ss).map (fun r => (i * d.stride + r.1, r.2)) else none
  | d :: ds, .all :: ss => (select ds ss).map (fun r => (r.1, d :: r.2))
  | d :: ds, .sl a b s :: ss =>
    if a ≤ b ∧ b ≤ d.len ∧ 0 < s then
      (select ds ss).map (fun r => (a * d.stride + r.1, ⟨(b - a + s - 1) / s, s * d.stride⟩ :: r.2))
    else none

/-- Statements of a program. -/
inductive Op
  | full (x : Var) (shape : List Nat) (o : Order) (v : Int)   -- x = np.full(shape, v, order=o)
  | alias (y x : Var)                                         -- y = x
  | trans (y x : Var)                                         -- y = x.T
  | sub (y x : Var) (ss : List Sub)                           -- y = x[ss]
  | set (x : Var) (i : List Nat) (v : Int)                    -- x[i] = v
  | get (x : Var) (i : List Nat)                              -- print(x[i])
  | shape (x : Var) (k : Nat)                                 -- print(x.shape[k])
  deriving DecidableEq, Repr

/-- Memory: buffers numbered in the order of their creation, and what was printed. -/
structure Mem where
  next : Nat := 0
  val : Nat → Int → Int := fun _ _ => 0
  out : List Int := []

structure State where
  vars : Var → Option View := fun _ => none
  mem : Mem := {}

def put {α : Type} (f : Nat → α) (x : Nat) (v : α) : Nat → α := fun y => if y = x then v else f y

/-- Write at a position of a buffer. -/
def Mem.write (m : Mem) (b : Nat) (p v : Int) : Mem :=
  { m with val := fun c q => if c = b ∧ q = p then v else m.val c q }

/-- A new buffer of which every element is `v`. -/
def Mem.fresh (m : Mem) (v : Int) : Mem :=
  { m with next := m.next + 1, val := fun c q => if c = m.next then v else m.val c q }

def Mem.print (m : Mem) (v : Int) : Mem := { m with out := m.out ++ [v] }

/-- NumPy; `none` is an exception. -/
def step (s : State) : Op → Option State
  | .full x shape o v =>
    some ⟨put s.vars x (some ⟨s.mem.next, 0, layout o shape⟩), s.mem.fresh v⟩
  | .alias y x => do
    let w ← s.vars x
    pure { s with vars := put s.vars y (some w) }
  | .trans y x => do
    let w ← s.vars x
    pure { s with vars := put s.vars y (some { w with dims := w.dims.reverse }) }
  | .sub y x ss => do
    let w ← s.vars x
    let r ← select w.dims ss
    pure { s with vars := put s.vars y (some ⟨w.buf, w.off + r.1, r.2⟩) }
  | .set x i v => do
    let w ← s.vars x
    let a ← addr w.dims i
    pure { s with mem := s.mem.write w.buf (w.off + a) v }
  | .get x i => do
    let w ← s.vars x
    let a ← addr w.dims i
    pure { s with mem := s.mem.print (s.mem.val w.buf (w.off + a)) }
  | .shape x k => do
    let w ← s.vars x
    let d ← w.dims[k]?
    pure { s with mem := s.mem.print d.len }

def run (s : State) : List Op → Option State
  | [] => some s
  | op :: ops => (step s op).bind (fun s' => run s' ops)

/-- All index tuples of an array of this shape, the last index varying fastest. -/
def indices : List Nat → List (List Nat)
  | [] => [[]]
  | n :: ns => (List.range n).flatMap (fun i => (indices ns).map (fun is => i :: is))

/-- What `x.tolist()` contains, without the brackets. -/
def elements (val : Int → Int) (w : View) : List Int :=
  (indices (w.dims.map (·.len))).map (fun i =>
    match addr w.dims i with
    | some a => val (w.off + a)
    | none => 0)

/-- The name that a statement gives an array to. -/
def defines : Op → Option Var
  | .full x _ _ _ => some x
  | .alias y _ => some y
  | .trans y _ => some y
  | .sub y _ _ => some y
  | _ => none

end Verif.Layout.Spec
