/-
Specification for C18: the layout of a NumPy array.
-/
namespace Verif.Views.Spec

/-- One dimension of a NumPy array: its length and its stride in bytes. -/
structure NpDim where
  shape : Int
  stride : Int
deriving DecidableEq, Repr

/-- `idx` is an index of the array (one entry per dimension, each in range). -/
def InRange : List NpDim → List Int → Prop
  | [], [] => True
  | d :: ds, i :: is => (0 ≤ i ∧ i < d.shape) ∧ InRange ds is
  | _, _ => False

/-- Byte offset, from the data pointer, of the element NumPy stores at index `idx`. -/
def byteOffset : List NpDim → List Int → Int
  | d :: ds, i :: is => i * d.stride + byteOffset ds is
  | _, _ => 0

/-- The strides the wrapper can represent, innermost dimension first: every stride is positive
and a whole number of items, every stride after the second is a multiple of the previous one,
and consecutive positions of a dimension stay inside the block of the next one (no element is
visited twice). -/
def Nested (prev : Int) (d : NpDim) : List NpDim → Prop
  | [] => 0 < d.shape
  | e :: rest => 0 < d.shape ∧ 0 < e.stride ∧ prev ∣ e.stride ∧
      (d.shape - 1) * d.stride + prev ≤ e.stride ∧ Nested e.stride e rest

/-- A non-empty view satisfying these conditions in the ordering of the array. -/
def Representable (cOrder : Bool) (item : Int) (dims : List NpDim) : Prop :=
  match (if cOrder then dims.reverse else dims) with
  | [] => False
  | d :: rest => 0 < d.stride ∧ item ∣ d.stride ∧ Nested item d rest

/-- One dimension of a basic slice of a contiguous array: length of the base array, step and
number of positions selected. -/
structure Cut where
  size : Int
  step : Int
  count : Int
deriving DecidableEq, Repr

/-- The slice selects at least one position and stays inside the base array. -/
def Cut.Ok (c : Cut) : Prop := 0 < c.step ∧ 0 < c.count ∧ (c.count - 1) * c.step + 1 ≤ c.size

/-- NumPy's strides of a slice of a contiguous array whose dimensions are listed innermost
first; `block` is the number of bytes of the dimensions already passed. -/
def cutDims (block : Int) : List Cut → List NpDim
  | [] => []
  | c :: cs => ⟨c.count, c.step * block⟩ :: cutDims (block * c.size) cs

/-- Contiguous strides, innermost dimension first. -/
def contiguousDims (block : Int) : List Int → List NpDim
  | [] => []
  | n :: ns => ⟨n, block⟩ :: contiguousDims (block * n) ns

/-- In every dimension strictly between the innermost and the outermost one, the step divides
(next step) × (length of the base array in that dimension); in particular it does if it is 1. -/
def InnerStepsDivide : List Cut → Prop
  | c :: d :: cs => c.step ∣ d.step * c.size ∧ InnerStepsDivide (d :: cs)
  | _ => True

end Verif.Views.Spec
