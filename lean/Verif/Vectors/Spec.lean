/-!
# Whole-array statements: specification

Blocks of NumPy statements such as `a[1:, ::2] = b + np.sin(c[0]) * np.sum(d)`, and what NumPy makes of
them: the right-hand side is evaluated completely, operands being broadcast to the shape of the
left-hand side, and stored afterwards; a statement begins when the one before it is finished.
-/

namespace Verif.Vectors.Spec

/-- Arrays; a scalar is an array without dimensions. -/
abbrev Var := Nat

/-- The size of a dimension: an integer literal, or something known at run time only. -/
inductive Size
  | lit (n : Nat)
  | sym (s : Nat)
  deriving DecidableEq, Repr

/-- The size at run time. -/
def Size.val (ρ : Nat → Nat) : Size → Nat
  | .lit n => n
  | .sym s => ρ s

/-- A subscript: an index, or a slice `start : … : step` with `len` elements. -/
inductive Sub
  | at (k : Nat)
  | sl (start step : Option Int) (len : Size)
  deriving DecidableEq, Repr

/-- An array, or a part of it: `x[subs]`, one subscript for every dimension. -/
structure Ref where
  var : Var
  subs : List Sub
  deriving DecidableEq, Repr

/-- Right-hand sides: literals, references, transposed references, unary and binary operators and
functions applied element by element, and reductions such as `np.sum(r)`. -/
inductive Ex
  | lit (z : Int)
  | ref (r : Ref)
  | tr (r : Ref)
  | un (f : Int → Int) (e : Ex)
  | bin (f : Int → Int → Int) (a b : Ex)
  | red (g : List Int → Int) (r : Ref)

/-- `lhs = rhs`, and `lhs = [e₀, …]` (`list`) or `lhs = (e₀, …)`. -/
inductive Stmt
  | set (lhs : Ref) (rhs : Ex)
  | elems (list : Bool) (lhs : Ref) (e₀ : Ex) (es : List Ex)

/-- What does not change: the shapes of the arrays and the sizes at run time. -/
structure World where
  shape : Var → List Size
  ρ : Nat → Nat

abbrev Store := Var → List Int → Int

/-- The place of an element. -/
abbrev Loc := Var × List Int

/-! ## Shapes -/

/-- The sizes of the slices. -/
def lens : List Sub → List Size
  | [] => []
  | .at _ :: ss => lens ss
  | .sl _ _ len :: ss => len :: lens ss

def Ref.shape (r : Ref) : List Size := lens r.subs

/-- The shape at run time. -/
def Ref.dims (W : World) (r : Ref) : List Nat := r.shape.map (·.val W.ρ)

/-- All the indices of an array of this shape, the last one varying fastest. -/
def box : List Nat → List (List Nat)
  | [] => [[]]
  | n :: ns => (List.range n).flatMap fun i => (box ns).map (i :: ·)

/-- A shape can be broadcast to `big`: aligned on the right, every size is `1` or the one in `big`. -/
def Broadcasts (small big : List Nat) : Prop :=
  small.length ≤ big.length ∧
    ∀ p ∈ small.zip (big.drop (big.length - small.length)), p.1 = 1 ∨ p.1 = p.2

instance (a b : List Nat) : Decidable (Broadcasts a b) := by unfold Broadcasts; infer_instance

/-! ## Elements -/

/-- The first element of a slice of a dimension of `n` elements. -/
def first (n : Nat) (start step : Option Int) : Int :=
  match start with
  | some k => if k < 0 then n + k else k
  | none => if step.getD 1 < 0 then n - 1 else 0

/-- Element `i` of a slice; a slice of one element is repeated as often as needed. -/
def pick (W : World) (d : Size) (start step : Option Int) (len : Size) (i : Nat) : Int :=
  first (d.val W.ρ) start step + step.getD 1 * (if len.val W.ρ = 1 then 0 else i)

/-- The element with index `ix` of the array that the subscripts select. -/
def locate (W : World) : List (Size × Sub) → List Nat → List Int
  | [], _ => []
  | (_, .at k) :: ds, ix => k :: locate W ds ix
  | (d, .sl a b n) :: ds, i :: ix => pick W d a b n i :: locate W ds ix
  | (_, .sl _ _ _) :: _, [] => []

/-- The last indices, as many as `n`: what an operand with `n` dimensions sees of an index. -/
def lastOf (n : Nat) (ix : List Nat) : List Nat := ix.drop (ix.length - n)

/-- The element of `r` that goes with index `ix` of the result. -/
def Ref.at (W : World) (r : Ref) (ix : List Nat) : Loc :=
  (r.var, locate W ((W.shape r.var).zip r.subs) (lastOf r.shape.length ix))

/-- The element of `r.T` that goes with index `ix` of the result. -/
def Ref.atT (W : World) (r : Ref) (ix : List Nat) : Loc :=
  (r.var, locate W ((W.shape r.var).zip r.subs) (lastOf r.shape.length ix).reverse)

/-- The place exists. -/
def Inside (W : World) (l : Loc) : Prop :=
  l.2.length = (W.shape l.1).length ∧ ∀ p ∈ l.2.zip (W.shape l.1), 0 ≤ p.1 ∧ p.1 < p.2.val W.ρ

instance (W : World) (l : Loc) : Decidable (Inside W l) := by unfold Inside; infer_instance

def read (W : World) (σ : Store) (l : Loc) : Option Int :=
  if Inside W l then some (σ l.1 l.2) else none

def put (σ : Store) (l : Loc) (z : Int) : Store :=
  fun v k => if (v, k) = l then z else σ v k

def write (W : World) (σ : Store) (l : Loc) (z : Int) : Option Store :=
  if Inside W l then some (put σ l z) else none

/-! ## NumPy -/

/-- The value of a right-hand side at one index of the result. -/
def Ex.eval (W : World) (σ : Store) (ix : List Nat) : Ex → Option Int
  | .lit z => some z
  | .ref r => read W σ (r.at W ix)
  | .tr r => read W σ (r.atT W ix)
  | .un f e => (e.eval W σ ix).map f
  | .bin f a b => do return f (← a.eval W σ ix) (← b.eval W σ ix)
  | .red g r => ((box (r.dims W)).mapM fun jx => read W σ (r.at W jx)).map g

/-- The elements that reductions read. -/
def Ex.reduced (W : World) : Ex → List Loc
  | .lit _ => []
  | .ref _ => []
  | .tr _ => []
  | .un _ e => e.reduced W
  | .bin _ a b => a.reduced W ++ b.reduced W
  | .red _ r => (box (r.dims W)).map (r.at W)

/-- The shapes of the operands. -/
def Ex.shapes : Ex → List (List Size)
  | .lit _ => []
  | .ref r => [r.shape]
  | .tr r => [r.shape.reverse]
  | .un _ e => e.shapes
  | .bin _ a b => a.shapes ++ b.shapes
  | .red _ _ => []

/-- The operands can be broadcast to this shape, and the reductions can be computed. -/
def Ex.Fits (W : World) (to : List Nat) (e : Ex) : Prop :=
  (∀ s ∈ e.shapes, Broadcasts (s.map (·.val W.ρ)) to) ∧ ∀ l ∈ e.reduced W, Inside W l

instance (W : World) (to : List Nat) (e : Ex) : Decidable (e.Fits W to) := by
  unfold Ex.Fits; infer_instance

/-- Store values one after the other. -/
def stores (W : World) (σ : Store) : List (Loc × Int) → Option Store
  | [] => some σ
  | (l, z) :: ws => do stores W (← write W σ l z) ws

/-- One statement; `none` stands for an exception. -/
def numpy (W : World) (σ : Store) : Stmt → Option Store
  | .set lhs rhs =>
    if rhs.Fits W (lhs.dims W) then do
      let zs ← (box (lhs.dims W)).mapM (rhs.eval W σ)
      stores W σ (((box (lhs.dims W)).map (lhs.at W)).zip zs)
    else none
  | .elems _ lhs e₀ es =>
    if lhs.dims W = [es.length + 1] ∧ ∀ e ∈ e₀ :: es, e.Fits W [] then do
      let zs ← (e₀ :: es).mapM (Ex.eval W σ [])
      stores W σ (((List.range (es.length + 1)).map fun j => lhs.at W [j]).zip zs)
    else none

/-- A block. -/
def numpys (W : World) (σ : Store) : List Stmt → Option Store
  | [] => some σ
  | s :: b => do numpys W (← numpy W σ s) b

/-! ## What statements have in common -/

/-- The elements that are read, at index `ix`, other than by reductions. -/
def Ex.reads (W : World) (ix : List Nat) : Ex → List Loc
  | .lit _ => []
  | .ref r => [r.at W ix]
  | .tr r => [r.atT W ix]
  | .un _ e => e.reads W ix
  | .bin _ a b => a.reads W ix ++ b.reads W ix
  | .red _ _ => []

/-- The right-hand side contains a reduction. -/
def Ex.reduces : Ex → Bool
  | .lit _ => false
  | .ref _ => false
  | .tr _ => false
  | .un _ e => e.reduces
  | .bin _ a b => a.reduces || b.reduces
  | .red _ _ => true

/-- `ix` comes before `jx`: they differ first where `ix` is smaller. -/
def Before (ix jx : List Nat) : Prop :=
  ∃ p i a j b, ix = p ++ i :: a ∧ jx = p ++ j :: b ∧ i < j

/-- A statement that writes an array and contains no reduction. -/
def fusable : Stmt → Bool
  | .set lhs rhs => !lhs.shape.isEmpty && !rhs.reduces
  | .elems .. => false

/-- No element that is written is read again for a later index: `a[:-1] = a[1:]` is fine,
`a[1:] = a[:-1]` is not. -/
def Settled (W : World) : Stmt → Prop
  | .set lhs rhs =>
    ∀ ix ∈ box (lhs.dims W), ∀ jx ∈ box (lhs.dims W), Before ix jx →
      lhs.at W ix ∉ rhs.reads W jx
  | .elems _ lhs e₀ es =>
    ∀ i j, i < j → ∀ e, (e₀ :: es)[j]? = some e →
      lhs.at W [i] ∉ e.reads W [] ++ e.reduced W

/-- At an early index, `t` (which comes after `s` in the block) neither reads nor writes an element
that `s` writes, nor writes an element that `s` reads, at a later index; this is asked for as far as
the two statements have the same dimensions. -/
def Apart (W : World) : Stmt → Stmt → Prop
  | .set l e, .set l' e' =>
    ∀ p i a j b, p ++ j :: b ∈ box (l.dims W) → p ++ i :: a ∈ box (l'.dims W) → i < j →
      l.shape.take (p.length + 1) = l'.shape.take (p.length + 1) →
      l.at W (p ++ j :: b) ≠ l'.at W (p ++ i :: a) ∧
      l.at W (p ++ j :: b) ∉ e'.reads W (p ++ i :: a) ∧
      l'.at W (p ++ i :: a) ∉ e.reads W (p ++ j :: b)
  | _, _ => True

/-- The statements of a block do not stand in each other's way. -/
def Free (W : World) : List Stmt → Prop
  | [] => True
  | s :: b => Settled W s ∧ (∀ t ∈ b.takeWhile fusable, Apart W s t) ∧ Free W b

/-! ## What pyccel can see -/

/-- The slices start where pyccel thinks they do. -/
def Ref.Started (r : Ref) : Prop :=
  ∀ a b n, Sub.sl a b n ∈ r.subs → a = none → 0 ≤ b.getD 1

/-- A dimension of one element that has to be repeated has the literal size `1`. -/
def Shown (W : World) (small big : List Size) : Prop :=
  ∀ p ∈ small.zip (big.drop (big.length - small.length)),
    p.1.val W.ρ = 1 → p.1 = .lit 1 ∨ p.2.val W.ρ = 1

/-- Both for all the operands. -/
def Ex.Clear (W : World) (to : List Size) : Ex → Prop
  | .lit _ => True
  | .ref r => r.Started ∧ Shown W r.shape to
  | .tr r => r.Started ∧ Shown W r.shape.reverse to
  | .un _ e => e.Clear W to
  | .bin _ a b => a.Clear W to ∧ b.Clear W to
  | .red _ _ => True

def Stmt.Clear (W : World) : Stmt → Prop
  | .set lhs rhs => lhs.Started ∧ rhs.Clear W lhs.shape
  | .elems _ lhs e₀ es => lhs.Started ∧ ∀ e ∈ e₀ :: es, e.Clear W []

/-! ## Simple cases -/

/-- The references outside reductions, and whether they are transposed. -/
def Ex.refs : Ex → List (Ref × Bool)
  | .lit _ => []
  | .ref r => [(r, false)]
  | .tr r => [(r, true)]
  | .un _ e => e.refs
  | .bin _ a b => a.refs ++ b.refs
  | .red _ _ => []

/-- A scalar, or an array with the shape and the order in memory of `lhs`; `F` says which arrays have
order `F`, and transposing exchanges the orders. -/
def Alike (F : Var → Bool) (lhs : Ref) (r : Ref × Bool) : Prop :=
  r.1.shape = [] ∨ (if r.2 then r.1.shape.reverse else r.1.shape) = lhs.shape ∧
    (lhs.shape.length < 2 ∨ (F r.1.var != r.2) = F lhs.var)

/-- Nothing has to be broadcast but scalars, and there are no lists. -/
def Whole (F : Var → Bool) : Stmt → Prop
  | .set lhs rhs => ∀ r ∈ rhs.refs, Alike F lhs r
  | .elems list _ _ _ => list = false

/-- All the dimensions have a subscript, and no step is zero. -/
def Ref.Strided (W : World) (r : Ref) : Prop :=
  r.subs.length = (W.shape r.var).length ∧ ∀ a b n, Sub.sl a b n ∈ r.subs → b.getD 1 ≠ 0

/-- The arrays that the block modifies are only ever referred to in one way (say, as `a[1:-1]`),
outside reductions, and never broadcast to more dimensions. -/
def Elementwise (W : World) (b : List Stmt) : Prop :=
  ∀ s ∈ b, ∃ lhs rhs, s = .set lhs rhs ∧ lhs.Strided W ∧
    ∀ lhs' rhs', Stmt.set lhs' rhs' ∈ b → (lhs'.var = lhs.var → lhs' = lhs) ∧
      ∀ r ∈ rhs'.refs, r.1.var = lhs.var → r = (lhs, false) ∧ lhs.shape.length = lhs'.shape.length

end Verif.Vectors.Spec
