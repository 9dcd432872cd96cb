/-!
# Functions that call each other

What a module says about its functions, which functions can be active at the
same time, and what Fortran 2003 requires.  Nothing here refers to how the
compiler proceeds.
-/

namespace Verif.Recursion

/-- A module.  The functions are the numbers below `size`. -/
structure Prog where
  /-- number of functions, classes' methods and nested functions included -/
  size : Nat
  /-- marked with `@inline` -/
  inl : Nat → Bool
  /-- marked with `@private` -/
  priv : Nat → Bool
  /-- the functions called in the body, in the order of the text -/
  body : Nat → List Nat
  /-- the functions defined inside the function -/
  sub : Nat → List Nat
  /-- the functions called by the statements of the module -/
  init : List Nat
  /-- the functions of the module, in the order of the text -/
  top : List Nat

/-- Only functions that exist are mentioned. -/
structure Prog.Closed (P : Prog) : Prop where
  body : ∀ f, f < P.size → ∀ g ∈ P.body f, g < P.size
  sub : ∀ f, f < P.size → ∀ g ∈ P.sub f, g < P.size
  init : ∀ g ∈ P.init, g < P.size
  top : ∀ g ∈ P.top, g < P.size

/-- `g` is called by the statements that contain the calls `l`, once the calls of
`@inline` functions have been replaced by their bodies. -/
inductive Into (P : Prog) : List Nat → Nat → Prop
  | here {l : List Nat} {g : Nat} : g ∈ l → P.inl g = false → Into P l g
  | through {l : List Nat} {h g : Nat} :
      h ∈ l → P.inl h = true → Into P (P.body h) g → Into P l g

/-- The functions that can be active when the program runs, the last one first:
Python calls a function of the module, and every active function may make any of
its calls. -/
inductive Stack (P : Prog) : List Nat → Prop
  | start {g : Nat} : g ∈ P.top → P.inl g = false → Stack P [g]
  | call {f g : Nat} {s : List Nat} :
      Stack P (f :: s) → Into P (P.body f) g → Stack P (g :: f :: s)

/-- Fortran 2003, 12.5.2.1: a procedure that is not declared `RECURSIVE` must not
be invoked while it is active. -/
def Legal (P : Prog) (recursive : Nat → Bool) : Prop :=
  ∀ s, Stack P s → ∀ f, 2 ≤ s.count f → recursive f = true

/-- One function leads to another by one or more calls. -/
inductive Leads (P : Prog) : Nat → Nat → Prop
  | one {f g : Nat} : Into P (P.body f) g → Leads P f g
  | more {f g h : Nat} : Into P (P.body f) g → Leads P g h → Leads P f h

/-- One `@inline` function leads to another by calls of `@inline` functions. -/
inductive InlineLeads (P : Prog) : Nat → Nat → Prop
  | one {f g : Nat} : g ∈ P.body f → P.inl g = true → InlineLeads P f g
  | more {f g h : Nat} : g ∈ P.body f → P.inl g = true → InlineLeads P g h → InlineLeads P f h

/-- A function mentions another one, directly or indirectly: by a call or by
containing its definition. -/
inductive Mentions (P : Prog) : Nat → Nat → Prop
  | one {f g : Nat} : g ∈ P.body f ++ P.sub f → Mentions P f g
  | more {f g h : Nat} : g ∈ P.body f ++ P.sub f → Mentions P g h → Mentions P f h

end Verif.Recursion
