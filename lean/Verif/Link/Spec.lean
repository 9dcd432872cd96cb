/-!
# Compiling and linking: what a user relies on
-/

namespace Verif.Link.Spec

/-- Names of object files and libraries. -/
abbrev Name := Nat

/-- Something that is compiled: its name, whether an object file belongs to it (headers have none), the
libraries given for it, and what it depends on. -/
inductive Obj
  | mk (name : Name) (file : Bool) (libs : List Name) (deps : List Obj)

def Obj.name : Obj → Name | .mk n _ _ _ => n
def Obj.file : Obj → Bool | .mk _ f _ _ => f
def Obj.libs : Obj → List Name | .mk _ _ l _ => l
def Obj.deps : Obj → List Obj | .mk _ _ _ d => d

/-- `o` depends on `d`, directly or indirectly. -/
inductive Needs : Obj → Obj → Prop
  | direct {o d : Obj} : d ∈ o.deps → Needs o d
  | indirect {o d e : Obj} : d ∈ o.deps → Needs d e → Needs o e

/-- `o` depends on `e` through objects that all have a file, and `e` has one. -/
inductive Chain : Obj → Obj → Prop
  | direct {o d : Obj} : d ∈ o.deps → d.file = true → Chain o d
  | indirect {o d e : Obj} : d ∈ o.deps → d.file = true → Chain d e → Chain o e

/-! ## Static libraries

A library is a collection of members; a member defines a symbol and uses others. -/

/-- Symbols. -/
abbrev Sym := Nat

/-- The symbols that a library defines, and the symbols that the definition of a symbol uses. -/
structure World where
  defs : Name → List Sym
  uses : Sym → List Sym

/-- The members that the linker takes from library `a`, when the symbols `W` have been used so far and
the symbols `D` are defined: those that are used and not defined, and what these use in turn. -/
inductive Taken (w : World) (a : Name) (W D : Sym → Prop) : Sym → Prop
  | used {s : Sym} : s ∈ w.defs a → W s → ¬ D s → Taken w a W D s
  | again {t s : Sym} : Taken w a W D t → s ∈ w.uses t → s ∈ w.defs a → ¬ D s → Taken w a W D s

/-- The linker goes through the libraries from left to right, once.  It succeeds if in the end every
symbol that is used is defined. -/
def Links (w : World) : List Name → (Sym → Prop) → (Sym → Prop) → Prop
  | [], W, D => ∀ s, W s → D s
  | a :: l, W, D =>
    Links w l (fun s => W s ∨ ∃ t, Taken w a W D t ∧ s ∈ w.uses t) (fun s => D s ∨ Taken w a W D s)

/-- A list of libraries is in the order that a linker requires: what a library uses is defined in it
or in a library that follows. -/
def Ordered (w : World) (l : List Name) : Prop :=
  ∀ pre a post, l = pre ++ a :: post → ∀ s ∈ w.defs a, ∀ r ∈ w.uses s,
    r ∈ w.defs a ∨ ∃ b ∈ post, r ∈ w.defs b

/-! ## Options of the compiler -/

/-- An option: what it sets, and the value (`-O0` and `-O3` set the same thing). -/
abbrev Flag := Nat × Nat

/-- What a compiler does with a list of options: the last one counts. -/
def effective (fl : List Flag) (g : Nat) : Option Nat :=
  fl.foldl (fun v f => if f.1 = g then some f.2 else v) none

/-- The defaults with the user's options added: where the user gives an option it counts. -/
def wanted (user default : List Flag) (g : Nat) : Option Nat :=
  match effective user g with
  | some v => some v
  | none => effective default g

/-! ## Folders -/

/-- The folder in which a file is found: the first that contains it. -/
def found (has : Name → Bool) (folders : List Name) : Option Name := folders.find? has

/-! ## Object files of libraries

Contents, options and times are numbers. -/

/-- What happens to a library over time. -/
inductive Event
  /-- the source file is written, with new contents, at a time -/
  | write (c t : Nat)
  /-- pyccel replaces its copy of the library, because another version of pyccel has been installed; the
  copy has the time of the original -/
  | upgrade (c m : Nat)
  /-- a translation that uses the library, with these options and this compiler, at a time -/
  | use (o t : Nat)

/-- The contents of the source after a history. -/
def source (c : Nat) : List Event → Nat
  | [] => c
  | .write c' _ :: r => source c' r
  | .upgrade c' _ :: r => source c' r
  | .use _ _ :: r => source c r

/-- The clock: every event that has a time happens later than the ones before, an upgrade brings a file
that is not from the future. -/
def Ticks (now : Nat) : List Event → Prop
  | [] => True
  | .write _ t :: r => now < t ∧ Ticks t r
  | .use _ t :: r => now < t ∧ Ticks t r
  | .upgrade _ m :: r => m ≤ now ∧ Ticks now r

/-- Every use has the same options. -/
def SameOpts (o : Nat) : List Event → Prop
  | [] => True
  | .use o' _ :: r => o' = o ∧ SameOpts o r
  | _ :: r => SameOpts o r

end Verif.Link.Spec
