import Verif.Lifetimes.Spec

/-
The compiled files and the Python programs the positive theorems are about.
Everything here is a condition on the text of the two programs.
-/
namespace Verif.Lifetimes

/-! ### the compiled file -/

/-- Pointers are stored into attributes of the first argument only, and the array of
an attribute is not replaced by a new one. -/
def plain : Stmt → Bool
  | .seq a b => plain a && plain b
  | .ite _ a b => plain a && plain b
  | .store p _ _ => p.root = 0 && p.attrs.isEmpty
  | .renew .. => false
  | _ => true

/-- Does the body store a pointer? -/
def stores : Stmt → Bool
  | .seq a b => stores a || stores b
  | .ite _ a b => stores a || stores b
  | .store .. => true
  | _ => false

/-- The variables a stored value is read from. -/
def storedFrom : Stmt → List Nat
  | .seq a b => storedFrom a ++ storedFrom b
  | .ite _ a b => storedFrom a ++ storedFrom b
  | .store _ _ q => [q.root]
  | _ => []

/-- The attribute is not an object inside the object. -/
def noSub : Init → Bool
  | .leaf _ => true
  | .sub _ => false

/-- The attribute does not refer to an argument of the constructor. -/
def selfMade : Init → Bool
  | .leaf (.arg t _) => t == .num
  | .leaf (.fresh _) => true
  | .sub ls => ls.all fun l => match l with
    | .arg t _ => t == .num
    | .fresh _ => true

/-- Only methods store pointers, and only into attributes of their own object; a
function which makes an object does not hand arrays or objects to its constructor. -/
def plainFunc (p : Prog) (f : Func) : Bool :=
  plain f.body && (!stores f.body || f.isMethod) &&
    match f.ret with
    | .make c _ => (p.classes.getD c []).all selfMade
    | _ => true

/-- A compiled file without objects inside objects, all of whose functions are plain. -/
def plainProg (p : Prog) : Bool :=
  p.classes.all (·.all noSub) && p.funcs.all (plainFunc p)

/-! ### the Python program -/

/-- What is known of a variable from the statement which set it.  `own`: an object
obtained from a constructor or from a function which makes it, rather than read
from an attribute.  `leaf`: a number or an array which does not belong to an object. -/
inductive Known
  | own | leaf | any
deriving DecidableEq, Repr

def Known.set (w : Nat → Known) (x : Nat) (k : Known) : Nat → Known :=
  fun y => if y = x then k else w y

/-- What is known of the result of a function. -/
def ofRet : Ret → Known
  | .make .. => .own
  | .num _ => .leaf
  | .fresh _ => .leaf
  | _ => .any

/-- What is known after a statement. -/
def after (p : Prog) (w : Nat → Known) : Op → (Nat → Known)
  | .num x _ => Known.set w x .leaf
  | .arr x _ => Known.set w x .leaf
  | .new x _ _ => Known.set w x .own
  | .copy x y => Known.set w x (w y)
  | .get x _ _ => Known.set w x .any
  | .call x f _ =>
    Known.set w x (match p.funcs[f]? with
      | some fn => ofRet fn.ret
      | Option.none => .any)
  | .del x => Known.set w x .any
  | _ => w

/-- Attributes which are arrays or objects are assigned, and methods which do so are
called, only on objects that have not been read from an attribute. -/
def allowed (p : Prog) (w : Nat → Known) : Op → Bool
  | .set y _ _ => w y == .own
  | .call _ f args =>
    match p.funcs[f]? with
    | some f => !stores f.body || args.head?.map w == some .own
    | Option.none => true
  | _ => true

/-- Only numbers and arrays which do not belong to an object are stored. -/
def buildsUp (p : Prog) (w : Nat → Known) : Op → Bool
  | .set _ _ z => w z == .leaf
  | .call _ f args =>
    match p.funcs[f]? with
    | some f => (storedFrom f.body).all fun j => (args[j]?).map w == some .leaf
    | Option.none => true
  | _ => true

/-- All statements are allowed (and, if `g`, build objects only from what exists). -/
def tidyFrom (p : Prog) (g : Bool) : (Nat → Known) → List Op → Bool
  | _, [] => true
  | w, o :: os => allowed p w o && (!g || buildsUp p w o) && tidyFrom p g (after p w o) os

/-- A Python program which starts without variables. -/
def tidy (p : Prog) (ops : List Op) : Bool := tidyFrom p false (fun _ => .any) ops

/-- … and never makes an older object refer to a newer one. -/
def bottomUp (p : Prog) (ops : List Op) : Bool := tidyFrom p true (fun _ => .any) ops

end Verif.Lifetimes
