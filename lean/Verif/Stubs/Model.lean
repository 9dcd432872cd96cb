import Verif.Stubs.Spec
import Verif.Calls.Model

/-
The stub files (`.pyi`) that pyccel writes for a translated module, and how it reads annotations.
-/
namespace Verif.Stubs
open Verif.Types.Spec (Num)
open Verif.Calls (FArg PyArguments)

/-! ## Printing -/

/-- The names of number types: pyccel/codegen/printing/pycode.py:2092-2102 and 2114-2117, pyccel/ast/numpytypes.py:135-280. -/
def numName : Num → Txt
  | .pbool => ['b', 'o', 'o', 'l']
  | .pint => ['i', 'n', 't']
  | .pfloat => ['f', 'l', 'o', 'a', 't']
  | .pcomplex => ['c', 'o', 'm', 'p', 'l', 'e', 'x']
  | .i8 => ['i', 'n', 't', '8']
  | .i16 => ['i', 'n', 't', '1', '6']
  | .i32 => ['i', 'n', 't', '3', '2']
  | .i64 => ['i', 'n', 't', '6', '4']
  | .f32 => ['f', 'l', 'o', 'a', 't', '3', '2']
  | .f64 => ['f', 'l', 'o', 'a', 't', '6', '4']
  | .f128 => ['f', 'l', 'o', 'a', 't', '1', '2', '8']
  | .c64 => ['c', 'o', 'm', 'p', 'l', 'e', 'x', '6', '4']
  | .c128 => ['c', 'o', 'm', 'p', 'l', 'e', 'x', '1', '2', '8']
  | .c256 => ['c', 'o', 'm', 'p', 'l', 'e', 'x', '2', '5', '6']

/-- `,:` for every dimension after the first: pycode.py:2069. -/
def colons : Nat → Txt
  | 0 => []
  | n + 1 => ',' :: ':' :: colons n

/-- `(order=C)`: pycode.py:2070. -/
def orderTxt : Option Order → Txt
  | none => []
  | some .C => ['(', 'o', 'r', 'd', 'e', 'r', '=', 'C', ')']
  | some .F => ['(', 'o', 'r', 'd', 'e', 'r', '=', 'F', ')']

mutual
/-- The text of a type: `_print_FinalType`, `_print_NumpyNDArrayType` and their neighbours, pycode.py:2063-2117.
Simplification: the imports that are printed with the names are taken as given (`Wf`). -/
def printT : Ty → Txt
  | .num t => numName t
  | .str => ['s', 't', 'r']
  | .cls n => n
  | .arr t rank o => numName t ++ '[' :: ':' :: colons (rank - 1) ++ ']' :: orderTxt o
  | .htup t => ['t', 'u', 'p', 'l', 'e', '['] ++ printT t ++ [',', ' ', '.', '.', '.', ']']
  | .tup [] => ['t', 'u', 'p', 'l', 'e', '[', '(', ')', ']']
  | .tup (t :: ts) => ['t', 'u', 'p', 'l', 'e', '['] ++ printT t ++ printTs ts ++ [']']
  | .list t => ['l', 'i', 's', 't', '['] ++ printT t ++ [']']
  | .set t => ['s', 'e', 't', '['] ++ printT t ++ [']']
  | .dict k v => ['d', 'i', 'c', 't', '['] ++ printT k ++ [',', ' '] ++ printT v ++ [']']
  | .final t => ['F', 'i', 'n', 'a', 'l', '['] ++ printT t ++ [']']
/-- `, t` for all further types: pycode.py:2074. -/
def printTs : List Ty → Txt
  | [] => []
  | t :: ts => ',' :: ' ' :: printT t ++ printTs ts
end

/-- Does a variable of this type have dimensions?  `rank` in pyccel/ast/datatypes.py:318-325, 784-791, 837-844, 1078-1085, 1131-1140. -/
def ranked : Ty → Bool
  | .num _ | .cls _ => false
  | .final t => ranked t
  | _ => true

mutual
/-- The annotation of a variable or argument: `_get_type_annotation`, pycode.py:261-317. -/
def printA : Ann → Txt
  | .var t m =>
    if m = .alias then ['A', 'n', 'n', 'o', 't', 'a', 't', 'e', 'd', '['] ++ printT t ++ [',', ' ', '"', 'a', 'l', 'i', 'a', 's', '"', ']']
    else if m = .stack ∧ ranked t = true then
      ['A', 'n', 'n', 'o', 't', 'a', 't', 'e', 'd', '['] ++ printT t ++ [',', ' ', '"', 's', 't', 'a', 'c', 'k', '"', ']']
    else printT t
  | .proc args => '(' :: ')' :: '(' :: printAs args
  | .func res args => '(' :: printA res ++ ')' :: '(' :: printAs args
/-- The arguments of a function type, with the closing parenthesis: pycode.py:309-315. -/
def printAs : List Ann → Txt
  | [] => [')']
  | a :: as => printA a ++ printAs' as
/-- Further arguments: pycode.py:309-315. -/
def printAs' : List Ann → Txt
  | [] => [')']
  | a :: as => ',' :: ' ' :: printA a ++ printAs' as
end

/-! ## The grammar of annotations

pyccel/parser/grammar/types.tx, read by textX as a parsing expression grammar that skips white space before every terminal. -/

/-- White space: textX's default. -/
def isWs (c : Char) : Bool := c = ' ' || c = '\t' || c = '\n' || c = '\r'

/-- The input after white space: textX's default. -/
def skip : Txt → Txt
  | [] => []
  | c :: i => if isWs c then skip i else c :: i

/-- The input after a given text: textX string match. -/
def strip : Txt → Txt → Option Txt
  | [], i => some i
  | c :: s, d :: i => if c = d then strip s i else none
  | _ :: _, [] => none

/-- A terminal: textX string match. -/
def lit (s i : Txt) : Option Txt := strip s (skip i)

/-- Characters that may begin a name: `ID` of textX.  Simplification: ASCII only. -/
def isIdS (c : Char) : Bool := c.isAlpha || c = '_'

/-- Characters of a name: `ID` of textX. -/
def isIdC (c : Char) : Bool := c.isAlphanum || c = '_'

/-- `ID` of textX. -/
def ident (i : Txt) : Option (Txt × Txt) :=
  match skip i with
  | c :: cs => if isIdS c then some (c :: cs.takeWhile isIdC, cs.dropWhile isIdC) else none
  | [] => none

/-- `SingleQuotedStr`, `DoubleQuotedStr`: types.tx:5-6. -/
def quoted (q : Char) (i : Txt) : Option (Txt × Txt) :=
  match lit [q] i with
  | some j => match lit [q] ((skip j).dropWhile (· ≠ q)) with
    | some k => some ((skip j).takeWhile (· ≠ q), k)
    | none => none
  | none => none

/-- `DataType: ID|STAR|Ellipsis|Str`: types.tx:16-17. -/
def dataType (i : Txt) : Option (Dt × Txt) :=
  match ident i with
  | some (n, j) => some (.id n, j)
  | none => match lit ['*'] i with
    | some j => some (.id ['*'], j)
    | none => match lit ['.', '.', '.'] i with
      | some j => some (.id ['.', '.', '.'], j)
      | none => match quoted '\'' i with
        | some (s, j) => some (.str s, j)
        | none => match quoted '"' i with
          | some (s, j) => some (.str s, j)
          | none => none

/-- `(order = ID)`: types.tx:12. -/
def orderP (i : Txt) : Option (Txt × Txt) :=
  match lit ['('] i with
  | none => none
  | some i => match lit ['o', 'r', 'd', 'e', 'r'] i with
    | none => none
    | some i => match lit ['='] i with
      | none => none
      | some i => match ident i with
        | none => none
        | some (o, i) => match lit [')'] i with
          | none => none
          | some i => some (o, i)

/-- `IndexType: Slice | Ellipsis | Type | Str`: types.tx:10. -/
def indexP (p : Txt → Option (Syn × Txt)) (i : Txt) : Option (SArg × Txt) :=
  match lit [':'] i with
  | some j => some (.slice, j)
  | none => match lit ['.', '.', '.'] i with
    | some j => some (.ell, j)
    | none => match p i with
      | some (s, j) => some (.ty s, j)
      | none => none

/-- Further elements of a list with separator `c`: textX's `args*=X[',']`. -/
def sepMore {α : Type} (c : Char) (p : Txt → Option (α × Txt)) : Nat → Txt → List α × Txt
  | 0, i => ([], i)
  | k + 1, i => match lit [c] i with
    | none => ([], i)
    | some j => match p j with
      | none => ([], i)
      | some (a, j') => (a :: (sepMore c p k j').1, (sepMore c p k j').2)

/-- A list with separator `c`: textX's `args*=X[',']`. -/
def sepBy {α : Type} (c : Char) (p : Txt → Option (α × Txt)) (i : Txt) : List α × Txt :=
  match p i with
  | none => ([], i)
  | some (a, j) => (a :: (sepMore c p j.length j).1, (sepMore c p j.length j).2)

/-- `Type: dtype=DataType (trailer=TrailerSubscriptList)?`: types.tx:11-12; the first argument bounds the depth. -/
def typeP : Nat → Txt → Option (Syn × Txt)
  | 0, _ => none
  | f + 1, i => match dataType i with
    | none => none
    | some (d, j) => match lit ['['] j with
      | none => some (.name d, j)
      | some j1 => match lit [']'] (sepBy ',' (indexP (typeP f)) j1).2 with
        | none => some (.name d, j)
        | some j3 => match orderP j3 with
          | some (o, j4) => some (.idx d (sepBy ',' (indexP (typeP f)) j1).1 (some o), j4)
          | none => some (.idx d (sepBy ',' (indexP (typeP f)) j1).1 none, j3)

/-- The members of a union: types.tx:1-3, 14.  A function type has the annotation of its result, if there is one, and those of its arguments. -/
inductive Head where
  | ty (s : Syn)
  | proc (args : List (List Head))
  | func (res : List Head) (args : List (List Head))

/-- `'(' args*=UnionTypeStmt[','] ')'`: types.tx:14. -/
def argsP (u : Txt → Option (List Head × Txt)) (i : Txt) : Option (List (List Head) × Txt) :=
  match lit ['('] i with
  | none => none
  | some j => match lit [')'] (sepBy ',' u j).2 with
    | some k => some ((sepBy ',' u j).1, k)
    | none => none

/-- `FuncType`: types.tx:14. -/
def funcP (u : Txt → Option (List Head × Txt)) (i : Txt) : Option (Head × Txt) :=
  match lit ['('] i with
  | none => none
  | some j => match u j with
    | some (r, k) => match lit [')'] k with
      | some k => match argsP u k with
        | some (as, k) => some (.func r as, k)
        | none => none
      | none => none
    | none => match lit [')'] j with
      | some k => match argsP u k with
        | some (as, k) => some (.proc as, k)
        | none => none
      | none => none

/-- `TypeHeader: FuncType|Type`: types.tx:3. -/
def headP (u : Txt → Option (List Head × Txt)) (t : Txt → Option (Syn × Txt)) (i : Txt) : Option (Head × Txt) :=
  match funcP u i with
  | some r => some r
  | none => match t i with
    | some (s, j) => some (.ty s, j)
    | none => none

/-- `UnionTypeStmt: dtypes += TypeHeader['|']`: types.tx:1; the first argument bounds the depth. -/
def unionP : Nat → Txt → Option (List Head × Txt)
  | 0, _ => none
  | f + 1, i => match sepBy '|' (headP (unionP f) (typeP (f + 1))) i with
    | ([], _) => none
    | (hs, j) => some (hs, j)

/-- A whole annotation: textX wants the end of the text after the first rule. -/
def parse (i : Txt) : Option (List Head) :=
  match unionP i.length i with
  | some (hs, j) => if skip j = [] then some hs else none
  | none => none

/-! ## The meaning of annotations -/

/-- The order of a type: pyccel/ast/datatypes.py:793-802. -/
def orderOf : Ty → Option Order
  | .arr _ _ o => o
  | .final t => orderOf t
  | _ => none

/-- `swap_order`: pyccel/ast/numpytypes.py:443-458.  Types that are not arrays do not have it (`none`); for `Final` arrays the result is not `Final`. -/
def swapOrder : Ty → Option Ty
  | .arr t r o => some (.arr t r (o.map fun | .C => .F | .F => .C))
  | .final t => swapOrder t
  | _ => none

/-- Python's `capitalize`: pyccel/parser/syntax/headers.py:113. -/
def capitalize : Txt → Txt
  | [] => []
  | c :: cs => c.toUpper :: cs.map Char.toLower

/-- The letter of an order. -/
def orderLetter : Option Order → Option Txt
  | none => none
  | some .C => some ['C']
  | some .F => some ['F']

/-- A type without `Final`: these types are equal and have the same hash, pyccel/ast/datatypes.py:254-258. -/
def unfinal : Ty → Ty
  | .final t => unfinal t
  | t => t

/-- `UnionTypeAnnotation` removes repeats: pyccel/ast/type_annotations.py:207-214.  Simplification: `Final` inside other types counts. -/
def dedup : List (Ty × Option Mem) → List (Ty × Option Mem)
  | [] => []
  | a :: l => a :: (dedup l).filter (fun b => a.2.isSome || b.2.isSome || decide (unfinal a.1 ≠ unfinal b.1))

/-- The end of `_visit_SyntacticTypeAnnotation`: the order is applied if there is one type only; pyccel/parser/semantic.py:4486-4519. -/
def applyOrder (o : Option Txt) (l : List (Ty × Option Mem)) : Option (List (Ty × Option Mem)) :=
  match o, l with
  | some s, [(t, none)] => if orderLetter (orderOf t) = some (capitalize s) then some l else (swapOrder t).map (fun u => [(u, none)])
  | _, _ => some l

/-- All choices of one element from each list (`itertools.product`). -/
def product {α : Type} : List (List α) → List (List α)
  | [] => [[]]
  | l :: ls => l.flatMap (fun a => (product ls).map (a :: ·))

/-- The array type for an element type: semantic.py:3188-3213. -/
def arrOf (rank : Nat) (t : Ty) : Option Ty :=
  match t with
  | .num t => some (.arr (npT t) rank (if rank < 2 then none else some .C))
  | _ => none

/-- All results, or an error. -/
def all {α β : Type} (f : α → Option β) : List α → Option (List β)
  | [] => some []
  | a :: l => match f a, all f l with
    | some b, some bs => some (b :: bs)
    | _, _ => none

/-- The annotation in an argument, if it is one. -/
def SArg.syn? : SArg → Option Syn
  | .ty s => some s
  | _ => none

/-- The strings after the first argument of `Annotated`: semantic.py:3133-3140. -/
def metas (args : List SArg) : List Txt := args.filterMap fun
  | .ty (.name (.str s)) => some s
  | _ => none

/-- `_get_indexed_type`: semantic.py:3089-3273.  `rec` reads the arguments; `none` is an error.
Simplification: types that a user named with `TypeAlias` contain no `Annotated`. -/
def indexed (rec : Syn → Option (List (Ty × Option Mem))) (o : Obj) (args : List SArg) : Option (List (Ty × Option Mem)) :=
  if o = .annotated then
    match args with
    | .ty s :: rest => match rec s with
      | none => none
      | some l =>
        if l.any (·.2.isSome) then none
        else if ['a', 'l', 'i', 'a', 's'] ∈ metas rest then
          if ['s', 't', 'a', 'c', 'k'] ∈ metas rest then none else some (l.map fun a => (a.1, some .alias))
        else if ['s', 't', 'a', 'c', 'k'] ∈ metas rest then some (l.map fun a => (a.1, some .stack))
        else some l
    | _ => none
  else if args.isEmpty then
    if o = .tuple then some [(.tup [], none)] else none
  else if args.all (fun a => match a with | .slice => true | _ => false) then
    match o with
    | .num t => (arrOf args.length (.num t)).map (fun u => [(u, none)])
    | .alias ts => (all (arrOf args.length) ts).map (·.map (·, none))
    | _ => none
  else if args.any (fun a => match a with | .slice => true | _ => false) then none
  else
    match o, args with
    | .tuple, [.ty s, .ell] => (rec s).map (·.map fun a => (.htup a.1, none))
    | .list, [.ty s] | .list, [.ty s, .ell] => (rec s).map (·.map fun a => (.list a.1, none))
    | .set, [.ty s] | .set, [.ty s, .ell] => (rec s).map (·.map fun a => (.set a.1, none))
    | .final, [.ty s] | .final, [.ty s, .ell] => (rec s).map (·.map fun a => (match a.1 with | .final t => .final t | t => .final t, none))
    | .dict, [.ty s, .ty u] => match rec s, rec u with
      | some ks, some vs => some (List.zipWith (fun k v => (.dict k.1 v.1, none)) ks vs)
      | _, _ => none
    | .tuple, args => match all SArg.syn? args with
      | some ss => (all rec ss).map (fun ls => (product (ls.map (·.map (·.1)))).map fun ts => (.tup ts, none))
      | none => none
    | _, _ => none

/-- `_visit_SyntacticTypeAnnotation` and `_visit_IndexedElement`: semantic.py:4254-4260, 4486-4519; the first argument bounds the depth.
Simplification: strings inside annotations are not read as types. -/
def resolve (env : Txt → Option Obj) : Nat → Syn → Option (List (Ty × Option Mem))
  | 0, _ => none
  | f + 1, .name (.id x) => match env x with
    | some (.num t) => some [(.num t, none)]
    | some .str => some [(.str, none)]
    | some (.cls c) => some [(.cls c, none)]
    | some (.alias ts) => some (dedup (ts.map (·, none)))
    | _ => none
  | f + 1, .idx (.id x) args o => match env x with
    | some b => match indexed (resolve env f) b args with
      | some l => applyOrder o (dedup l)
      | none => none
    | none => none
  | _, _ => none

/-- The memory of a variable of a type: semantic.py:4396-4404, 4433-4436.  Simplification: no decorator `stack_array`. -/
def memOf (t : Ty) : Option Mem → Mem
  | some m => m
  | none => if ranked t then .heap else .stack

/-- The first type of an argument: `[0]` in semantic.py:4037. -/
def first (d : Head → Option (List Ann)) (hs : List Head) : Option Ann :=
  match all d hs with
  | some ls => ls.flatten.head?
  | none => none

/-- The variables that an annotation can declare: semantic.py:4025-4039, 4406-4462.  A result has exactly one type (7401-7415). -/
def declares (env : Txt → Option Obj) : Nat → Head → Option (List Ann)
  | 0, _ => none
  | f + 1, .ty s => (resolve env (f + 1) s).map (·.map fun a => .var a.1 (memOf a.1 a.2))
  | f + 1, .proc args => (all (first (declares env f)) args).map fun as => [.proc as]
  | f + 1, .func res args => match all (declares env f) res, all (first (declares env f)) args with
    | some [[r]], some as => some [.func r as]
    | _, _ => none

/-- The variables that the text of an annotation can declare: syntactic.py:391-407 and the functions above. -/
def readA (env : Txt → Option Obj) (i : Txt) : Option (List Ann) :=
  match parse i with
  | some hs => (all (declares env i.length) hs).map List.flatten
  | none => none

/-! ## Parameter lists -/

/-- A printed parameter: `_print_FunctionDefArgument`, pycode.py:578-601. -/
def printArg {V : Type} (a : FArg V) : Item V :=
  match a.kind with
  | .vararg => .vararg a.name
  | .kwarg => .kwarg a.name
  | _ => .param a.name a.dflt

/-- The parameters in a stub file: `_function_signature`, pycode.py:358-380.  The position of `*` is found in the list without `/`. -/
def printArgs {V : Type} (l : List (FArg V)) : List (Item V) :=
  let code := l.map printArg
  let code := if l.head?.any (fun a => decide (a.kind = .posonly)) then
      code.insertIdx ((l.takeWhile (fun a => decide (a.kind = .posonly))).length) .slash
    else code
  if l.any (fun a => decide (a.kind = .kwonly)) && l.all (fun a => decide (a.kind ≠ .vararg)) then
    code.insertIdx ((l.takeWhile (fun a => decide (a.kind ≠ .kwonly))).length) .star
  else code

/-- The parameters that are read from a stub file: Python's parser, then `_visit_arguments` (syntactic.py:733-826). -/
def readArgs {V : Type} (l : List (Item V)) : Option (List (FArg V)) := (pyParams l).map Calls.visitArguments

end Verif.Stubs
