import Verif.Comments.Spec

/-!
# Comments and annotations: model of the code

`insert_comments` and `get_last_lineno` (parser/extend_tree.py 103-294).  The comments come in the order
of their lines; the loops over `comment_lines_no` with `break` are `takeWhile` and `dropWhile`.
-/

namespace Verif.Comments.Model
open Spec

mutual
/-- `get_last_lineno`: extend_tree.py 103-109. -/
def lastLine : Node → Nat
  | .leaf l _ => l
  | .com c => c.line
  | .block _ _ _ b [] => lastLineAll b
  | .block _ _ _ _ (x :: e) => lastLineAll (x :: e)

/-- The same for the last of several statements. -/
def lastLineAll : List Node → Nat
  | [] => 0
  | [n] => lastLine n
  | _ :: n :: r => lastLineAll (n :: r)
end

/-- `col_offset` of the first statement: extend_tree.py 121. -/
def colOf : List Node → Nat
  | [] => 0
  | .leaf _ c :: _ => c
  | .block _ c _ _ _ :: _ => c
  | .com c :: _ => c.col

/-- `lineno` of the first statement. -/
def lineOf : List Node → Nat
  | [] => 0
  | n :: _ => line n

/-- `isinstance(body[0], IfNode)`. -/
def headIf : List Node → Bool
  | n :: _ => isIf n
  | [] => false

/-- `len(orelse) == 1 and isinstance(orelse[0], IfNode)`. -/
def elifOrelse : List Node → Bool
  | [n] => isIf n
  | _ => false

/-- `next_node_lineno < comment_line_no_k`. -/
def past (next : Option Nat) (x : Com) : Bool :=
  match next with
  | some n => decide (n < x.line)
  | none => false

/-- The comments for the first block of a statement with the blocks `b` and `e`: extend_tree.py 164-203
(where `next` is the line of the next statement) and 253-279 (without a next statement). -/
def bodyComs (els : List Nat) (c : Nat) (next : Option Nat) (b e : List Node) (cs : List Com) : List Com :=
  let last := if e.isEmpty then lastLineAll b else lineOf e
  let stop (x : Com) : Bool :=
    decide (last < x.line) &&
      ((!e.isEmpty && elifOrelse e) || (decide (c ≥ x.col) && e.isEmpty) ||
        past next x)
  let t := cs.takeWhile fun x => !stop x
  if !e.isEmpty && !elifOrelse e then
    match t.getLast? with
    | none => t
    | some z =>
      match (els.filter fun l => decide (l ≤ z.line) && decide (l ≤ lineOf e)).getLast? with
      | none => t
      | some l => t.takeWhile fun x => decide (x.line < l)
  else t

/-- The comments for the second block: extend_tree.py 207-229 and 285-310. -/
def elseComs (c : Nat) (e : List Node) (cs : List Com) : List Com :=
  if e.isEmpty then []
  else cs.takeWhile fun x => !(decide (lastLineAll e < x.line) && decide (c ≥ x.col))

/-- The comments before the first statement of a block: extend_tree.py 127-133. -/
def before (b : List Node) (cs : List Com) : List Com := cs.takeWhile fun x => decide (x.line < lineOf b)

mutual
/-- `insert_comments` for the two blocks of a statement; the column for the second is that of the
statement if it begins with `if`: extend_tree.py 112-121. -/
def into (els : List Nat) (c : Nat) : Node → List Com → List Com → Node
  | .leaf l k, _, _ => .leaf l k
  | .com x, _, _ => .com x
  | .block l k i b e, x, y =>
    .block l k i
      (if x = [] then b
       else (before b x).map .com ++ go els (colOf b) b (x.drop (before b x).length))
      (if y = [] then e
       else (before e y).map .com ++
        go els (if headIf e then c else colOf e) e (y.drop (before e y).length))

/-- The loop over the statements of a block and what follows it: extend_tree.py 135-317. -/
def go (els : List Nat) (c : Nat) : List Node → List Com → List Node
  | [], cs => cs.map .com
  | [.leaf l k], cs => .leaf l k :: cs.map .com
  | [.com x], cs => .com x :: cs.map .com
  | [.block l k i b e], cs =>
    let x := bodyComs els c none b e cs
    let cs' := cs.drop x.length
    let y := elseComs c e cs'
    into els c (.block l k i b e) x y :: (cs'.drop y.length).map .com
  | s :: s2 :: r, cs =>
    match cs with
    | [] => s :: s2 :: r
    | c0 :: _ =>
      if line s2 < c0.line then s :: go els c (s2 :: r) cs
      else
        match s with
        | .block _ _ _ b e =>
          let x := bodyComs els c (some (line s2)) b e cs
          let cs' := cs.drop x.length
          let y := elseComs c e cs'
          let cs'' := cs'.drop y.length
          let z := cs''.takeWhile fun x => decide (x.line ≤ line s2)
          into els c s x y :: (z.map .com ++ go els c (s2 :: r) (cs''.drop z.length))
        | _ =>
          let z := cs.takeWhile fun x => decide (x.line ≤ line s2)
          s :: (z.map .com ++ go els c (s2 :: r) (cs.drop z.length))
end

/-- `insert_comments` for a block; `c` is the column. -/
def top (els : List Nat) (c : Nat) (b : List Node) (x : List Com) : List Node :=
  if x = [] then b else (before b x).map .com ++ go els c b (x.drop (before b x).length)

/-- `extend_tree`: extend_tree.py 88-100. -/
def extendTree (els : List Nat) (body : List Node) (cs : List Com) : List Node :=
  if body.isEmpty then cs.map .com else top els (colOf body) body cs

/-! ## Comments in the text -/

/-- `line.strip().startswith("#")` and `line.index("#")`. -/
def hashCol (l : List Char) : Option Nat :=
  match l.dropWhile Char.isWhitespace with
  | '#' :: _ => some (l.takeWhile Char.isWhitespace).length
  | _ => none

/-- The first loop of `get_comments`: extend_tree.py 45-51. -/
def getComments : Nat → List (List Char) → List Com
  | _, [] => []
  | i, l :: r =>
    match hashCol l with
    | some k => ⟨i, k⟩ :: getComments (i + 1) r
    | none => getComments (i + 1) r

/-- The second loop: comments in consecutive lines with the same column are one comment: extend_tree.py
56-66. -/
def group : List Com → List (List Com)
  | [] => []
  | a :: r =>
    match group r with
    | (b :: g) :: gs => if b.line = a.line + 1 ∧ b.col = a.col then (a :: b :: g) :: gs else [a] :: (b :: g) :: gs
    | gs => [a] :: gs

end Verif.Comments.Model
