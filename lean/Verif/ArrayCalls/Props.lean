import Verif.ArrayCalls.Lemmas

/-!
# C205 — calls that return arrays

A call in an expression is made when Python makes it: after what is on its left, only if it is reached, and again for each
test of a loop.
-/

namespace Verif.ArrayCalls.Props
open Verif.ArrayCalls.Spec Verif.ArrayCalls.Model Verif.ArrayCalls.Lemmas

/-- C205 (partial): if the calls that return arrays come first in their statements (none to the right of an element of an
array, of a call that returns a number, or of `and` and `or`, none in a branch of a conditional expression) and are not in
the test of a `while` or an `elif`, then the translated program and the program end with the same variables and arrays, or run equally long without an end — whatever the
functions do.  Missing: calls in the other places (see the negations) and calls whose arguments are calls. -/
theorem C205_same_result_partial {H : Type} (M : Sem H) (p : P) (hp : Orderly p) (steps new : Nat) (s : St H) :
    (run M steps (translate p new).1 s).map seen = (run M steps p s).map seen :=
  run_trans M p hp steps new s s ⟨rfl, rfl⟩

/-- `y = f(a)[0] + g(a)[0] * a[0]`, then `while b[0] < y: b[0] = f(b)[0]`. -/
def sample : P :=
  .seq (.assign 0 (.bin 0 (.arr 0 0) (.bin 1 (.arr 1 0) (.elem 0))))
    (.while (.bin 2 (.elem 1) (.loc 0)) (.store 1 (.arr 0 1)))

example : Orderly sample := by simp [sample, Orderly, Source, First, Plain, Steady]

example : (translate sample 0).1 ≠ sample := by decide

/-- Functions that count: the arrays are one number.  An array has this number as its element; `arr` 0 adds one to it and
returns the sum, `arr` 1 subtracts one and returns the difference. -/
def counter : Sem Int where
  bin o a b := if o = 0 then a + b else if o = 1 then a * b else if a < b then 1 else 0
  elem _ h := h
  store _ v _ := v
  scal _ v h := (v, 10 * h)
  arr k _ h := if k = 0 then (h + 1, h + 1) else (h - 1, h - 1)

/-- A state with `h` in the arrays. -/
def start (h : Int) : St Int := { loc := fun _ => 0, tmp := fun _ => 0, heap := h }

/-- The variable 0 and the arrays after a program. -/
def outcome (r : Option (St Int)) : Option (Int × Int) := r.map (fun s => (s.loc 0, s.heap))

example : outcome (run counter 20 sample (start 3)) = some (13, 13) := by decide +kernel

example : outcome (run counter 20 (translate sample 0).1 (start 3)) = some (13, 13) := by decide +kernel

/-- C205 fails: in `y = a[0] + f(a)[0]`, where `f` changes `a`, the element is read after the call and not before it. -/
theorem C205_left_operand_violated :
    outcome (run counter 1 (.assign 0 (.bin 0 (.elem 0) (.arr 0 0))) (start 5)) = some (11, 6) ∧
    outcome (run counter 1 (translate (.assign 0 (.bin 0 (.elem 0) (.arr 0 0))) 0).1 (start 5)) = some (12, 6) := by
  decide +kernel

/-- C205 fails: in `y = g(1) + f(a)[0]`, where `g` returns a number and both change the array `a`, `f` is called before `g`. -/
theorem C205_order_of_calls_violated :
    outcome (run counter 1 (.assign 0 (.bin 0 (.scal 0 (.lit 1)) (.arr 0 0))) (start 5)) = some (52, 51) ∧
    outcome (run counter 1 (translate (.assign 0 (.bin 0 (.scal 0 (.lit 1)) (.arr 0 0))) 0).1 (start 5)) = some (7, 60) := by
  decide +kernel

/-- C205 fails: in `if y < 0 and f(a)[0]: …` the function is called although `y < 0` is false. -/
theorem C205_and_violated :
    outcome (run counter 1 (.ite (.and (.bin 2 (.loc 0) (.lit 0)) (.arr 0 0)) .skip .skip) (start 5)) = some (0, 5) ∧
    outcome (run counter 1 (translate (.ite (.and (.bin 2 (.loc 0) (.lit 0)) (.arr 0 0)) .skip .skip) 0).1 (start 5))
      = some (0, 6) := by
  decide +kernel

/-- C205 fails: in `y = f(a)[0] if y < 0 else 7` the function is called although `y < 0` is false, and even twice. -/
theorem C205_conditional_violated :
    outcome (run counter 1 (.assign 0 (.tern (.bin 2 (.loc 0) (.lit 0)) (.arr 0 0) (.lit 7))) (start 5)) = some (7, 5) ∧
    outcome (run counter 1 (translate (.assign 0 (.tern (.bin 2 (.loc 0) (.lit 0)) (.arr 0 0) (.lit 7))) 0).1 (start 5))
      = some (7, 7) := by
  decide +kernel

/-- C205 fails: in `y = f(a)[0] if y < 1 else 7` the function is called twice, and the second result is taken. -/
theorem C205_twice_violated :
    outcome (run counter 1 (.assign 0 (.tern (.bin 2 (.loc 0) (.lit 1)) (.arr 0 0) (.lit 7))) (start 5)) = some (6, 6) ∧
    outcome (run counter 1 (translate (.assign 0 (.tern (.bin 2 (.loc 0) (.lit 1)) (.arr 0 0) (.lit 7))) 0).1 (start 5))
      = some (7, 7) := by
  decide +kernel

/-- C205 fails: inside an expression (`y = (f(a)[0] if y < 0 else 7) + 0`) it is called once, although `y < 0` is false. -/
theorem C205_nested_conditional_violated :
    outcome (run counter 1 (.assign 0 (.bin 0 (.tern (.bin 2 (.loc 0) (.lit 0)) (.arr 0 0) (.lit 7)) (.lit 0))) (start 5))
      = some (7, 5) ∧
    outcome (run counter 1 (translate
      (.assign 0 (.bin 0 (.tern (.bin 2 (.loc 0) (.lit 0)) (.arr 0 0) (.lit 7)) (.lit 0))) 0).1 (start 5))
      = some (7, 6) := by
  decide +kernel

/-- C205 fails: in `y = f(a)[0] if g(a)[0] else 7`, where `f` adds one to `a` and `g` subtracts one, `f` is called first, and
so the condition is not the one of the program: `a[0] = 1` makes it false in Python. -/
theorem C205_condition_later_violated :
    outcome (run counter 1 (.assign 0 (.tern (.arr 1 0) (.arr 0 0) (.lit 7))) (start 1)) = some (7, 0) ∧
    outcome (run counter 1 (translate (.assign 0 (.tern (.arr 1 0) (.arr 0 0) (.lit 7))) 0).1 (start 1)) = some (3, 2) := by
  decide +kernel

/-- C205 fails: in `if y < 1: … elif f(a)[0]: …` the function is called although `y < 1` is true. -/
theorem C205_elif_violated :
    outcome (run counter 1 (.elif (.bin 2 (.loc 0) (.lit 1)) .skip (.arr 0 0) .skip .skip) (start 5)) = some (0, 5) ∧
    outcome (run counter 1 (translate (.elif (.bin 2 (.loc 0) (.lit 1)) .skip (.arr 0 0) .skip .skip) 0).1 (start 5))
      = some (0, 6) := by
  decide +kernel

/-- C205 fails for all functions, arrays and states: of `x = f(a) if c else g(b)`, where `c` is a variable, the
translated program is `tmp = f(a)` and then the same statement, so `f` is called when `c` is false, and twice when `c` is
true.  (Spelled out as the arrays after it.) -/
theorem C205_arrays_violated {H : Type} (M : Sem H) (steps new x y f a g b : Nat) (s : St H) :
    (run M steps (translate (.pick x (.loc y) f a g b) new).1 s).map (·.heap) =
      some (let h := (M.arr f a s.heap).2
        let q := if s.loc y = 0 then M.arr g b h else M.arr f a h
        M.store x q.1 q.2) ∧
    (run M steps (.pick x (.loc y) f a g b) s).map (·.heap) =
      some (let q := if s.loc y = 0 then M.arr g b s.heap else M.arr f a s.heap
        M.store x q.1 q.2) := by
  refine ⟨?_, ?_⟩ <;> rfl

/-- The two differ: `f` adds one to the arrays, `g` subtracts one, and the condition is false. -/
example : (run counter 1 (translate (.pick 0 (.loc 0) 0 0 1 0) 0).1 (start 5)).map (·.heap) = some 5 ∧
    (run counter 1 (.pick 0 (.loc 0) 0 0 1 0) (start 5)).map (·.heap) = some 4 := by decide +kernel

/-- `while 0 < f(a)[0]: y = y + 1`, where `f` subtracts one from `a`. -/
def countdown : P := .while (.bin 2 (.lit 0) (.arr 1 0)) (.assign 0 (.bin 0 (.loc 0) (.lit 1)))

theorem loop_forever {S : Type} (c : S → Bool × S) (b : S → Option S) (I : S → Prop)
    (h : ∀ s, I s → (c s).1 = true ∧ ∃ t, b (c s).2 = some t ∧ I t) (n : Nat) (s : S) (hs : I s) : loop c b n s = none := by
  induction n generalizing s with
  | zero => rfl
  | succ n ih =>
    obtain ⟨h1, t, h2, h3⟩ := h s hs
    simp only [loop, h1, if_true, h2, Option.bind_some]
    exact ih t h3

/-- C205 fails: the function in the test of `while 0 < f(a)[0]: …` is called once, before the loop.  The loop of the program
ends, and the loop of the translated program does not, however many steps it is given. -/
theorem C205_while_violated :
    outcome (run counter 4 countdown (start 4)) = some (3, 0) ∧
    ∀ steps, run counter steps (translate countdown 0).1 (start 4) = none := by
  refine ⟨by decide +kernel, fun steps => ?_⟩
  show run counter steps (.seq (.hoist 0 1 0) (.while (.bin 2 (.lit 0) (.tmp 0)) (.assign 0 (.bin 0 (.loc 0) (.lit 1))))) _
    = none
  refine loop_forever _ _ (fun s => s.tmp 0 = 3) (fun s hs => ⟨?_, ?_⟩) steps _ rfl
  · simp [eval, counter, hs]
  · exact ⟨_, rfl, hs⟩

/-- The calls of an expression that return arrays, from left to right; in a conditional expression those of the first branch
are to the left of those of the condition, as they are written. -/
def arrays : E → List (Nat × Nat)
  | .arr k x => [(k, x)]
  | .bin _ a b | .and a b | .or a b => arrays a ++ arrays b
  | .tern c a b => arrays a ++ (arrays c ++ arrays b)
  | .scal _ a => arrays a
  | .lit _ | .loc _ | .elem _ | .tmp _ => []

/-- C205: in an expression visited once, the assignments before a statement are the calls that return arrays, from left to right and each once, with
different new names, and none of these calls is left in the statement. -/
theorem C205_moved (e : E) (n : Nat) :
    (visit e n).1.map (·.2) = arrays e ∧ ((visit e n).1.map (·.1)).Nodup ∧ Plain (visit e n).2.1 := by
  have key : ∀ (e : E) (n : Nat), (visit e n).1.map (·.2) = arrays e ∧ ((visit e n).1.map (·.1)).Nodup
      ∧ Plain (visit e n).2.1 ∧ ∀ c ∈ (visit e n).1.map (·.1), n ≤ c ∧ c < (visit e n).2.2 := by
    intro e
    induction e with
    | bin o a b iha ihb | and a b iha ihb | or a b iha ihb =>
      intro n
      obtain ⟨a1, a2, a3, a4⟩ := iha n
      obtain ⟨b1, b2, b3, b4⟩ := ihb (visit a n).2.2
      have hl := visit_le a n
      have hl2 := visit_le b (visit a n).2.2
      refine ⟨?_, ?_, ⟨a3, b3⟩, ?_⟩
      · simp only [visit, List.map_append, arrays, a1, b1]
      · simp only [visit, List.map_append]
        refine List.nodup_append.2 ⟨a2, b2, fun c hc d hd e => ?_⟩
        have := a4 c hc
        have := b4 d hd
        omega
      · intro c hc
        simp only [visit, List.map_append] at hc ⊢
        rcases List.mem_append.1 hc with h | h
        · have := a4 c h; omega
        · have := b4 c h; omega
    | tern c a b ihc iha ihb =>
      intro n
      obtain ⟨a1, a2, a3, a4⟩ := iha n
      obtain ⟨c1, c2, c3, c4⟩ := ihc (visit a n).2.2
      obtain ⟨b1, b2, b3, b4⟩ := ihb (visit c (visit a n).2.2).2.2
      have hl := visit_le a n
      have hl2 := visit_le c (visit a n).2.2
      have hl3 := visit_le b (visit c (visit a n).2.2).2.2
      refine ⟨?_, ?_, ⟨c3, a3, b3⟩, ?_⟩
      · simp only [visit, List.map_append, arrays, a1, b1, c1]
      · simp only [visit, List.map_append]
        refine List.nodup_append.2 ⟨a2, List.nodup_append.2 ⟨c2, b2, fun x hx y hy e => ?_⟩, fun x hx y hy e => ?_⟩
        · have := c4 x hx
          have := b4 y hy
          omega
        · have := a4 x hx
          rcases List.mem_append.1 hy with h | h
          · have := c4 y h; omega
          · have := b4 y h; omega
      · intro x hx
        simp only [visit, List.map_append] at hx ⊢
        rcases List.mem_append.1 hx with h | h
        · have := a4 x h; omega
        · rcases List.mem_append.1 h with h | h
          · have := c4 x h; omega
          · have := b4 x h; omega
    | scal k a ih => exact ih
    | arr k x => intro n; simp [visit, arrays, Plain]
    | _ => intro n; simp [visit, arrays, Plain]
  exact ⟨(key e n).1, (key e n).2.1, (key e n).2.2.1⟩

/-- C205: the right-hand side of an assignment is visited once, but for the first branch of a conditional expression, which
is visited twice; no call is left in the statement. -/
theorem C205_moved_rhs (e : E) (n : Nat) :
    (visitRhs e n).1.map (·.2) = (match e with | .tern _ a _ => arrays a | _ => []) ++ arrays e ∧
    Plain (visitRhs e n).2.1 := by
  cases e with
  | tern c a b =>
    refine ⟨?_, (C205_moved (.tern c a b) (visit a n).2.2).2.2⟩
    simp only [visitRhs, List.map_append]
    rw [(C205_moved a n).1, (C205_moved (.tern c a b) (visit a n).2.2).1]
  | _ => exact ⟨(C205_moved _ n).1, (C205_moved _ n).2.2⟩

example : arrays (.bin 0 (.arr 3 1) (.and (.elem 0) (.arr 2 5))) = [(3, 1), (2, 5)] := rfl

end Verif.ArrayCalls.Props
