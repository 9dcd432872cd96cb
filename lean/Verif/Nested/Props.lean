import Verif.Nested.Lemmas
import Verif.Globals.Props
/-
C172: a nested function uses the variables of the function around it as in Python.
C173: nested functions compile.
-/
namespace Verif.Nested.Props
open Verif.Globals.Spec Verif.Globals.Model Verif.Nested.Spec Verif.Nested.Model Verif.Nested.Lemmas

/-- C172 in Fortran: what is printed is what Python prints, for all nested functions, calls and values. -/
theorem C172_fortran_partial (p : Nest) (h : Separate p) (fuel : Nat) (r : Option (List Int)) (hr : fortranRun p fuel = some r) :
    r = pyRun p fuel := by
  unfold fortranRun at hr
  simp only [Option.map_eq_some_iff] at hr
  obtain ⟨c, hc, rfl⟩ := hr
  exact Verif.Globals.Props.C160_partial p.prog c h hc fuel

/-- C173: if no nested function leads to itself, the C code of all nested functions compiles. -/
theorem C173_partial (p : Nest) (ha : Acyclic p.funcs) (hu : (p.funcs.map (·.name)).Nodup) (c : CProg) (hc : compile p.prog = some c) :
    compilesC c.funcs = true := by
  unfold compile at hc
  simp only [Option.bind_eq_some_iff, Option.map_eq_some_iff, Prod.exists] at hc
  obtain ⟨m, G, vis, _, main, _, _, fs, hf, rfl⟩ := hc
  obtain ⟨rank, hr1, hr2⟩ := ha
  obtain ⟨hl, hs⟩ := rFuns_sound hf
  have hnames := rFuns_names hf
  simp only
  refine ranked_compiles (rank := rank) ⟨fun d hd => ?_, fun d hd g hg hex => ?_⟩ (getCFun_unique ?_)
  · obtain ⟨f, hf', h1, _⟩ := hs d hd
    rw [h1, hl]; exact hr1 f hf'
  · obtain ⟨f, hf', h1, h2⟩ := hs d hd
    obtain ⟨e, he, rfl⟩ := hex
    obtain ⟨f2, hf2, h3, _⟩ := hs e he
    rw [h1]
    exact hr2 f hf' _ (by rw [← h2]; exact hg) ⟨f2, hf2, h3.symm⟩
  · rw [hnames]; exact hu

/-- C172 in C: if no nested function leads to itself, the addresses that are passed give every nested function the variables of this call
of the outer function: what is printed is what Python prints. -/
theorem C172_c_partial (p : Nest) (h : Separate p) (ha : Acyclic p.funcs) (hu : (p.funcs.map (·.name)).Nodup) (fuel : Nat)
    (r : Option (List Int)) (hr : cRun p fuel = some r) : r = pyRun p fuel := by
  unfold cRun at hr
  simp only [Option.map_eq_some_iff] at hr
  obtain ⟨c, hc, rfl⟩ := hr
  rw [run_eq c (C173_partial p ha hu c hc) fuel]
  exact Verif.Globals.Props.C160_partial p.prog c h hc fuel

/-- C172: whatever nested functions assign, and also if they are recursive: C and Fortran print the same if the C code compiles. -/
theorem C172_agree (p : Nest) (c : CProg) (hc : compile p.prog = some c) (hC : compilesC c.funcs = true) (fuel : Nat) :
    cRun p fuel = fortranRun p fuel := by
  simp only [cRun, fortranRun, hc, Option.map_some, run_eq c hC fuel]

def plus (a b : Expr Name) : Expr Name := .bin (· + ·) a b

/-- `def outer(x): def f(y): return x + y; def g(z): w = f(z); return w + x; print(g(1)); x = 5; print(g(1))`: x = 1, f = 10, g = 11. -/
def good : Nest := ⟨[⟨10, [2], true, .skip, plus (.var 1) (.var 2)⟩,
    ⟨11, [3], true, .call 4 10 [.var 3], plus (.var 4) (.var 1)⟩], [(1, 2)],
  .seq (.call 5 11 [.lit 1]) (.seq (.print (.var 5)) (.seq (.assign 1 (.lit 5)) (.seq (.call 5 11 [.lit 1]) (.print (.var 5)))))⟩

/-- The hypotheses are met, and values change between the calls. -/
example : Separate good ∧ Acyclic good.funcs ∧ (good.funcs.map (·.name)).Nodup ∧ cRun good 20 = some (some [5, 11]) := by
  refine ⟨⟨?_, ?_⟩, ⟨fun n => n - 10, ?_, ?_⟩, by decide, by decide +kernel⟩
  · intro f hf x hx hm
    simp [good, Nest.prog] at hf
    rcases hf with rfl | rfl
    · simp [assigned] at hx
    · simp [assigned] at hx
      subst hx
      simp [good, Nest.prog, entry, assigned] at hm
  · intro x hx
    simp [Nest.prog, annotated] at hx
  · intro f hf
    simp [good] at hf ⊢
    rcases hf with rfl | rfl <;> simp
  · intro f hf g hg _
    simp [good] at hf
    rcases hf with rfl | rfl
    · simp [callees] at hg
    · simp [callees] at hg
      subst hg; decide

/-- `def outer(x): def f(y): x = y + 5; return x; r = f(2); print(x)`. -/
def assigning : Nest := ⟨[⟨10, [2], false, .assign 1 (plus (.var 2) (.lit 5)), .var 1⟩], [(1, 1)],
  .seq (.call 3 10 [.lit 2]) (.print (.var 1))⟩

/-- C172 fails: an assignment in a nested function changes the variable of the outer function that has the same name: 7 is printed
instead of 1. -/
theorem C172_violated : pyRun assigning 9 = some [1] ∧ cRun assigning 9 = some (some [7]) ∧ fortranRun assigning 9 = some (some [7]) := by
  refine ⟨by decide +kernel, by decide +kernel, by decide +kernel⟩

/-- `def outer(x): def f(n): if n: r = f(n - 1) else: r = x; return r; print(f(2))` (with a typed result). -/
def recursive : Nest := ⟨[⟨10, [2], true, .ite (.var 2) (.call 3 10 [.bin (· - ·) (.var 2) (.lit 1)]) (.assign 3 (.var 1)), .var 3⟩], [(1, 8)],
  .seq (.call 4 10 [.lit 2]) (.print (.var 4))⟩

/-- C173 fails: a recursive nested function that uses a variable of the outer function does not compile in C: the recursive call has too few
arguments.  In Fortran it works. -/
theorem C173_violated : cRun recursive 20 = some none ∧ fortranRun recursive 20 = some (some [8]) ∧ pyRun recursive 20 = some [8] := by
  refine ⟨by decide +kernel, by decide +kernel, by decide +kernel⟩

end Verif.Nested.Props
