import Verif.Stubs.Lemmas3
import Verif.Stubs.Lemmas4
import Verif.Stubs.Lemmas5

/-!
# C111, C112, C113: stub files and annotations
-/
namespace Verif.Stubs
open Verif.Types.Spec (Num)
open Verif.Calls (FArg PyArguments visitArguments)

/-- The names that a stub file knows, and two unions that its user named with `TypeAlias`: `K = int | float` and `V = float32 | float64`; `P` is a class. -/
def names (x : Txt) : Option Obj :=
  if x = ['K'] then some (.alias [.num .pint, .num .pfloat])
  else if x = ['V'] then some (.alias [.num .f32, .num .f64])
  else if x = ['P'] then some (.cls ['P'])
  else if x = ['s', 't', 'r'] then some .str
  else if x = ['l', 'i', 's', 't'] then some .list
  else if x = ['s', 'e', 't'] then some .set
  else if x = ['d', 'i', 'c', 't'] then some .dict
  else if x = ['t', 'u', 'p', 'l', 'e'] then some .tuple
  else if x = ['F', 'i', 'n', 'a', 'l'] then some .final
  else if x = ['A', 'n', 'n', 'o', 't', 'a', 't', 'e', 'd'] then some .annotated
  else ([Num.pbool, .pint, .pfloat, .pcomplex, .i8, .i16, .i32, .i64, .f32, .f64, .f128, .c64, .c128, .c256].find? (fun t => decide (numName t = x))).map .num

/-! ## C111: the types in a stub file -/

/-- C111 (partial): the annotation that is printed in a stub file for a variable, an argument, a result or a function that is passed as an argument is read
back as a declaration of the same type, with the same element types, number of dimensions, order, `Final` and memory.
Not covered: empty tuples, which are printed but cannot be read (`C111_violated_empty_tuple`), and scalars on the heap. -/
theorem C111_partial {env : Txt → Option Obj} {a : Ann} (h : WfA env a) : readA env (printA a) = some [a] := readA_print h

/-- C111 (partial): different declarations have different texts. -/
theorem C111_injective_partial {env : Txt → Option Obj} {a b : Ann} (ha : WfA env a) (hb : WfA env b) (h : printA a = printA b) : a = b := by
  have h1 := readA_print ha
  rw [h, readA_print hb] at h1
  simpa using h1.symm

/-- A function with a class and a Fortran-ordered `Final` array as arguments, whose second argument is a procedure on lists of tuples and an alias:
`(dict[str, tuple[int, float32[:]]])(P, ()(list[tuple[int, ...]], Annotated[Final[float64[:,:,:](order=F)], "alias"]), Annotated[int64[:,:](order=C), "stack"])`. -/
example : ∃ a, WfA names a ∧ printA a ≠ [] :=
  ⟨.func (.var (.dict .str (.tup [.num .pint, .arr .f32 1 none])) .heap)
      [.var (.cls ['P']) .stack,
       .proc [.var (.list (.htup (.num .pint))) .heap, .var (.final (.arr .f64 3 (some .F))) .alias],
       .var (.arr .i64 2 (some .C)) .stack],
    by
      simp only [WfA, WfAs, Wf, Wfs]
      refine ⟨⟨⟨by decide, by decide, by decide, by decide, by decide, ⟨by decide, by decide, by decide, by decide⟩, trivial⟩, by decide, by decide⟩,
        ⟨⟨by decide, by decide⟩, by decide, by decide⟩,
        ⟨⟨⟨by decide, by decide, by decide⟩, by decide, by decide⟩,
          ⟨⟨by decide, ⟨by decide, by decide, by decide, by decide⟩, by simp⟩, by simp, by decide⟩, trivial⟩,
        ⟨⟨by decide, by decide, by decide, by decide⟩, by decide, by decide⟩, trivial⟩,
    by simp [printA]⟩

/-- C111 fails: the type of an empty tuple is printed as `tuple[()]`, which is not in the grammar of annotations, so that the stub file cannot be read. -/
theorem C111_violated_empty_tuple (env : Txt → Option Obj) :
    printA (.var (.tup []) .heap) = ['t', 'u', 'p', 'l', 'e', '[', '(', ')', ']'] ∧ readA env (printA (.var (.tup []) .heap)) = none := by
  refine ⟨rfl, ?_⟩
  have h : parse (printA (.var (.tup []) .heap)) = none := rfl
  simp [readA, h]

/-! ## C112: the parameters in a stub file -/

/-- C112 (partial): the parameter list printed in a stub file is a legal parameter list, and Python reads it as the original one: every parameter keeps its kind
and its default.  Not covered: functions with positional-only and keyword-only parameters but no `*args` (`C112_violated_moved`, `C112_violated_error`), and defaults
of positional-only parameters (C44). -/
theorem C112_partial {V : Type} {a : PyArguments V} (hw : a.Wf) (hd : a.defaults.length ≤ a.args.length)
    (h : a.posonly = [] ∨ a.kwonly = [] ∨ a.vararg ≠ none) :
    pyParams (printArgs (visitArguments a)) = some a ∧ readArgs (printArgs (visitArguments a)) = some (visitArguments a) := by
  have := args_back hw.kwDefaultsFit hd h
  exact ⟨this, by simp [readArgs, this]⟩

/-- `def f(a, b=1, *, c=2, **d)`. -/
example : ∃ a : PyArguments Nat, a.Wf ∧ a.defaults.length ≤ a.args.length ∧ (a.posonly = [] ∨ a.kwonly = [] ∨ a.vararg ≠ none) ∧
    printArgs (visitArguments a) = [.param "a" none, .param "b" (some 1), .star, .param "c" (some 2), .kwarg "d"] :=
  ⟨⟨[], ["a", "b"], none, ["c"], [some 2], some "d", [1]⟩, ⟨by decide, by decide, by decide, by decide⟩, by decide, by decide, by decide⟩

/-- `def f(a, /, b, *args, c)`. -/
example : ∃ a : PyArguments Nat, a.Wf ∧ a.defaults.length ≤ a.args.length ∧ (a.posonly = [] ∨ a.kwonly = [] ∨ a.vararg ≠ none) ∧
    printArgs (visitArguments a) = [.param "a" none, .slash, .param "b" none, .vararg "args", .param "c" none] :=
  ⟨⟨["a"], ["b"], some "args", ["c"], [none], none, []⟩, ⟨by decide, by decide, by decide, by decide⟩, by decide, by decide, by decide⟩

/-- C112 (partial): this is exactly where the parameters are preserved. -/
theorem C112_exact_partial {V : Type} {a : PyArguments V} (hw : a.Wf) (hd : a.defaults.length ≤ a.args.length) :
    pyParams (printArgs (visitArguments a)) = some a ↔ a.posonly = [] ∨ a.kwonly = [] ∨ a.vararg ≠ none := by
  refine ⟨fun h => ?_, args_back hw.kwDefaultsFit hd⟩
  refine Classical.byContradiction fun hn => ?_
  simp only [not_or, Decidable.not_not] at hn
  obtain ⟨h1, h2, h3⟩ := hn
  have hks : a.kwonly.zip a.kwDefaults ≠ [] := fun e => h2 ((kw_nil hw.kwDefaultsFit).1 e)
  rw [visit_eq hd, h3] at h
  rcases List.eq_nil_or_concat (normals a) with e | ⟨ns, b, e⟩
  · rw [e, args_error h1 hks] at h
    cases h
  · rw [List.concat_eq_append] at e
    have hds := defaults_normals hd []
    rw [List.map_nil, List.nil_append, e] at hds
    have hd' : ∃ ds, defaults ns = some ds := defaults_init hds
    obtain ⟨ds, hd'⟩ := hd'
    rw [e, args_moved h1 hks hd'] at h
    have := congrArg (fun x : Option (PyArguments V) => x.map (·.kwonly.length)) h
    simp [(kw_zip hw.kwDefaultsFit).1] at this

/-- C112 fails: the position of `*` is found before `/` is inserted, so that the last ordinary parameter becomes keyword-only.
`def f(a, /, b, *, c)` is printed as `def f(a, /, *, b, c)`, and the call `f(1, 2, c=3)` is refused. -/
theorem C112_violated_moved :
    let a : PyArguments Nat := ⟨["a"], ["b"], none, ["c"], [none], none, []⟩
    a.Wf ∧ printArgs (visitArguments a) = [.param "a" none, .slash, .star, .param "b" none, .param "c" none] ∧
      pyParams (printArgs (visitArguments a)) = some ⟨["a"], [], none, ["b", "c"], [none, none], none, []⟩ :=
  ⟨⟨by decide, by decide, by decide, by decide⟩, by decide, rfl⟩

/-- C112 fails: this happens to the last ordinary parameter of every function with positional-only and keyword-only parameters but no `*args`. -/
theorem C112_violated_last {V : Type} {a : PyArguments V} (hw : a.Wf) (hd : a.defaults.length ≤ a.args.length) (h1 : a.posonly ≠ []) (h2 : a.kwonly ≠ [])
    (h3 : a.vararg = none) {as : List String} {b : String} (h4 : a.args = as ++ [b]) :
    ∃ r, pyParams (printArgs (visitArguments a)) = some r ∧ r.posonly = a.posonly ∧ r.args = as ∧ r.kwonly = b :: a.kwonly := by
  have hks : a.kwonly.zip a.kwDefaults ≠ [] := fun e => h2 ((kw_nil hw.kwDefaultsFit).1 e)
  have hf := normals_fst hd
  rw [h4] at hf
  rcases List.eq_nil_or_concat (normals a) with e | ⟨ns, b', e⟩
  · rw [e] at hf; simp at hf
  · rw [List.concat_eq_append] at e
    rw [e, List.map_append] at hf
    simp only [List.map_cons, List.map_nil] at hf
    have hf' := List.append_inj' hf rfl
    simp only [List.cons.injEq, and_true] at hf'
    have hds := defaults_normals hd []
    rw [List.map_nil, List.nil_append, e] at hds
    obtain ⟨ds, hd'⟩ := defaults_init hds
    have hm := args_moved (b := b') (kw := a.kwarg) h1 hks hd'
    rw [← e, ← h3, ← visit_eq hd] at hm
    exact ⟨_, hm, rfl, hf'.1, by simp only [hf'.2, (kw_zip hw.kwDefaultsFit).1]⟩

/-- The function of `C112_violated_moved` meets these conditions. -/
example : ∃ a : PyArguments Nat, a.Wf ∧ a.defaults.length ≤ a.args.length ∧ a.posonly ≠ [] ∧ a.kwonly ≠ [] ∧ a.vararg = none ∧ a.args = [] ++ ["b"] :=
  ⟨⟨["a"], ["b"], none, ["c"], [none], none, []⟩, ⟨by decide, by decide, by decide, by decide⟩, by decide, by decide, by decide, rfl, rfl⟩

/-- C112 fails: without ordinary parameters, `def f(a, /, *, c)`, the stub file has `def f(a, *, /, c)`, which is a syntax error. -/
theorem C112_violated_error :
    let a : PyArguments Nat := ⟨["a"], [], none, ["c"], [none], none, []⟩
    a.Wf ∧ printArgs (visitArguments a) = [.param "a" none, .star, .slash, .param "c" none] ∧ pyParams (printArgs (visitArguments a)) = none :=
  ⟨⟨by decide, by decide, by decide, by decide⟩, by decide, rfl⟩

/-! ## C113: unions in annotations -/

/-- C113 (partial): if an annotation is accepted, the types that it allows are exactly those that it means: the names of unions stand for all their members, in every
position and in all combinations, and arrays have the rank and the order of the annotation.
Not covered: `Final`, `Annotated`, unions in dictionaries (`C113_violated_dict`) and orders with unions (`C113_violated_order`) or with other letters
(`C113_violated_letter`). -/
theorem C113_partial {env : Txt → Option Obj} (hf : ∀ x ts, env x = some (.alias ts) → ∀ u, .final u ∉ ts) {s : Syn} (hc : Clear env s) {f : Nat}
    {l : List (Ty × Option Mem)} (h : resolve env f s = some l) (t : Ty) : (t, none) ∈ l ↔ Means env s t := by
  simpa using resolve_means hf hc f h (t, none)

theorem names_alias : ∀ x ts, names x = some (.alias ts) → ∀ u, .final u ∉ ts := by
  intro x ts h u
  unfold names at h
  repeat' split at h
  all_goals first
    | (cases h; simp; done)
    | (simp at h; done)

/-- `tuple[K, V[:,:]]` allows four types. -/
example : ∃ s, Clear names s ∧ parse ['t', 'u', 'p', 'l', 'e', '[', 'K', ',', ' ', 'V', '[', ':', ',', ':', ']', ']'] = some [.ty s] ∧ resolve names 20 s = some
    [(.tup [.num .pint, .arr .f32 2 (some .C)], none), (.tup [.num .pint, .arr .f64 2 (some .C)], none),
     (.tup [.num .pfloat, .arr .f32 2 (some .C)], none), (.tup [.num .pfloat, .arr .f64 2 (some .C)], none)] :=
  ⟨.idx (.id ['t', 'u', 'p', 'l', 'e']) [.ty (.name (.id ['K'])), .ty (.idx (.id ['V']) [.slice, .slice] none)] none,
    .idx (by simp) (by decide) (by decide) (by simp) (fun h => absurd h (by decide)) (by
      intro s hs
      simp only [List.mem_cons, SArg.ty.injEq, List.not_mem_nil, or_false] at hs
      rcases hs with rfl | rfl
      · exact .name
      · exact .idx (by simp) (by decide) (by decide) (by simp) (fun h => absurd h (by decide)) (by simp)), rfl, by decide +kernel⟩

/-- C113 fails: the members of two unions in a dictionary are combined in pairs only.  With `K = int | float` and `V = float32 | float64`, `dict[K, V]` does not
allow `dict[int, float64]`, and `dict[K, bool]` does not allow `dict[float, bool]`. -/
theorem C113_violated_dict :
    readA names ['d', 'i', 'c', 't', '[', 'K', ',', ' ', 'V', ']'] = some [.var (.dict (.num .pint) (.num .f32)) .heap, .var (.dict (.num .pfloat) (.num .f64)) .heap] ∧
    Means names (.idx (.id ['d', 'i', 'c', 't']) [.ty (.name (.id ['K'])), .ty (.name (.id ['V']))] none) (.dict (.num .pint) (.num .f64)) ∧
    readA names ['d', 'i', 'c', 't', '[', 'K', ',', ' ', 'b', 'o', 'o', 'l', ']'] = some [.var (.dict (.num .pint) (.num .pbool)) .heap] ∧
    Means names (.idx (.id ['d', 'i', 'c', 't']) [.ty (.name (.id ['K'])), .ty (.name (.id ['b', 'o', 'o', 'l']))] none) (.dict (.num .pfloat) (.num .pbool)) :=
  ⟨rfl, .dict (by decide) (.alias (ts := [.num .pint, .num .pfloat]) (by decide) (by simp)) (.alias (ts := [.num .f32, .num .f64]) (by decide) (by simp)),
    rfl, .dict (by decide) (.alias (ts := [.num .pint, .num .pfloat]) (by decide) (by simp)) (.num (by decide))⟩

/-- C113 fails: the order of an array is ignored if the type of its elements is a union.  `V[:,:](order=F)` allows C-ordered arrays, which it does not mean. -/
theorem C113_violated_order :
    readA names ['V', '[', ':', ',', ':', ']', '(', 'o', 'r', 'd', 'e', 'r', '=', 'F', ')'] = some [.var (.arr .f32 2 (some .C)) .heap, .var (.arr .f64 2 (some .C)) .heap] ∧
    ¬ Means names (.idx (.id ['V']) [.slice, .slice] (some ['F'])) (.arr .f64 2 (some .C)) := by
  refine ⟨rfl, fun h => ?_⟩
  rcases means_inv h with ⟨n, rank, r, -, -, h3, -, h4⟩ | ⟨g, -⟩ | ⟨g, -⟩ | ⟨g, -⟩ | ⟨g, -⟩
  · injection h4 with h5 h6 h7
    subst h6 h7
    simp [MeansOrder] at h3
  all_goals exact absurd g (by decide)

/-- C113 fails: any order that is not `C` is taken for `F`. -/
theorem C113_violated_letter :
    readA names ['i', 'n', 't', '[', ':', ',', ':', ']', '(', 'o', 'r', 'd', 'e', 'r', '=', 'A', ')'] = some [.var (.arr .i64 2 (some .F)) .heap] ∧
    ∀ t, ¬ Means names (.idx (.id ['i', 'n', 't']) [.slice, .slice] (some ['A'])) t := by
  refine ⟨rfl, fun t h => ?_⟩
  rcases means_inv h with ⟨n, rank, r, -, -, h3, h4, -⟩ | ⟨g, -⟩ | ⟨g, -⟩ | ⟨g, -⟩ | ⟨g, -⟩
  · have : rank = 2 := by have := congrArg List.length h4; simpa using this.symm
    subst this
    simp [MeansOrder] at h3
  all_goals exact absurd g (by decide)

end Verif.Stubs
