import Verif.BindC.Lemmas2

/-!
# C162–C164: arguments, results and memory of calls from Python of functions compiled to Fortran
-/
namespace Verif.BindC.Props
open Spec Model Lemmas

/-! ## C162 -/

/-- C162 (part): each parameter receives the value that the call gives or its default, and is absent exactly
if it is `None` in Python; nothing else is passed and no null pointer is read.  Whatever the number of
parameters, their types, and whichever of them are omitted.  Excepted are strings with a default other than
`None` that are omitted. -/
theorem C162_partial (args : List (Param × Given)) (m : Mem) (hd : (args.map (·.1.name)).Nodup)
    (hs : ∀ p g, (p, g) ∈ args → Supported p ∧ Legal p g)
    (hx : ∀ p g, (p, g) ∈ args → ¬(p.ty = .str ∧ (∃ v, p.dflt = .value v) ∧ g = .omitted)) :
    ∃ l, (call args m).1 = some l ∧ (l.map (·.1)).Nodup ∧ (∀ n ∈ l.map (·.1), n ∈ args.map (·.1.name)) ∧
      ∀ p g, (p, g) ∈ args → SameOpt (received p g) (l.lookup p.name) :=
  call_ok (fun x h => ⟨(hs x.1 x.2 h).1, (hs x.1 x.2 h).2, hx x.1 x.2 h⟩) hd m

/-- `def f(a: int, l: list[int], b: int = None, s: str = None, n: int = 7)`,
`f(1, [4, 4, 2], s = 'hi')` -/
def sample : List (Param × Given) :=
  [(⟨0, .num, .required⟩, .value ⟨.num, [1]⟩), (⟨1, .lst, .required⟩, .value ⟨.lst, [4, 4, 2]⟩),
   (⟨2, .num, .absent⟩, .omitted), (⟨3, .str, .absent⟩, .value ⟨.str, [104, 105]⟩),
   (⟨4, .num, .value ⟨.num, [7]⟩⟩, .omitted)]

example : (sample.map (·.1.name)).Nodup ∧ (∀ p g, (p, g) ∈ sample → Supported p ∧ Legal p g) ∧
    (∀ p g, (p, g) ∈ sample → ¬(p.ty = .str ∧ (∃ v, p.dflt = .value v) ∧ g = .omitted)) ∧
    (call sample ⟨fun _ => [], []⟩).1 = some [(0, ⟨.num, [1]⟩), (1, ⟨.lst, [4, 4, 2]⟩), (3, ⟨.str, [104, 105]⟩),
      (4, ⟨.num, [7]⟩)] := by
  refine ⟨by decide, ?_, ?_, by decide +kernel⟩
  · intro p g h
    simp only [sample, List.mem_cons, Prod.mk.injEq, List.not_mem_nil, or_false] at h
    rcases h with ⟨rfl, rfl⟩ | ⟨rfl, rfl⟩ | ⟨rfl, rfl⟩ | ⟨rfl, rfl⟩ | ⟨rfl, rfl⟩ <;>
      simp [Supported, Legal, Typed]
  · intro p g h
    simp only [sample, List.mem_cons, Prod.mk.injEq, List.not_mem_nil, or_false] at h
    rcases h with ⟨rfl, rfl⟩ | ⟨rfl, rfl⟩ | ⟨rfl, rfl⟩ | ⟨rfl, rfl⟩ | ⟨rfl, rfl⟩ <;> simp

/-- C162 fails: the default value of a string is ignored.  With `def f(s: str = 'abc')` the call `f()` passes
the empty string. -/
theorem C162_violated_string :
    let p : Param := ⟨0, .str, .value ⟨.str, [97, 98, 99]⟩⟩
    Supported p ∧ Legal p .omitted ∧ received p .omitted = some ⟨.str, [97, 98, 99]⟩ ∧
      ∀ m, (call [(p, .omitted)] m).1 = some [(0, ⟨.str, []⟩)] :=
  ⟨⟨.inr rfl, rfl, by decide, by decide⟩, by simp [Legal], rfl, fun _ => rfl⟩

/-! ## C163 -/

/-- C163 (part: up to the order of dictionaries): a list, set or dictionary that a function returns is, in Python, equal to the one that the Python
function returns, whatever it contains. -/
theorem C163_partial (h : Heap) (r : Res) (hr : r.Ok) : ∃ r', (result h r).1 = some r' ∧ r'.Eq r :=
  result_ok h hr

example : (Res.dict [(2, 10), (1, 20)]).Ok ∧ (Res.set [3, 1, 2]).Ok := by simp [Res.Ok]

/-- C163 fails for the order of the items of a dictionary: for `{2: 10, 1: 20}` Python gets
`{1: 20, 2: 10}`. -/
theorem C163_violated_order (h : Heap) :
    (result h (.dict [(2, 10), (1, 20)])).1 = some (.dict [(1, 20), (2, 10)]) := by
  have e : represent (.dict [(2, 10), (1, 20)]) = .dict [(1, 20), (2, 10)] := by decide
  rw [result, e, give_dict]
  exact congrArg some (by decide)

/-! ## C164 -/

/-- C164 for arguments: all memory is released exactly if no argument is a tuple, a list or a set; memory of
others is never changed. -/
theorem C164_args_partial (args : List (Param × Given)) (m : Mem) :
    Released m.heap (call args m).2.heap ↔ ∀ p v, (p, .value v) ∈ args → ¬copied p.ty := by
  have e : (call args m).2.heap = m.heap ++ args.filterMap block := collectAll_heap args m
  have hb : args.filterMap block = [] ↔ ∀ p v, (p, .value v) ∈ args → ¬copied p.ty := by
    rw [List.filterMap_eq_nil_iff]
    constructor
    · intro h p v hp hc
      have := h _ hp
      rw [block, if_pos hc] at this
      cases this
    · rintro h ⟨p, g⟩ hp
      cases g with
      | omitted => rfl
      | none => rfl
      | value v => rw [block, if_neg (h p v hp)]
  rw [← hb, e]
  constructor
  · intro h
    refine Decidable.byContradiction fun hne => ?_
    cases hl : args.filterMap block with
    | nil => exact hne hl
    | cons b l =>
      have h1 := h m.heap.length
      rw [hl] at h1
      have hbm : b ∈ args.filterMap block := by simp [hl]
      obtain ⟨⟨p, g⟩, _, hpb⟩ := List.mem_filterMap.1 hbm
      cases g with
      | omitted => cases hpb
      | none => cases hpb
      | value v =>
        simp only [block] at hpb
        split at hpb
        · simp only [Option.some.injEq] at hpb
          subst hpb
          simp at h1
        · cases hpb
  · intro h a
    rw [h, List.append_nil]

example : ¬copied .num ∧ ¬copied .arr ∧ ¬copied .str := by
  refine ⟨?_, ?_, ?_⟩ <;> rintro (h | h | h) <;> cases h

/-- C164 for results: the memory of a list or a set is released. -/
theorem C164_results_partial (h : Heap) (r : Res) (hr : ∀ l, r ≠ .dict l) : Released h (result h r).2 := by
  have key : Released h (h ++ [none]) := by
    intro a
    by_cases ha : a < h.length
    · rw [List.getElem?_append_left ha]
    · rw [List.getElem?_append_right (by omega), List.getElem?_eq_none (by omega : h.length ≤ a)]
      rcases Nat.eq_or_lt_of_le (Nat.le_of_not_lt ha) with h1 | h1
      · simp [h1]
      · rw [List.getElem?_eq_none (by simp; omega)]
  cases r with
  | lst l => rw [result, represent, give_lst]; exact key
  | set l => rw [result, represent, give_set]; exact key
  | dict l => exact absurd rfl (hr l)

example : ∀ l, Res.lst [1, 2] ≠ .dict l := by simp

/-- C164 fails: every call with a list keeps a copy of the list.  After `n` calls of `f([1, 2])` there are `n`
blocks that nobody releases. -/
theorem C164_violated_list (m : Mem) (n : Nat) :
    (calls n [(⟨0, .lst, .required⟩, .value ⟨.lst, [1, 2]⟩)] m).heap =
      m.heap ++ List.replicate n (some [1, 2]) := by
  induction n with
  | zero => simp [calls]
  | succ n ih =>
    rw [calls, call]
    show (collectAll _ _).1.heap = _
    rw [collectAll_heap, ih, List.replicate_succ']
    simp [block]

/-- C164 fails: the copies of the keys and the values of a returned dictionary are not released. -/
theorem C164_violated_dict (h : Heap) (l : List (Int × Int)) : ¬Released h (result h (.dict l)).2 := by
  rw [result, represent, give_dict]
  intro hr
  have := hr h.length
  simp at this

end Verif.BindC.Props
