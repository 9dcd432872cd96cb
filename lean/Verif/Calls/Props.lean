import Verif.Calls.WrapLemmas
import Verif.Calls.DispatchLemmas
/-!
# C43, C44, C45: calling functions
-/

namespace Verif.Calls
open Spec

/-! ## C44: each parameter keeps its own default -/

/-- The parameter list declared by a `def` statement: names, kinds and defaults, in
the order of the declaration. -/
def declared {V : Type} (a : PyArguments V) : List (FArg V) :=
  (signature a).posonly.map (fun p => ⟨p.1, .posonly, p.2⟩) ++
  (signature a).normal.map (fun p => ⟨p.1, .normal, p.2⟩) ++
  a.vararg.toList.map (fun n => ⟨n, .vararg, none⟩) ++
  (signature a).kwonly.map (fun p => ⟨p.1, .kwonly, p.2⟩) ++
  a.kwarg.toList.map (fun n => ⟨n, .kwarg, none⟩)

/-- **C44 (partial)**.  When no positional-only parameter has a default, every
parameter is read with the name, kind and default it was declared with.  Missing:
positional-only parameters with defaults, see `C44_posonly_violated`. -/
theorem C44_partial {V : Type} (a : PyArguments V)
    (h : a.defaults.length ≤ a.args.length) : visitArguments a = declared a := by
  rw [visitArguments_eq a h]
  unfold fargsOf declared
  have e3 : (a.vararg.toList.map (fun n => FArg.mk n Kind.vararg (none : Option V))) =
      if (signature a).vararg = true then [FArg.mk (a.vararg.getD "") .vararg none] else [] := by
    cases hv : a.vararg <;> simp [signature, hv]
  have e4 : (a.kwarg.toList.map (fun n => FArg.mk n Kind.kwarg (none : Option V))) =
      if (signature a).kwarg = true then [FArg.mk (a.kwarg.getD "") .kwarg none] else [] := by
    cases hv : a.kwarg <;> simp [signature, hv]
  rw [e3, e4]
  simp only [List.append_assoc]

/-- `def f(a, /, b, c=10, *r, d, e=20, **k)` -/
def exArgs : PyArguments Int :=
  ⟨["a"], ["b", "c"], some "r", ["d", "e"], [none, some 20], some "k", [10]⟩

theorem exArgs_wf : exArgs.Wf := ⟨by decide, by decide, by decide, by decide⟩

example : exArgs.defaults.length ≤ exArgs.args.length := by decide
example : (declared exArgs).map (fun f => (f.name, f.dflt)) =
    [("a", none), ("b", none), ("c", some 10), ("r", none), ("d", none), ("e", some 20),
     ("k", none)] := by decide

/-- **C44 is violated** when positional-only parameters have defaults: in
`def f(a=1, /, c=3)` Pyccel gives `c` the default of `a`. -/
theorem C44_posonly_violated :
    ∃ a : PyArguments Int, a.Wf ∧ visitArguments a ≠ declared a ∧
      (visitArguments a).find? (fun f => f.name = "c") = some ⟨"c", .normal, some 1⟩ ∧
      (declared a).find? (fun f => f.name = "c") = some ⟨"c", .normal, some 3⟩ := by
  refine ⟨⟨["a"], ["c"], none, [], [], none, [1, 3]⟩,
    ⟨by decide, by decide, by decide, by decide⟩, ?_, rfl, rfl⟩
  intro h
  have := congrArg (List.map (fun f : FArg Int => f.dflt)) h
  exact absurd this (by decide)

/-! ## C43: arguments are bound as in Python -/

/-- What a function compiled by Pyccel receives for a binding: the value of each
parameter in the order of the declaration, `*args` as a tuple and `**kwargs` as a
dictionary. -/
def inOrder {V : Type} (a : PyArguments V) (b : Bound V) : List (Arg V) :=
  b.pos.map .val ++ (a.vararg.toList.map (fun _ => .tuple b.star) ++
    (b.kwonly.map .val ++ a.kwarg.toList.map (fun _ => .dict b.extra)))

theorem inOrder_eq {V : Type} (a : PyArguments V) (b : Bound V) :
    inOrder a b = encode (signature a) b := by
  unfold inOrder encode signature
  cases a.vararg <;> cases a.kwarg <;> rfl

/-- Every starred argument starts before the position of `*args`. -/
def StarsEarly {V : Type} (a : PyArguments V) (args : List (CArg V)) : Prop :=
  ∀ l1 vs l2, args = l1 ++ CArg.star vs :: l2 →
    (unpack l1).pos.length < a.posonly.length + a.args.length

theorem unpack_append {V : Type} (l1 l2 : List (CArg V)) :
    unpack (l1 ++ l2) = ⟨(unpack l1).pos ++ (unpack l2).pos, (unpack l1).kw ++ (unpack l2).kw⟩ := by
  induction l1 with
  | nil => rfl
  | cons a l ih => cases a <;> simp [unpack, ih]

theorem collect_early {V : Type} (fargs : List (FArg V)) (n : Nat) (hn : n ≤ fargs.length)
    (hk : ∀ (i : Nat) f, i < n → fargs[i]? = some f → f.kind ≠ .vararg)
    (done args : List (CArg V))
    (h : ∀ l1 vs l2, done ++ args = l1 ++ CArg.star vs :: l2 → (unpack l1).pos.length < n) :
    collect fargs args ((unpack done).pos.map .one) (unpack done).kw =
      some ((unpack (done ++ args)).pos.map .one, (unpack (done ++ args)).kw) := by
  induction args generalizing done with
  | nil => simp [collect]
  | cons c l ih =>
    have hsplit : done ++ c :: l = (done ++ [c]) ++ l := by simp
    have ih' := ih (done ++ [c]) (fun l1 vs l2 he => h l1 vs l2 (by rw [hsplit]; exact he))
    rw [← hsplit] at ih'
    rw [← ih', unpack_append done [c]]
    cases c with
    | pos v => rw [collect]; simp [unpack]
    | star vs =>
      have hlt := h done vs l rfl
      rw [collect]
      have hget : fargs[((unpack done).pos.map IArg.one).length]? =
          some fargs[(unpack done).pos.length] := by
        rw [List.length_map]
        exact List.getElem?_eq_getElem (by omega)
      rw [hget]
      simp only
      rw [if_pos (hk _ _ hlt (List.getElem?_eq_getElem (by omega)))]
      simp [unpack]
    | kw m v => rw [collect]; simp [unpack]

theorem sig_lengths {V : Type} (a : PyArguments V) (h : a.defaults.length ≤ a.args.length) :
    (signature a).posonly.length = a.posonly.length ∧
      (signature a).normal.length = a.args.length := by
  obtain ⟨h1, h2⟩ := signature_parts a h
  rw [h1, h2]
  refine ⟨by simp, ?_⟩
  have := congrArg List.length (alignRight_names a.args a.defaults h)
  simpa using this

/-- **C43 (partial), calls inside the translated code**: a call that Python accepts
is translated, and every parameter receives the value Python gives it.  Missing:
positional-only defaults (C44), functions with `**kwargs` called without extra
keyword (`C43_empty_kwargs_violated`), and starred arguments at or after the
position of `*args` (`C43_starred_violated`). -/
theorem C43_accepted_partial {V : Type} (a : PyArguments V) (hw : a.Wf)
    (h : a.defaults.length ≤ a.args.length) (args : List (CArg V)) (hs : StarsEarly a args)
    (b : Bound V) (hb : Binds (signature a) (unpack args) b)
    (hkw : a.kwarg.isSome = true → b.extra ≠ []) :
    handleFunction (visitArguments a) args = some (inOrder a b) := by
  obtain ⟨hl1, hl2⟩ := sig_lengths a h
  obtain ⟨hp1, hp2⟩ := signature_parts a h
  have hP : (signature a).posonly.length ≤ (unpack args).pos.length := by
    by_contra hlt
    have hlt : (unpack args).pos.length < (signature a).posonly.length := by omega
    obtain ⟨h1, h2⟩ := hb.posonly _ _ (List.getElem?_eq_getElem hlt)
    rw [if_neg (by omega)] at h1
    rw [h1] at h2
    apply h2
    simp [hp1]
  have hroom : (unpack args).pos.length ≤
      (signature a).posonly.length + (signature a).normal.length ∨ (signature a).vararg = true := by
    by_cases hv : (signature a).vararg = true
    · exact Or.inr hv
    · left
      have := hb.star
      by_contra hlt
      apply hv
      apply hb.starOk
      rw [this]
      intro he
      have := congrArg List.length he
      simp at this
      omega
  have hfl := fargsOf_length (signature a) (a.vararg.getD "") (a.kwarg.getD "")
  have hc : collect (fargsOf (signature a) (a.vararg.getD "") (a.kwarg.getD "")) args [] [] =
      some ((unpack args).pos.map .one, (unpack args).kw) := by
    have := collect_early (fargsOf (signature a) (a.vararg.getD "") (a.kwarg.getD ""))
      (a.posonly.length + a.args.length) (by omega) ?_ [] args (by simpa [StarsEarly] using hs)
    · simpa [unpack] using this
    · intro i f hi hf
      unfold fargsOf at hf
      rw [← List.append_assoc, List.getElem?_append_left (by simp [hl1, hl2]; omega)] at hf
      have := List.mem_of_getElem? hf
      simp only [List.mem_append, List.mem_map] at this
      rcases this with ⟨_, _, rfl⟩ | ⟨_, _, rfl⟩ <;> simp
  rw [visitArguments_eq a h]
  unfold handleFunction
  rw [sortArgs_closed (signature a) _ _ (namesOk_signature a hw h) args hc (by simpa using hroom)
    (by simp [plainArgs_one]) (by
      intro _
      rw [← List.map_take, ← List.map_drop, plainArgs_one, packRest_one]
      simp)]
  rw [closed_of_binds _ _ b hP hb (by simpa [signature] using hkw)]
  have hlen := encode_length (signature a) b hb.posLength hb.kwonlyLength (a.vararg.getD "")
    (a.kwarg.getD "")
  simp only [List.length_map, hlen, mapM_some, inOrder_eq]
  simp

/-- `f(1, *(2,), 3, 4, d=5, z=6)` for `exArgs`. -/
def exCall : List (CArg Int) :=
  [.pos 1, .star [2], .pos 3, .pos 4, .kw "d" 5, .kw "z" 6]

def exBound : Bound Int := ⟨[1, 2, 3], [4], [5, 20], [("z", 6)]⟩

theorem exBinds : Binds (signature exArgs) (unpack exCall) exBound := by
  rw [binds_iff _ _ _ (by decide)]
  refine ⟨by decide, by decide, by decide, by decide, ?_, by decide, by decide⟩
  intro j p hp _
  have h0 : (signature exArgs).normal = [("b", none), ("c", some 10)] := by decide
  rw [h0] at hp
  match j, hp with
  | 0, hp => simp at hp; subst hp; decide
  | 1, hp => simp at hp; subst hp; decide

example : StarsEarly exArgs exCall := by
  intro l1 vs l2 h
  match l1, h with
  | [], h => simp [exCall] at h
  | [x], h =>
    simp only [exCall, List.cons_append, List.nil_append, List.cons.injEq] at h
    obtain ⟨rfl, _⟩ := h
    decide
  | x :: y :: l, h =>
    exfalso
    simp only [exCall, List.cons_append, List.cons.injEq] at h
    obtain ⟨-, -, h⟩ := h
    have hm : CArg.star vs ∈ [CArg.pos 3, .pos 4, .kw "d" 5, .kw "z" (6 : Int)] := by
      rw [h]; simp
    simp at hm

example : handleFunction (visitArguments exArgs) exCall = some (inOrder exArgs exBound) := by
  decide

/-- **C43 (partial), calls inside the translated code**: whatever Pyccel accepts,
Python accepts too, with the same values.  Missing: positional arguments in
excess of the positional parameters of a function without `*args`
(`C43_kwonly_positional_violated`), and keywords naming a parameter already
filled by position (`C43_duplicate_violated`). -/
theorem C43_sound_partial {V : Type} (a : PyArguments V) (hw : a.Wf)
    (h : a.defaults.length ≤ a.args.length) (args : List (CArg V))
    (hroom : (unpack args).pos.length ≤ a.posonly.length + a.args.length ∨ a.vararg.isSome = true)
    (hclash : ∀ (j : Nat) (n : String), a.args[j]? = some n →
      a.posonly.length + j < (unpack args).pos.length → n ∉ (unpack args).kw.map Prod.fst)
    (r : List (Arg V)) (hr : handleFunction (visitArguments a) args = some r) :
    ∃ b, Binds (signature a) (unpack args) b ∧ r = inOrder a b := by
  obtain ⟨hl1, hl2⟩ := sig_lengths a h
  obtain ⟨hp1, hp2⟩ := signature_parts a h
  rw [visitArguments_eq a h] at hr
  have hfl := fargsOf_length (signature a) (a.vararg.getD "") (a.kwarg.getD "")
  have hvs : (signature a).vararg = a.vararg.isSome := rfl
  unfold handleFunction at hr
  cases hsort : sortArgs (fargsOf (signature a) (a.vararg.getD "") (a.kwarg.getD "")) args with
  | none => rw [hsort] at hr; cases hr
  | some as =>
    rw [hsort] at hr
    simp only at hr
    split at hr
    · cases hr
    rename_i hle
    cases hm : as.mapM id with
    | none => rw [hm] at hr; cases hr
    | some vs =>
      rw [hm] at hr
      simp only at hr
      split at hr
      · rename_i hvl
        rw [Option.some.injEq] at hr
        subst hr
        -- the positional arguments fit
        cases hcol : collect (fargsOf (signature a) (a.vararg.getD "") (a.kwarg.getD "")) args
            [] [] with
        | none => simp [sortArgs, hcol] at hsort
        | some ik =>
          obtain ⟨input, kws⟩ := ik
          have hflat := (collect_flat _ _ _ _ hcol).1
          simp only [flat, List.nil_append] at hflat
          have hsort' := hsort
          unfold sortArgs at hsort'
          simp only [hcol, takeWhile_posonly, takeWhile_vararg] at hsort'
          split at hsort'
          · cases hsort'
          -- `plainArgs`/`packRest` succeeded
          have hclosed : closed (signature a) (unpack args) = some as := by
            rw [← hsort]
            symm
            by_cases hv : (signature a).vararg = true
            · simp only [hv, if_true] at hsort'
              refine sortArgs_closed _ _ _ (namesOk_signature a hw h) args hcol (Or.inr hv) ?_ ?_
              · intro hin hnone
                rw [if_neg (by omega), hnone] at hsort'
                cases hsort'
              · intro hin
                rw [if_pos (by omega)] at hsort'
                constructor
                · intro hnone
                  rw [hnone] at hsort'
                  cases hpr : packRest (input.drop ((signature a).posonly.length +
                    (signature a).normal.length)) <;> simp [hpr] at hsort'
                · intro hnone
                  rw [hnone] at hsort'
                  simp at hsort'
            · have hpos : (unpack args).pos.length ≤
                  (signature a).posonly.length + (signature a).normal.length := by
                rcases hroom with hr | hr
                · omega
                · exact absurd (hvs ▸ hr) hv
              simp only [hv] at hsort'
              by_cases hin : input.length > (fargsOf (signature a) (a.vararg.getD "")
                  (a.kwarg.getD "")).length
              · exfalso
                simp only [Bool.false_eq_true, if_false, if_pos hin] at hsort'
                -- one argument too many
                have hkeyl : as.length > (fargsOf (signature a) (a.vararg.getD "")
                  (a.kwarg.getD "")).length := by
                  cases hpr : packRest (input.drop (fargsOf (signature a) (a.vararg.getD "")
                    (a.kwarg.getD "")).length) with
                  | none => simp [hpr] at hsort'
                  | some t =>
                    cases hpl : plainArgs (input.take (fargsOf (signature a) (a.vararg.getD "")
                      (a.kwarg.getD "")).length) with
                    | none => simp [hpr, hpl] at hsort'
                    | some p =>
                      have hpp := plainArgs_flat hpl
                      have hplen : p.length = (fargsOf (signature a) (a.vararg.getD "")
                          (a.kwarg.getD "")).length := by
                        have h1 := congrArg List.length hpp.2
                        have h2 := congrArg List.length hpp.1
                        simp only [List.length_map, List.length_take] at h1 h2
                        omega
                      simp only [hpr, hpl, Option.bind_some, Option.map_some] at hsort'
                      unfold addKwargs at hsort'
                      split at hsort'
                      · rw [Option.some.injEq] at hsort'
                        rw [← hsort']
                        simp [hplen]
                      · split at hsort'
                        · split at hsort'
                          · rw [Option.some.injEq] at hsort'
                            rw [← hsort']
                            simp [hplen]
                          · cases hsort'
                        · cases hsort'
                omega
              · simp only [Bool.false_eq_true, if_false, if_neg hin] at hsort'
                have hpl : plainArgs input ≠ none := by
                  intro hnone
                  rw [hnone] at hsort'
                  cases hsort'
                obtain ⟨p, hp⟩ := Option.ne_none_iff_exists'.1 hpl
                have hin' := congrArg List.length (plainArgs_flat hp).2
                rw [List.length_map, hflat] at hin'
                refine sortArgs_closed _ _ _ (namesOk_signature a hw h) args hcol
                  (Or.inl (by omega)) (fun _ => hpl) (fun hlt => by omega)
          have := binds_of_closed (signature a) (unpack args) (a.vararg.getD "")
            (a.kwarg.getD "") as vs hclosed hm hvl (by rw [hl1, hl2]; exact hroom) ?_
          · obtain ⟨b, hb1, hb2⟩ := this
            exact ⟨b, hb1, by rw [inOrder_eq]; exact hb2⟩
          · intro j p hp hj
            apply hclash j p.1 _ (by omega)
            have := congrArg (fun l => l[j]?) (alignRight_names a.args a.defaults h)
            simp only [← hp2, List.getElem?_map, hp] at this
            exact this.symm
      · cases hr

example : (unpack exCall).pos.length ≤ exArgs.posonly.length + exArgs.args.length ∨
    exArgs.vararg.isSome = true := by decide
example : ∀ (j : Nat) (n : String), exArgs.args[j]? = some n →
    exArgs.posonly.length + j < (unpack exCall).pos.length →
      n ∉ (unpack exCall).kw.map Prod.fst := by
  intro j n hn _
  have := List.mem_of_getElem? hn
  simp only [exArgs, List.mem_cons, List.not_mem_nil, or_false] at this
  rcases this with rfl | rfl <;> decide

/-- **C43 is violated**: in `def f(a, *, b)` the keyword-only `b` is accepted by
position, where Python raises `TypeError`. -/
theorem C43_kwonly_positional_violated :
    ∃ (a : PyArguments Int) (args : List (CArg Int)), a.Wf ∧
      handleFunction (visitArguments a) args = some [.val 1, .val 2] ∧
      ¬ ∃ b, Binds (signature a) (unpack args) b := by
  refine ⟨⟨["a"].tail, ["a"], none, ["b"], [none], none, []⟩, [.pos 1, .pos 2],
    ⟨by decide, by decide, by decide, by decide⟩, by decide, ?_⟩
  rintro ⟨b, hb⟩
  have h1 := hb.starOk
  rw [hb.star] at h1
  exact absurd (h1 (by decide)) (by decide)

/-- **C43 is violated**: in `def f(a, **k)` the call `f(1, a=2)` is accepted, where
Python raises `TypeError` (multiple values for `a`). -/
theorem C43_duplicate_violated :
    ∃ (a : PyArguments Int) (args : List (CArg Int)), a.Wf ∧
      handleFunction (visitArguments a) args = some [.val 1, .dict [("a", 2)]] ∧
      ¬ ∃ b, Binds (signature a) (unpack args) b := by
  refine ⟨⟨[], ["a"], none, [], [], some "k", []⟩, [.pos 1, .kw "a" 2],
    ⟨by decide, by decide, by decide, by decide⟩, by decide, ?_⟩
  rintro ⟨b, hb⟩
  exact hb.noClash 0 ("a", none) (by decide) (by decide) (by decide)

/-- **C43 is violated**: `f(1)` for `def f(a, **k)` is valid Python but leaves
Pyccel's call without a value for `k`. -/
theorem C43_empty_kwargs_violated :
    ∃ (a : PyArguments Int) (args : List (CArg Int)) (b : Bound Int), a.Wf ∧
      Binds (signature a) (unpack args) b ∧ handleFunction (visitArguments a) args = none := by
  refine ⟨⟨[], ["a"], none, [], [], some "k", []⟩, [.pos 1], ⟨[1], [], [], []⟩,
    ⟨by decide, by decide, by decide, by decide⟩, ?_, by decide⟩
  rw [binds_iff _ _ _ (by decide)]
  refine ⟨by decide, by decide, by decide, by decide, ?_, by decide, by decide⟩
  intro j p hp _
  simp [unpack]

/-- **C43 is violated**: `f(*(1, 2), 3)` for `def f(*r)` is valid Python but is not
translated. -/
theorem C43_starred_violated :
    ∃ (a : PyArguments Int) (args : List (CArg Int)) (b : Bound Int), a.Wf ∧
      Binds (signature a) (unpack args) b ∧ handleFunction (visitArguments a) args = none := by
  refine ⟨⟨[], [], some "r", [], [], none, []⟩, [.star [1, 2], .pos 3], ⟨[], [1, 2, 3], [], []⟩,
    ⟨by decide, by decide, by decide, by decide⟩, ?_, by decide⟩
  rw [binds_iff _ _ _ (by decide)]
  refine ⟨by decide, by decide, by decide, by decide, ?_, by decide, by decide⟩
  intro j p hp
  simp [signature, alignRight] at hp

/-- **C43 (partial), calls from Python**: the compiled function accepts exactly the
calls that the original accepts, and its parameters receive the same values; no
parameter is left uninitialised.  Missing: functions with `*args` or `**kwargs`
(not wrapped), renamed parameters (`C43_renamed_violated`), `None` passed for a
parameter with default (`C43_none_violated`), and required keyword-only
parameters next to defaults (`C43_invalid_format_violated`,
`C43_uninitialised_violated`). -/
theorem C43_wrapper_partial {V : Type} [DecidableEq V] (pyNone : V) (a : PyArguments V)
    (hw : a.Wf) (h : a.defaults.length ≤ a.args.length) (hv : a.vararg = none)
    (hk : a.kwarg = none)
    (hkd : (a.defaults = [] ∧ ∀ d ∈ a.kwDefaults, d = none) ∨ ∀ d ∈ a.kwDefaults, d ≠ none)
    (c : Call V) (hpos : pyNone ∉ c.pos) (hkw : pyNone ∉ c.kw.map Prod.snd)
    (w : List (CVal V)) :
    wrapperArgs pyNone id (visitArguments a) c = some w ↔
      ∃ b, Binds (signature a) c b ∧ w = (b.pos ++ b.kwonly).map .val := by
  obtain ⟨hl1, hl2⟩ := sig_lengths a h
  obtain ⟨hp1, hp2⟩ := signature_parts a h
  have hfmt := fmtOk_signature a h hv hk hkd
  have hv' : (signature a).vararg = false := by simp [signature, hv]
  have hk' : (signature a).kwarg = false := by simp [signature, hk]
  rw [visitArguments_eq a h]
  by_cases hP : (signature a).posonly.length ≤ c.pos.length
  · rw [wrapper_iff pyNone (signature a) _ _ c hv' hk' (namesOk_signature a hw h) ?_ hfmt hpos hkw hP]
    · constructor
      · rintro ⟨h1, h2, h3, k1, k2, h4, h5, rfl⟩
        have htake : c.pos.take ((signature a).posonly.length + (signature a).normal.length) =
            c.pos := List.take_of_length_le h1
        refine ⟨⟨c.pos ++ k1, [], k2, []⟩, ?_, by simp⟩
        rw [binds_iff _ _ _ hP]
        refine ⟨?_, h5.symm, (List.drop_eq_nil_of_le h1).symm, by simp, h2, ?_, by simp⟩
        · rw [htake, h4]; simp
        · rw [← left_eq _ _ h2, h3]
      · rintro ⟨b, hb, rfl⟩
        obtain ⟨h1, h2, h3, h4, h5, h6, h7⟩ := (binds_iff _ _ _ hP).1 hb
        have hstar : b.star = [] := by
          by_contra hne
          have := h4 hne
          rw [hv'] at this
          cases this
        have hextra : b.extra = [] := by
          by_contra hne
          have := h7 hne
          rw [hk'] at this
          cases this
        have hle : c.pos.length ≤ (signature a).posonly.length + (signature a).normal.length := by
          rw [hstar] at h3
          have := congrArg List.length h3
          simp at this
          omega
        have htake : c.pos.take ((signature a).posonly.length + (signature a).normal.length) =
            c.pos := List.take_of_length_le hle
        rw [htake] at h1
        -- split the positional values
        have hsplit : ∃ k1, b.pos = c.pos ++ k1 ∧
            ((signature a).normal.drop (c.pos.length - (signature a).posonly.length)).map
              (supply c.kw) = k1.map some := by
          have h8 := congrArg (List.take c.pos.length) h1
          have h9 := congrArg (List.drop c.pos.length) h1
          rw [List.take_left' (by simp), ← List.map_take] at h8
          rw [List.drop_left' (by simp), ← List.map_drop] at h9
          refine ⟨b.pos.drop c.pos.length, ?_, h9.symm⟩
          have : b.pos.take c.pos.length = c.pos :=
            (List.map_inj_right (fun _ _ h => Option.some.inj h)).1 h8
          conv_lhs => rw [← List.take_append_drop c.pos.length b.pos, this]
        obtain ⟨k1, hk1, hk2⟩ := hsplit
        refine ⟨hle, h5, by rw [left_eq _ _ h5, ← h6, hextra], k1, b.kwonly, hk2, h2.symm, ?_⟩
        rw [hk1, List.append_assoc]
    · intro p hp
      have : p.1 ∈ ((signature a).normal ++ (signature a).kwonly).map Prod.fst :=
        List.mem_map_of_mem hp
      rw [signature_names a hw h] at this
      exact hw.namesNonempty _ this
  · rw [wrapper_few pyNone (signature a) _ _ c hv' hk' (by simp [hp1]) hfmt (by omega)]
    constructor
    · intro hc; cases hc
    · rintro ⟨b, hb, -⟩
      exfalso
      have hlt : c.pos.length < (signature a).posonly.length := by omega
      obtain ⟨h1, h2⟩ := hb.posonly _ _ (List.getElem?_eq_getElem hlt)
      rw [if_neg (by omega)] at h1
      rw [h1] at h2
      apply h2
      simp [hp1]

/-- `def f(a, /, b, c=10, *, d=20)`, with `0` for `None`. -/
def exWrapped : PyArguments Int := ⟨["a"], ["b", "c"], none, ["d"], [some 20], none, [10]⟩

example : exWrapped.Wf := ⟨by decide, by decide, by decide, by decide⟩
example : wrapperArgs 0 id (visitArguments exWrapped) ⟨[1], [("d", 4), ("b", 2)]⟩ =
    some [.val 1, .val 2, .val 10, .val 4] := by decide
example : wrapperArgs 0 id (visitArguments exWrapped) ⟨[1], [("a", 4), ("b", 2)]⟩ = none := by decide

/-- **C43 is violated**: no call to `def f(*, a, b=1)` from Python succeeds (the
format `$O|O` is invalid), although `f(a=5)` is valid. -/
theorem C43_invalid_format_violated :
    ∃ (a : PyArguments Int), a.Wf ∧
      (∀ (pyNone : Int) (c : Call Int), wrapperArgs pyNone id (visitArguments a) c = none) ∧
      ∃ c b, Binds (signature a) c b := by
  refine ⟨⟨[], [], none, ["a", "b"], [none, some 1], none, []⟩,
    ⟨by decide, by decide, by decide, by decide⟩, fun pyNone c => rfl, ⟨[], [("a", 5)]⟩,
    ⟨[], [], [5, 1], []⟩, ?_⟩
  rw [binds_iff _ _ _ (by decide)]
  refine ⟨by decide, by decide, by decide, by decide, ?_, by decide, by decide⟩
  intro j p hp
  simp [signature, alignRight] at hp

/-- **C43 is violated**: for `def f(a=1, *, b)` the call `f()` must be refused
(`b` is missing), but the wrapper runs the function with an uninitialised `b`. -/
theorem C43_uninitialised_violated :
    ∃ (a : PyArguments Int), a.Wf ∧
      wrapperArgs 0 id (visitArguments a) ⟨[], []⟩ = some [.val 1, .uninit] ∧
      ¬ ∃ b, Binds (signature a) ⟨[], []⟩ b := by
  refine ⟨⟨[], ["a"], none, ["b"], [none], none, [1]⟩,
    ⟨by decide, by decide, by decide, by decide⟩, by decide, ?_⟩
  rintro ⟨b, hb⟩
  obtain ⟨h1, h2⟩ := hb.kwonly 0 ("b", none) (by decide)
  rw [h1] at h2
  exact h2 (by decide)

/-- **C43 is violated**: passing `None` (here `0`) for a parameter with default
silently uses the default. -/
theorem C43_none_violated :
    ∃ (a : PyArguments Int) (c : Call Int) (b : Bound Int), a.Wf ∧ Binds (signature a) c b ∧
      b.pos = [0] ∧ wrapperArgs 0 id (visitArguments a) c = some [.val 7] := by
  refine ⟨⟨[], ["a"], none, [], [], none, [7]⟩, ⟨[0], []⟩, ⟨[0], [], [], []⟩,
    ⟨by decide, by decide, by decide, by decide⟩, ?_, rfl, by decide⟩
  rw [binds_iff _ _ _ (by decide)]
  refine ⟨by decide, by decide, by decide, by decide, ?_, by decide, by decide⟩
  intro j p hp _
  simp

/-- **C43 is violated**: a parameter whose name clashes with a C keyword is renamed,
and can no longer be given by keyword. -/
theorem C43_renamed_violated :
    ∃ (cname : String → String) (a : PyArguments Int) (c : Call Int) (b : Bound Int), a.Wf ∧
      cname "double" = "double_0001" ∧ Binds (signature a) c b ∧
      wrapperArgs 0 cname (visitArguments a) c = none := by
  refine ⟨fun s => if s = "double" then "double_0001" else s,
    ⟨[], ["double"], none, [], [], none, []⟩, ⟨[], [("double", 3)]⟩, ⟨[3], [], [], []⟩,
    ⟨by decide, by decide, by decide, by decide⟩, rfl, ?_, by decide⟩
  rw [binds_iff _ _ _ (by decide)]
  refine ⟨by decide, by decide, by decide, by decide, ?_, by decide, by decide⟩
  intro j p hp hj
  simp [signature, alignRight] at hj

/-! ## C45: the overload that runs is the right one -/

/-- **C45 (partial)**.  From Python, the overload that runs is the first one whose
parameter types accept the arguments, and `TypeError` is raised exactly when none
does.  Missing: values accepted by two of the declared types
(`C45_ambiguous_violated`) and overloads which differ in the type of a defaulted
parameter (`C45_default_violated`). -/
theorem C45_partial {Ty Obj : Type} [DecidableEq Ty] (check : Obj → Ty → Bool)
    (fs : List (Overload Ty)) (dfl : List Bool) (xs : List (Option Obj))
    (hlen : ∀ f ∈ fs, f.length = dfl.length) (hx : xs.length = dfl.length)
    (hun : Unambiguous check fs dfl xs)
    (hdf : ∀ f ∈ fs, ∀ g ∈ fs, ∀ i : Nat, dfl[i]? = some true → f[i]? = g[i]?) (k : Nat) :
    callInterface check fs dfl xs = some k ↔ First (fun f => Accepts check f dfl xs) fs k := by
  have hdis : DisjointAt (fun (x : Option Obj) t => x.any (fun o => check o t)) fs dfl xs := by
    intro i x hd hxi f hf g hg u v hu hv h1 h2
    cases x with
    | none => simp at h1
    | some o => exact hun i o hd hxi f hf g hg u v hu hv (by simpa using h1) (by simpa using h2)
  have hacc : ∀ f ∈ fs, Accepts check f dfl xs ↔
      Matches (fun (x : Option Obj) t => x.any (fun o => check o t)) f dfl xs ∧
        defaultsOk check f dfl xs = true := fun f hf => accepts_iff check f dfl xs (hlen f hf) hx
  have hd := dispatch_iff (fun (x : Option Obj) t => x.any (fun o => check o t)) fs dfl xs hlen hx
    hdis
  unfold callInterface
  simp only [Option.bind_eq_bind, Option.bind_eq_some_iff]
  constructor
  · rintro ⟨k', hk', f, hf, hok⟩
    split at hok
    · rename_i hall
      simp only [Option.pure_def, Option.some.injEq] at hok
      subst hok
      obtain ⟨⟨f', hf', hm⟩, hmin⟩ := (hd k').1 hk'
      rw [hf] at hf'
      cases hf'
      refine ⟨⟨f, hf, (hacc f (List.mem_of_getElem? hf)).2 ⟨hm, hall⟩⟩, ?_⟩
      intro j g hj hg hag
      exact hmin j g hj hg ((hacc g (List.mem_of_getElem? hg)).1 hag).1
    · cases hok
  · rintro ⟨⟨f, hf, ha⟩, hmin⟩
    obtain ⟨hm, hdok⟩ := (hacc f (List.mem_of_getElem? hf)).1 ha
    refine ⟨k, (hd k).2 ⟨⟨f, hf, hm⟩, ?_⟩, f, hf, ?_⟩
    · intro j g hj hg hmg
      apply hmin j g hj hg
      refine (hacc g (List.mem_of_getElem? hg)).2 ⟨hmg, ?_⟩
      rw [← hdok]
      exact defaultsOk_congr check g f dfl xs (hlen g (List.mem_of_getElem? hg))
        (hlen f (List.mem_of_getElem? hf))
        (hdf g (List.mem_of_getElem? hg) f (List.mem_of_getElem? hf))
    · have : ((List.zip (List.zip f dfl) xs).all fun p =>
          !p.1.2 || (p.2.all fun o => check o p.1.1)) = true := hdok
      rw [if_pos this]
      rfl

/-- Types and values for examples: integers, floats, lists of either. -/
inductive Ty0 where
  | int | float | intList | floatList
  deriving DecidableEq

inductive Obj0 where
  | int (n : Int) | float (n : Int) | ints (l : List Int) | floats (l : List Int)
  deriving DecidableEq

/-- As the generated checks: a list is checked element by element, so that the
empty list passes for any element type
(`pyccel/codegen/wrapper/c_to_python_wrapper.py` 510-600). -/
def check0 : Obj0 → Ty0 → Bool
  | .int _, .int => true
  | .float _, .float => true
  | .ints _, .intList => true
  | .floats _, .floatList => true
  | .ints [], .floatList => true
  | .floats [], .intList => true
  | _, _ => false

/-- Three overloads of a function with a default on its last parameter. -/
def exFs : List (Overload Ty0) := [[.int, .int, .int], [.float, .float, .int], [.int, .float, .int]]

example : ∀ f ∈ exFs, f.length = [false, false, true].length := by decide
example : callInterface check0 exFs [false, false, true]
    [some (.int 1), some (.float 2), none] = some 2 := by decide
example : callInterface check0 exFs [false, false, true]
    [some (.float 1), some (.int 2), none] = none := by decide
example : ∀ f ∈ exFs, ∀ g ∈ exFs, f[2]? = g[2]? := by decide

/-- **C45 (partial)**: the number identifying an overload stays below the product
of the numbers of types of the parameters, so that it cannot overflow while this
product fits in 64 bits. -/
theorem C45_flag_partial {Ty Obj : Type} [DecidableEq Ty] (check : Obj → Ty → Bool)
    (fs : List (Overload Ty)) (dfl : List Bool) (xs : List (Option Obj))
    (hlen : ∀ f ∈ fs, f.length = dfl.length) (hx : xs.length = dfl.length)
    (hun : Unambiguous check fs dfl xs) (f : Overload Ty) (hf : f ∈ fs) :
    flag (columns fs dfl.length) dfl f 1 <
      ((columns fs dfl.length).map (fun c => (possibleTypes c).length)).prod := by
  have hdis : DisjointAt (fun (x : Option Obj) t => x.any (fun o => check o t)) fs dfl xs := by
    intro i x hd hxi f hf g hg u v hu hv h1 h2
    cases x with
    | none => simp at h1
    | some o => exact hun i o hd hxi f hf g hg u v hu hv (by simpa using h1) (by simpa using h2)
  have := flag_lt _ (fits_columns _ fs dfl xs hlen hx hdis f hf) 1 Nat.one_pos
  simpa using this

example : flag (columns exFs 3) [false, false, true] [.float, .float, .int] 1 = 3 := by decide

/-- **C45 (partial)**: when each value belongs to exactly one type, the overload
chosen at run time for a call from Python is the one chosen at compile time for
a call inside the translated code with arguments of these types. -/
theorem C45_same_choice_partial {Ty Obj : Type} [DecidableEq Ty] (typeOf : Obj → Ty)
    (fs : List (Overload Ty)) (n : Nat) (xs : List Obj)
    (hlen : ∀ f ∈ fs, f.length = n) (hx : xs.length = n) :
    callInterface (fun x t => decide (typeOf x = t)) fs (List.replicate n false)
      (xs.map some) = point fs (xs.map typeOf) := by
  have hacc : ∀ (f : Overload Ty) (xs : List Obj) (n : Nat), f.length = n → xs.length = n →
      (Accepts (fun x t => decide (typeOf x = t)) f (List.replicate n false) (xs.map some) ↔
        (decide ((xs.map typeOf).length ≤ f.length) &&
          ((xs.map typeOf).zip f).all (fun p => p.1 = p.2)) = true) := by
    intro f
    induction f with
    | nil =>
      intro xs n h1 h2
      have : n = 0 := h1.symm
      subst this
      have : xs = [] := List.length_eq_zero_iff.1 h2
      subst this
      simp [Accepts]
    | cons t f ih =>
      intro xs n h1 h2
      cases n with
      | zero => simp at h1
      | succ n =>
        cases xs with
        | nil => simp at h2
        | cons x xs =>
          have := ih xs n (by simpa using h1) (by simpa using h2)
          simp only [List.replicate_succ, List.map_cons, Accepts, this]
          simp
          tauto
  apply Option.ext
  intro k
  rw [C45_partial _ fs _ _ (by simpa using hlen) (by simpa using hx) ?_ ?_ k]
  · unfold point
    rw [findIdx?_first]
    exact first_congr (fun f hf => hacc f xs n (hlen f hf) hx) k
  · intro i x _ _ f _ g _ u v _ _ h1 h2
    simp only [decide_eq_true_eq] at h1 h2
    rw [← h1, ← h2]
  · intro f _ g _ i hi
    exfalso
    have := List.mem_of_getElem? hi
    simp at this

example : point exFs [.float, .float, .int] = some 1 := by decide

/-- **C45 is violated**: with overloads `(list[int], int)` and `(list[float],
float)` the call `f([], 1.0)` is refused, although the second overload accepts
it. -/
theorem C45_ambiguous_violated :
    ∃ (fs : List (Overload Ty0)) (dfl : List Bool) (xs : List (Option Obj0)),
      callInterface check0 fs dfl xs = none ∧
      First (fun f => Accepts check0 f dfl xs) fs 1 := by
  refine ⟨[[.intList, .int], [.floatList, .float]], [false, false],
    [some (.ints []), some (.float 1)], by decide, ⟨_, rfl, ?_⟩, ?_⟩
  · simp [Accepts, check0]
  · intro j a hj ha
    match j, hj with
    | 0, _ =>
      simp at ha
      subst ha
      simp [Accepts, check0]

/-- **C45 is violated**: two overloads which differ only in the type of a
parameter with default cannot be told apart; the second is never called. -/
theorem C45_default_violated :
    ∃ (fs : List (Overload Ty0)) (dfl : List Bool) (xs : List (Option Obj0)),
      callInterface check0 fs dfl xs = none ∧
      First (fun f => Accepts check0 f dfl xs) fs 1 := by
  refine ⟨[[.int, .int], [.int, .float]], [false, true],
    [some (.int 1), some (.float 2)], by decide, ⟨_, rfl, ?_⟩, ?_⟩
  · simp [Accepts, check0]
  · intro j a hj ha
    match j, hj with
    | 0, _ =>
      simp at ha
      subst ha
      simp [Accepts, check0]

end Verif.Calls
