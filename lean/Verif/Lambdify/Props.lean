import Verif.Lambdify.Model

/-!
# C202: lambdify gives the function of the expression
-/

namespace Verif.Lambdify
open Spec Model
variable {V : Type}

theorem find_args (args : List (Symbol × Nat)) (hd : (args.map (·.1.name)).Nodup) (ρ : Symbol → V)
    (rest : List (Name × V)) {s : Symbol} (hs : s ∈ args.map (·.1)) :
    ((args.map fun a => (a.1.name, ρ a.1)) ++ rest).find? (fun p => p.1 = s.name) = some (s.name, ρ s) := by
  induction args with
  | nil => simp at hs
  | cons a args ih =>
    simp only [List.map_cons, List.nodup_cons] at hd
    simp only [List.map_cons, List.mem_cons] at hs
    by_cases h : a.1.name = s.name
    · rcases hs with rfl | hs
      · simp
      · exfalso
        apply hd.1
        rw [h]
        simp only [List.mem_map] at hs ⊢
        obtain ⟨b, hb, rfl⟩ := hs
        exact ⟨b, hb, rfl⟩
    · rcases hs with rfl | hs
      · exact absurd rfl h
      · simp only [List.map_cons, List.cons_append]
        rw [List.find?_cons_of_neg (by simpa using h)]
        exact ih hd.2 hs

theorem eval_print (I : Meaning V) (ρ : Symbol → V) (args : List (Symbol × Nat)) (u : Bool)
    (hd : (args.map (·.1.name)).Nodup) (hf : ∀ a ∈ args, Free u a.1.name) (rest : List (Name × V))
    (hr : ∀ p ∈ rest, p.1 ≠ .numpy) (e : Expr) (he : ∀ s ∈ symbols e, s ∈ args.map (·.1)) :
    evalPy I ((args.map fun a => (a.1.name, ρ a.1)) ++ rest) (printExpr e) = some (value I ρ e) := by
  induction e with
  | sym s =>
    have hs := he s (by simp [symbols])
    have hn : printName s.name = s.name := by
      have hs' := hs
      simp only [List.mem_map] at hs'
      obtain ⟨a, ha, rfl⟩ := hs'
      have := hf a ha
      cases h : a.1.name <;> simp_all [Free, printName]
    simp [printExpr, evalPy, lookup, hn, find_args args hd ρ rest hs, value]
  | const c => rfl
  | fn f a ih =>
    have hnp : lookup ((args.map fun a => (a.1.name, ρ a.1)) ++ rest) .numpy = some .numpy := by
      unfold lookup
      have : ((args.map fun a => (a.1.name, ρ a.1)) ++ rest).find? (fun p => p.1 = .numpy) = none := by
        rw [List.find?_eq_none]
        intro p hp
        simp only [List.mem_append, List.mem_map] at hp
        rcases hp with ⟨b, hb, rfl⟩ | hp
        · have := hf b hb
          intro h
          simp only [decide_eq_true_eq] at h
          rw [h] at this
          exact this
        · simpa using hr p hp
      rw [this]
      rfl
    simp [printExpr, evalPy, hnp, ih he, value]
  | bin o a b iha ihb =>
    have h1 := iha fun s hs => he s (by simp [symbols, hs])
    have h2 := ihb fun s hs => he s (by simp [symbols, hs])
    simp [printExpr, evalPy, h1, h2, value]

theorem names_argsCode (args : List (Symbol × Nat)) :
    (argsCode args).filterMap (·.map (·.1)) = args.map (·.1.name) := by
  induction args with
  | nil => rfl
  | cons a args ih => simp only [argsCode] at ih; simp [argsCode, ih]

theorem valid_argsCode {u : Bool} {args : List (Symbol × Nat)} (hf : ∀ a ∈ args, Free u a.1.name) :
    (argsCode args).all (fun p => p.any fun q => Name.isIdentifier q.1) = true := by
  simp only [argsCode, List.all_map, List.all_eq_true]
  intro a ha
  have := hf a ha
  cases h : a.1.name <;> simp_all [Free, Name.isIdentifier]

/-- Called with the values of its arguments, in the order of the dictionary, the function returns the value of the
expression — if the names of the arguments are different, are names of Python, and none of them is `numpy`.
Missing: the other names, where the claim is false (below). -/
theorem C202_value_partial (I : Meaning V) (e : Expr) (args : List (Symbol × Nat)) (result : Option Nat)
    (hd : (args.map (·.1.name)).Nodup) (hf : ∀ a ∈ args, Free false a.1.name)
    (he : ∀ s ∈ symbols e, s ∈ args.map (·.1)) :
    ∃ d, lambdify e args result false = some d ∧ d.result = result ∧
      ∀ ρ : Symbol → V, Def.call I d (args.map fun a => ρ a.1) = some (value I ρ e) := by
  refine ⟨_, rfl, rfl, fun ρ => ?_⟩
  have h := eval_print I ρ args false hd hf [] (by simp) e he
  have hz : (args.map (·.1.name)).zip (args.map fun a => ρ a.1) = args.map fun a => (a.1.name, ρ a.1) := by
    rw [List.zip_map']
  simp only [Def.call, Def.names, names_argsCode, valid_argsCode hf, hd, and_self, if_true, List.length_map, ne_eq,
    not_true_eq_false, Bool.false_eq_true, false_and, or_self, if_false, hz]
  simpa using h

/-- With `use_out`, the function has one more argument, and writes the value of the expression to it — if there are
arguments, their names are different, are names of Python, and none of them is `numpy` or `out`.  Missing: the other cases,
where the claim is false (below). -/
theorem C202_out_partial (I : Meaning V) (e : Expr) (args : List (Symbol × Nat)) (t : Nat) (ha : args ≠ [])
    (hd : (args.map (·.1.name)).Nodup) (hf : ∀ a ∈ args, Free true a.1.name)
    (he : ∀ s ∈ symbols e, s ∈ args.map (·.1)) :
    ∃ d, lambdify e args (some t) true = some d ∧ d.assignsOut = true ∧ d.params.getLast? = some (some (.out, t)) ∧
      ∀ (ρ : Symbol → V) (out : V), Def.call I d ((args.map fun a => ρ a.1) ++ [out]) = some (value I ρ e) := by
  refine ⟨_, rfl, rfl, by simp, fun ρ out => ?_⟩
  have h := eval_print I ρ args true hd hf [(.out, out)] (by simp) e he
  have hz : (args.map (·.1.name) ++ [Name.out]).zip ((args.map fun a => ρ a.1) ++ [out]) =
      (args.map fun a => (a.1.name, ρ a.1)) ++ [(.out, out)] := by
    rw [List.zip_append (by simp), List.zip_map']; rfl
  have hn : (args.map (·.1.name) ++ [Name.out]).Nodup := by
    rw [List.nodup_append]
    refine ⟨hd, by simp, ?_⟩
    intro a h1 b h2
    simp only [List.mem_singleton] at h2
    subst h2
    rintro rfl
    simp only [List.mem_map] at h1
    obtain ⟨x, hx, h3⟩ := h1
    have := hf x hx
    rw [h3] at this
    cases this
  have hnames : ((argsBeforeComma args ++ [some (Name.out, t)]).filterMap (·.map (·.1))) =
      args.map (·.1.name) ++ [Name.out] := by
    rw [List.filterMap_append, argsBeforeComma, if_neg ha, names_argsCode]; rfl
  have hv : (argsBeforeComma args ++ [some (Name.out, t)]).all (fun p => p.any fun q => Name.isIdentifier q.1) = true := by
    rw [List.all_append, argsBeforeComma, if_neg ha, valid_argsCode hf]; rfl
  simp only [Def.call, Def.names, hnames, hv, hn, and_self, if_true, hz]
  simpa using h

/-- The arguments keep their order and annotations, and `use_out` needs the type of the result. -/
theorem C202_signature (e : Expr) (args : List (Symbol × Nat)) (result : Option Nat) :
    (∃ d, lambdify e args result false = some d ∧ d.params = args.map fun a => some (a.1.name, a.2)) ∧
      (lambdify e args result true = none ↔ result = none) := by
  refine ⟨⟨_, rfl, rfl⟩, ?_⟩
  cases result <;> simp [lambdify]

/-- `sin(x) + y` with the arguments `y, x`. -/
example : (∀ s ∈ symbols (.bin 0 (.fn 0 (.sym ⟨.ident 0, 0⟩)) (.sym ⟨.ident 1, 0⟩)),
      s ∈ [((⟨.ident 1, 0⟩ : Symbol), 0), (⟨.ident 0, 0⟩, 0)].map (·.1)) ∧
    ∀ a ∈ [((⟨.ident 1, 0⟩ : Symbol), 0), (⟨.ident 0, 0⟩, 0)], Free true a.1.name := by
  simp [symbols, Free]

/-- What the claim says of one call: all symbols of the expression are arguments, and yet there is no value. -/
def Fails (e : Expr) (args : List (Symbol × Nat)) (useOut : Bool) : Prop :=
  (args.map (·.1)).Nodup ∧ (∀ s ∈ symbols e, s ∈ args.map (·.1)) ∧
    ∃ d, lambdify e args (some 0) useOut = some d ∧
      ∀ (I : Meaning Int) (vals : List Int), Def.call I d vals = none

/-- C202 fails: `Symbol('lambda')` is printed `lambda_` in the expression, but `lambda` as argument, which is not Python. -/
theorem C202_keyword_violated : Fails (.sym ⟨.keyword 0, 0⟩) [(⟨.keyword 0, 0⟩, 0)] false :=
  ⟨by simp, by simp [symbols], _, rfl, fun _ _ => rfl⟩

/-- C202 fails: `Symbol('x_{1}')` is printed `x_1` in the expression, but with the braces as argument. -/
theorem C202_braces_violated : Fails (.sym ⟨.braces 0, 0⟩) [(⟨.braces 0, 0⟩, 0)] false :=
  ⟨by simp, by simp [symbols], _, rfl, fun _ _ => rfl⟩

/-- C202 fails: two symbols of one name (with different assumptions) become two arguments of one name. -/
theorem C202_same_name_violated :
    Fails (.bin 0 (.sym ⟨.ident 0, 0⟩) (.sym ⟨.ident 0, 1⟩)) [(⟨.ident 0, 0⟩, 0), (⟨.ident 0, 1⟩, 0)] false :=
  ⟨by simp, by simp [symbols], _, rfl, fun _ _ => rfl⟩

/-- C202 fails: an argument `numpy` hides the module, `numpy.sin(numpy)` is not defined. -/
theorem C202_numpy_violated : Fails (.fn 0 (.sym ⟨.numpy, 0⟩)) [(⟨.numpy, 0⟩, 0)] false := by
  refine ⟨by simp, by simp [symbols], _, rfl, fun I vals => ?_⟩
  match vals with
  | [] => rfl
  | [_] => rfl
  | _ :: _ :: _ => rfl

/-- C202 fails: with `use_out` and no arguments the signature is `def f(, out : …)`. -/
theorem C202_no_arguments_violated : Fails (.const 1) [] true :=
  ⟨by simp, by simp [symbols], _, rfl, fun _ _ => rfl⟩

/-- C202 fails: with `use_out`, a symbol called `out` becomes a second argument of this name. -/
theorem C202_out_name_violated : Fails (.sym ⟨.out, 0⟩) [(⟨.out, 0⟩, 0)] true :=
  ⟨by simp, by simp [symbols], _, rfl, fun _ _ => rfl⟩

end Verif.Lambdify
