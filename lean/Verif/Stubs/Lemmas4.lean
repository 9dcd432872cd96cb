import Verif.Stubs.Model

namespace Verif.Stubs
open Verif.Calls (FArg PyArguments Kind visitArguments sliceTo sliceFrom)

/-- The positional parameters that can be passed by name, with their defaults. -/
def normals {V : Type} (a : PyArguments V) : List (String × Option V) :=
  (a.args.take (a.args.length - a.defaults.length)).map (·, none) ++
    ((a.args.drop (a.args.length - a.defaults.length)).zip a.defaults).map (fun p => (p.1, some p.2))

/-- The parameters of a signature. -/
def fargs {V : Type} (po : List String) (ns : List (String × Option V)) (va : Option String) (ks : List (String × Option V)) (kw : Option String) : List (FArg V) :=
  po.map (fun n => FArg.mk n .posonly none) ++ (ns.map (fun p => FArg.mk p.1 .normal p.2) ++ (va.toList.map (fun n => FArg.mk n .vararg none) ++
    (ks.map (fun p => FArg.mk p.1 .kwonly p.2) ++ kw.toList.map (fun n => FArg.mk n .kwarg none))))

theorem visit_eq {V : Type} {a : PyArguments V} (hd : a.defaults.length ≤ a.args.length) :
    visitArguments a = fargs a.posonly (normals a) a.vararg (a.kwonly.zip a.kwDefaults) a.kwarg := by
  have h1 : ¬ ((a.args.length : Int) - a.defaults.length) < 0 := by omega
  have h2 : ((a.args.length : Int) - a.defaults.length).toNat = a.args.length - a.defaults.length := by omega
  simp only [visitArguments, fargs, normals, sliceTo, sliceFrom, if_neg h1, h2, List.map_append, List.map_map, Function.comp_def, List.append_assoc]

/-- An element of the list is not a plain parameter. -/
def NoParam {V : Type} : List (Item V) → Prop
  | .param _ _ :: _ => False
  | _ => True

theorem plain_ok {V : Type} (ps : List (String × Option V)) {r : List (Item V)} (h : NoParam r) :
    plain (ps.map (fun p => .param p.1 p.2) ++ r) = (ps, r) := by
  induction ps with
  | nil =>
    cases r with
    | nil => rfl
    | cons x r => cases x <;> first | exact h.elim | rfl
  | cons p ps ih => simp [plain, ih]

theorem defaults_none {V : Type} (ns : List String) (l : List (String × Option V)) : defaults (ns.map (·, none) ++ l) = defaults l := by
  induction ns with
  | nil => rfl
  | cons n ns ih => simp [defaults, ih]

theorem defaults_some {V : Type} (ps : List (String × V)) : defaults (ps.map (fun p => (p.1, some p.2))) = some (ps.map (·.2)) := by
  cases ps with
  | nil => rfl
  | cons p ps => simp [defaults, List.filterMap_map, Function.comp_def]

theorem defaults_normals {V : Type} {a : PyArguments V} (hd : a.defaults.length ≤ a.args.length) (po : List String) :
    defaults (po.map (·, none) ++ normals a) = some a.defaults := by
  rw [defaults_none, normals, defaults_none, defaults_some]
  rw [show (fun x : String × V => x.2) = Prod.snd from rfl, List.map_snd_zip]
  simp only [List.length_drop]
  omega

theorem normals_fst {V : Type} {a : PyArguments V} (hd : a.defaults.length ≤ a.args.length) : (normals a).map (·.1) = a.args := by
  simp only [normals, List.map_append, List.map_map, Function.comp_def]
  rw [show (fun x : String × V => x.1) = Prod.fst from rfl, List.map_fst_zip (by simp only [List.length_drop]; omega)]
  simp

theorem takeWhile_len {α : Type} {p : α → Bool} {l r : List α} (hl : ∀ x ∈ l, p x = true) (hr : ∀ x ∈ r.head?, p x = false) :
    ((l ++ r).takeWhile p).length = l.length := by
  induction l with
  | nil =>
    cases r with
    | nil => rfl
    | cons x r => simp [hr x rfl]
  | cons x l ih => simp [hl x (by simp), ih (fun y hy => hl y (by simp [hy]))]

theorem insert_at {α : Type} (l r : List α) (x : α) {n : Nat} (h : n = l.length) : (l ++ r).insertIdx n x = l ++ x :: r := by
  subst h
  induction l with
  | nil => simp
  | cons y l ih => simpa using ih

/-- The end of the printed parameters. -/
def tailItems {V : Type} (va : Option String) (ks : List (String × Option V)) (kw : Option String) : List (Item V) :=
  va.toList.map Item.vararg ++ (ks.map (fun p => .param p.1 p.2) ++ kw.toList.map Item.kwarg)

theorem printArg_fargs {V : Type} (po : List String) (ns : List (String × Option V)) (va : Option String) (ks : List (String × Option V)) (kw : Option String) :
    (fargs po ns va ks kw).map printArg =
      (po.map (·, none)).map (fun p => .param p.1 p.2) ++ (ns.map (fun p => .param p.1 p.2) ++ tailItems va ks kw) := by
  simp [fargs, tailItems, List.map_map, Function.comp_def, printArg]

theorem head_posonly {V : Type} (po : List String) (ns : List (String × Option V)) (va : Option String) (ks : List (String × Option V)) (kw : Option String) :
    (fargs po ns va ks kw).head?.any (fun a => decide (a.kind = .posonly)) = !po.isEmpty := by
  cases po with
  | cons p po => simp [fargs]
  | nil =>
    cases ns with
    | cons n ns => simp [fargs]
    | nil =>
      cases va with
      | some v => simp [fargs]
      | none =>
        cases ks with
        | cons k ks => simp [fargs]
        | nil => cases kw <;> simp [fargs]

theorem len_posonly {V : Type} (po : List String) (ns : List (String × Option V)) (va : Option String) (ks : List (String × Option V)) (kw : Option String) :
    ((fargs po ns va ks kw).takeWhile (fun a => decide (a.kind = .posonly))).length = po.length := by
  rw [fargs, takeWhile_len]
  · simp
  · intro x hx
    obtain ⟨n, -, rfl⟩ := List.mem_map.1 hx
    rfl
  · cases ns with
    | cons n ns => simp
    | nil =>
      cases va with
      | some v => simp
      | none =>
        cases ks with
        | cons k ks => simp
        | nil => cases kw <;> simp

theorem any_kwonly {V : Type} (po : List String) (ns : List (String × Option V)) (va : Option String) (ks : List (String × Option V)) (kw : Option String) :
    ((fargs po ns va ks kw).any (fun a => decide (a.kind = .kwonly)) && (fargs po ns va ks kw).all (fun a => decide (a.kind ≠ .vararg))) =
      (!ks.isEmpty && va.isNone) := by
  cases va <;> cases ks <;> cases kw <;> simp [fargs]

theorem len_kwonly {V : Type} (po : List String) (ns : List (String × Option V)) (ks : List (String × Option V)) (kw : Option String) (hk : ks ≠ []) :
    ((fargs po ns none ks kw).takeWhile (fun a => decide (a.kind ≠ .kwonly))).length = po.length + ns.length := by
  have e : fargs po ns none ks kw = (po.map (fun n => FArg.mk n .posonly none) ++ ns.map (fun p => FArg.mk p.1 .normal p.2)) ++
      (ks.map (fun p => FArg.mk p.1 .kwonly p.2) ++ kw.toList.map (fun n => FArg.mk n .kwarg none)) := by simp [fargs]
  rw [e, takeWhile_len]
  · simp
  · intro x hx
    rcases List.mem_append.1 hx with hx | hx
    · obtain ⟨n, -, rfl⟩ := List.mem_map.1 hx
      rfl
    · obtain ⟨n, -, rfl⟩ := List.mem_map.1 hx
      rfl
  · cases ks with
    | nil => exact absurd rfl hk
    | cons k ks => simp

/-- Plain parameters as elements of a list. -/
abbrev items {V : Type} (ps : List (String × Option V)) : List (Item V) := ps.map (fun p => .param p.1 p.2)

theorem print_star {V : Type} (ns : List (String × Option V)) (ks : List (String × Option V)) (kw : Option String) (hk : ks ≠ []) :
    printArgs (fargs [] ns none ks kw) = items ns ++ .star :: tailItems none ks kw := by
  have h1 : (!ks.isEmpty && (none : Option String).isNone) = true := by cases ks with | nil => exact absurd rfl hk | cons => rfl
  simp only [printArgs, head_posonly, any_kwonly, printArg_fargs, len_kwonly _ _ _ _ hk, h1, if_true]
  simpa using insert_at (items ns) (tailItems none ks kw) .star (n := 0 + ns.length) (by simp)

theorem print_nostar {V : Type} (po : List String) (ns : List (String × Option V)) (va : Option String) (ks : List (String × Option V)) (kw : Option String)
    (h : ks = [] ∨ va ≠ none) :
    printArgs (fargs po ns va ks kw) = if po.isEmpty then items ns ++ tailItems va ks kw
      else items (po.map (·, none)) ++ .slash :: (items ns ++ tailItems va ks kw) := by
  have h1 : (!ks.isEmpty && va.isNone) = false := by
    rcases h with rfl | h
    · rfl
    · cases va with
      | none => exact absurd rfl h
      | some v => simp
  simp only [printArgs, head_posonly, any_kwonly, printArg_fargs, len_posonly, h1]
  cases po with
  | nil => simp
  | cons p po =>
    rw [if_neg (by decide), if_pos (by simp), if_neg (by simp)]
    exact insert_at _ _ _ (by simp)

theorem print_both {V : Type} (po : List String) (ns : List (String × Option V)) (ks : List (String × Option V)) (kw : Option String)
    (hk : ks ≠ []) (hp : po ≠ []) :
    printArgs (fargs po ns none ks kw) =
      (items (po.map (·, none)) ++ Item.slash :: (items ns ++ tailItems none ks kw)).insertIdx (po.length + ns.length) .star := by
  have h1 : (!ks.isEmpty && (none : Option String).isNone) = true := by cases ks with | nil => exact absurd rfl hk | cons => rfl
  have h2 : (!po.isEmpty) = true := by cases po with | nil => exact absurd rfl hp | cons => rfl
  simp only [printArgs, head_posonly, any_kwonly, printArg_fargs, len_posonly, len_kwonly _ _ _ _ hk, h1, h2, if_true]
  rw [insert_at _ _ _ (by simp)]

theorem noparam_tail {V : Type} (va : Option String) (ks : List (String × Option V)) (kw : Option String) (h : ks = [] ∨ va ≠ none) :
    NoParam (tailItems va ks kw) := by
  cases va with
  | some v => simp [tailItems, NoParam]
  | none =>
    rcases h with rfl | h
    · cases kw <;> simp [tailItems, NoParam]
    · exact absurd rfl h

theorem pyTail_ok {V : Type} (va : Option String) (ks : List (String × Option V)) (kw : Option String) (h : ks = [] ∨ va ≠ none) :
    pyTail (tailItems va ks kw) = some (va, ks, kw) := by
  have hw : NoParam (kw.toList.map (Item.kwarg (V := V))) := by cases kw <;> simp [NoParam]
  cases va with
  | some v =>
    have := plain_ok ks hw
    simp only [tailItems, Option.toList_some, List.map_cons, List.map_nil, List.cons_append, List.nil_append, pyTail, this]
    cases kw <;> rfl
  | none =>
    rcases h with rfl | h
    · cases kw <;> rfl
    · exact absurd rfl h

theorem pyTail_star {V : Type} (ks : List (String × Option V)) (kw : Option String) (h : ks ≠ []) :
    pyTail (.star :: tailItems none ks kw) = some (none, ks, kw) := by
  have hw : NoParam (kw.toList.map (Item.kwarg (V := V))) := by cases kw <;> simp [NoParam]
  have := plain_ok ks hw
  simp only [tailItems, Option.toList_none, List.map_nil, List.nil_append, pyTail, this]
  cases ks with
  | nil => exact absurd rfl h
  | cons k ks => cases kw <;> rfl

theorem leads_items {V : Type} (ns : List (String × Option V)) {r : List (Item V)} (h : leads r = false) : leads (items ns ++ r) = false := by
  cases ns with
  | nil => exact h
  | cons n ns => rfl

theorem py_plain {V : Type} {ns : List (String × Option V)} {r : List (Item V)} (hr : NoParam r) (hs : leads r = false) {ds : List V}
    (hd : defaults ns = some ds) {va : Option String} {ks : List (String × Option V)} {kw : Option String} (ht : pyTail r = some (va, ks, kw)) :
    pyParams (items ns ++ r) = some ⟨[], ns.map (·.1), va, ks.map (·.1), ks.map (·.2), kw, ds⟩ := by
  have hp := plain_ok ns hr
  have hq : positional (items ns ++ r) = ([], ns, r) := by
    unfold positional
    rw [hp]
    split
    · rename_i h
      simp only at h
      subst h
      cases hs
    · rfl
  simp only [pyParams, leads_items ns hs, hq, List.nil_append, hd, ht]
  rfl

theorem py_slash {V : Type} {ps ns : List (String × Option V)} (hps : ps ≠ []) {r : List (Item V)} (hr : NoParam r) {ds : List V}
    (hd : defaults (ps ++ ns) = some ds) {va : Option String} {ks : List (String × Option V)} {kw : Option String} (ht : pyTail r = some (va, ks, kw)) :
    pyParams (items ps ++ .slash :: (items ns ++ r)) = some ⟨ps.map (·.1), ns.map (·.1), va, ks.map (·.1), ks.map (·.2), kw, ds⟩ := by
  have hp := plain_ok ps (r := .slash :: (items ns ++ r)) trivial
  have hr' := plain_ok ns hr
  have hq : positional (items ps ++ .slash :: (items ns ++ r)) = (ps, ns, r) := by
    simp only [positional, items, hp, hr']
  have hl : leads (items ps ++ .slash :: (items ns ++ r)) = false := by
    cases ps with
    | nil => exact absurd rfl hps
    | cons p ps => rfl
  simp only [pyParams, hl, hq, hd, ht]
  rfl

theorem kw_zip {V : Type} {a : PyArguments V} (h : a.kwDefaults.length = a.kwonly.length) :
    (a.kwonly.zip a.kwDefaults).map (·.1) = a.kwonly ∧ (a.kwonly.zip a.kwDefaults).map (·.2) = a.kwDefaults := by
  constructor
  · rw [show (fun x : String × Option V => x.1) = Prod.fst from rfl, List.map_fst_zip (by omega)]
  · rw [show (fun x : String × Option V => x.2) = Prod.snd from rfl, List.map_snd_zip (by omega)]

theorem kw_nil {V : Type} {a : PyArguments V} (h : a.kwDefaults.length = a.kwonly.length) : a.kwonly.zip a.kwDefaults = [] ↔ a.kwonly = [] := by
  constructor
  · intro e
    have := (kw_zip h).1
    rw [e] at this
    exact this.symm
  · intro e
    simp [e]

/-- Where the printed parameter list is read back. -/
theorem args_back {V : Type} {a : PyArguments V} (hk : a.kwDefaults.length = a.kwonly.length) (hd : a.defaults.length ≤ a.args.length)
    (h : a.posonly = [] ∨ a.kwonly = [] ∨ a.vararg ≠ none) : pyParams (printArgs (visitArguments a)) = some a := by
  rw [visit_eq hd]
  have hz := kw_zip hk
  have e : ∀ b : PyArguments V, b.posonly = a.posonly → b.args = a.args → b.vararg = a.vararg → b.kwonly = a.kwonly → b.kwDefaults = a.kwDefaults →
      b.kwarg = a.kwarg → b.defaults = a.defaults → b = a := by
    intro b h1 h2 h3 h4 h5 h6 h7
    cases a; cases b
    simp only at h1 h2 h3 h4 h5 h6 h7
    subst h1 h2 h3 h4 h5 h6 h7
    rfl
  by_cases hs : a.kwonly.zip a.kwDefaults = [] ∨ a.vararg ≠ none
  · rw [print_nostar _ _ _ _ _ hs]
    have ht := pyTail_ok a.vararg (a.kwonly.zip a.kwDefaults) a.kwarg hs
    have hn := noparam_tail a.vararg (a.kwonly.zip a.kwDefaults) a.kwarg hs
    by_cases hp : a.posonly = []
    · rw [hp, if_pos (by rfl), py_plain hn ?_ (by simpa using defaults_normals hd []) ht]
      · exact congrArg some (e _ hp.symm (normals_fst hd) rfl hz.1 hz.2 rfl rfl)
      · cases hv : a.vararg with
        | some v => rfl
        | none =>
          rw [hv] at hs
          rcases hs with hs | hs
          · rw [hs]
            cases a.kwarg <;> rfl
          · exact absurd rfl hs
    · have hp' : a.posonly.map (fun n => (n, (none : Option V))) ≠ [] := by simpa using hp
      rw [if_neg (by simpa using hp), py_slash hp' hn (defaults_normals hd a.posonly) ht]
      exact congrArg some (e _ (by simp [List.map_map, Function.comp_def]) (normals_fst hd) rfl hz.1 hz.2 rfl rfl)
  · have hks : a.kwonly.zip a.kwDefaults ≠ [] := fun h => hs (Or.inl h)
    have hv : a.vararg = none := Classical.byContradiction fun h => hs (Or.inr h)
    have hp : a.posonly = [] := by
      rcases h with h | h | h
      · exact h
      · exact absurd ((kw_nil hk).2 h) hks
      · exact absurd hv h
    rw [hp, hv, print_star _ _ _ hks, py_plain (by trivial) rfl (by simpa using defaults_normals hd []) (pyTail_star _ _ hks)]
    exact congrArg some (e _ hp.symm (normals_fst hd) hv.symm hz.1 hz.2 rfl rfl)

theorem insert_mid {α : Type} (l : List α) (s y : α) (m r : List α) (x : α) :
    (l ++ s :: ((m ++ [y]) ++ r)).insertIdx (l.length + (m ++ [y]).length) x = l ++ s :: (m ++ x :: (y :: r)) := by
  have h1 := insert_at (l ++ s :: m) (y :: r) x (n := l.length + (m ++ [y]).length) (by simp)
  simpa using h1

/-- With positional-only and keyword-only parameters, the last ordinary parameter becomes keyword-only. -/
theorem args_moved {V : Type} {po : List String} {ns : List (String × Option V)} {b : String × Option V} {ks : List (String × Option V)} {kw : Option String}
    (hp : po ≠ []) (hk : ks ≠ []) {ds : List V} (hd : defaults ns = some ds) :
    pyParams (printArgs (fargs po (ns ++ [b]) none ks kw)) = some ⟨po, ns.map (·.1), none, b.1 :: ks.map (·.1), b.2 :: ks.map (·.2), kw, ds⟩ := by
  have e1 : items (ns ++ [b]) = items ns ++ [Item.param b.1 b.2] := by simp [items]
  have e2 : po.length + (ns ++ [b]).length = (items (V := V) (po.map (·, none))).length + (items ns ++ [Item.param b.1 b.2]).length := by simp [items]
  rw [print_both _ _ _ _ hk hp, e1, e2, insert_mid]
  have hp' : po.map (fun n => (n, (none : Option V))) ≠ [] := by simpa using hp
  have := py_slash hp' (ns := ns) (r := .star :: tailItems none (b :: ks) kw) trivial (ds := ds) (by rw [defaults_none]; exact hd) (pyTail_star (b :: ks) kw (by simp))
  simpa [tailItems, List.map_map, Function.comp_def] using this

/-- Without ordinary parameters it is a syntax error. -/
theorem args_error {V : Type} {po : List String} {ks : List (String × Option V)} {kw : Option String} (hp : po ≠ []) (hk : ks ≠ []) :
    pyParams (printArgs (fargs (V := V) po [] none ks kw)) = none := by
  rw [print_both _ _ _ _ hk hp]
  have e := insert_at (items (V := V) (po.map (·, none))) (.slash :: (items [] ++ tailItems none ks kw)) .star (n := po.length + ([] : List (String × Option V)).length) (by simp)
  rw [e]
  have hpl := plain_ok (po.map (fun n => (n, (none : Option V)))) (r := .star :: .slash :: (items [] ++ tailItems none ks kw)) trivial
  have hq : (positional (items (po.map (fun n => (n, (none : Option V)))) ++ .star :: .slash :: (items [] ++ tailItems none ks kw))).2.2 =
      .star :: .slash :: (items [] ++ tailItems none ks kw) := by
    simp only [positional, items, hpl]
  simp only [pyParams, hq, pyTail, plain]
  split
  · rfl
  · split <;> simp_all

theorem defaults_init {V : Type} {ns : List (String × Option V)} {b : String × Option V} {ds : List V} (h : defaults (ns ++ [b]) = some ds) :
    ∃ ds', defaults ns = some ds' := by
  induction ns with
  | nil => exact ⟨[], rfl⟩
  | cons n ns ih =>
    obtain ⟨x, d⟩ := n
    cases d with
    | none => exact ih h
    | some d =>
      simp only [List.cons_append, defaults] at h ⊢
      split at h
      · rename_i h1
        simp only [List.all_append, Bool.and_eq_true] at h1
        exact ⟨_, by rw [if_pos h1.1]⟩
      · cases h

end Verif.Stubs
