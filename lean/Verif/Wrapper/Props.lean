import Verif.Wrapper.Lemmas7

/-!
# Calls of compiled functions from Python: theorems
-/

namespace Verif.Wrapper
open Spec Model Lemmas

/-! ## Examples -/

/-- `None`, the list `[5, 7]`, the tuple `(5,)`, `True` and the string `"hé"`. -/
def demo : Heap :=
  [⟨.atom .none, 1⟩, ⟨.atom (.int 5), 2⟩, ⟨.atom (.int 7), 1⟩, ⟨.list [1, 2], 2⟩, ⟨.tuple [1], 2⟩,
    ⟨.atom (.bool true), 2⟩, ⟨.atom (.str [104, 233]), 2⟩]

/-- The references of the example: those of the program, and those of the argument list. -/
theorem demo_exact : Exact demo ([3, 4, 5, 6] ++ [0, 3, 4, 5, 6]) := exact_of (by decide +kernel)

/-- `def f(a : list[int], b : tuple[int, ...], c : bool, d : str)` -/
def demoSig : List Arg := [.list .int false, .tuple .int, .atom .bool, .atom .str]

theorem demo_typed : AllTyped demo demoSig [3, 4, 5, 6] :=
  ⟨⟨_, rfl, by intro x hx; simp at hx; rcases hx with rfl | rfl <;> exact ⟨_, rfl, trivial⟩⟩,
    ⟨_, rfl, by intro x hx; simp at hx; subst hx; exact ⟨_, rfl, trivial⟩⟩,
    ⟨_, rfl, trivial⟩, ⟨_, rfl, trivial⟩, trivial⟩

theorem demo_plain : ∀ i ∈ [3, 4, 5, 6], Heap.plain .c demo i := by
  intro i hi
  simp at hi
  rcases hi with rfl | rfl | rfl | rfl
  · intro x hx a ha
    simp [Obj.refs] at hx
    rcases hx with rfl | rfl <;> (simp [demo, Heap.obj] at ha; subst ha; exact ⟨by decide, by decide⟩)
  · intro x hx a ha
    simp [Obj.refs] at hx
    subst hx
    simp [demo, Heap.obj] at ha; subst ha; exact ⟨by decide, by decide⟩
  · exact trivial
  · exact ⟨by decide, by decide, fun h => by cases h⟩

/-- The list is emptied and the text is given back. -/
def demoFun : List CVal → List CVal × CRes
  | [_, b, c, .atom d] => ([.seq [], b, c, .atom d], .atom d)
  | cs => (cs, .atom (.int 0))

/-! ## C74: values -/

/-- If all arguments have their types and are plain (`Plain`: no NumPy booleans, integers of 64 bits, text
without null characters, surrogates and, in Fortran, without characters beyond ASCII), the compiled function
gets exactly these values, and the caller gets exactly its result (`None` if there is none), if the result is
of its type and its text is UTF-8 without null characters.  Missing: the cases below, arrays, instances with
references to other objects, default values. -/
theorem C74_partial (L : Lang) (sig : List Arg) (res : Option ResTy) (g : List CVal → List CVal × CRes)
    (h : Heap) (is ext : List Id) (hs : Safe h (is ++ ext)) (h0 : h.obj 0 = some (.atom .none))
    (ht : AllTyped h sig is) (hp : ∀ i ∈ is, h.plain L i) :
    ∃ cs, Each (fun p c => h.arg p.1 p.2 c) (is.zip sig) cs ∧
      (WellTyped sig res (g cs) →
        ∃ h' r, call L sig res g h is = some (h', .ok r) ∧ h'.returned r (g cs).2 res) := by
  obtain ⟨cs, hv, ha⟩ := castVals_plain ht hp
  refine ⟨cs, ha, fun ok => ?_⟩
  obtain ⟨h', r, e, hr, _⟩ := call_ok (safe_nn hs) h0
    (fun i hi => safe_lt hs (List.mem_append_left _ hi)) hv ok
  exact ⟨h', r, e, hr⟩

example : ∃ cs, Each (fun p c => demo.arg p.1 p.2 c) ([3, 4, 5, 6].zip demoSig) cs ∧
    ∃ h' r, call .c demoSig (some (.atom .str)) demoFun demo [3, 4, 5, 6] = some (h', .ok r) ∧
      h'.obj r = some (.atom (.str [104, 233])) := by
  refine ⟨[.seq [.int 5, .int 7], .seq [.int 5], .atom (.bool true), .atom (.str [104, 195, 169])],
    ⟨⟨_, rfl, ⟨_, rfl, rfl⟩, ⟨_, rfl, rfl⟩, trivial⟩, ⟨_, rfl, ⟨_, rfl, rfl⟩, trivial⟩, ⟨_, rfl, rfl⟩,
      ⟨_, rfl, by show encode _ = some _; decide⟩, trivial⟩, ?_⟩
  exact ⟨_, _, rfl, by decide +kernel⟩

/-- The function that gives its argument back. -/
def echo : List CVal → List CVal × CRes
  | [.atom c] => ([.atom c], .atom c)
  | cs => (cs, .atom (.int 0))

/-- C74 fails: `np.True_` is accepted for a `bool` and arrives as `False`. -/
theorem C74_numpy_bool_violated : ∃ (h : Heap) (h' : Heap) (r : Id), Exact h [1, 0, 1] ∧
    h.obj 1 = some (.atom (.npBool true)) ∧
    call .c [.atom .bool] (some (.atom .bool)) echo h [1] = some (h', .ok r) ∧
    h'.obj r = some (.atom (.bool false)) :=
  ⟨[⟨.atom .none, 1⟩, ⟨.atom (.npBool true), 2⟩], _, _, exact_of (by decide +kernel), rfl, rfl,
    by decide +kernel⟩

/-- C74 fails: an integer beyond 64 bits arrives as `-1`, and the caller gets a `SystemError`, because the
exception set by the conversion is not looked at. -/
theorem C74_overflow_violated : ∃ (h : Heap) (h' : Heap) (r : Id), Exact h [1, 0, 1] ∧
    h.obj 1 = some (.atom (.int (2 ^ 63))) ∧
    call .c [.atom .int] (some (.atom .int)) echo h [1] = some (h', .systemError r) ∧
    h'.obj r = some (.atom (.int (-1))) :=
  ⟨[⟨.atom .none, 1⟩, ⟨.atom (.int (2 ^ 63)), 2⟩], _, _, exact_of (by decide +kernel), rfl, rfl,
    by decide +kernel⟩

/-- C74 fails: in C, a string arrives without what follows a null character. -/
theorem C74_null_violated : ∃ (h : Heap) (h' : Heap) (r : Id), Exact h [1, 0, 1] ∧
    h.obj 1 = some (.atom (.str [97, 0, 98])) ∧
    call .c [.atom .str] (some (.atom .str)) echo h [1] = some (h', .ok r) ∧
    h'.obj r = some (.atom (.str [97])) :=
  ⟨[⟨.atom .none, 1⟩, ⟨.atom (.str [97, 0, 98]), 2⟩], _, _, exact_of (by decide +kernel), rfl, rfl,
    by decide +kernel⟩

/-- C74 fails: in Fortran, the text `"éa"` arrives as `"é"`, because the number of characters is used for
the number of bytes. -/
theorem C74_fortran_violated : ∃ (h : Heap) (h' : Heap) (r : Id), Exact h [1, 0, 1] ∧
    h.obj 1 = some (.atom (.str [233, 97])) ∧
    call .fortran [.atom .str] (some (.atom .str)) echo h [1] = some (h', .ok r) ∧
    h'.obj r = some (.atom (.str [233])) :=
  ⟨[⟨.atom .none, 1⟩, ⟨.atom (.str [233, 97]), 2⟩], _, _, exact_of (by decide +kernel), rfl, rfl,
    by decide +kernel⟩

/-- C74 fails: a string with a surrogate crashes the program. -/
theorem C74_surrogate_violated : ∃ (h : Heap), Exact h [1, 0, 1] ∧
    AllTyped h [.atom .str] [1] ∧ h.obj 1 = some (.atom (.str [0xD800])) ∧
    ∀ L res g, call L [.atom .str] res g h [1] = none := by
  refine ⟨[⟨.atom .none, 1⟩, ⟨.atom (.str [0xD800]), 2⟩], exact_of (by decide +kernel),
    ⟨⟨_, rfl, trivial⟩, trivial⟩, rfl, fun L res g => ?_⟩
  rfl

/-! ## C75: no object in use is released -/

/-- If, before a call, every reference is counted (those of other objects and those of the program,
`is ++ ext`), this is so after the call, also for the result (or the exception): whatever the function does,
however the call ends, and also if an object is passed several times. -/
theorem C75_safe (L : Lang) (sig : List Arg) (res : Option ResTy) (g : List CVal → List CVal × CRes)
    (h h' : Heap) (is ext : List Id) (o : Outcome) (hs : Safe h (is ++ ext))
    (h0 : h.obj 0 = some (.atom .none)) (e : call L sig res g h is = some (h', o)) :
    Safe h' (o.id :: (is ++ ext)) := by
  rcases call_inv (safe_nn hs) (lt_of_obj h0) (fun i hi => safe_lt hs (List.mem_append_left _ hi)) e with
    ⟨_, m, l, rfl, _, s, _⟩ | ⟨cs, b, r, l, _, rfl, s, _⟩
  · exact s.safe hs
  · cases b <;> exact s.safe hs

example : ∃ h' r, call .c demoSig (some (.atom .str)) demoFun demo [3, 4, 5, 6] = some (h', .ok r) ∧
    Safe h' (r :: ([3, 4, 5, 6] ++ [0, 3, 4, 5, 6])) := by
  have e : ∃ h' r, call .c demoSig (some (.atom .str)) demoFun demo [3, 4, 5, 6] = some (h', .ok r) :=
    ⟨_, _, rfl⟩
  obtain ⟨h', r, e⟩ := e
  exact ⟨h', r, e, C75_safe _ _ _ _ _ _ _ _ _ (exact_safe demo_exact) rfl e⟩

/-- The same for any number of calls one after the other, as long as the results are kept: every call
starts from where the one before has ended. -/
def Calls (h : Heap) : List Id → Heap → List Id → Prop := fun ext h' ext' =>
  ∃ (L : Lang) (sig : List Arg) (res : Option ResTy) (g : List CVal → List CVal × CRes) (is : List Id)
    (o : Outcome), (∀ i ∈ is, i ∈ ext) ∧ call L sig res g h is = some (h', o) ∧ ext' = o.id :: ext

/-- A history of calls of any compiled functions on objects the program has. -/
inductive History : Heap → List Id → Heap → List Id → Prop
  | nil (h : Heap) (ext : List Id) : History h ext h ext
  | cons {h h' h'' : Heap} {ext ext' ext'' : List Id} : Calls h ext h' ext' → History h' ext' h'' ext'' →
      History h ext h'' ext''

/-- The same for any history of calls: the objects the program has, among them the results, are not
released.  (`None` is never changed.) -/
theorem C75_history (h h' : Heap) (ext ext' : List Id) (hs : Safe h ext) (h0 : h.obj 0 = some (.atom .none))
    (r : History h ext h' ext') : Safe h' ext' ∧ (∀ i ∈ ext', i < h'.length) ∧ h'.obj 0 = some (.atom .none) := by
  induction r with
  | nil h ext => exact ⟨hs, fun i hi => safe_lt hs hi, h0⟩
  | cons c _ ih =>
    obtain ⟨L, sig, res, g, is, o, hi, e, rfl⟩ := c
    have hil : ∀ i ∈ is, i < _ := fun i hi' => safe_lt hs (hi i hi')
    rcases call_inv (safe_nn hs) (lt_of_obj h0) hil e with
      ⟨_, m, l, rfl, k, s, _⟩ | ⟨cs, b, r, l, hv, rfl, s, _, _, fr⟩
    · exact ih (s.safe hs) (by rw [k.2 0 (lt_of_obj h0), h0])
    · have h0' := fr 0 (lt_of_obj h0) (fun _ hm => by
        obtain ⟨k, hk, hks⟩ := mem_sharedIds.1 hm
        have hk1 : Kinds _ sig is := Each.mono (castVals_length hv).1 fun i _ k hik => kind_of_type hik
        exact shared_kind (Kinds.zip hk1 _ hk) hks h0)
      refine ih ?_ (by rw [h0', h0])
      cases b <;> exact s.safe hs

/-! ## C76: nothing is leaked -/

/-- After a successful call, exactly `lost` references are counted that nobody holds (the list `l`): none
for scalar arguments, and results without sets and dictionaries; otherwise one or two for every element.
Missing: that there are none. -/
theorem C76_count_partial (L : Lang) (sig : List Arg) (res : Option ResTy)
    (g : List CVal → List CVal × CRes) (h h' : Heap) (is ext : List Id) (r : Id)
    (hs : Exact h (is ++ ext)) (h0 : h.obj 0 = some (.atom .none)) (ht : ∀ i ∈ is, h.plain L i)
    (e : call L sig res g h is = some (h', .ok r)) :
    ∃ cs l, Each (fun p c => h.arg p.1 p.2 c) (is.zip sig) cs ∧
      Exact h' (r :: l ++ (is ++ ext)) ∧ l.length = lost L h sig is res (g cs) := by
  have sf := exact_safe hs
  rcases call_inv (safe_nn sf) (lt_of_obj h0) (fun i hi => safe_lt sf (List.mem_append_left _ hi)) e with
    ⟨_, m, l, h, _⟩ | ⟨cs, b, r', l, hv, ho, s, hl, _⟩
  · cases h
  · obtain ⟨cs', hv', ha⟩ := castVals_plain (castVals_length hv).1 ht
    rw [hv] at hv'
    simp only [Option.some.injEq, Prod.mk.injEq] at hv'
    obtain ⟨rfl, rfl⟩ := hv'
    simp only [Bool.false_eq_true, if_false, Outcome.ok.injEq] at ho
    subst ho
    refine ⟨cs, l, ha, s.exact hs, ?_⟩
    rw [hl, lost_eq (castVals_length hv).1]

example : ∃ cs l h' r, call .c demoSig (some (.atom .str)) demoFun demo [3, 4, 5, 6] = some (h', .ok r) ∧
    Exact h' (r :: l ++ ([3, 4, 5, 6] ++ [0, 3, 4, 5, 6])) ∧
    l.length = lost .c demo demoSig [3, 4, 5, 6] (some (.atom .str)) (demoFun cs) ∧
    lostArgs demo demoSig [3, 4, 5, 6] = 8 := by
  have e : ∃ h' r, call .c demoSig (some (.atom .str)) demoFun demo [3, 4, 5, 6] = some (h', .ok r) :=
    ⟨_, _, rfl⟩
  obtain ⟨h', r, e⟩ := e
  obtain ⟨cs, l, _, h1, h2⟩ := C76_count_partial _ _ _ _ _ _ _ _ _ demo_exact rfl demo_plain e
  exact ⟨cs, l, h', r, e, h1, h2, by decide⟩

/-- A successful call with scalar arguments, and a result without sets and dictionaries, leaks nothing. -/
theorem C76_scalars_partial (L : Lang) (sig : List Arg) (res : Option ResTy)
    (g : List CVal → List CVal × CRes) (h h' : Heap) (is ext : List Id) (r : Id)
    (hs : Exact h (is ++ ext)) (h0 : h.obj 0 = some (.atom .none))
    (ha : ∀ k ∈ sig, ∃ t, k = .atom t) (hr : ∀ t, res = some t → t.simple)
    (e : call L sig res g h is = some (h', .ok r)) : Exact h' (r :: (is ++ ext)) := by
  have sf := exact_safe hs
  rcases call_inv (safe_nn sf) (lt_of_obj h0) (fun i hi => safe_lt sf (List.mem_append_left _ hi)) e with
    ⟨_, m, l, h, _⟩ | ⟨cs, b, r', l, hv, ho, s, hl, _⟩
  · cases h
  · rw [lost_eq (castVals_length hv).1, lost_simple ha hr] at hl
    have hb : b = false ∧ r = r' := by cases b <;> simp_all
    obtain ⟨rfl, rfl⟩ := hb
    have := s.exact hs
    rw [List.length_eq_zero_iff.1 hl] at this
    exact this

example : ∃ h' r, call .c [.atom .bool, .atom .str] (some (.list .int)) (fun cs => (cs, .seq [.int 1, .int 2]))
      demo [5, 6] = some (h', .ok r) ∧ Exact h' (r :: ([5, 6] ++ [0, 3, 3, 4, 4, 5, 6])) := by
  have e : ∃ h' r, call .c [.atom .bool, .atom .str] (some (.list .int))
      (fun cs => (cs, .seq [.int 1, .int 2])) demo [5, 6] = some (h', .ok r) := ⟨_, _, rfl⟩
  obtain ⟨h', r, e⟩ := e
  refine ⟨h', r, e, C76_scalars_partial _ _ _ _ _ _ _ _ _ (exact_of (by decide +kernel)) rfl ?_ ?_ e⟩
  · intro k hk; simp at hk; rcases hk with rfl | rfl <;> exact ⟨_, rfl⟩
  · intro t ht; cases ht; rfl

/-- C76 fails: every successful call of a function with a list, set or tuple among its arguments leaks at
least one reference. -/
theorem C76_containers_violated (L : Lang) (sig : List Arg) (res : Option ResTy)
    (g : List CVal → List CVal × CRes) (h h' : Heap) (is ext : List Id) (r : Id)
    (hs : Exact h (is ++ ext)) (h0 : h.obj 0 = some (.atom .none))
    (hk : ∃ p ∈ sig.zip is, ∀ t, p.1 ≠ .atom t)
    (e : call L sig res g h is = some (h', .ok r)) : ¬ Exact h' (r :: (is ++ ext)) := by
  have sf := exact_safe hs
  rcases call_inv (safe_nn sf) (lt_of_obj h0) (fun i hi => safe_lt sf (List.mem_append_left _ hi)) e with
    ⟨_, m, l, h, _⟩ | ⟨cs, b, r', l, hv, ho, s, hl, _⟩
  · cases h
  · have hb : b = false ∧ r = r' := by cases b <;> simp_all
    obtain ⟨rfl, rfl⟩ := hb
    intro ex
    have := exact_unique (s.exact hs) ex
    subst this
    rw [lost_eq (castVals_length hv).1] at hl
    obtain ⟨p, hp, hp'⟩ := hk
    have : 0 < lostArg h p.2 p.1 := by
      cases hq : p.1 with
      | atom t => exact (hp' t hq).elim
      | tuple t => exact Nat.succ_pos _
      | list t f => simp only [lostArg]; omega
      | set t f => simp only [lostArg]; omega
    have h2 : lostArg h p.2 p.1 ≤ lostArgs h sig is :=
      le_sum (List.mem_map.2 ⟨p, hp, rfl⟩)
    simp only [List.length_nil, lost] at hl
    omega

example : ∃ h' r, call .c demoSig (some (.atom .str)) demoFun demo [3, 4, 5, 6] = some (h', .ok r) ∧
    ¬ Exact h' (r :: ([3, 4, 5, 6] ++ [0, 3, 4, 5, 6])) := by
  have e : ∃ h' r, call .c demoSig (some (.atom .str)) demoFun demo [3, 4, 5, 6] = some (h', .ok r) :=
    ⟨_, _, rfl⟩
  obtain ⟨h', r, e⟩ := e
  exact ⟨h', r, e, C76_containers_violated _ _ _ _ _ _ _ _ _ demo_exact rfl
    ⟨(.list .int false, 3), by decide, by simp⟩ e⟩

/-- C76 fails: every call that ends with a `TypeError` leaks at least two references. -/
theorem C76_error_violated (L : Lang) (sig : List Arg) (res : Option ResTy)
    (g : List CVal → List CVal × CRes) (h h' : Heap) (is ext : List Id) (m : Id)
    (hs : Exact h (is ++ ext)) (h0 : h.obj 0 = some (.atom .none))
    (e : call L sig res g h is = some (h', .typeError m)) :
    ∃ l, 2 ≤ l.length ∧ Exact h' (m :: l ++ (is ++ ext)) := by
  have sf := exact_safe hs
  rcases call_inv (safe_nn sf) (lt_of_obj h0) (fun i hi => safe_lt sf (List.mem_append_left _ hi)) e with
    ⟨_, m', l, ho, _, s, hl⟩ | ⟨cs, b, r', l, hv, ho, s, hl, _⟩
  · cases ho
    exact ⟨l, by omega, s.exact hs⟩
  · cases b <;> simp at ho

example : ∃ h' m, call .c [.atom .int] none echo demo [6] = some (h', .typeError m) ∧
    ∃ l, 2 ≤ l.length ∧ Exact h' (m :: l ++ ([6] ++ [0, 3, 3, 4, 4, 5, 5, 6])) := by
  have e : ∃ h' m, call .c [.atom .int] none echo demo [6] = some (h', .typeError m) := ⟨_, _, rfl⟩
  obtain ⟨h', m, e⟩ := e
  exact ⟨h', m, e, C76_error_violated _ _ _ _ _ _ _ _ _ (exact_of (by decide +kernel)) rfl e⟩

/-- C76 fails: a set as result costs one reference for each element, although the arguments are scalars. -/
theorem C76_set_violated : ∃ h' r, call .c [.atom .bool] (some (.set .int)) (fun cs => (cs, .seq [.int 1]))
      demo [5] = some (h', .ok r) ∧ ¬ Exact h' (r :: ([5] ++ [0, 3, 3, 4, 4, 5, 6, 6])) := by
  refine ⟨_, _, rfl, fun ex => ?_⟩
  have := ex 8
  revert this
  decide +kernel

/-! ## C77: wrong types -/

/-- A call ends with a `TypeError` exactly if some argument does not have its type, and then no object has
changed and the compiled function has not been called (any other function gives the same).  Missing: the
first operand of operators, see below. -/
theorem C77_partial (L : Lang) (sig : List Arg) (res : Option ResTy) (g : List CVal → List CVal × CRes)
    (h h' : Heap) (is ext : List Id) (o : Outcome) (hs : Safe h (is ++ ext))
    (h0 : h.obj 0 = some (.atom .none)) (e : call L sig res g h is = some (h', o)) :
    ((∃ m, o = .typeError m) ↔ ¬ AllTyped h sig is) ∧
    (¬ AllTyped h sig is → (∀ i, i < h.length → h'.obj i = h.obj i) ∧
      ∀ res' g', call L sig res' g' h is = some (h', o)) := by
  have hil := fun i (hi : i ∈ is) => safe_lt hs (List.mem_append_left ext hi)
  rcases call_inv (safe_nn hs) (lt_of_obj h0) hil e with
    ⟨hv, m, l, rfl, k, _⟩ | ⟨cs, b, r, l, hv, rfl, _⟩
  · have hn := castVals_fail hv
    refine ⟨⟨fun _ => hn, fun _ => ⟨m, rfl⟩⟩, fun _ => ⟨k.2, fun res' g' => ?_⟩⟩
    obtain ⟨h1, m1, f⟩ := call_fail (safe_nn hs) hil hv
    rw [f] at e ⊢
    exact e
  · have ht := (castVals_length hv).1
    refine ⟨⟨fun ⟨m, hm⟩ => ?_, fun hn => (hn ht).elim⟩, fun hn => (hn ht).elim⟩
    cases b <;> simp at hm

/-- Only surrogates in strings make a call impossible: otherwise it ends, with a result or an exception. -/
theorem C77_total_partial (L : Lang) (sig : List Arg) (res : Option ResTy)
    (g : List CVal → List CVal × CRes)
    (h : Heap) (is ext : List Id) (hs : Safe h (is ++ ext)) (h0 : h.obj 0 = some (.atom .none))
    (hl : is.length = sig.length) (ht : ∀ i ∈ is, h.text i) (hg : ∀ cs, WellTyped sig res (g cs)) :
    ∃ h' o, call L sig res g h is = some (h', o) := by
  have hil := fun i (hi : i ∈ is) => safe_lt hs (List.mem_append_left ext hi)
  have h1 := castVals_some (L := L) hl ht
  cases hv : castVals L h sig is with
  | none => simp [hv] at h1
  | some v =>
    cases v with
    | none =>
      obtain ⟨h', m, f⟩ := call_fail (safe_nn hs) hil hv
      exact ⟨h', _, f res g⟩
    | some x =>
      obtain ⟨h', r, e, _⟩ := call_ok (safe_nn hs) h0 hil (b := x.2) (cs := x.1) hv (hg x.1)
      exact ⟨h', _, e⟩

example : ∃ h' m, call .c [.atom .str, .atom .int] none (fun cs => (cs, .atom (.int 0))) demo [6, 6] =
      some (h', .typeError m) ∧ ¬ AllTyped demo [.atom .str, .atom .int] [6, 6] ∧
      ∀ i ∈ [6, 6], demo.text i := by
  refine ⟨_, _, rfl, ?_, ?_⟩
  · rintro ⟨_, ⟨⟨a, ha, hi⟩, _⟩⟩
    have : a = .str [104, 233] := by
      simp [demo, Heap.obj] at ha; exact ha.symm
    subst this
    exact hi
  · intro i hi
    have : i = 6 := by simpa using hi
    subst this
    show (encode [104, 233]).isSome = true
    decide

/-- An operator whose first operand is an instance of the class: a `TypeError` exactly if the second
operand does not have its type. -/
theorem C77_operator_partial (L : Lang) (c p : Nat) (k : Arg) (res : Option ResTy)
    (g : Nat → List CVal → List CVal × CRes) (h h' : Heap) (x y : Id) (ext : List Id) (o : Outcome)
    (hs : Safe h ([y] ++ ext)) (h0 : h.obj 0 = some (.atom .none))
    (hx : h.obj x = some (.atom (.inst c p))) (e : binop L c k res g h x y = some (.inl (h', o))) :
    (∃ m, o = .typeError m) ↔ ¬ h.hasType y k := by
  have e' : call L [k] res (g p) h [y] = some (h', o) := by
    simpa [binop, hx, check, slot] using e
  rw [(C77_partial L [k] res (g p) h h' [y] ext o hs h0 e').1]
  simp [AllTyped, Each]

/-- C77 fails: `x + y` crashes whenever `y` is an instance of a compiled class with addition and `x` is not
(as in `1 + y`), because the wrapper is called with `x` as first operand and takes it for an instance. -/
theorem C77_operator_violated (L : Lang) (c p : Nat) (k : Arg) (res : Option ResTy)
    (g : Nat → List CVal → List CVal × CRes) (h : Heap) (x y : Id)
    (hy : h.obj y = some (.atom (.inst c p))) (hx : ∀ q, h.obj x ≠ some (.atom (.inst c q))) :
    binop L c k res g h x y = none := by
  have : slot L c k res g h x y = none := by
    unfold slot
    split
    · rename_i c' q hq
      rw [if_neg]
      rintro rfl
      exact hx q hq
    · rfl
  simp [binop, hy, check, this]

example : ∃ (h : Heap) (h' : Heap) (m : Id), Safe h ([1] ++ [0, 1, 2, 2]) ∧
    h.obj 2 = some (.atom (.inst 0 7)) ∧
    binop .c 0 (.atom (.inst 0)) none (fun _ cs => (cs, .atom (.int 0))) h 2 1 =
      some (.inl (h', .typeError m)) ∧
    binop .c 0 (.atom (.inst 0)) none (fun _ cs => (cs, .atom (.int 0))) h 1 2 = none := by
  refine ⟨[⟨.atom .none, 1⟩, ⟨.atom (.int 1), 2⟩, ⟨.atom (.inst 0 7), 2⟩], _, _,
    exact_safe (exact_of (by decide +kernel)), rfl, rfl, ?_⟩
  exact C77_operator_violated _ 0 7 _ _ _ _ _ _ rfl (by simp [Heap.obj])

/-! ## C78: changes of arguments -/

/-- In C, if no list or set is passed for two arguments that can be changed, then after a call they are as
the compiled function has left them, and no other object has changed.  Missing: the cases below. -/
theorem C78_partial (sig : List Arg) (res : Option ResTy) (g : List CVal → List CVal × CRes)
    (h : Heap) (is ext : List Id) (hs : Safe h (is ++ ext)) (h0 : h.obj 0 = some (.atom .none))
    (ht : AllTyped h sig is) (hp : ∀ i ∈ is, h.plain .c i) (hd : (sharedIds sig is).Nodup) :
    ∃ cs, Each (fun p c => h.arg p.1 p.2 c) (is.zip sig) cs ∧
      (WellTyped sig res (g cs) → ∃ h' r, call .c sig res g h is = some (h', .ok r) ∧
        (∀ p ∈ (sig.zip is).zip (g cs).1, p.1.1.shared → h'.arg p.1.2 p.1.1 p.2) ∧
        ∀ i, i < h.length → i ∉ sharedIds sig is → h'.obj i = h.obj i) := by
  obtain ⟨cs, hv, ha⟩ := castVals_plain ht hp
  have hil := fun i (hi : i ∈ is) => safe_lt hs (List.mem_append_left ext hi)
  refine ⟨cs, ha, fun ok => ?_⟩
  obtain ⟨h', r, e, _, f⟩ := call_ok (L := .c) (safe_nn hs) h0 hil hv ok
  refine ⟨h', r, e, f rfl hd, ?_⟩
  rcases call_inv (safe_nn hs) (lt_of_obj h0) hil e with
    ⟨hv', _⟩ | ⟨_, _, _, _, _, _, _, _, _, fr⟩
  · rw [hv] at hv'; cases hv'
  · exact fun i hi hn => fr i hi (fun _ => hn)

example : ∃ h' r, call .c demoSig (some (.atom .str)) demoFun demo [3, 4, 5, 6] = some (h', .ok r) ∧
    h'.obj 3 = some (.list []) ∧ h'.obj 4 = demo.obj 4 ∧ (sharedIds demoSig [3, 4, 5, 6]).Nodup :=
  ⟨_, _, rfl, by decide +kernel, by decide +kernel, by decide⟩

/-- `def f(a : list[int], b : list[int]): a.append(1)` -/
def appendOne : List CVal → List CVal × CRes
  | [.seq a, b] => ([.seq (a ++ [.int 1]), b], .atom (.int 0))
  | cs => (cs, .atom (.int 0))

/-- C78 fails: the change of `a` is lost in `f(l, l)`. -/
theorem C78_twice_violated : ∃ h' r, call .c [.list .int false, .list .int false] none appendOne demo [3, 3] =
    some (h', .ok r) ∧ (h'.obj 3).map (·.refs.length) = some 2 :=
  ⟨_, _, rfl, by decide +kernel⟩

/-- C78 fails: in Fortran, no change of a list or set is visible to the caller: no call changes any
object. -/
theorem C78_fortran_violated (sig : List Arg) (res : Option ResTy) (g : List CVal → List CVal × CRes)
    (h h' : Heap) (is ext : List Id) (o : Outcome) (hs : Safe h (is ++ ext))
    (h0 : h.obj 0 = some (.atom .none)) (e : call .fortran sig res g h is = some (h', o)) :
    ∀ i, i < h.length → h'.obj i = h.obj i := by
  have hil := fun i (hi : i ∈ is) => safe_lt hs (List.mem_append_left ext hi)
  rcases call_inv (safe_nn hs) (lt_of_obj h0) hil e with
    ⟨_, _, _, _, k, _⟩ | ⟨_, _, _, _, _, _, _, _, _, fr⟩
  · exact k.2
  · exact fun i hi => fr i hi (fun h => by cases h)

example : ∃ h' r, call .fortran [.list .int false, .list .int false] none appendOne demo [3, 3] =
    some (h', .ok r) ∧ h'.obj 3 = demo.obj 3 :=
  ⟨_, _, rfl, by decide +kernel⟩

end Verif.Wrapper
