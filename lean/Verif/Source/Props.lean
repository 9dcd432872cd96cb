import Verif.Source.Lemmas

/-!
# The text and the names of a function given to epyccel: properties
-/

namespace Verif.Source
open Verif.Source.Spec Verif.Source.Model Verif.Source.Lemmas

/-! ## C183: the text that is translated -/

/-- C183.  The source of a function or of a class, under any indentation, is translated
unchanged but for the header of each method, which becomes one line with its signature:
for every list of pieces that are regular, whatever the number of methods and of lines of
their headers, and whatever the order in which the methods are listed.  Missing: sources that
are not regular; the theorems below show that some of them are changed. -/
theorem C183_partial (ind : List Char) (ps : List Piece) (ms : List (Name × List Char))
    (hind : ∀ x ∈ ind, White x) (hstart : StartsAt ps)
    (hreg : ∀ p ∈ ps, p.Regular (ms.map Prod.fst))
    (hnames : ((methodsOf ps).map Prod.fst).Nodup) (hms : ∀ m, m ∈ ms ↔ m ∈ methodsOf ps) :
    sourceText (ps.flatMap (inFile ind)) ms = some (ps.flatMap (wanted ind)) := by
  have hany : (ms.any fun m => (lastDef m.1 (ps.flatMap (linesOf ind.length)) 0 none).isNone) = false := by
    rw [List.any_eq_false]
    intro m hm hc
    obtain ⟨a, f, o, b, e⟩ := of_mem_methodsOf ((hms m).1 hm)
    rw [e] at hreg hnames hc
    rw [lastDef_header hreg (List.mem_map.2 ⟨m, hm, rfl⟩) hnames] at hc
    cases hc
  unfold sourceText
  simp only [unindent_inFile hind hstart, hany]
  have := loop_pieces ind.length ms ps hreg hnames hms ind rfl ps [] rfl
  simpa [loop] using this

/-- A class with two methods, one of them with a header of two lines and comments, indented
by two spaces, meets the hypotheses. -/
example : ∃ (ps : List Piece) (ms : List (Name × List Char)), StartsAt ps ∧ (∀ p ∈ ps, p.Regular (ms.map Prod.fst)) ∧
    ((methodsOf ps).map Prod.fst).Nodup ∧ (∀ m, m ∈ ms ↔ m ∈ methodsOf ps) ∧ ms.length = 2 ∧
    ps.length = 5 := by
  have hA : Defines (HeadLine.text ⟨chars! "  def a(self,", some (chars! " first")⟩) (chars! "a") :=
    (protoName_iff _ _).1 (by decide +kernel)
  have hB : Defines (HeadLine.text ⟨chars! "  def b(self):", none⟩) (chars! "b") :=
    (protoName_iff _ _).1 (by decide +kernel)
  have no : ∀ l n, protoName l ≠ some n → ¬ Defines l n := fun l n h hd => h ((protoName_iff l n).2 hd)
  have nc : ∀ c, endsColon (c ++ ['\n']) = false → ¬ EndsWithColon c := fun c h hd => by
    rw [(endsColon_code c).2 hd] at h; cases h
  refine ⟨[.text (chars! "class A:\n"),
      .header ⟨chars! "  def a(self,", some (chars! " first")⟩ [⟨chars! "    x):", some (chars! " last")⟩]
        (chars! "a") (chars! "(self, x)"),
      .text (chars! "    return x\n"), .blank (chars! "\n"),
      .header ⟨chars! "  def b(self):", none⟩ [] (chars! "b") (chars! "(self)")],
    [(chars! "b", chars! "(self)"), (chars! "a", chars! "(self, x)")], by simp only [StartsAt]; decide, ?_, by decide, ?_, rfl, rfl⟩
  · intro p hp
    simp only [List.mem_cons, List.not_mem_nil, or_false] at hp
    rcases hp with rfl | rfl | rfl | rfl | rfl
    · intro n hn
      simp only [List.map_cons, List.map_nil, List.mem_cons, List.not_mem_nil, or_false] at hn
      rcases hn with rfl | rfl <;> exact no _ _ (by decide +kernel)
    · refine ⟨hA, ?_, ?_, ?_, ?_⟩
      · intro h hh
        simp only [List.mem_cons, List.not_mem_nil, or_false] at hh
        rcases hh with rfl | rfl
        · exact ⟨by decide, fun c hc => by cases hc; decide, by decide⟩
        · exact ⟨by decide, fun c hc => by cases hc; decide, by decide⟩
      · intro h hh n hn
        simp only [List.mem_cons, List.not_mem_nil, or_false] at hh
        subst hh
        simp only [List.map_cons, List.map_nil, List.mem_cons, List.not_mem_nil, or_false] at hn
        rcases hn with rfl | rfl <;> exact no _ _ (by decide +kernel)
      · intro h hh
        simp only [List.dropLast, List.mem_cons, List.not_mem_nil, or_false] at hh
        subst hh
        exact nc _ (by decide +kernel)
      · intro h hh
        simp at hh
        subst hh
        exact (endsColon_code _).1 (by decide +kernel)
    · intro n hn
      simp only [List.map_cons, List.map_nil, List.mem_cons, List.not_mem_nil, or_false] at hn
      rcases hn with rfl | rfl <;> exact no _ _ (by decide +kernel)
    · intro x hx
      simp only [List.mem_cons, List.not_mem_nil, or_false] at hx
      subst hx
      decide
    · refine ⟨hB, ?_, ?_, ?_, ?_⟩
      · intro h hh
        simp only [List.mem_cons, List.not_mem_nil, or_false] at hh
        subst hh
        exact ⟨by decide, fun c hc => by (cases hc), by decide⟩
      · intro h hh
        cases hh
      · intro h hh
        cases hh
      · intro h hh
        simp at hh
        subst hh
        exact (endsColon_code _).1 (by decide +kernel)
  · intro m
    simp [methodsOf, or_comm]

/-- C183 fails: a comment that starts left of the function becomes code.  Here the line that
was commented out, `#       x = 0`, loses its `#` with the indentation of the function. -/
theorem C183_comment_violated :
    sourceText [chars! "    def f(x : int):\n", chars! "#       x = 0\n", chars! "        return x\n"]
        [(chars! "f", chars! "(x: int)")]
      = some [chars! "def f(x: int):\n", chars! "    x = 0\n", chars! "    return x\n"] := by
  decide +kernel

/-- C183 fails: when the comment of a header contains a second `#`, the end of the header is not
recognised and the lines up to the next line that ends with a colon are deleted.  Here the
condition of the assignment disappears. -/
theorem C183_hash_violated :
    sourceText [chars! "def f(x : 'int[:]'): # see issue #3\n", chars! "    if x[0] > 0:\n",
        chars! "        x[0] = 1\n"]
        [(chars! "f", chars! "(x: 'int[:]')")]
      = some [chars! "def f(x: 'int[:]'):\n", chars! "        x[0] = 1\n"] := by
  decide +kernel

/-- C183 fails: a method whose body is on the line of its header takes the body of the next
method, and the next method disappears. -/
theorem C183_oneline_violated :
    sourceText [chars! "class A:\n", chars! "    def a(self): return 1\n",
        chars! "    def b(self):\n", chars! "        return 2\n"]
        [(chars! "a", chars! "(self)"), (chars! "b", chars! "(self)")]
      = some [chars! "class A:\n", chars! "    def a(self):\n", chars! "        return 2\n"] := by
  decide +kernel

/-- C183 fails: a line of a documentation string that looks like the definition of the function
is taken for it: the text of the string is changed and the header, with the values that only
the signature knows, is left. -/
theorem C183_docstring_violated :
    sourceText [chars! "def f(x : T):\n", chars! "    '''Example:\n", chars! "    def f(x):\n",
        chars! "    '''\n", chars! "    return x\n"]
        [(chars! "f", chars! "(x: int)")]
      = some [chars! "def f(x : T):\n", chars! "    '''Example:\n", chars! "    def f(x: int):\n",
          chars! "    '''\n", chars! "    return x\n"] := by
  decide +kernel

/-- A method that the class does not define itself (it is inherited) makes the translation fail,
whatever the source. -/
theorem C183_inherited (raw : List Line) (ms : List (Name × List Char)) (m : Name × List Char)
    (hm : m ∈ ms) (h : ∀ l ∈ unindent raw, ¬ Defines l m.1) : sourceText raw ms = none := by
  unfold sourceText
  rw [if_pos]
  rw [List.any_eq_true]
  exact ⟨m, hm, by rw [lastDef_none h]; rfl⟩

example : sourceText [chars! "class B(A):\n", chars! "    x : int\n"] [(chars! "f", chars! "(self)")] = none := by
  decide +kernel

/-! ## C184: the objects that names refer to -/

/-- C184.  Whatever the functions, their modules and the chains of calls: every name that a
function calls when it is translated refers to the object that Python finds, if it is
translated at all.  Missing: functions of several modules in which a name means different
things, and names of the user that hide built-in functions; see the theorems below. -/
theorem C184_partial (w : World) (builtins known : List Name) (root g : Nat) (n : Name) (o : Obj)
    (hb : ∀ k ∈ builtinNames, k ∈ builtins) (hw : Plain w builtins builtinNames root)
    (hg : Runs w builtins root g) (hn : n ∈ w.calls g)
    (h : pyccelFind w known root n = some o) : pyFind w builtins g n = some o := by
  obtain ⟨h1, h2, h4⟩ := hw g hg n hn
  unfold pyccelFind at h
  unfold pyFind
  have hc : context w root n = around w g n := by
    rw [h1]
    unfold context around
    cases w.cells root n <;> rfl
  split at h
  · rename_i hbn
    rw [h2 hbn, if_pos (hb n hbn)]
    exact h
  · rw [hc] at h
    split at h
    · cases h
    · rename_i f e
      rw [e]; exact h
    · rename_i k e
      split at h
      · rw [e]; exact h
      · cases h
    · rename_i k m e
      obtain ⟨rfl, hk⟩ := h4 k m e
      rw [if_neg hk] at h
      split at h
      · rw [e]; exact h
      · cases h

/-- C184.  The functions of the user that are translated with the function given to epyccel are
functions that Python runs with it. -/
theorem C184_chain_partial (w : World) (builtins known : List Name) (root g : Nat)
    (hb : ∀ k ∈ builtinNames, k ∈ builtins) (hw : Plain w builtins builtinNames root)
    (h : Translated w known root g) : Runs w builtins root g := by
  induction h with
  | self => exact .self
  | call _ hn hf ih => exact .call ih hn (C184_partial w builtins known root _ _ _ hb hw ih hn hf)

/-- C184.  Conversely every function of the user that Python runs is translated. -/
theorem C184_complete_partial (w : World) (builtins known : List Name) (root g : Nat)
    (hw : Plain w builtins builtinNames root) (h : Runs w builtins root g) : Translated w known root g := by
  induction h with
  | self => exact .self
  | @call g h n hg hn hf ih =>
    refine .call ih hn ?_
    obtain ⟨h1, h2, -⟩ := hw g hg n hn
    unfold pyFind at hf
    have he : around w g n = some (.user h) := by
      cases ha : around w g n with
      | none =>
        rw [ha] at hf
        simp at hf
      | some o => rw [ha] at hf; simpa using hf
    have hnb : n ∉ builtinNames := fun hc => by rw [h2 hc] at he; cases he
    have hc : context w root n = some (.user h) := by
      rw [← he, h1]
      unfold context around
      cases w.cells root n <;> rfl
    unfold pyccelFind
    rw [if_neg hnb, hc]

/-- A module in which `f` (0) calls `g` (1) and `len`, and `g` calls `h` (2), a function defined
around it, and the `sin` of a library. -/
def sampleWorld : World where
  globals := fun _ n =>
    if n = chars! "g" then some (.user 1)
    else if n = chars! "h" then some (.user 2)
    else if n = chars! "sin" then some (.library (chars! "sin") (chars! "numpy")) else none
  cells := fun _ _ => none
  calls := fun f => if f = 0 then [chars! "g", chars! "len"]
    else if f = 1 then [chars! "h", chars! "sin"] else []

/-- The sample meets the hypotheses, and its chain of calls has two steps. -/
example : Plain sampleWorld builtinNames builtinNames 0 ∧ Runs sampleWorld builtinNames 0 2 ∧
    Translated sampleWorld [chars! "numpy"] 0 2 := by
  have hP : Plain sampleWorld builtinNames builtinNames 0 := by
    intro g _ n hn
    have hn' : n = chars! "g" ∨ n = chars! "len" ∨ n = chars! "h" ∨ n = chars! "sin" := by
      simp only [sampleWorld] at hn
      split at hn
      · simp only [List.mem_cons, List.not_mem_nil, or_false] at hn
        rcases hn with h | h <;> simp [h]
      · split at hn
        · simp only [List.mem_cons, List.not_mem_nil, or_false] at hn
          rcases hn with h | h <;> simp [h]
        · cases hn
    refine ⟨rfl, ?_⟩
    rcases hn' with rfl | rfl | rfl | rfl
    · refine ⟨fun h => absurd h (by decide), fun k m h => ?_⟩
      simp [around, sampleWorld] at h
    · refine ⟨fun _ => by simp [around, sampleWorld], fun k m h => ?_⟩
      simp [around, sampleWorld] at h
    · refine ⟨fun h => absurd h (by decide), fun k m h => ?_⟩
      simp [around, sampleWorld] at h
    · refine ⟨fun h => absurd h (by decide), fun k m h => ?_⟩
      simp [around, sampleWorld] at h
      obtain ⟨rfl, -⟩ := h
      exact ⟨rfl, by decide⟩
  have hR : Runs sampleWorld builtinNames 0 2 :=
    .call (g := 1) (n := chars! "h") (.call (n := chars! "g") .self (by decide) (by decide)) (by decide) (by decide)
  exact ⟨hP, hR, C184_complete_partial _ _ _ _ _ hP hR⟩

/-- C184 fails: a function of the user that is called like a built-in function (here their own
`max`) is replaced by the built-in function. -/
theorem C184_shadow_violated :
    ∃ w : World, w.globals 0 (chars! "max") = some (.user 1) ∧
      pyFind w builtinNames 0 (chars! "max") = some (.user 1) ∧
      pyccelFind w [] 0 (chars! "max") = some (.builtin (chars! "max")) :=
  ⟨⟨fun _ n => if n = chars! "max" then some (.user 1) else none, fun _ _ => none, fun _ => []⟩,
    by decide, by decide, by decide⟩

/-- C184 fails: a function of a library is replaced by the built-in function of the same name,
even under another name (`from numpy import sum as total`). -/
theorem C184_library_violated :
    ∃ w : World, pyFind w builtinNames 0 (chars! "total")
        = some (.library (chars! "sum") (chars! "numpy")) ∧
      pyccelFind w [chars! "numpy"] 0 (chars! "total") = some (.builtin (chars! "sum")) :=
  ⟨⟨fun _ n => if n = chars! "total" then some (.library (chars! "sum") (chars! "numpy")) else none,
    fun _ _ => none, fun _ => []⟩, by decide, by decide⟩

/-- C184 fails: the names of a function that was imported from another module are looked up in
the module of the function given to epyccel.  Here `g` (1) calls the `h` (2) of its own module
and is translated with the `h` (3) of the other module. -/
theorem C184_module_violated :
    ∃ w : World, Runs w builtinNames 0 1 ∧ chars! "h" ∈ w.calls 1 ∧
      pyFind w builtinNames 1 (chars! "h") = some (.user 2) ∧
      pyccelFind w [] 0 (chars! "h") = some (.user 3) ∧
      Translated w [] 0 3 ∧ ¬ Runs w builtinNames 0 3 := by
  let w : World := ⟨fun f n =>
    if n = chars! "g" then some (.user 1)
    else if n = chars! "h" then (if f = 0 then some (.user 3) else some (.user 2)) else none,
    fun _ _ => none, fun f => if f = 0 then [chars! "g"] else if f = 1 then [chars! "h"] else []⟩
  have hr : Runs w builtinNames 0 1 := .call (n := chars! "g") .self (by decide) (by decide)
  refine ⟨w, hr, by decide, by decide, by decide,
    .call (g := 1) (n := chars! "h") (.call (n := chars! "g") .self (by decide) (by decide)) (by decide) (by decide), ?_⟩
  have key : ∀ g, Runs w builtinNames 0 g → g = 0 ∨ g = 1 ∨ g = 2 := by
    intro g h
    induction h with
    | self => simp
    | @call g h n _ hn hf ih =>
      rcases ih with rfl | rfl | rfl
      · have : n = chars! "g" := by simpa [w] using hn
        subst this
        simp [pyFind, around, w] at hf
        simp [← hf]
      · have : n = chars! "h" := by simpa [w] using hn
        subst this
        simp [pyFind, around, w] at hf
        simp [← hf]
      · simp [w] at hn
  intro h
  rcases key 3 h with h | h | h <;> cases h

end Verif.Source
