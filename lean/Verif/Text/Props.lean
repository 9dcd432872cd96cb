import Verif.Text.Lemmas
/-!
# Properties of the text the printers produce (C46 - C51, C63)

The specification is in `Verif.Text.Spec`.
-/

namespace Verif.Text

open Verif.Text.Spec (Str s cString cStrings fCharExpr pyPrint Arg Kind Inner Outer run runF NoPercent
  FBool CExpr CAtom IsName NoTwo Apart lstripped margin isLine blank level closes opens linesOf cComment
  fInert Wrappable Inert StandsFor Each joinLines SameTokens joined isSpace trimL isWord clean afterQ
  ShortRuns)

/-- `clean` can be decided. -/
instance decClean : (q : Option Char) → (x : Str) → Decidable (clean q x)
  | none, [] => isTrue trivial
  | some _, [] => isTrue trivial
  | none, c :: r =>
    have := decClean (Spec.nextQ none c) r
    inferInstanceAs (Decidable (c ≠ '&' ∧ c ≠ '!' ∧ clean (Spec.nextQ none c) r))
  | some q, c :: r => decClean (Spec.nextQ (some q) c) r

/-! ## C46 -/

/-- C46: the literal printed for a string, read by the rules of C, denotes the string, and it
ends where the printer thinks it ends.  For every string. -/
theorem C46_c_literal (x : Str) :
    ∃ b, cLiteral x = s "cstr_lit(\"" ++ b ∧ cString b = some (x, s ")") := by
  refine ⟨cEscaped x ++ '"' :: s ")", ?_, cString_escaped x _⟩
  unfold cLiteral
  rw [List.append_assoc]
  rfl

/-- C46: the same for the `char*` form, whatever comes after it. -/
theorem C46_c_plain_literal (x rest : Str) :
    ∃ b, cStrStr x ++ rest = '"' :: b ∧ cString b = some (x, rest) := cStrStr_read x rest

-- A backslash, a quote and a newline.
example : cLiteral ['\\', '"', '\n'] = s "cstr_lit(\"\\\\\\\"\\n\")" := by decide

/-- C46: writing the program out (splitting it into lines, and indenting them) leaves the literal
alone, if the string has none of the six characters that only Python takes for the end of a
line.  (For a string that has one of them see `C46_layout_violated`.) -/
theorem C46_layout_partial (x pre post : Str)
    (h : ∀ c ∈ x, c.toNat ∉ [28, 29, 30, 0x85, 0x2028, 0x2029]) :
    cLiteral x <:+: cFormat (pre ++ cLiteral x ++ post) := by
  apply cFormat_keeps _ (cLiteral_breaks x h)
  refine ⟨'c', s "str_lit(\"" ++ cEscaped x ++ s "\")", ?_, by decide, by decide⟩
  unfold cLiteral
  generalize cEscaped x = y
  rfl

-- Newlines, tabs and form feeds are no problem.
example : ∀ c ∈ (s "a\n\t \u000cb"), c.toNat ∉ [28, 29, 30, 0x85, 0x2028, 0x2029] := by decide

/-- C46 fails: the blank after a line separator U+2028 inside a literal is lost, because the
program is split into lines with `str.splitlines` and every line is stripped. -/
theorem C46_layout_violated :
    ∃ x y pre post, cFormat (pre ++ cLiteral x ++ post) = pre ++ cLiteral y ++ post ∧ x ≠ y :=
  ⟨[Char.ofNat 0x2028, ' ', 'a'], [Char.ofNat 0x2028, 'a'], s "t = ", s ";\n", by decide +kernel,
    by decide⟩

/-! ## C47 -/

/-- C47: the character expression printed for a string has the string as its value.  For every
string, the empty one included. -/
theorem C47_fortran_literal (x : Str) : fCharExpr (x.length + 1) (fLiteral x) = some x := by
  unfold fLiteral
  split
  · rename_i h; subst h; rfl
  · rename_i h
    have hd := fPieces_denotes x [] (by simp)
    have hlen : ∀ (x sub : Str), (fPieces sub x).length ≤ x.length + x.length + 1 := by
      intro x
      induction x with
      | nil => intro sub; rw [fPieces, flushed]; split <;> simp
      | cons c r ih =>
        intro sub
        rw [fPieces]
        split
        · have := ih []
          rw [List.length_append]
          have : (flushed sub).length ≤ 1 := by unfold flushed; split <;> simp
          simp only [List.length_cons]
          omega
        · have := ih (sub ++ [c])
          simp only [List.length_cons]; omega
    -- every piece denotes at least one character
    have hsharp : ∀ (x sub : Str), (fPieces sub x).length ≤ (sub ++ x).length := by
      intro x
      induction x with
      | nil =>
        intro sub; rw [fPieces, flushed]
        split
        · simp
        · rename_i h
          have : sub.length ≠ 0 := fun h0 => h (List.length_eq_zero_iff.1 h0)
          simp; omega
      | cons c r ih =>
        intro sub
        rw [fPieces]
        split
        · have h1 := ih []
          have h2 : (flushed sub).length ≤ sub.length := by
            unfold flushed
            split
            · simp
            · rename_i h
              have : sub.length ≠ 0 := fun h0 => h (List.length_eq_zero_iff.1 h0)
              simp; omega
          rw [List.length_append, List.length_append]
          simp only [List.length_cons, List.nil_append] at *
          omega
        · have := ih (sub ++ [c])
          simp only [List.length_append, List.length_cons, List.length_nil] at *
          omega
    have := hsharp x []
    exact fCharExpr_joined _ _ (fPieces_ne_nil x [] (by simpa using h)) hd _ (by simp at this; omega)

-- An apostrophe and a newline.
example : fLiteral ['a', '\'', '\n'] = s "'a' // ACHAR(39) // ACHAR(10)" := by decide

/-- C47: writing the program out (splitting it into lines, and indenting them) leaves the literal
alone, if the string has none of the six characters that only Python takes for the end of a
line.  The breaking of long lines is C49. -/
theorem C47_layout_partial (inc dec : Str → Bool) (x pre post : Str)
    (h : ∀ c ∈ x, c.toNat ∉ [28, 29, 30, 0x85, 0x2028, 0x2029]) :
    fLiteral x <:+: (fIndent inc dec (splitLines [] (pre ++ fLiteral x ++ post))).flatten :=
  format_keeps fAlone inc dec 2 _ (fLiteral_breaks x h) (fLiteral_head x) pre post

/-- C47 fails: the blank after a line separator U+2028 inside a literal is lost. -/
theorem C47_layout_violated (inc dec : Str → Bool) (hi : ∀ l, inc l = false) (hd : ∀ l, dec l = false) :
    ∃ x y pre post,
      (fIndent inc dec (splitLines [] (pre ++ fLiteral x ++ post))).flatten = pre ++ fLiteral y ++ post ∧
      x ≠ y := by
  have e1 : inc = fun _ => false := funext hi
  have e2 : dec = fun _ => false := funext hd
  subst e1; subst e2
  exact ⟨[Char.ofNat 0x2028, ' ', 'a'], [Char.ofNat 0x2028, 'a'], s "t = ", s "\n", by decide +kernel,
    by decide⟩

-- Lines that neither open nor close a block.
example : ∃ inc : Str → Bool, ∀ l, inc l = false := ⟨fun _ => false, fun _ => rfl⟩

/-! ## C48 -/

/-- C48 in C: `print` writes what Python writes, for strings, numbers, Booleans, arrays and nested
tuples, lists and sets, if no string, separator or end has a per cent sign, the elements of
tuples, lists and sets are no strings or arrays, no list or set has exactly one element, no set is
empty, and no array is followed by another argument (unless the separator is empty).  Each of these
conditions is needed: see the theorems `…_violated`.  Not modelled: the conversions that print
numbers. -/
theorem C48_c_print_partial (args : List Arg) (sep fin : Str) (hs : '%' ∉ sep) (hf : '%' ∉ fin)
    (ho : ∀ a ∈ args, Outer NoPercent a) (ha : sep = [] ∨ ∀ a ∈ args.dropLast, ¬ a.isArray) :
    ∀ n, (∀ a ∈ args, a.depth ≤ n) →
      run (cPrint (n + 1) args sep fin) = some (pyPrint sep fin args) :=
  fun n hn => cPrint_run n args sep fin hs hf (fun a ha => ⟨ho a ha, hn a ha⟩) ha

/-- C48 in Fortran: the same; per cent signs are harmless, but a Boolean that is not a literal must
not be true. -/
theorem C48_fortran_print_partial (args : List Arg) (sep fin : Str)
    (ho : ∀ a ∈ args, Outer FBool a) (ha : sep = [] ∨ ∀ a ∈ args.dropLast, ¬ a.isArray) :
    ∀ n, (∀ a ∈ args, a.depth ≤ n) → runF (fPrint (n + 1) args sep fin) = pyPrint sep fin args :=
  fun n hn => fPrint_run n args sep fin (fun a ha => ⟨ho a ha, hn a ha⟩) ha

/-- `print("x =", (1, [2, 3]), True, np.array([4, 5]))`. -/
def printCase : List Arg :=
  [.lit (s "x ="), .seq .tuple [.num (s "1"), .seq .list [.num (s "2"), .num (s "3")]],
   .bool true true, .array [s "4", s "5"]]

-- The hypotheses hold for it, and Python prints what one expects.
example : (∀ a ∈ printCase, Outer NoPercent a) ∧ (∀ a ∈ printCase, Outer FBool a) ∧
    (∀ a ∈ printCase.dropLast, ¬ a.isArray) ∧ (∀ a ∈ printCase, a.depth ≤ 2) ∧
    pyPrint (s " ") (s "\n") printCase = s "x = (1, [2, 3]) True [4 5]\n" := by
  have inner : ∀ leaf : Arg → Prop, Inner leaf
      (.seq .tuple [.num (s "1"), .seq .list [.num (s "2"), .num (s "3")]]) := by
    intro leaf
    refine .seq ?_ (by simp) (by simp)
    intro e he
    simp only [List.mem_cons, List.not_mem_nil, or_false] at he
    rcases he with rfl | rfl
    · exact .num
    · refine .seq ?_ (by simp) (by simp)
      intro e he
      simp only [List.mem_cons, List.not_mem_nil, or_false] at he
      rcases he with rfl | rfl <;> exact .num
  refine ⟨?_, ?_, ?_, ?_, by decide⟩
  · intro a ha
    simp only [printCase, List.mem_cons, List.not_mem_nil, or_false] at ha
    rcases ha with rfl | rfl | rfl | rfl
    · exact .lit (by unfold NoPercent; decide)
    · exact .inner (inner _)
    · exact .inner (.bool trivial)
    · exact .array
  · intro a ha
    simp only [printCase, List.mem_cons, List.not_mem_nil, or_false] at ha
    rcases ha with rfl | rfl | rfl | rfl
    · exact .lit trivial
    · exact .inner (inner _)
    · exact .inner (.bool (Or.inl rfl))
    · exact .array
  · intro a ha
    simp only [printCase, List.dropLast, List.mem_cons, List.not_mem_nil, or_false] at ha
    rcases ha with rfl | rfl | rfl <;> exact fun h => h
  · intro a ha
    simp only [printCase, List.mem_cons, List.not_mem_nil, or_false] at ha
    rcases ha with rfl | rfl | rfl | rfl <;> decide

/-- C48 fails in C: a per cent sign in a string is taken for a conversion; `print("50% sure")` is
undefined behaviour. -/
theorem C48_percent_violated : run (cPrint 1 [.lit (s "50% sure")] (s " ") (s "\n")) = none ∧
    pyPrint (s " ") (s "\n") [.lit (s "50% sure")] = s "50% sure\n" := by decide

/-- C48 fails in C and Fortran: a list with one element is printed with a comma, as only tuples
are. -/
theorem C48_singleton_list_violated :
    run (cPrint 2 [.seq .list [.num (s "1")]] (s " ") (s "\n")) = some (s "[1,]\n") ∧
    runF (fPrint 2 [.seq .list [.num (s "1")]] (s " ") (s "\n")) = s "[1,]\n" ∧
    pyPrint (s " ") (s "\n") [.seq .list [.num (s "1")]] = s "[1]\n" := by decide

/-- C48 fails in C and Fortran: there is no separator after an array. -/
theorem C48_array_separator_violated :
    run (cPrint 1 [.array [s "1", s "2"], .num (s "3")] (s " ") (s "\n")) = some (s "[1 2]3\n") ∧
    runF (fPrint 1 [.array [s "1", s "2"], .num (s "3")] (s " ") (s "\n")) = s "[1 2]3\n" ∧
    pyPrint (s " ") (s "\n") [.array [s "1", s "2"], .num (s "3")] = s "[1 2] 3\n" := by decide

/-- C48 fails in C and Fortran: strings in a tuple are printed without quotes. -/
theorem C48_nested_string_violated :
    run (cPrint 2 [.seq .tuple [.lit (s "a"), .lit (s "b")]] (s " ") (s "\n")) = some (s "(a, b)\n") ∧
    runF (fPrint 2 [.seq .tuple [.lit (s "a"), .lit (s "b")]] (s " ") (s "\n")) = s "(a, b)\n" ∧
    pyPrint (s " ") (s "\n") [.seq .tuple [.lit (s "a"), .lit (s "b")]] = s "('a', 'b')\n" := by
  decide

/-- C48 fails in C and Fortran: the empty set is printed as `{}`. -/
theorem C48_empty_set_violated :
    run (cPrint 2 [.seq .set []] (s " ") (s "\n")) = some (s "{}\n") ∧
    runF (fPrint 2 [.seq .set []] (s " ") (s "\n")) = s "{}\n" ∧
    pyPrint (s " ") (s "\n") [.seq .set []] = s "set()\n" := by decide

/-- C48 fails in Fortran: a true Boolean that is not a literal is followed by a blank too many. -/
theorem C48_fortran_bool_violated :
    runF (fPrint 1 [.bool false true, .num (s "1")] (s " ") (s "\n")) = s "True  1\n" ∧
    pyPrint (s " ") (s "\n") [.bool false true, .num (s "1")] = s "True 1\n" := by decide

/-! ## C49 -/

/-- C49: breaking the long lines ends, without an exception, and the new lines spell the same
statements by Fortran's rules for continuation lines; comments and blank lines are kept.  No line
but the comments is longer than 74 characters and the newline.  This is for lines that are indented
by at most 64 characters, and whose names and numbers are shorter than the room that is left.  The
missing lines are those of the theorems `…_violated`, those with `!` or `&` outside of literals, and
those with an unclosed literal (pyccel prints none of these but comments after statements). -/
theorem C49_wrap_partial (n : Nat) (lines : List Str)
    (h : ∀ l ∈ lines, (Wrappable l ∧ l.length < n) ∨ Inert l) :
    ∃ groups : List (List Str), wrap n lines = .ok groups.flatten ∧ Each StandsFor groups lines ∧
      ∀ g ∈ groups, (∀ l ∈ g, l.length ≤ 75) ∨ ∃ l ∈ lines, g = [l] ∨ g = [l ++ ['\n']] :=
  wrap_each n lines h

/-- C49: no line but a comment is longer than 74 characters, whatever is in it. -/
theorem C49_length (n : Nat) (l : Str) (ls : List Str) (h : wrapLine n l = .ok ls)
    (hi : l.length ≤ (trimL l).length + 64) :
    (∀ k ∈ ls, k.length ≤ 74) ∨ (fInert l ∧ ls = [l]) := wrapLine_length h hi

/-- A call that does not fit into one line, with a literal that has blanks and an ampersand. -/
def longLine : Str :=
  s "  call some_subroutine(first_argument, second_argument, 'a text  with & blanks', third)\n"

-- The hypotheses hold for it.
example : Wrappable longLine ∧ longLine.length < 100 ∧ 72 < longLine.length := by
  refine ⟨?_, by decide, by decide⟩
  have e : longLine = s "  " ++ 'c' :: s "all some_subroutine(first_argument, second_argument, 'a text  with & blanks', third)\n" := by
    decide
  rw [e]
  refine .stmt _ _ _ (by decide) (by decide) (by decide) ?_ (by decide) ?_
  · decide +kernel
  · intro a w c b hx hl hc
    exfalso
    have hw : w ++ [c] <:+: longLine := by rw [e, hx]; exact ⟨a, b, rfl⟩
    have hlen : (w ++ [c]).length = 64 := by
      rw [List.length_append]; simpa [s] using hl
    -- every stretch of 64 characters has a blank
    have key : ∀ i, i ≤ longLine.length - 64 → ' ' ∈ (longLine.drop i).take 64 := by decide +kernel
    obtain ⟨p, q, hpq⟩ := hw
    have h1 : (longLine.drop p.length).take 64 = w ++ [c] := by
      rw [← hpq, List.append_assoc, List.drop_left, ← hlen, List.take_left]
    have h2 : p.length ≤ longLine.length - 64 := by
      have := congrArg List.length hpq
      rw [List.length_append, List.length_append, hlen] at this
      omega
    have h3 := key _ h2
    rw [h1] at h3
    rcases hc with hc | hc
    · exact absurd (hc _ h3) (by decide)
    · exact (hc _ h3).2.1 rfl

/-- A statement with a name of 50 letters, indented by 20 blanks. -/
def longName : Str :=
  List.replicate 20 ' ' ++ s "some_result = a + " ++ List.replicate 50 'b' ++ s "\n"

/-- C49 fails: a name that is too long for the room left is broken with blanks in it (Fortran
allows 63 characters), so the statement changes. -/
theorem C49_long_name_violated : ∃ ls t, wrapLine 100 longName = .ok ls ∧
    joinLines (ls.map endNl) = some t ∧ ¬ SameTokens t longName := by
  refine ⟨[List.replicate 20 ' ' ++ s "some_result = a + &",
    List.replicate 26 ' ' ++ List.replicate 45 'b' ++ s " &",
    List.replicate 26 ' ' ++ List.replicate 5 'b'],
    List.replicate 20 ' ' ++ s "some_result = a + " ++ (List.replicate 26 ' ' ++
      List.replicate 45 'b' ++ s " " ++ (List.replicate 26 ' ' ++ List.replicate 5 'b' ++ s "\n")),
    ?_, ?_, ?_⟩
  · decide +kernel
  · decide +kernel
  · unfold SameTokens; decide +kernel

/-- C49 fails: for a statement that is indented by 68 blanks (34 nested blocks) an `IndexError` is
raised, because the position to start from is negative. -/
theorem C49_deep_violated (n : Nat) :
    wrapLine (n + 1) (List.replicate 68 ' ' ++ s "x = yyyyyyyyyyyyyyyy\n") = .error := by
  unfold wrapLine
  rw [if_neg (by decide)]
  dsimp only
  have e1 : trimL ((List.replicate 68 ' ' ++ s "x = yyyyyyyyyyyyyyyy\n").take 72) = s "x = " := by
    decide +kernel
  have e2 : splitPos (List.replicate 68 ' ' ++ s "x = yyyyyyyyyyyyyyyy\n") 72 = .ok 72 := by
    decide +kernel
  have e3 : inQuotes (quoteMask none (List.replicate 68 ' ' ++ s "x = yyyyyyyyyyyyyyyy\n")) 72 = false := by
    decide +kernel
  have e4 : (cutAt false (List.replicate 68 ' ' ++ s "x = yyyyyyyyyyyyyyyy\n") 72).2
      = s "yyyyyyyyyyyyyyyy\n" := by decide +kernel
  rw [e1, e2]
  rw [if_neg (by decide), if_neg (by decide)]
  dsimp only
  rw [if_neg (by decide), e3, e4]
  have e5 : splitPos (s "yyyyyyyyyyyyyyyy\n") (65 - ((72 - (s "x = ").length : Nat) : Int)) = .error := by
    decide +kernel
  rw [wrapRest, if_neg (by decide), e5]

/-- C49 fails: if a line is indented by 65 characters the loop never ends, because nothing is
taken from the line.  (pyccel indents by an even number of blanks.) -/
theorem C49_loop_violated (n : Nat) :
    wrapLine n (List.replicate 65 ' ' ++ s "x = yyyyyyyyyyyyyyyy\n") = .running := by
  unfold wrapLine
  rw [if_neg (by decide)]
  dsimp only
  have e1 : trimL ((List.replicate 65 ' ' ++ s "x = yyyyyyyyyyyyyyyy\n").take 72) = s "x = yyy" := by
    decide +kernel
  have e2 : splitPos (List.replicate 65 ' ' ++ s "x = yyyyyyyyyyyyyyyy\n") 72 = .ok 69 := by
    decide +kernel
  have e3 : inQuotes (quoteMask none (List.replicate 65 ' ' ++ s "x = yyyyyyyyyyyyyyyy\n")) 69 = false := by
    decide +kernel
  have e4 : (cutAt false (List.replicate 65 ' ' ++ s "x = yyyyyyyyyyyyyyyy\n") 69).2
      = s "yyyyyyyyyyyyyyyy\n" := by decide +kernel
  rw [e1, e2]
  rw [if_neg (by decide), if_neg (by decide)]
  dsimp only
  rw [if_neg (by decide), e3, e4]
  generalize hm : quoteMask none (List.replicate 65 ' ' ++ s "x = yyyyyyyyyyyyyyyy\n") = mask
  have hlen : (List.replicate 65 ' ' ++ s "x = yyyyyyyyyyyyyyyy\n").length = 86 := by decide
  rw [hlen]
  have hq : inQuotes mask ((0 : Int) + ((86 : Nat) - (s "yyyyyyyyyyyyyyyy\n").length : Int)) = false := by
    rw [← hm]; decide +kernel
  have key : ∀ n li, wrapRest mask 86 (72 - (s "x = yyy").length) ((s "!$omp").isPrefixOf (s "x = yyy"))
      ((s "!$acc").isPrefixOf (s "x = yyy")) n li (s "yyyyyyyyyyyyyyyy\n") = .running := by
    intro n
    induction n with
    | zero => intro li; rfl
    | succ n ih =>
      intro li
      have e5 : splitPos (s "yyyyyyyyyyyyyyyy\n") (65 - ((72 - (s "x = yyy").length : Nat) : Int))
          = .ok 0 := by decide +kernel
      have e6 : (cutAt false (s "yyyyyyyyyyyyyyyy\n") 0).2 = s "yyyyyyyyyyyyyyyy\n" := by
        decide +kernel
      rw [wrapRest, if_neg (by decide), e5]
      dsimp only
      rw [hq, e6, ih]
  rw [key]

/-! ## C50 -/

/-- C50: the C printer changes nothing but the white space in front of the lines. -/
theorem C50_c_text (ls : List Str) : (cIndent ls).map lstripped = ls.map lstripped := by
  rw [cIndent, indentLoop_stripped, List.map_map]
  exact List.map_congr_left fun l _ => lstripped_idem l

/-- C50: the Fortran printer changes nothing but the white space in front of the lines, whatever
its regular expressions match. -/
theorem C50_fortran_text (inc dec : Str → Bool) (ls : List Str) :
    (fIndent inc dec ls).map lstripped = ls.map lstripped := by
  rw [fIndent, indentLoop_stripped, List.map_map]
  exact List.map_congr_left fun l _ => lstripped_idem l

/-- C50: in C, a line with code on it is indented by four blanks for every block that is open in
front of it; a closing brace at its beginning counts. -/
theorem C50_c_margin (pre : List Str) (l : Str) (post : List Str) (h : ∀ k ∈ pre ++ [l], isLine k)
    (hb : blank l = false) :
    ∃ k, (cIndent (pre ++ l :: post))[pre.length]? = some k ∧ lstripped k = lstripped l ∧
      (margin k : Int) = max 0 (4 * (level pre - (closes l).toNat)) :=
  cIndent_margin pre l post h hb

-- The body of a loop.
example : (∀ k ∈ [s "while (1) {\n"] ++ [s "x = 1;\n"], isLine k) ∧ blank (s "x = 1;\n") = false ∧
    level [s "while (1) {\n"] = 1 ∧
    cIndent [s "while (1) {\n", s "x = 1;\n", s "}\n"] = [s "while (1) {\n", s "    x = 1;\n", s "}\n"] := by
  unfold isLine
  decide

/-- C50: a block that closes everything it opens has no influence on the lines after it. -/
theorem C50_c_balanced (pre blk post : List Str) (h : ∀ k ∈ blk, isLine k) (h0 : level blk = 0) :
    (cIndent (pre ++ blk ++ post)).drop (pre ++ blk).length
      = (cIndent (pre ++ post)).drop pre.length := by
  rw [cIndent, cIndent, List.map_append, List.map_append, List.map_append, indentLoop_append,
    netOf_append, netOf_level blk h, h0]
  have e1 : (indentLoop cAlone cInc cDec 4 0 (pre.map lstripped ++ blk.map lstripped)).length
      = (pre ++ blk).length := by
    rw [indentLoop_length]; simp
  have e2 : (indentLoop cAlone cInc cDec 4 0 (pre.map lstripped)).length = pre.length := by
    rw [indentLoop_length]; simp
  have e3 := List.drop_left (l₁ := indentLoop cAlone cInc cDec 4 0 (pre.map lstripped ++ blk.map lstripped))
    (l₂ := indentLoop cAlone cInc cDec 4 (0 + netOf cAlone cInc cDec (pre.map lstripped))
      (post.map lstripped))
  rw [e1] at e3
  have e4 := List.drop_left (l₁ := indentLoop cAlone cInc cDec 4 0 (pre.map lstripped))
    (l₂ := indentLoop cAlone cInc cDec 4 (0 + netOf cAlone cInc cDec (pre.map lstripped))
      (post.map lstripped))
  rw [e2] at e4
  rw [Int.add_zero, e3, indentLoop_append, e4]

-- A whole loop.
example : (∀ k ∈ [s "while (1) {\n", s "x = 1;\n", s "}\n"], isLine k) ∧
    level [s "while (1) {\n", s "x = 1;\n", s "}\n"] = 0 := by
  unfold isLine
  decide

/-- C50: the Python printer puts four blanks in front of every line; newlines at the beginning and
the end are dropped, and the text ends with one newline. -/
theorem C50_python (x : Str) (hx : x ≠ []) :
    ∃ a core b, x = a ++ core ++ b ∧ (∀ c ∈ a ++ b, c = '\n') ∧
      linesOf (pyIndent x) = (linesOf core).map (s "    " ++ ·) ++ [[]] := by
  obtain ⟨a, e1, ha⟩ : ∃ a, x = a ++ x.dropWhile (· == '\n') ∧ ∀ c ∈ a, c = '\n' :=
    ⟨x.takeWhile (· == '\n'), (List.takeWhile_append_dropWhile).symm, fun c hc => by
      simpa using List.all_eq_true.1 (List.all_takeWhile (p := (· == '\n')) (l := x)) c hc⟩
  obtain ⟨b, e2, hb⟩ : ∃ b, x.dropWhile (· == '\n') = stripNl x ++ b ∧ ∀ c ∈ b, c = '\n' := by
    refine ⟨((x.dropWhile (· == '\n')).reverse.takeWhile (· == '\n')).reverse, ?_, ?_⟩
    · unfold stripNl
      rw [← List.reverse_append, List.takeWhile_append_dropWhile, List.reverse_reverse]
    · intro c hc
      rw [List.mem_reverse] at hc
      simpa using List.all_eq_true.1 (List.all_takeWhile (p := (· == '\n'))) c hc
  refine ⟨a, stripNl x, b, by rw [List.append_assoc, ← e2, ← e1], ?_, ?_⟩
  · intro c hc
    rcases List.mem_append.1 hc with hc | hc
    · exact ha c hc
    · exact hb c hc
  · rw [pyIndent, if_neg hx]
    obtain ⟨l, ls, h1, h2⟩ := linesOf_replace (s "    ") (stripNl x) (by decide)
    have e3 : s "\n    " = '\n' :: s "    " := rfl
    have e4 : s "\n" = ['\n'] := rfl
    rw [e3, e4, linesOf_append_nl, linesOf_prefix _ _ (by decide) _ _ h2, h1]
    rfl

-- Two lines.
example : pyIndent (s "a = 1\nb = 2\n") = s "    a = 1\n    b = 2\n" := by decide

/-! ## C51 -/

/-- C51: flattening a string expression preserves its text, whatever the macros stand for. -/
theorem C51_flat (ρ : Str → Str) (e : CExpr) : (flatOne e).flatMap (CAtom.text ρ) = e.text ρ :=
  flatOne_text ρ e

/-- C51: no two literals are left side by side. -/
theorem C51_merged (es : List CExpr) : Apart (flatOne (.expr es)) := by
  rw [flatOne]; exact merged_apart _

/-- C51: `+` concatenates. -/
theorem C51_add (ρ : Str → Str) (a b : CExpr) : (a.add b).text ρ = a.text ρ ++ b.text ρ :=
  add_text ρ a b

/-- C51: `append` concatenates. -/
theorem C51_append (ρ : Str → Str) (es : List CExpr) (b : CExpr) :
    ((CExpr.expr es).append b).text ρ = (CExpr.expr es).text ρ ++ b.text ρ := append_text ρ es b

/-- C51: `join` joins. -/
theorem C51_join (ρ : Str → Str) (sep : CExpr) (xs : List CExpr) :
    (CExpr.join sep xs).text ρ = joined (sep.text ρ) (xs.map (CExpr.text ρ)) := join_text ρ sep xs

/-- C51: the C compiler reads the printed expression as the text of the expression, if there are
no two macros in a row. -/
theorem C51_printed_partial (ρ : Str → Option Str) (σ : Str → Str) (e : CExpr)
    (hρ : ∀ n, ρ n = some (σ n)) (hn : e.named) (h : NoTwo (flatOne e)) :
    ∀ k, (flatOne e).length < k → cStrings ρ k (printExpr e) = some (e.text σ) := by
  intro k hk
  rw [printExpr, cStrings_printed ρ σ _ h (fun n hm => ⟨flatOne_named e hn n hm, hρ n⟩) k hk,
    flatOne_text]

-- `"%" PRId64 " and "`, nested.
example : (CExpr.expr [.expr [.lit (s "a"), .lit (s "%")], .mac (s "PRId64"), .lit (s " and ")]).named ∧
    NoTwo (flatOne (.expr [.expr [.lit (s "a"), .lit (s "%")], .mac (s "PRId64"), .lit (s " and ")])) := by
  refine ⟨⟨⟨trivial, trivial, trivial⟩, ⟨by decide, by decide⟩, trivial, trivial⟩, ?_⟩
  exact (trivial : True)

/-- C51 fails: two macros in a row are printed as one name. -/
theorem C51_printed_violated :
    printExpr (.expr [.mac (s "PRId64"), .mac (s "PRId32")]) = s "PRId64PRId32" ∧
    cStrings (fun n => if n = s "PRId64" then some (s "ld") else if n = s "PRId32" then some (s "d")
      else none) 5 (printExpr (.expr [.mac (s "PRId64"), .mac (s "PRId32")])) = none := by
  decide

/-! ## C63 -/

/-- C63 in C: a comment has no effect, if it has no `*/` in it.  The line after it is reached. -/
theorem C63_c_comment_partial (line txt : Str) (_h : commentText line = some txt)
    (hc : ¬ ['*', '/'] <:+: txt) :
    ∃ b, cCommentLine txt = s "/*" ++ b ∧ cComment b = some (s "\n") := by
  refine ⟨txt ++ '*' :: '/' :: s "\n", ?_, cComment_skip txt _ hc⟩
  unfold cCommentLine
  simp only [s, String.reduceToList, List.append_assoc, List.cons_append, List.nil_append]

/-- C63 in C: the same for every line of a docstring. -/
theorem C63_c_docstring_partial (ln : Nat) (txt : Str)
    (hc : ¬ ['*', '/'] <:+: txt) :
    ∃ b, cDocLine ln txt = s "/*" ++ b ∧ cComment b = some (s "\n") := by
  have hc : ¬ ['*', '/'] <:+: txt ++ List.replicate (ln - txt.length) ' ' := by
    generalize ln - txt.length = n
    induction n with
    | zero => simpa using hc
    | succ n ih =>
      rintro ⟨p, q, hpq⟩
      rw [List.replicate_succ', ← List.append_assoc] at hpq
      rcases List.eq_nil_or_concat q with rfl | ⟨q', d, rfl⟩
      · have := congrArg List.getLast? hpq
        simp at this
      · rw [List.concat_eq_append, ← List.append_assoc] at hpq
        exact ih ⟨p, q', List.append_inj_left' hpq rfl⟩
  refine ⟨(txt ++ List.replicate (ln - txt.length) ' ') ++ '*' :: '/' :: s "\n", ?_,
    cComment_skip _ _ hc⟩
  unfold cDocLine
  simp only [s, String.reduceToList, List.append_assoc, List.cons_append, List.nil_append]

-- An ordinary comment, even with a star at its end.
example : commentText (s "# pi / 2 *") = some (s "pi / 2 *") ∧
    ¬ ['*', '/'] <:+: s "pi / 2 *" := by decide +kernel

/-- C63 fails in C: `*/` in a Python comment ends the C comment, and the rest of the comment is
compiled. -/
theorem C63_c_comment_violated : commentText (s "# a */ x = 1; /* b") = some (s "a */ x = 1; /* b") ∧
    ∃ b, cCommentLine (s "a */ x = 1; /* b") = s "/*" ++ b ∧ cComment b = some (s " x = 1; /* b*/\n") :=
  ⟨by decide, s "a */ x = 1; /* b*/\n", by decide, by decide⟩

/-- C63 in Fortran: a comment has no effect; it never becomes a directive or a statement for
conditional compilation. -/
theorem C63_fortran_comment (line txt : Str) (h : commentText line = some txt) :
    fInert (fCommentLine txt) := by
  have ht : txt.head? ≠ some '$' := by
    unfold commentText at h
    dsimp only at h
    split at h
    · simp at h
    · rename_i h0
      injection h with h
      rw [← h]; exact h0
  unfold fCommentLine
  cases txt with
  | nil => exact (trivial : True)
  | cons c r =>
    have hc : c ≠ '$' := fun h => ht (by rw [h]; rfl)
    have e : trimL (s "!" ++ (c :: r) ++ s "\n") = '!' :: c :: (r ++ s "\n") := rfl
    unfold fInert
    rw [e]
    split
    · trivial
    · rename_i heq
      exact absurd (List.cons.inj (List.cons.inj heq).2).1 hc
    · trivial
    · rename_i h3
      exact h3 _ rfl

-- An ordinary comment, and one that is a directive.
example : commentText (s "#   x = $3") = some (s "x = $3") ∧ commentText (s "# $ omp parallel") = none := by
  decide

/-- C63 in Fortran: a line of a docstring has no effect, if it does not begin with a dollar
sign. -/
theorem C63_fortran_docstring_partial (ln : Nat) (txt : Str) (h : txt.head? ≠ some '$') :
    fInert (fDocLine ln txt) := by
  unfold fDocLine
  cases txt with
  | nil =>
    cases ln with
    | zero => exact (trivial : True)
    | succ n =>
      have e : trimL (s "!" ++ [] ++ List.replicate (n + 1 - ([] : Str).length) ' ' ++ s "!")
          = '!' :: ' ' :: (List.replicate n ' ' ++ s "!") := rfl
      unfold fInert
      rw [e]
      trivial
  | cons c r =>
    have hc : c ≠ '$' := fun hc => h (by rw [hc]; rfl)
    generalize List.replicate (ln - (c :: r).length) ' ' = w
    have e : trimL (s "!" ++ (c :: r) ++ w ++ s "!") = '!' :: c :: (r ++ w ++ s "!") := rfl
    unfold fInert
    rw [e]
    split
    · trivial
    · rename_i heq
      exact absurd (List.cons.inj (List.cons.inj heq).2).1 hc
    · trivial
    · rename_i h3
      exact h3 _ rfl

example : (s "Compute the sum.").head? ≠ some '$' := by decide

/-- C63 fails in Fortran: a line of a docstring that begins with `$omp` becomes a directive. -/
theorem C63_fortran_docstring_violated : ¬ fInert (fDocLine 20 (s "$omp parallel")) ∧
    fDocLine 20 (s "$omp parallel") = s "!$omp parallel       !" := by
  exact ⟨fun h => (h : False), by decide⟩

end Verif.Text
