import Verif.Stubs.Lemmas2

namespace Verif.Stubs
open Verif.Types.Spec (Num)

mutual
/-- All types are known where the stub is read, and only variables with dimensions are on the heap. -/
def WfA (env : Txt → Option Obj) : Ann → Prop
  | .var t m => Wf env t ∧ (m = .heap → ranked t = true) ∧ env ['A', 'n', 'n', 'o', 't', 'a', 't', 'e', 'd'] = some .annotated
  | .proc args => WfAs env args
  | .func res args => WfA env res ∧ WfAs env args
/-- The same for the arguments of a function. -/
def WfAs (env : Txt → Option Obj) : List Ann → Prop
  | [] => True
  | a :: as => WfA env a ∧ WfAs env as
end

theorem index_quoted {f : Nat} (hf : f ≠ 0) {q : Txt} (hq : q = ['a', 'l', 'i', 'a', 's'] ∨ q = ['s', 't', 'a', 'c', 'k']) :
    Parses (indexP (typeP f)) (' ' :: '"' :: (q ++ ['"'])) (.ty (.name (.str q))) := by
  intro rest hr
  obtain ⟨f, rfl⟩ := Nat.exists_eq_succ_of_ne_zero hf
  have hb := stop_bracket hr
  rcases hq with rfl | rfl
  · have h1 : dataType (' ' :: '"' :: 'a' :: 'l' :: 'i' :: 'a' :: 's' :: '"' :: rest) = some (.str ['a', 'l', 'i', 'a', 's'], rest) := rfl
    have h2 : lit [':'] (' ' :: '"' :: 'a' :: 'l' :: 'i' :: 'a' :: 's' :: '"' :: rest) = none := rfl
    have h3 : lit ['.', '.', '.'] (' ' :: '"' :: 'a' :: 'l' :: 'i' :: 'a' :: 's' :: '"' :: rest) = none := rfl
    show indexP (typeP (f + 1)) (' ' :: '"' :: 'a' :: 'l' :: 'i' :: 'a' :: 's' :: '"' :: rest) = _
    simp only [indexP, h2, h3, typeP, h1, hb]
  · have h1 : dataType (' ' :: '"' :: 's' :: 't' :: 'a' :: 'c' :: 'k' :: '"' :: rest) = some (.str ['s', 't', 'a', 'c', 'k'], rest) := rfl
    have h2 : lit [':'] (' ' :: '"' :: 's' :: 't' :: 'a' :: 'c' :: 'k' :: '"' :: rest) = none := rfl
    have h3 : lit ['.', '.', '.'] (' ' :: '"' :: 's' :: 't' :: 'a' :: 'c' :: 'k' :: '"' :: rest) = none := rfl
    show indexP (typeP (f + 1)) (' ' :: '"' :: 's' :: 't' :: 'a' :: 'c' :: 'k' :: '"' :: rest) = _
    simp only [indexP, h2, h3, typeP, h1, hb]

/-- The text of a variable is read. -/
theorem reads_var {env : Txt → Option Obj} {t : Ty} {m : Mem} (h : WfA env (.var t m)) {f : Nat} (hf : (printA (.var t m)).length ≤ f) :
    ∃ s, Parses (typeP f) (printA (.var t m)) s ∧ (resolve env f s).map (·.map fun a => Ann.var a.1 (memOf a.1 a.2)) = some [.var t m] ∧
      ∃ c cs, printA (.var t m) = c :: cs ∧ isIdS c = true := by
  simp only [WfA] at h
  obtain ⟨h1, h2, h3⟩ := h
  have key : ∀ q, (q = ['a', 'l', 'i', 'a', 's'] ∨ q = ['s', 't', 'a', 'c', 'k']) →
      (['A', 'n', 'n', 'o', 't', 'a', 't', 'e', 'd', '['] ++ printT t ++ ',' :: ' ' :: '"' :: (q ++ ['"', ']'])).length ≤ f →
      ∃ s, Parses (typeP f) (['A', 'n', 'n', 'o', 't', 'a', 't', 'e', 'd', '['] ++ printT t ++ ',' :: ' ' :: '"' :: (q ++ ['"', ']'])) s ∧
        resolve env f s = some [(t, some (if q = ['a', 'l', 'i', 'a', 's'] then .alias else .stack))] := by
    intro q hq hl
    simp only [List.length_append, List.length_cons] at hl
    obtain ⟨f, rfl⟩ := Nat.exists_eq_succ_of_ne_zero (show f ≠ 0 by omega)
    obtain ⟨s, e1, e2⟩ := reads_ok env t h1 f (by omega)
    refine ⟨.idx (.id ['A', 'n', 'n', 'o', 't', 'a', 't', 'e', 'd']) [.ty s, .ty (.name (.str q))] none, ?_, ?_⟩
    · have := typeP_idx (n := ['A', 'n', 'n', 'o', 't', 'a', 't', 'e', 'd']) (by decide) (x := (printT t, .ty s))
        (l := [(' ' :: '"' :: (q ++ ['"']), .ty (.name (.str q)))])
        (index_ty e1 (print_head h1)) (by simpa using index_quoted (f := f) (by omega) hq)
      simpa [tails] using this
    · rcases hq with rfl | rfl
      · simp [resolve, h3, indexed, e2, metas, dedup, applyOrder]
      · simp [resolve, h3, indexed, e2, metas, dedup, applyOrder]
  by_cases hm : m = .alias
  · subst hm
    simp only [printA, if_true] at hf ⊢
    obtain ⟨s, e1, e2⟩ := key ['a', 'l', 'i', 'a', 's'] (Or.inl rfl) (by simpa using hf)
    exact ⟨s, by simpa using e1, by simp [e2, memOf], _, _, rfl, by decide⟩
  · by_cases hs : m = .stack ∧ ranked t = true
    · simp only [printA, if_neg hm, if_pos hs] at hf ⊢
      obtain ⟨s, e1, e2⟩ := key ['s', 't', 'a', 'c', 'k'] (Or.inr rfl) (by simpa using hf)
      exact ⟨s, by simpa using e1, by simp [e2, memOf, hs.1], _, _, rfl, by decide⟩
    · simp only [printA, if_neg hm, if_neg hs] at hf ⊢
      obtain ⟨s, e1, e2⟩ := reads_ok env t h1 f hf
      refine ⟨s, e1, ?_, print_head h1⟩
      cases m with
      | alias => exact absurd rfl hm
      | heap => simp [e2, memOf, h2 rfl]
      | stack =>
        have : ranked t = false := by
          rw [← Bool.not_eq_true]
          exact fun h => hs ⟨rfl, h⟩
        simp [e2, memOf, this]

/-- The text is read as the declaration of `a`. -/
def ReadsA (env : Txt → Option Obj) (f : Nat) (txt : Txt) (a : Ann) : Prop :=
  ∃ h, Parses (unionP f) txt [h] ∧ declares env f h = some [a]

theorem unionP_one {f : Nat} {txt : Txt} {h : Head} (hp : Parses (headP (unionP f) (typeP (f + 1))) txt h) : Parses (unionP (f + 1)) txt [h] := by
  intro rest hr
  have hb : lit ['|'] rest = none := by
    cases rest with
    | nil => rfl
    | cons c cs => exact lit1_ne (stop_ws hr) (by rcases hr with rfl | rfl | rfl <;> decide)
  have hm : ∀ k, sepMore '|' (headP (unionP f) (typeP (f + 1))) k rest = ([], rest) := by
    intro k
    cases k with
    | zero => rfl
    | succ k => simp [sepMore, hb]
  simp only [unionP, sepBy, hp rest hr, hm]

theorem headP_space (u : Txt → Option (List Head × Txt)) (f : Nat) (i : Txt) : headP u (typeP f) (' ' :: i) = headP u (typeP f) i := by
  simp only [headP, funcP, lit_space, typeP_space]

theorem sep_space (f : Nat) (i : Txt) : unionP f (' ' :: i) = unionP f i := by
  cases f with
  | zero => rfl
  | succ f =>
    have e : ∀ p : Txt → Option (Head × Txt), p (' ' :: i) = p i → p i = none ∨ ∃ a, p i = some a := fun p _ => by cases p i <;> simp
    have hs := headP_space (unionP f) (f + 1) i
    rcases e _ hs with h | ⟨⟨a, j⟩, h⟩
    · simp only [unionP, sepBy, hs, h]
    · simp only [unionP, sepBy, hs, h]

theorem unionP_close (f : Nat) (r : Txt) : unionP f (')' :: r) = none := by
  cases f with
  | zero => rfl
  | succ f =>
    have h1 : lit ['('] (')' :: r) = none := rfl
    have h2 : dataType (')' :: r) = none := rfl
    simp only [unionP, sepBy, headP, funcP, h1, typeP, h2]

theorem end_paren (r : Txt) : End (')' :: r) := Or.inr rfl

theorem argsP_nil (f : Nat) (rest : Txt) : argsP (unionP f) ('(' :: ')' :: rest) = some ([], rest) := by
  simp only [argsP, lit1 (show isWs '(' = false by decide), sepBy, unionP_close, lit1 (show isWs ')' = false by decide)]

theorem argsP_cons {f : Nat} {x : Txt × List Head} {l : List (Txt × List Head)} (hx : Parses (unionP f) x.1 x.2) (hl : ∀ x ∈ l, Parses (unionP f) x.1 x.2)
    (rest : Txt) : argsP (unionP f) ('(' :: (x.1 ++ (tails l ++ (')' :: rest)))) = some (x.2 :: l.map (·.2), rest) := by
  simp only [argsP, lit1 (show isWs '(' = false by decide), sepBy_ok hx hl (end_paren rest), lit1 (show isWs ')' = false by decide)]

/-- The arguments of a function type are read. -/
def ReadsArgs (env : Txt → Option Obj) (f : Nat) (as : List Ann) : Prop :=
  ∃ hs : List (List Head), (∀ rest, argsP (unionP f) ('(' :: (printAs as ++ rest)) = some (hs, rest)) ∧ all (first (declares env f)) hs = some as

/-- Further arguments are read. -/
def ReadsMore (env : Txt → Option Obj) (f : Nat) (as : List Ann) : Prop :=
  ∃ l : List (Txt × List Head), printAs' as = tails l ++ [')'] ∧ (∀ x ∈ l, Parses (unionP f) x.1 x.2) ∧
    all (first (declares env f)) (l.map (·.2)) = some as

theorem first_one {env : Txt → Option Obj} {f : Nat} {h : Head} {a : Ann} (e : declares env f h = some [a]) : first (declares env f) [h] = some a := by
  simp [first, all, e]

mutual
/-- Every annotation is read as it was printed. -/
theorem readsA_ok (env : Txt → Option Obj) : (a : Ann) → WfA env a → ∀ f, (printA a).length ≤ f → ReadsA env f (printA a) a
  | .var t m, h, f, hf => by
    obtain ⟨s, h1, h2, c, cs, e, hc⟩ := reads_var h hf
    obtain ⟨f, rfl⟩ := Nat.exists_eq_succ_of_ne_zero (show f ≠ 0 by rw [e, List.length_cons] at hf; omega)
    refine ⟨.ty s, unionP_one ?_, by simpa [declares] using h2⟩
    intro rest hr
    have h3 : lit ['('] (printA (.var t m) ++ rest) = none := by
      rw [e]
      exact lit1_ne (idS_notWs hc) (by rintro rfl; exact absurd hc (by decide))
    simp only [headP, funcP, h3, h1 rest hr]
  | .proc args, h, f, hf => by
    simp only [printA, List.length_cons] at hf
    obtain ⟨f, rfl⟩ := Nat.exists_eq_succ_of_ne_zero (show f ≠ 0 by omega)
    obtain ⟨hs, e1, e2⟩ := readsArgs_ok env args h f (by omega)
    refine ⟨.proc hs, unionP_one ?_, by simp [declares, e2]⟩
    intro rest _
    have e : printA (.proc args) ++ rest = '(' :: ')' :: '(' :: (printAs args ++ rest) := by simp [printA]
    simp only [e, headP, funcP, lit1 (show isWs '(' = false by decide), unionP_close, lit1 (show isWs ')' = false by decide), e1 rest]
  | .func res args, h, f, hf => by
    simp only [printA, List.length_cons, List.length_append, List.cons_append] at hf
    obtain ⟨f, rfl⟩ := Nat.exists_eq_succ_of_ne_zero (show f ≠ 0 by omega)
    obtain ⟨r, r1, r2⟩ := readsA_ok env res h.1 f (by omega)
    obtain ⟨hs, e1, e2⟩ := readsArgs_ok env args h.2 f (by omega)
    refine ⟨.func [r] hs, unionP_one ?_, by simp [declares, all, r2, e2]⟩
    intro rest _
    have e : printA (.func res args) ++ rest = '(' :: (printA res ++ (')' :: '(' :: (printAs args ++ rest))) := by simp [printA]
    have h1 := r1 (')' :: '(' :: (printAs args ++ rest)) (Or.inr (Or.inr rfl))
    simp only [e, headP, funcP, lit1 (show isWs '(' = false by decide), h1, lit1 (show isWs ')' = false by decide), e1 rest]
/-- The same for the arguments of a function type. -/
theorem readsArgs_ok (env : Txt → Option Obj) : (as : List Ann) → WfAs env as → ∀ f, (printAs as).length ≤ f → ReadsArgs env f as
  | [], _, f, _ => ⟨[], fun rest => by simpa [printAs] using argsP_nil f rest, rfl⟩
  | a :: as, h, f, hf => by
    simp only [printAs, List.length_append] at hf
    obtain ⟨x, e1, e2⟩ := readsA_ok env a h.1 f (by omega)
    obtain ⟨l, g1, g2, g3⟩ := readsMore_ok env as h.2 f (by omega)
    refine ⟨[x] :: l.map (·.2), ?_, by simp [all, first_one e2, g3]⟩
    intro rest
    have := argsP_cons (x := (printA a, [x])) e1 g2 rest
    simpa [printAs, g1] using this
/-- The same for further arguments. -/
theorem readsMore_ok (env : Txt → Option Obj) : (as : List Ann) → WfAs env as → ∀ f, (printAs' as).length ≤ f → ReadsMore env f as
  | [], _, _, _ => ⟨[], by simp [printAs', tails], by simp, rfl⟩
  | a :: as, h, f, hf => by
    simp only [printAs', List.length_append, List.length_cons, List.cons_append] at hf
    obtain ⟨x, e1, e2⟩ := readsA_ok env a h.1 f (by omega)
    obtain ⟨l, g1, g2, g3⟩ := readsMore_ok env as h.2 f (by omega)
    refine ⟨(' ' :: printA a, [x]) :: l, by simp [printAs', g1, tails], ?_, by simp [all, first_one e2, g3]⟩
    intro y hy
    rcases List.mem_cons.1 hy with rfl | hy
    · intro rest hr
      rw [List.cons_append, sep_space]
      exact e1 rest hr
    · exact g2 y hy
end

theorem readA_print {env : Txt → Option Obj} {a : Ann} (h : WfA env a) : readA env (printA a) = some [a] := by
  obtain ⟨x, e1, e2⟩ := readsA_ok env a h _ (Nat.le_refl _)
  have h1 := e1 [] trivial
  rw [List.append_nil] at h1
  simp only [readA, parse, h1, skip, if_true]
  simp [all, e2]

end Verif.Stubs
