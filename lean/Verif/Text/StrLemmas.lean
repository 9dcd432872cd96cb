import Verif.Text.Model
/-! String literals, string expressions and comments. -/

namespace Verif.Text

open Verif.Text.Spec (Str s joined cString simpleEscape fString fOperand fCharExpr skip cComment
  cStrings CExpr CAtom IsName NoTwo Apart)

/-! ### C literals -/

theorem replace_append (c : Char) (new a b : Str) :
    replace c new (a ++ b) = replace c new a ++ replace c new b := by
  simp [replace]

theorem cEscaped_append (a b : Str) : cEscaped (a ++ b) = cEscaped a ++ cEscaped b := by
  simp only [cEscaped, replace_append]

/-- The characters that are escaped. -/
def special : List Char :=
  ['\\', Char.ofNat 7, Char.ofNat 8, Char.ofNat 12, '\n', '\r', '\t', Char.ofNat 11, '"', '\'']

theorem cEscaped_plain {c : Char} (h : c ∉ special) : cEscaped [c] = [c] := by
  simp only [special, List.mem_cons, List.not_mem_nil, or_false, not_or] at h
  obtain ⟨h1, h2, h3, h4, h5, h6, h7, h8, h9, h10⟩ := h
  simp [cEscaped, replace, h1, h2, h3, h4, h5, h6, h7, h8, h9, h10]

theorem cEscaped_special {c : Char} (h : c ∈ special) :
    ∃ e, cEscaped [c] = ['\\', e] ∧ simpleEscape e = some c := by
  simp only [special, List.mem_cons, List.not_mem_nil, or_false] at h
  rcases h with rfl | rfl | rfl | rfl | rfl | rfl | rfl | rfl | rfl | rfl
  · exact ⟨'\\', by decide, by decide⟩
  · exact ⟨'a', by decide, by decide⟩
  · exact ⟨'b', by decide, by decide⟩
  · exact ⟨'f', by decide, by decide⟩
  · exact ⟨'n', by decide, by decide⟩
  · exact ⟨'r', by decide, by decide⟩
  · exact ⟨'t', by decide, by decide⟩
  · exact ⟨'v', by decide, by decide⟩
  · exact ⟨'"', by decide, by decide⟩
  · exact ⟨'\'', by decide, by decide⟩

theorem cString_plain {c : Char} (h : c ∉ special) (r : Str) :
    cString (c :: r) = (cString r).map fun p => (c :: p.1, p.2) := by
  simp only [special, List.mem_cons, List.not_mem_nil, or_false, not_or] at h
  obtain ⟨h1, h2, h3, h4, h5, h6, h7, h8, h9, h10⟩ := h
  rw [cString]
  · cases cString r <;> rfl
  all_goals simp_all

theorem cString_escape {c e : Char} (h : simpleEscape e = some c) (r : Str) :
    cString ('\\' :: e :: r) = (cString r).map fun p => (c :: p.1, p.2) := by
  rw [cString]
  rw [h]
  cases cString r <;> rfl

theorem cString_escaped (x rest : Str) :
    cString (cEscaped x ++ '"' :: rest) = some (x, rest) := by
  induction x with
  | nil => simp [cEscaped, replace, cString]
  | cons c r ih =>
    have e : cEscaped (c :: r) = cEscaped [c] ++ cEscaped r := cEscaped_append [c] r
    rw [e]
    by_cases h : c ∈ special
    · obtain ⟨x, h1, h2⟩ := cEscaped_special h
      rw [h1]
      simp only [List.cons_append, List.nil_append]
      rw [cString_escape h2, ih]; rfl
    · rw [cEscaped_plain h]
      simp only [List.cons_append, List.nil_append]
      rw [cString_plain h, ih]; rfl

theorem cStrStr_eq (x : Str) : cStrStr x = '"' :: (cEscaped x ++ ['"']) := by
  unfold cStrStr cLiteral
  generalize cEscaped x = y
  simp only [s, String.reduceToList, List.cons_append, List.nil_append, List.append_assoc,
    List.drop_succ_cons, List.drop_zero]
  have e : '"' :: (y ++ ['"', ')']) = ('"' :: (y ++ ['"'])) ++ [')'] := by simp
  rw [e, List.dropLast_concat]

theorem cStrStr_read (x rest : Str) :
    ∃ b, cStrStr x ++ rest = '"' :: b ∧ cString b = some (x, rest) :=
  ⟨cEscaped x ++ '"' :: rest, by simp [cStrStr_eq], cString_escaped x rest⟩

/-! ### Fortran literals -/

theorem not_quote_of_not_sp {c : Char} (h : c ∉ spChars) : c ≠ '\'' ∧ c ≠ '\n' := by
  simp only [spChars, List.mem_cons, List.not_mem_nil, or_false, not_or] at h
  exact ⟨h.2.2.2.2.2.2.1, h.2.2.2.2.2.2.2⟩

theorem fString_plain (sub rest : Str) (h : ∀ c ∈ sub, c ∉ spChars)
    (hr : rest.head? ≠ some '\'') :
    fString (sub ++ '\'' :: rest) = some (sub, rest) := by
  induction sub with
  | nil =>
    cases rest with
    | nil => rfl
    | cons a r =>
      simp only [List.nil_append]
      rw [fString]
      intro b hb
      simp_all
  | cons c r ih =>
    obtain ⟨h1, h2⟩ := not_quote_of_not_sp (h c (by simp))
    have ih' := ih (fun c hc => h c (by simp [hc]))
    simp only [List.cons_append]
    rw [fString]
    · rw [ih']
    all_goals simp_all

theorem fOperand_quoted (sub rest : Str) (h : ∀ c ∈ sub, c ∉ spChars)
    (hr : rest.head? ≠ some '\'') :
    fOperand (s "'" ++ sub ++ s "'" ++ rest) = some (sub, rest) := by
  simpa [s, fOperand] using fString_plain sub rest h hr

theorem fOperand_achar {c : Char} (h : c ∈ spChars) (rest : Str) :
    fOperand (s "ACHAR(" ++ (toString c.toNat).toList ++ s ")" ++ rest) = some ([c], rest) := by
  simp only [spChars, List.mem_cons, List.not_mem_nil, or_false] at h
  rcases h with rfl | rfl | rfl | rfl | rfl | rfl | rfl | rfl
  · rfl
  · rfl
  · rfl
  · rfl
  · rfl
  · rfl
  · rfl
  · rfl

/-- The pieces printed for a string and what each of them denotes. -/
inductive Denotes : List Str → Str → Prop
  | nil : Denotes [] []
  | quoted {ps x} (sub : Str) (h : ∀ c ∈ sub, c ∉ spChars) (t : Denotes ps x) :
      Denotes ((s "'" ++ sub ++ s "'") :: ps) (sub ++ x)
  | achar {ps x} (c : Char) (h : c ∈ spChars) (t : Denotes ps x) :
      Denotes ((s "ACHAR(" ++ (toString c.toNat).toList ++ s ")") :: ps) (c :: x)

theorem fPieces_denotes (x : Str) : ∀ sub : Str, (∀ c ∈ sub, c ∉ spChars) →
    Denotes (fPieces sub x) (sub ++ x) := by
  induction x with
  | nil =>
    intro sub h
    rw [fPieces, flushed]
    by_cases e : sub = []
    · subst e; exact Denotes.nil
    · rw [if_neg e]; exact Denotes.quoted sub h Denotes.nil
  | cons c r ih =>
    intro sub h
    rw [fPieces]
    by_cases hc : c ∈ spChars
    · rw [if_pos hc, flushed]
      have t := Denotes.achar c hc (ih [] (by simp))
      by_cases e : sub = []
      · subst e; exact t
      · rw [if_neg e]; exact Denotes.quoted sub h t
    · rw [if_neg hc]
      have := ih (sub ++ [c]) (by
        intro d hd
        rcases List.mem_append.1 hd with hd | hd
        · exact h d hd
        · rw [List.mem_singleton.1 hd]; exact hc)
      simpa using this

theorem fPieces_ne_nil (x : Str) : ∀ sub : Str, sub ++ x ≠ [] → fPieces sub x ≠ [] := by
  induction x with
  | nil =>
    intro sub h
    rw [fPieces, flushed, if_neg (by simpa using h)]; simp
  | cons c r ih =>
    intro sub _
    rw [fPieces]
    split
    · simp
    · exact ih _ (by simp)

theorem operand_head {ps : List Str} {p x : Str} (h : Denotes (p :: ps) x) (rest : Str)
    (hr : rest.head? ≠ some '\'') :
    ∃ v y, x = v ++ y ∧ Denotes ps y ∧ fOperand (skip (p ++ rest)) = some (v, rest) := by
  cases h with
  | quoted sub hs t =>
    exact ⟨sub, _, rfl, t, by simpa [skip, s] using fOperand_quoted sub rest hs hr⟩
  | achar c hc t =>
    refine ⟨[c], _, rfl, t, ?_⟩
    have := fOperand_achar hc rest
    simpa [skip, s] using this

theorem fCharExpr_joined : ∀ (ps : List Str) (x : Str), ps ≠ [] → Denotes ps x →
    ∀ n, ps.length ≤ n → fCharExpr n (joined (s " // ") ps) = some x := by
  intro ps
  induction ps with
  | nil => intro _ h; exact absurd rfl h
  | cons p qs ih =>
    intro x _ hd n hn
    obtain ⟨m, rfl⟩ : ∃ m, n = m + 1 := ⟨n - 1, by simp at hn; omega⟩
    cases qs with
    | nil =>
      obtain ⟨v, y, rfl, hy, ho⟩ := operand_head hd [] (by simp)
      cases hy
      simp only [joined, fCharExpr]
      rw [List.append_nil] at ho
      rw [ho]; simp [skip]
    | cons q qs =>
      obtain ⟨v, y, rfl, hy, ho⟩ := operand_head hd (s " // " ++ joined (s " // ") (q :: qs))
        (by simp [s])
      have ih' := ih y (by simp) hy m (by simp at hn ⊢; omega)
      have e : joined (s " // ") (p :: q :: qs)
          = p ++ (s " // " ++ joined (s " // ") (q :: qs)) := by simp [joined]
      rw [e, fCharExpr, ho]
      have sk : skip (s " // " ++ joined (s " // ") (q :: qs))
          = '/' :: '/' :: ' ' :: joined (s " // ") (q :: qs) := by
        simp [skip, s]
      simp only [sk]
      have lead : fCharExpr m (' ' :: joined (s " // ") (q :: qs)) =
          fCharExpr m (joined (s " // ") (q :: qs)) := by
        cases m with
        | zero => rfl
        | succ k => simp [fCharExpr, skip]
      rw [lead, ih']

/-! ### String expressions -/

theorem mergeLits_text (ρ : Str → Str) (l : List CAtom) : ∀ a : CAtom,
    (mergeLits a l).flatMap (CAtom.text ρ) = a.text ρ ++ l.flatMap (CAtom.text ρ) := by
  induction l with
  | nil => intro a; simp [mergeLits]
  | cons b r ih =>
    intro a
    cases a <;> cases b <;> simp [mergeLits, ih, CAtom.text]

theorem merged_text (ρ : Str → Str) (l : List CAtom) :
    (merged l).flatMap (CAtom.text ρ) = l.flatMap (CAtom.text ρ) := by
  cases l with
  | nil => rfl
  | cons a r => simp [merged, mergeLits_text]

theorem mergeLits_head (l : List CAtom) : ∀ a : CAtom, ∃ r,
    (mergeLits a l = a :: r) ∨ ∃ x y, a = .lit x ∧ mergeLits a l = .lit y :: r := by
  induction l with
  | nil => intro a; exact ⟨[], Or.inl rfl⟩
  | cons b r ih =>
    intro a
    cases a with
    | mac n => exact ⟨_, Or.inl (by rw [mergeLits]; simp)⟩
    | lit x =>
      cases b with
      | mac n => exact ⟨_, Or.inl (by rw [mergeLits]; simp)⟩
      | lit y =>
        obtain ⟨q, h⟩ := ih (.lit (x ++ y))
        rcases h with h | ⟨_, z, _, h⟩
        · exact ⟨q, Or.inr ⟨x, x ++ y, rfl, by rw [mergeLits, h]⟩⟩
        · exact ⟨q, Or.inr ⟨x, z, rfl, by rw [mergeLits, h]⟩⟩

theorem mergeLits_apart (l : List CAtom) : ∀ a : CAtom, Apart (mergeLits a l) := by
  induction l with
  | nil => intro a; simp [mergeLits, Apart]
  | cons b r ih =>
    intro a
    cases a with
    | mac n =>
      have h := ih b
      rw [mergeLits]
      · obtain ⟨q, e | ⟨_, _, _, e⟩⟩ := mergeLits_head r b
        · rw [e] at h ⊢; cases b <;> simpa [Apart] using h
        · rw [e] at h ⊢; simpa [Apart] using h
      · simp
    | lit x =>
      cases b with
      | lit y => rw [mergeLits]; exact ih _
      | mac n =>
        have h := ih (.mac n)
        rw [mergeLits]
        · obtain ⟨q, e | ⟨_, _, h', e⟩⟩ := mergeLits_head r (.mac n)
          · rw [e] at h ⊢; simpa [Apart] using h
          · cases h'
        · simp

theorem merged_apart (l : List CAtom) : Apart (merged l) := by
  cases l with
  | nil => trivial
  | cons a r => exact mergeLits_apart r a

theorem takeWhile_name {p : Char → Bool} {n r : Str} (h : ∀ c ∈ n, p c = true)
    (hr : ∀ c, r.head? = some c → p c = false) :
    (n ++ r).takeWhile p = n ∧ (n ++ r).dropWhile p = r := by
  induction n with
  | nil =>
    cases r with
    | nil => simp
    | cons a r =>
      have : p a = false := hr a rfl
      simp [List.takeWhile_cons, List.dropWhile_cons, this]
  | cons c n ih =>
    have hc : p c = true := h c (by simp)
    have := ih (fun d hd => h d (by simp [hd]))
    simp [List.takeWhile_cons, List.dropWhile_cons, hc, this]

theorem _root_.Verif.Text.Spec.NoTwo.tail {a : CAtom} {l : List CAtom} (h : NoTwo (a :: l)) : NoTwo l := by
  cases a with
  | lit x => simpa [NoTwo] using h
  | mac n =>
    cases l with
    | nil => trivial
    | cons b r =>
      cases b with
      | mac m => simp [NoTwo] at h
      | lit x => simpa [NoTwo] using h

theorem cStrings_printed (ρ : Str → Option Str) (σ : Str → Str) (l : List CAtom) (h : NoTwo l)
    (hn : ∀ n, CAtom.mac n ∈ l → IsName n ∧ ρ n = some (σ n)) :
    ∀ k, l.length < k → cStrings ρ k (l.flatMap cAtom) = some (l.flatMap (CAtom.text σ)) := by
  induction l with
  | nil =>
    intro k hk
    obtain ⟨m, rfl⟩ : ∃ m, k = m + 1 := ⟨k - 1, by simp at hk; omega⟩
    rfl
  | cons a r ih =>
    intro k hk
    obtain ⟨m, rfl⟩ : ∃ m, k = m + 1 := ⟨k - 1, by simp at hk; omega⟩
    have ih' := ih h.tail (fun n hn' => hn n (by simp [hn'])) m (by simp at hk; omega)
    cases a with
    | lit x =>
      simp only [List.flatMap_cons, cAtom, CAtom.text]
      obtain ⟨b, e, hb⟩ := cStrStr_read x (r.flatMap cAtom)
      rw [e, cStrings, hb]
      simp only [ih']
    | mac n =>
      obtain ⟨⟨hne, hc⟩, hρ⟩ := hn n (by simp)
      simp only [List.flatMap_cons, cAtom, CAtom.text]
      have hr : ∀ c, (r.flatMap cAtom).head? = some c → (c.isAlphanum || c == '_') = false := by
        intro c hc
        cases r with
        | nil => simp at hc
        | cons b q =>
          cases b with
          | mac m => simp [NoTwo] at h
          | lit y =>
            have : (List.flatMap cAtom (CAtom.lit y :: q)).head? = some '"' := by
              simp [cAtom, cStrStr_eq]
            rw [this] at hc
            cases hc; rfl
      obtain ⟨t1, t2⟩ := takeWhile_name (p := fun x => x.isAlphanum || x == '_') hc hr
      cases n with
      | nil => exact absurd rfl hne
      | cons c n =>
        have hq : c ≠ '"' := by
          rintro rfl
          have := hc '"' (by simp)
          simp at this
        simp only [List.cons_append] at t1 t2 ⊢
        rw [cStrings]
        · simp only [t1, t2, hρ, ih']
          simp
        · simpa using hq

/-! ### Comments -/

theorem cComment_skip (x rest : Str) (h : ¬ ['*', '/'] <:+: x) :
    cComment (x ++ '*' :: '/' :: rest) = some rest := by
  induction x with
  | nil => rfl
  | cons c r ih =>
    have hr : ¬ ['*', '/'] <:+: r := fun hr => h (hr.trans (List.suffix_cons c r).isInfix)
    have ih' := ih hr
    rw [List.cons_append, cComment]
    · exact ih'
    · intro q hc hq
      subst hc
      cases r with
      | nil =>
        have := congrArg List.head? hq
        simp at this
      | cons d r =>
        have : d = '/' := by
          have := congrArg List.head? hq
          simpa using this
        subst this
        exact h ⟨[], r, rfl⟩

end Verif.Text
