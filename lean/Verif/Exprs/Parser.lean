import Verif.Exprs.Grammar
/-
The grammars are unambiguous: a precedence-climbing parser finds every derivation tree.
-/
namespace Verif.Exprs
variable {S F : Type}

/-- Level assigned to atoms, parenthesised expressions and calls. -/
def TOP : Nat := 20

/-- Levels of the operator a token can be, after a complete operand. -/
def cont (L : Lang S) : Tok S F → Option (Nat × Nat)
  | .sym s => (L.bin s).map fun p => (p.lev, p.left)
  | .q1 => if L.hasTern then some (3, 4) else none
  | _ => none

/-- Consistency conditions on the levels. -/
structure Lang.Ok (L : Lang S) : Prop where
  le : ∀ s p, L.bin s = some p → p.lev ≤ p.left ∧ p.left ≤ TOP
  bin : ∀ s p s' p', L.bin s = some p → L.bin s' = some p' →
    (p'.lev < p.lev ∨ p'.left ≤ p.lev) → p'.lev < p.right
  binTern : ∀ s p, L.bin s = some p → L.hasTern = true → 3 < p.lev → 3 < p.right
  ternBin : ∀ s' p', L.bin s' = some p' → L.hasTern = true →
    (p'.lev < 3 ∨ p'.left ≤ 3) → p'.lev < 3
  pre : ∀ u p s' p', L.pre u = some p → L.bin s' = some p' →
    (p'.lev < p.lev ∨ p'.left ≤ p.lev) → p'.lev < p.arg
  preTern : ∀ u p, L.pre u = some p → L.hasTern = true → 3 < p.lev → 3 < p.arg

mutual
/-- Parse an expression of level `n` from the front of the input. -/
def parse (L : Lang S) : Nat → Nat → List (Tok S F) → Option (CST S F × List (Tok S F))
  | 0, _, _ => none
  | f + 1, n, .atom a :: r => climb L f n TOP (.atom a) r
  | f + 1, n, .lp :: r =>
    match parse L f 0 r with
    | some (t, .rp :: r') => climb L f n TOP (.paren t) r'
    | _ => none
  | f + 1, n, .fn g :: .lp :: r =>
    match parse L f 0 r with
    | some (t, .rp :: r') => climb L f n TOP (.call g t) r'
    | _ => none
  | f + 1, n, .sym s :: r =>
    match L.pre s with
    | some p =>
      if n ≤ p.lev then
        match parse L f p.arg r with
        | some (t, r') => climb L f n p.lev (.un s t) r'
        | none => none
      else none
    | none => none
  | _ + 1, _, _ => none

/-- Extend the operand `t` of level `lv` with the operators that follow. -/
def climb (L : Lang S) : Nat → Nat → Nat → CST S F → List (Tok S F) →
    Option (CST S F × List (Tok S F))
  | 0, _, _, _, _ => none
  | f + 1, n, lv, t, .sym s :: r =>
    match L.bin s with
    | some p =>
      if n ≤ p.lev ∧ p.left ≤ lv then
        match parse L f p.right r with
        | some (b, r') => climb L f n p.lev (.bin s t b) r'
        | none => none
      else some (t, .sym s :: r)
    | none => some (t, .sym s :: r)
  | f + 1, n, lv, t, .q1 :: r =>
    if L.hasTern = true ∧ n ≤ 3 ∧ 4 ≤ lv then
      match parse L f L.mid r with
      | some (b, .q2 :: r') =>
        match parse L f 3 r' with
        | some (c, r'') => climb L f n 3 (.tern t b c) r''
        | none => none
      | _ => none
    else some (t, .q1 :: r)
  | _ + 1, _, _, t, ts => some (t, ts)
end

/-- Level of the outermost operator. -/
def lvl (L : Lang S) : CST S F → Nat
  | .un s _ => ((L.pre s).map PreRule.lev).getD 0
  | .bin s _ _ => ((L.bin s).map BinRule.lev).getD 0
  | .tern _ _ _ => 3
  | _ => TOP

/-- No operator at the front of `ts` can extend an expression of level `n`. -/
def Stops (L : Lang S) (n : Nat) (ts : List (Tok S F)) : Prop :=
  ∀ t r l, ts = t :: r → cont L t = some l → l.1 < n

/-- What may follow an operand of level `k`. -/
def Follow (L : Lang S) (k : Nat) (ts : List (Tok S F)) : Prop :=
  ∀ t r l, ts = t :: r → cont L t = some l → l.1 < k ∨ l.2 ≤ k

theorem Stops.follow {L : Lang S} {n : Nat} {ts : List (Tok S F)} (h : Stops L n ts) :
    Follow L n ts := fun t r l e c => .inl (h t r l e c)

theorem stops_nil {L : Lang S} {n : Nat} : Stops L n ([] : List (Tok S F)) := by
  intro t r l e; cases e

theorem stops_rp {L : Lang S} {n : Nat} {r : List (Tok S F)} : Stops L n (.rp :: r) := by
  intro t r l e h; cases e; simp [cont] at h

theorem stops_q2 {L : Lang S} {n : Nat} {r : List (Tok S F)} : Stops L n (.q2 :: r) := by
  intro t r l e h; cases e; simp [cont] at h

theorem climb_stop {L : Lang S} {f n lv : Nat} {t : CST S F} {ts : List (Tok S F)}
    (hf : 0 < f) (h : Stops L n ts) : climb L f n lv t ts = some (t, ts) := by
  obtain ⟨f, rfl⟩ : ∃ g, f = g + 1 := ⟨f - 1, by omega⟩
  cases ts with
  | nil => simp [climb]
  | cons x r =>
    cases x with
    | sym s =>
      simp only [climb]
      cases hb : L.bin s with
      | none => rfl
      | some p =>
        have := h (.sym s) r (p.lev, p.left) rfl (by simp [cont, hb])
        simp only at this ⊢
        rw [if_neg (by omega)]
    | q1 =>
      simp only [climb]
      by_cases ht : L.hasTern = true
      · have := h .q1 r (3, 4) rfl (by simp [cont, ht])
        simp only at this
        rw [if_neg (by omega)]
      · rw [if_neg (fun hh => ht hh.1)]
    | _ => simp [climb]

theorem deriv_lvl {L : Lang S} {n : Nat} {t : CST S F} (hn : n ≤ TOP) (h : Deriv L n t) :
    n ≤ lvl L t := by
  cases t with
  | un s t => obtain ⟨p, h1, h2, _⟩ := h; simpa [lvl, h1] using h2
  | bin s a b => obtain ⟨p, h1, h2, _⟩ := h; simpa [lvl, h1] using h2
  | tern a b c => obtain ⟨_, h2, _⟩ := h; simpa [lvl] using h2
  | _ => simpa [lvl] using hn

theorem cont_le {L : Lang S} (ok : L.Ok) {x : Tok S F} {l : Nat × Nat} (h : cont L x = some l) :
    l.1 ≤ l.2 := by
  cases x with
  | sym s =>
    simp only [cont, Option.map_eq_some_iff] at h
    obtain ⟨p, hp, rfl⟩ := h
    exact (ok.le s p hp).1
  | q1 =>
    simp only [cont] at h
    split at h
    · simp only [Option.some.injEq] at h; subst h; decide
    · cases h
  | _ => simp [cont] at h

theorem follow_mono {L : Lang S} {k m : Nat} {ts : List (Tok S F)} (h : Follow L k ts)
    (hk : k ≤ m) : ∀ t r l, ts = t :: r → cont L t = some l → l.1 < m ∨ l.2 ≤ m := by
  intro t r l e c
  have := h t r l e c
  omega

/-- The parser follows derivation trees. -/
theorem parse_flatten {L : Lang S} (ok : L.Ok) (t : CST S F) :
    ∀ (k n f : Nat) (rest : List (Tok S F)), n ≤ k → Deriv L k t → Follow L k rest →
      (t.flatten ++ rest).length < f →
      ∃ f', rest.length < f' ∧ parse L f n (t.flatten ++ rest) = climb L f' n (lvl L t) t rest := by
  have key : ∀ (t : CST S F), (∀ (k n f : Nat) (rest : List (Tok S F)), n ≤ k → Deriv L k t →
      Follow L k rest → (t.flatten ++ rest).length < f →
      ∃ f', rest.length < f' ∧ parse L f n (t.flatten ++ rest) =
        climb L f' n (lvl L t) t rest) →
      ∀ (k f : Nat) (rest : List (Tok S F)), Deriv L k t → Stops L k rest →
      (t.flatten ++ rest).length < f → parse L f k (t.flatten ++ rest) = some (t, rest) := by
    intro t ih k f rest hd hs hf
    obtain ⟨f', h1, h2⟩ := ih k k f rest (Nat.le_refl _) hd hs.follow hf
    rw [h2, climb_stop (by omega) hs]
  induction t with
  | atom a =>
    intro k n f rest _ _ _ hf
    obtain ⟨f, rfl⟩ : ∃ g, f = g + 1 := ⟨f - 1, by omega⟩
    simp only [CST.flatten, List.length_append, List.length_cons, List.length_nil] at hf
    exact ⟨f, by omega, by simp [CST.flatten, parse, lvl]⟩
  | paren t ih =>
    intro k n f rest _ hd _ hf
    obtain ⟨f, rfl⟩ : ∃ g, f = g + 1 := ⟨f - 1, by omega⟩
    simp only [CST.flatten, List.length_append, List.length_cons, List.length_nil] at hf
    refine ⟨f, by omega, ?_⟩
    have := key t ih 0 f (.rp :: rest) hd stops_rp (by simp; omega)
    simp only [CST.flatten, List.cons_append, List.append_assoc, parse, List.nil_append, this, lvl]
  | call g t ih =>
    intro k n f rest _ hd _ hf
    obtain ⟨f, rfl⟩ : ∃ g, f = g + 1 := ⟨f - 1, by omega⟩
    simp only [CST.flatten, List.length_append, List.length_cons, List.length_nil] at hf
    refine ⟨f, by omega, ?_⟩
    have := key t ih 0 f (.rp :: rest) hd stops_rp (by simp; omega)
    simp only [CST.flatten, List.cons_append, List.append_assoc, parse, List.nil_append, this, lvl]
  | un s t ih =>
    intro k n f rest hn hd hfol hf
    obtain ⟨p, hp, hk, hd⟩ := hd
    obtain ⟨f, rfl⟩ : ∃ g, f = g + 1 := ⟨f - 1, by omega⟩
    simp only [CST.flatten, List.length_append, List.length_cons] at hf
    refine ⟨f, by omega, ?_⟩
    have hs : Stops L p.arg rest := by
      intro x r l e c
      have h := follow_mono hfol hk x r l e c
      have hle := cont_le ok c
      cases x with
      | sym s' =>
        simp only [cont, Option.map_eq_some_iff] at c
        obtain ⟨p', hp', rfl⟩ := c
        exact ok.pre s p s' p' hp hp' h
      | q1 =>
        simp only [cont] at c
        split at c
        · simp only [Option.some.injEq] at c
          subst c
          exact ok.preTern s p hp (by assumption) (by simp at h; omega)
        · cases c
      | _ => simp [cont] at c
    have := key t ih p.arg f rest hd hs (by simp; omega)
    simp only [CST.flatten, List.cons_append, parse, hp, if_pos (Nat.le_trans hn hk), this, lvl,
      Option.map_some, Option.getD_some]
  | bin s a b iha ihb =>
    intro k n f rest hn hd hfol hf
    obtain ⟨p, hp, hk, hda, hdb⟩ := hd
    have hle := ok.le s p hp
    simp only [CST.flatten, List.length_append, List.length_cons] at hf
    obtain ⟨f1, hf1, h1⟩ := iha p.left n f (.sym s :: (b.flatten ++ rest)) (by omega) hda
      (by
        intro x r l e c
        cases e
        simp only [cont, hp, Option.map_some, Option.some.injEq] at c
        subst c
        right; exact Nat.le_refl _)
      (by simp; omega)
    obtain ⟨f1, rfl⟩ : ∃ g, f1 = g + 1 := ⟨f1 - 1, by omega⟩
    simp only [List.length_append, List.length_cons] at hf1
    have hs : Stops L p.right rest := by
      intro x r l e c
      have h := follow_mono hfol hk x r l e c
      have hle := cont_le ok c
      cases x with
      | sym s' =>
        simp only [cont, Option.map_eq_some_iff] at c
        obtain ⟨p', hp', rfl⟩ := c
        exact ok.bin s p s' p' hp hp' h
      | q1 =>
        simp only [cont] at c
        split at c
        · simp only [Option.some.injEq] at c
          subst c
          exact ok.binTern s p hp (by assumption) (by simp at h; omega)
        · cases c
      | _ => simp [cont] at c
    have h2 := key b ihb p.right f1 rest hdb hs (by simp; omega)
    refine ⟨f1, by omega, ?_⟩
    have hl := deriv_lvl hle.2 hda
    simp only [CST.flatten, List.append_assoc, List.cons_append, h1, climb, hp]
    rw [if_pos ⟨by omega, hl⟩, h2]
    simp [lvl, hp]
  | tern a b c iha ihb ihc =>
    intro k n f rest hn hd hfol hf
    obtain ⟨ht, hk, hda, hdb, hdc⟩ := hd
    simp only [CST.flatten, List.length_append, List.length_cons] at hf
    obtain ⟨f1, hf1, h1⟩ := iha 4 n f (.q1 :: (b.flatten ++ .q2 :: (c.flatten ++ rest)))
      (by omega) hda
      (by
        intro x r l e c
        cases e
        simp only [cont, ht, if_true, Option.some.injEq] at c
        subst c
        right; exact Nat.le_refl _)
      (by simp; omega)
    obtain ⟨f1, rfl⟩ : ∃ g, f1 = g + 1 := ⟨f1 - 1, by omega⟩
    simp only [List.length_append, List.length_cons] at hf1
    have hs : Stops L 3 rest := by
      intro x r l e c
      have h := follow_mono hfol hk x r l e c
      have hle := cont_le ok c
      cases x with
      | sym s' =>
        simp only [cont, Option.map_eq_some_iff] at c
        obtain ⟨p', hp', rfl⟩ := c
        exact ok.ternBin s' p' hp' ht h
      | q1 =>
        simp only [cont, ht, if_true, Option.some.injEq] at c
        subst c
        simp at h
      | _ => simp [cont] at c
    have h2 := key b ihb L.mid f1 (.q2 :: (c.flatten ++ rest)) hdb stops_q2 (by simp; omega)
    have h3 := key c ihc 3 f1 rest hdc hs (by simp; omega)
    refine ⟨f1, by omega, ?_⟩
    have hl := deriv_lvl (by simp [TOP]) hda
    simp only [CST.flatten, List.append_assoc, List.cons_append, h1, climb]
    rw [if_pos ⟨ht, by omega, hl⟩, h2]
    simp only [h3, lvl]

/-- The parser on a whole text. -/
def parseAll (L : Lang S) (ts : List (Tok S F)) : Option (CST S F) :=
  match parse L (ts.length + 1) 0 ts with
  | some (t, []) => some t
  | _ => none

theorem parseAll_of_parses {L : Lang S} (ok : L.Ok) {ts : List (Tok S F)} {t : CST S F}
    (h : Parses L ts t) : parseAll L ts = some t := by
  obtain ⟨rfl, hd⟩ := h
  obtain ⟨f', h1, h2⟩ := parse_flatten ok t 0 0 (t.flatten.length + 1) [] (Nat.le_refl _) hd
    stops_nil.follow (by simp)
  rw [List.append_nil] at h2
  rw [parseAll, h2, climb_stop (by omega) stops_nil]

/-- The grammars are unambiguous. -/
theorem parses_unique {L : Lang S} (ok : L.Ok) {ts : List (Tok S F)} {t u : CST S F}
    (h : Parses L ts t) (h' : Parses L ts u) : t = u := by
  have := (parseAll_of_parses ok h).symm.trans (parseAll_of_parses ok h')
  simpa using this

theorem not_parses {L : Lang S} (ok : L.Ok) {ts : List (Tok S F)} (h : parseAll L ts = none)
    (t : CST S F) : ¬ Parses L ts t := by
  intro h'
  rw [parseAll_of_parses ok h'] at h
  cases h

theorem pyLang_bin {s : PySym} {p : BinRule} (h : pyLang.bin s = some p) :
    (p.left = p.lev ∧ p.right = p.lev + 1 ∧ p.lev ≠ 3 ∧ p.lev ≤ 13) ∨
      (p.lev = 15 ∧ p.left = 16 ∧ p.right = 14) := by
  cases s <;> simp [pyLang, leftAssoc] at h <;> subst h <;> simp

theorem pyLang_pre {s : PySym} {p : PreRule} (h : pyLang.pre s = some p) :
    (p.lev = 6 ∧ p.arg = 6 ∧ s = .not) ∨ (p.lev = 14 ∧ p.arg = 14) := by
  cases s <;> simp [pyLang] at h <;> subst h <;> simp

theorem pyLang_bin6 {s : PySym} {p : BinRule} (h : pyLang.bin s = some p) : p.lev ≠ 6 := by
  cases s <;> simp [pyLang, leftAssoc] at h <;> subst h <;> simp

theorem pyLang_ok : pyLang.Ok where
  le s p h := by have := pyLang_bin h; simp only [TOP]; omega
  bin s p s' p' h h' := by have := pyLang_bin h; have := pyLang_bin h'; omega
  binTern s p h _ := by have := pyLang_bin h; omega
  ternBin s p h _ := by have := pyLang_bin h; omega
  pre s p s' p' h h' := by
    have := pyLang_pre h; have := pyLang_bin h'; have := pyLang_bin6 h'; omega
  preTern s p h _ := by have := pyLang_pre h; omega

theorem cLang_bin {s : CSym} {p : BinRule} (h : cLang.bin s = some p) :
    p.left = p.lev ∧ p.right = p.lev + 1 ∧ p.lev ≠ 3 ∧ p.lev ≤ 13 := by
  cases s <;> simp [cLang, leftAssoc] at h <;> subst h <;> simp

theorem cLang_pre {s : CSym} {p : PreRule} (h : cLang.pre s = some p) :
    p.lev = 14 ∧ p.arg = 14 := by
  cases s <;> simp [cLang] at h <;> subst h <;> simp

theorem cLang_ok : cLang.Ok where
  le s p h := by have := cLang_bin h; simp only [TOP]; omega
  bin s p s' p' h h' := by have := cLang_bin h; have := cLang_bin h'; omega
  binTern s p h _ := by have := cLang_bin h; omega
  ternBin s p h _ := by have := cLang_bin h; omega
  pre s p s' p' h h' := by have := cLang_pre h; have := cLang_bin h'; omega
  preTern s p h _ := by have := cLang_pre h; omega

theorem fLang_bin {s : FSym} {p : BinRule} (h : fLang.bin s = some p) :
    (p.left = p.lev ∧ p.right = p.lev + 1 ∧ p.lev ≤ 8 ∧ p.lev ≠ 4 ∧ p.lev ≠ 5) ∨
    (p.lev = 5 ∧ p.left = 6 ∧ p.right = 6) ∨ (p.lev = 9 ∧ p.left = 10 ∧ p.right = 9) := by
  cases s <;> simp [fLang, leftAssoc] at h <;> subst h <;> simp

theorem fLang_pre {s : FSym} {p : PreRule} (h : fLang.pre s = some p) :
    (p.lev = 4 ∧ p.arg = 5) ∨ (p.lev = 7 ∧ p.arg = 8) := by
  cases s <;> simp [fLang] at h <;> subst h <;> simp

theorem fLang_ok : fLang.Ok where
  le s p h := by have := fLang_bin h; simp only [TOP]; omega
  bin s p s' p' h h' := by have := fLang_bin h; have := fLang_bin h'; omega
  binTern s p h ht := by simp [fLang] at ht
  ternBin s p h ht := by simp [fLang] at ht
  pre s p s' p' h h' := by have := fLang_pre h; have := fLang_bin h'; omega
  preTern s p h ht := by simp [fLang] at ht

end Verif.Exprs
