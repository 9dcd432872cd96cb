import Verif.Text.StrLemmas
/-! Indentation. -/

namespace Verif.Text

open Verif.Text.Spec (Str s lstripped isBreak margin linesOf)

theorem lstripped_blanks (n : Int) (l : Str) : lstripped (blanks n ++ l) = lstripped l := by
  unfold blanks
  induction n.toNat with
  | zero => rfl
  | succ k ih =>
    rw [List.replicate_succ, List.cons_append]
    simpa [lstripped] using ih

theorem lstripped_idem (l : Str) : lstripped (lstripped l) = lstripped l := by
  unfold lstripped
  induction l with
  | nil => rfl
  | cons c r ih =>
    rw [List.dropWhile_cons]
    split
    · exact ih
    · rw [List.dropWhile_cons]
      simp_all

theorem indentLoop_stripped (alone inc dec : Str → Bool) (tab : Nat) (ls : List Str) :
    ∀ lv, (indentLoop alone inc dec tab lv ls).map lstripped = ls.map lstripped := by
  induction ls with
  | nil => intro lv; rfl
  | cons l ls ih =>
    intro lv
    rw [indentLoop]
    split
    · rw [List.map_cons, ih, List.map_cons]
    · rw [List.map_cons, ih, List.map_cons, lstripped_blanks]

theorem indentLoop_length (alone inc dec : Str → Bool) (tab : Nat) (ls : List Str) (lv : Int) :
    (indentLoop alone inc dec tab lv ls).length = ls.length := by
  have := congrArg List.length (indentLoop_stripped alone inc dec tab ls lv)
  simpa using this

/-- How much the lines change the level. -/
def netOf (alone inc dec : Str → Bool) : List Str → Int
  | [] => 0
  | l :: ls =>
    (if alone l then 0 else ((inc l).toNat : Int) - ((dec l).toNat : Int)) + netOf alone inc dec ls

theorem netOf_append (alone inc dec : Str → Bool) (a b : List Str) :
    netOf alone inc dec (a ++ b) = netOf alone inc dec a + netOf alone inc dec b := by
  induction a with
  | nil => simp [netOf]
  | cons l ls ih => simp only [List.cons_append, netOf, ih]; omega

theorem indentLoop_append (alone inc dec : Str → Bool) (tab : Nat) (a b : List Str) :
    ∀ lv, indentLoop alone inc dec tab lv (a ++ b) =
      indentLoop alone inc dec tab lv a ++
        indentLoop alone inc dec tab (lv + netOf alone inc dec a) b := by
  induction a with
  | nil => intro lv; simp [indentLoop, netOf]
  | cons l ls ih =>
    intro lv
    simp only [List.cons_append, indentLoop, netOf]
    split
    · rw [ih, List.cons_append]; simp
    · rw [ih, List.cons_append]
      congr 3
      omega

theorem margin_blanks (n : Int) (l : Str) (h : lstripped l = l) : margin (blanks n ++ l) = n.toNat := by
  have h0 : l.takeWhile (· == ' ') = [] := by
    cases l with
    | nil => rfl
    | cons c r =>
      rw [List.takeWhile_cons]
      by_cases e : (c == ' ') = true
      · exfalso
        have hlen : (lstripped (c :: r)).length ≤ r.length := by
          rw [lstripped, List.dropWhile_cons, if_pos (by simp [e])]
          exact (List.dropWhile_sublist _).length_le
        rw [h] at hlen
        simp at hlen
        omega
      · rw [if_neg e]
  have : (blanks n ++ l).takeWhile (· == ' ') = blanks n := by
    unfold blanks
    induction n.toNat with
    | zero => simpa using h0
    | succ k ih =>
      rw [List.replicate_succ, List.cons_append, List.takeWhile_cons]
      simp [ih]
  rw [margin, this]; simp [blanks]

theorem suffix_lstripped {l : Str} (h : ['{', '\n'] <:+ l) : ['{', '\n'] <:+ lstripped l := by
  induction l with
  | nil => simpa using h
  | cons c r ih =>
    rw [lstripped, List.dropWhile_cons]
    split
    · rename_i hc
      refine ih ?_
      rcases List.suffix_cons_iff.1 h with e | e
      · exfalso
        have : c = '{' := by
          have := congrArg List.head? e
          simpa using this.symm
        subst this
        revert hc; decide
      · exact e
    · exact h

theorem lstripped_suffix (l : Str) : lstripped l <:+ l := List.dropWhile_suffix _

/-! ### Splitting into lines -/

theorem isBreak_of_nl : isBreak '\n' = true := by decide

/-- A text without line ends stays in one line. -/
theorem splitLines_keeps (x : Str) (hx : ∀ c ∈ x, isBreak c = false) (hne : x ≠ []) (post : Str) :
    ∀ pre cur : Str, ∃ before p q after,
      splitLines cur (pre ++ x ++ post) = before ++ [p ++ x ++ q] ++ after := by
  have main : ∀ (y : Str), (∀ c ∈ y, isBreak c = false) → ∀ cur,
      splitLines cur (y ++ post) = splitLines (cur ++ y) post := by
    intro y
    induction y with
    | nil => intro _ cur; simp
    | cons c y ih =>
      intro hy cur
      have hc := hy c (by simp)
      rw [List.cons_append, splitLines]
      · rw [if_neg (by simp [hc]), ih (fun d hd => hy d (by simp [hd]))]
        simp
      · rintro r rfl
        exact absurd hc (by decide)
  have tail : ∀ (z : Str) (cur : Str), cur ≠ [] →
      ∃ q after, splitLines cur z = [cur ++ q] ++ after := by
    intro z
    induction z with
    | nil =>
      intro cur hcur
      exact ⟨[], [], by rw [splitLines]; simp; exact hcur⟩
    | cons c r ih =>
      intro cur hcur
      by_cases h : ∃ r', c = '\r' ∧ r = '\n' :: r'
      · obtain ⟨r', rfl, rfl⟩ := h
        exact ⟨['\r', '\n'], _, by rw [splitLines]; rfl⟩
      · rw [splitLines]
        · split
          · exact ⟨[c], _, rfl⟩
          · obtain ⟨q, after, e⟩ := ih (cur ++ [c]) (by simp)
            exact ⟨c :: q, after, by rw [e]; simp⟩
        · rintro r' rfl rfl
          exact h ⟨_, rfl, rfl⟩
  -- induction on the text in front, two characters at a time
  have go : ∀ (k : Nat) (pre cur : Str), pre.length ≤ k → ∃ before p q after,
      splitLines cur (pre ++ x ++ post) = before ++ [p ++ x ++ q] ++ after := by
    intro k
    induction k with
    | zero =>
      intro pre cur hk
      have : pre = [] := List.length_eq_zero_iff.1 (Nat.le_zero.1 hk)
      subst this
      rw [List.nil_append, main x hx]
      obtain ⟨q, after, e⟩ := tail post (cur ++ x) (by simp [hne])
      exact ⟨[], cur, q, after, by rw [e]; simp⟩
    | succ k ih =>
      intro pre cur hk
      cases pre with
      | nil =>
        rw [List.nil_append, main x hx]
        obtain ⟨q, after, e⟩ := tail post (cur ++ x) (by simp [hne])
        exact ⟨[], cur, q, after, by rw [e]; simp⟩
      | cons c r =>
        simp only [List.length_cons] at hk
        by_cases h : ∃ r', c = '\r' ∧ r = '\n' :: r'
        · obtain ⟨r', rfl, rfl⟩ := h
          simp only [List.length_cons] at hk
          obtain ⟨b, p, q, a, e⟩ := ih r' [] (by omega)
          simp only [List.cons_append] at e ⊢
          rw [splitLines, e]
          exact ⟨(cur ++ ['\r', '\n']) :: b, p, q, a, by simp⟩
        · simp only [List.cons_append]
          rw [splitLines]
          · split
            · obtain ⟨b, p, q, a, e⟩ := ih r [] (by omega)
              rw [e]
              exact ⟨(cur ++ [c]) :: b, p, q, a, by simp⟩
            · exact ih r _ (by omega)
          · rintro r' rfl hr'
            cases r with
            | nil =>
              cases x with
              | nil => exact hne rfl
              | cons d x =>
                have : d = '\n' := by
                  have := congrArg List.head? hr'
                  simpa using this
                subst this
                exact absurd (hx '\n' (by simp)) (by decide)
            | cons d r =>
              have : d = '\n' := by
                have := congrArg List.head? hr'
                simpa using this
              subst this
              exact h ⟨r, rfl, rfl⟩
  intro pre cur
  exact go pre.length pre cur (Nat.le_refl _)

theorem lstripped_keeps (p x q : Str) (h : ∃ c r, x = c :: r ∧ c ≠ ' ' ∧ c ≠ '\t') :
    ∃ p', lstripped (p ++ x ++ q) = p' ++ x ++ q := by
  induction p with
  | nil =>
    obtain ⟨c, r, rfl, h1, h2⟩ := h
    exact ⟨[], by simp [lstripped, List.dropWhile_cons, h1, h2]⟩
  | cons d p ih =>
    simp only [lstripped, List.cons_append, List.dropWhile_cons]
    split
    · simpa [lstripped] using ih
    · exact ⟨d :: p, by simp⟩

theorem format_keeps (alone inc dec : Str → Bool) (tab : Nat) (x : Str)
    (hx : ∀ c ∈ x, isBreak c = false)
    (h : ∃ c r, x = c :: r ∧ c ≠ ' ' ∧ c ≠ '\t') (pre post : Str) :
    x <:+: (indentLoop alone inc dec tab 0
      ((splitLines [] (pre ++ x ++ post)).map lstripped)).flatten := by
  have hne : x ≠ [] := by obtain ⟨c, r, rfl, _⟩ := h; simp
  obtain ⟨b, p, q, a, e⟩ := splitLines_keeps x hx hne post pre []
  obtain ⟨p', hp'⟩ := lstripped_keeps p x q h
  rw [e, List.map_append, List.map_append, indentLoop_append, indentLoop_append]
  simp only [List.map_cons, List.map_nil, hp', List.flatten_append]
  refine List.IsInfix.trans ?_ (List.infix_append _ _ _)
  rw [indentLoop]
  split
  · exact ⟨p', q, by simp [indentLoop]⟩
  · exact ⟨blanks _ ++ p', q, by simp [indentLoop]; rfl⟩

theorem cFormat_keeps (x : Str) (hx : ∀ c ∈ x, isBreak c = false)
    (h : ∃ c r, x = c :: r ∧ c ≠ ' ' ∧ c ≠ '\t') (pre post : Str) :
    x <:+: cFormat (pre ++ x ++ post) := format_keeps cAlone cInc cDec 4 x hx h pre post

theorem cEscaped_breaks (x : Str) (h : ∀ c ∈ x, c.toNat ∉ [28, 29, 30, 0x85, 0x2028, 0x2029]) :
    ∀ c ∈ cEscaped x, isBreak c = false := by
  induction x with
  | nil => intro c hc; simp [cEscaped, replace] at hc
  | cons d r ih =>
    have e : cEscaped (d :: r) = cEscaped [d] ++ cEscaped r := cEscaped_append [d] r
    rw [e]
    intro c hca
    rcases List.mem_append.1 hca with hc | hc
    · clear hca
      by_cases hd : d ∈ special
      · simp only [special, List.mem_cons, List.not_mem_nil, or_false] at hd
        rcases hd with rfl | rfl | rfl | rfl | rfl | rfl | rfl | rfl | rfl | rfl <;>
          (revert c; decide)
      · rw [cEscaped_plain hd, List.mem_singleton] at hc
        subst hc
        have h0 := h c (by simp)
        simp only [special, List.mem_cons, List.not_mem_nil, or_false, not_or] at hd
        have inj : ∀ n : Nat, c.toNat = n → c = Char.ofNat n := fun n hn => by
          rw [← hn, Char.ofNat_toNat]
        simp only [List.mem_cons, List.not_mem_nil, or_false, not_or] at h0
        have n10 : c.toNat ≠ 10 := fun hn => hd.2.2.2.2.1 (inj _ hn)
        have n11 : c.toNat ≠ 11 := fun hn => hd.2.2.2.2.2.2.2.1 (inj _ hn)
        have n12 : c.toNat ≠ 12 := fun hn => hd.2.2.2.1 (inj _ hn)
        have n13 : c.toNat ≠ 13 := fun hn => hd.2.2.2.2.2.1 (inj _ hn)
        simp [isBreak, h0, n10, n11, n12, n13]
    · exact ih (fun c hc => h c (by simp [hc])) c hc

theorem cLiteral_breaks (x : Str) (h : ∀ c ∈ x, c.toNat ∉ [28, 29, 30, 0x85, 0x2028, 0x2029]) :
    ∀ c ∈ cLiteral x, isBreak c = false := by
  intro c hc
  unfold cLiteral at hc
  simp only [List.mem_append] at hc
  rcases hc with (hc | hc) | hc
  · revert c; decide
  · exact cEscaped_breaks x h c hc
  · revert c; decide

/-! ### Python -/

theorem linesOf_ne_nil (x : Str) : linesOf x ≠ [] := by
  cases x with
  | nil => simp [linesOf]
  | cons c r =>
    rw [linesOf]
    split
    · simp
    · split <;> simp

theorem linesOf_append_nl (x : Str) : linesOf (x ++ ['\n']) = linesOf x ++ [[]] := by
  induction x with
  | nil => rfl
  | cons c r ih =>
    rw [List.cons_append, linesOf, linesOf, ih]
    split
    · rfl
    · cases h : linesOf r with
      | nil => exact absurd h (linesOf_ne_nil r)
      | cons l ls => rfl

theorem linesOf_prefix (p x : Str) (hp : '\n' ∉ p) (l : Str) (ls : List Str)
    (h : linesOf x = l :: ls) : linesOf (p ++ x) = (p ++ l) :: ls := by
  induction p with
  | nil => exact h
  | cons c p ih =>
    have := ih (fun hc => hp (by simp [hc]))
    rw [List.cons_append, linesOf, if_neg (fun e => hp (by simp [e])), this]
    rfl

theorem linesOf_replace (p x : Str) (hp : '\n' ∉ p) :
    ∃ l ls, linesOf x = l :: ls ∧ linesOf (replace '\n' ('\n' :: p) x) = l :: ls.map (p ++ ·) := by
  induction x with
  | nil => exact ⟨[], [], rfl, rfl⟩
  | cons c r ih =>
    obtain ⟨l, ls, h1, h2⟩ := ih
    have e : replace '\n' ('\n' :: p) (c :: r)
        = (if c = '\n' then '\n' :: p else [c]) ++ replace '\n' ('\n' :: p) r := by
      simp [replace]
    rw [e]
    by_cases hc : c = '\n'
    · subst hc
      refine ⟨[], l :: ls, by rw [linesOf, if_pos rfl, h1], ?_⟩
      rw [if_pos rfl, List.cons_append, linesOf, if_pos rfl, linesOf_prefix p _ hp _ _ h2]
      rfl
    · refine ⟨c :: l, ls, by rw [linesOf, if_neg hc, h1], ?_⟩
      rw [if_neg hc, List.cons_append, List.nil_append, linesOf, if_neg hc, h2]

/-! ### Fortran literals in the layout -/

theorem isBreak_plain {c : Char} (h : c ∉ spChars) (h0 : c.toNat ∉ [28, 29, 30, 0x85, 0x2028, 0x2029]) :
    isBreak c = false := by
  simp only [spChars, List.mem_cons, List.not_mem_nil, or_false, not_or] at h
  have inj : ∀ n : Nat, c.toNat = n → c = Char.ofNat n := fun n hn => by
    rw [← hn, Char.ofNat_toNat]
  simp only [List.mem_cons, List.not_mem_nil, or_false, not_or] at h0
  have n10 : c.toNat ≠ 10 := fun hn => h.2.2.2.2.2.2.2 (inj _ hn)
  have n11 : c.toNat ≠ 11 := fun hn => h.2.2.2.2.2.1 (inj _ hn)
  have n12 : c.toNat ≠ 12 := fun hn => h.2.2.1 (inj _ hn)
  have n13 : c.toNat ≠ 13 := fun hn => h.2.2.2.1 (inj _ hn)
  simp [isBreak, h0, n10, n11, n12, n13]

theorem flushed_breaks {sub : Str} (h : ∀ c ∈ sub, isBreak c = false) :
    ∀ p ∈ flushed sub, ∀ c ∈ p, isBreak c = false := by
  intro p hp c hc
  unfold flushed at hp
  split at hp
  · simp at hp
  · rw [List.mem_singleton] at hp
    subst hp
    simp only [List.mem_append] at hc
    have : ∀ c ∈ s "'", isBreak c = false := by decide
    rcases hc with (hc | hc) | hc
    · exact this c hc
    · exact h c hc
    · exact this c hc

theorem fPieces_breaks (x : Str) (h : ∀ c ∈ x, c.toNat ∉ [28, 29, 30, 0x85, 0x2028, 0x2029]) :
    ∀ sub : Str, (∀ c ∈ sub, isBreak c = false) → ∀ p ∈ fPieces sub x, ∀ c ∈ p, isBreak c = false := by
  induction x with
  | nil => intro sub hs p hp; exact flushed_breaks hs p hp
  | cons d r ih =>
    intro sub hs p hp
    have ih' := ih fun c hc => h c (by simp [hc])
    rw [fPieces] at hp
    split at hp
    · rename_i hd
      rcases List.mem_append.1 hp with hp | hp
      · exact flushed_breaks hs p hp
      · rcases List.mem_cons.1 hp with rfl | hp
        · simp only [spChars, List.mem_cons, List.not_mem_nil, or_false] at hd
          rcases hd with rfl | rfl | rfl | rfl | rfl | rfl | rfl | rfl <;> decide
        · exact ih' [] (by simp) p hp
    · rename_i hd
      refine ih' (sub ++ [d]) ?_ p hp
      intro c hc
      rcases List.mem_append.1 hc with hc | hc
      · exact hs c hc
      · rw [List.mem_singleton.1 hc]
        exact isBreak_plain hd (h d (by simp))

theorem joined_breaks (sep : Str) (hs : ∀ c ∈ sep, isBreak c = false) (ps : List Str)
    (h : ∀ p ∈ ps, ∀ c ∈ p, isBreak c = false) : ∀ c ∈ Spec.joined sep ps, isBreak c = false := by
  induction ps with
  | nil => intro c hc; simp [Spec.joined] at hc
  | cons p ps ih =>
    cases ps with
    | nil => exact h p (by simp)
    | cons q ps =>
      intro c hc
      simp only [Spec.joined, List.mem_append] at hc
      rcases hc with (hc | hc) | hc
      · exact h p (by simp) c hc
      · exact hs c hc
      · exact ih (fun p hp => h p (by simp [hp])) c hc

theorem fLiteral_breaks (x : Str) (h : ∀ c ∈ x, c.toNat ∉ [28, 29, 30, 0x85, 0x2028, 0x2029]) :
    ∀ c ∈ fLiteral x, isBreak c = false := by
  unfold fLiteral
  split
  · decide
  · exact joined_breaks _ (by decide) _ (fPieces_breaks x h [] (by simp))

theorem fPieces_heads (x : Str) : ∀ sub : Str, ∀ p ∈ fPieces sub x,
    ∃ c r, p = c :: r ∧ c ≠ ' ' ∧ c ≠ '\t' := by
  have hf : ∀ sub : Str, ∀ p ∈ flushed sub, ∃ c r, p = c :: r ∧ c ≠ ' ' ∧ c ≠ '\t' := by
    intro sub p hp
    unfold flushed at hp
    split at hp
    · simp at hp
    · rw [List.mem_singleton] at hp
      exact ⟨'\'', sub ++ s "'", by rw [hp]; rfl, by decide, by decide⟩
  induction x with
  | nil => intro sub p hp; exact hf sub p hp
  | cons d r ih =>
    intro sub p hp
    rw [fPieces] at hp
    split at hp
    · rcases List.mem_append.1 hp with hp | hp
      · exact hf sub p hp
      · rcases List.mem_cons.1 hp with rfl | hp
        · exact ⟨'A', s "CHAR(" ++ (toString d.toNat).toList ++ s ")", rfl, by decide, by decide⟩
        · exact ih [] p hp
    · exact ih _ p hp

theorem fLiteral_head (x : Str) : ∃ c r, fLiteral x = c :: r ∧ c ≠ ' ' ∧ c ≠ '\t' := by
  unfold fLiteral
  split
  · exact ⟨'\'', ['\''], rfl, by decide, by decide⟩
  · rename_i hx
    have hne := fPieces_ne_nil x [] (by simpa using hx)
    obtain ⟨p, ps, hp⟩ := List.exists_cons_of_ne_nil hne
    obtain ⟨c, r, e, h1, h2⟩ := fPieces_heads x [] p (by rw [hp]; simp)
    rw [hp, e]
    cases ps with
    | nil => exact ⟨c, r, rfl, h1, h2⟩
    | cons q ps => exact ⟨c, _, rfl, h1, h2⟩

/-! ### The margins -/

theorem cDec_eq {l : Str} (h : Spec.isLine l) (hb : cAlone (lstripped l) = false) :
    cDec (lstripped l) = Spec.closes l := by
  have hs := lstripped_suffix l
  unfold cDec Spec.closes
  cases e : lstripped l with
  | nil => rw [e] at hb; exact absurd hb (by decide)
  | cons c r =>
    by_cases hc : c = '}'
    · subst hc; simp
    · have hn : c ≠ '\n' := by
        rintro rfl
        rw [e] at hs hb
        obtain ⟨p, hp⟩ := hs
        cases r with
        | nil => exact absurd hb (by decide)
        | cons d r =>
          apply h
          rw [← hp, List.dropLast_append_of_ne_nil (by simp)]
          simp
      simp only [List.head?_cons, Option.some.injEq, hc, hn, or_self, decide_false]
      split
      · rename_i heq; exact absurd (List.cons.inj heq).1 hc
      · rfl

theorem cInc_eq (l : Str) : cInc (lstripped l) = Spec.opens l := by
  have h1 : Spec.opens l = true ↔ ['{', '\n'] <:+ l := by
    unfold Spec.opens
    constructor
    · intro h
      split at h
      · rename_i r heq
        refine ⟨r.reverse, ?_⟩
        have := congrArg List.reverse heq
        rw [List.reverse_reverse] at this
        rw [this]; simp
      · simp at h
    · rintro ⟨p, rfl⟩
      simp
  have h2 : cInc (lstripped l) = true ↔ ['{', '\n'] <:+ l := by
    rw [cInc, List.isSuffixOf_iff_suffix]
    exact ⟨fun h => h.trans (lstripped_suffix l), suffix_lstripped⟩
  cases h3 : Spec.opens l <;> cases h4 : cInc (lstripped l) <;> simp_all

theorem cAlone_eq (l : Str) : cAlone (lstripped l) = Spec.blank l := by
  unfold cAlone Spec.blank
  rw [Bool.eq_iff_iff]
  simp

theorem blank_not {l : Str} (h : Spec.blank l = true) : Spec.opens l = false ∧ Spec.closes l = false := by
  have ho := cInc_eq l
  unfold Spec.blank at h
  rw [Bool.or_eq_true, beq_iff_eq, beq_iff_eq] at h
  unfold Spec.closes
  rcases h with h | h
  · rw [h] at ho ⊢
    exact ⟨ho.symm.trans (by decide), rfl⟩
  · rw [h] at ho ⊢
    exact ⟨ho.symm.trans (by decide), rfl⟩

theorem netOf_level (ls : List Str) (h : ∀ l ∈ ls, Spec.isLine l) :
    netOf cAlone cInc cDec (ls.map lstripped) = Spec.level ls := by
  induction ls with
  | nil => rfl
  | cons l ls ih =>
    have ih' := ih fun l hl => h l (by simp [hl])
    rw [List.map_cons, netOf, ih', cInc_eq]
    unfold Spec.level
    rw [List.countP_cons, List.countP_cons]
    cases hb : cAlone (lstripped l) with
    | true =>
      rw [cAlone_eq] at hb
      obtain ⟨h1, h2⟩ := blank_not hb
      simp [h1, h2]
    | false =>
      rw [cDec_eq (h l (by simp)) hb]
      cases Spec.opens l <;> cases Spec.closes l <;> simp <;> omega

/-- The margin of a line of code. -/
theorem cIndent_margin (pre : List Str) (l : Str) (post : List Str)
    (h : ∀ k ∈ pre ++ [l], Spec.isLine k) (hb : Spec.blank l = false) :
    ∃ k, (cIndent (pre ++ l :: post))[pre.length]? = some k ∧ lstripped k = lstripped l ∧
      (margin k : Int) = max 0 (4 * (Spec.level pre - (Spec.closes l).toNat)) := by
  rw [cIndent, List.map_append, indentLoop_append, List.map_cons, indentLoop]
  have ha : cAlone (lstripped l) = false := by rw [cAlone_eq]; exact hb
  rw [if_neg (by rw [ha]; simp), netOf_level pre fun l hl => h l (by simp [hl]),
    cDec_eq (h l (by simp)) ha]
  have hlen : (indentLoop cAlone cInc cDec 4 0 (pre.map lstripped)).length = pre.length := by
    rw [indentLoop_length, List.length_map]
  rw [List.getElem?_append_right (by omega), hlen, Nat.sub_self]
  refine ⟨_, rfl, ?_, ?_⟩
  · rw [lstripped_blanks, lstripped_idem]
  · rw [margin_blanks _ _ (lstripped_idem l)]
    omega

end Verif.Text
