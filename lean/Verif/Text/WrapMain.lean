import Verif.Text.WrapLemmas
/-! Joining the continuation lines again. -/

namespace Verif.Text

open Verif.Text.Spec (Str s isSpace trimL trimR noSentinel loneAmp continued continuation joinRest joinLines isQuote
  nextQ afterQ isWord isParen apart norm clean ShortRuns)

theorem clean_append (st : Option Char) (x y : Str) :
    clean st (x ++ y) ↔ clean st x ∧ clean (afterQ st x) y := by
  induction x generalizing st with
  | nil => cases st <;> simp [clean, afterQ]
  | cons c r ih =>
    have e : afterQ st (c :: r) = afterQ (nextQ st c) r := rfl
    rw [e]
    cases st with
    | none =>
      simp only [List.cons_append, clean]
      rw [ih]
      constructor
      · rintro ⟨a, b, c, d⟩; exact ⟨⟨a, b, c⟩, d⟩
      · rintro ⟨⟨a, b, c⟩, d⟩; exact ⟨a, b, c, d⟩
    | some q =>
      simp only [List.cons_append, clean]
      exact ih _

theorem ShortRuns_suffix {n : Nat} {st : Option Char} {p x : Str} (h : ShortRuns n st (p ++ x)) :
    ShortRuns n (afterQ st p) x := by
  intro a w c b hx hn hc
  have := h (p ++ a) w c b (by rw [hx]; simp) hn hc
  rw [List.append_assoc, afterQ_append] at this
  exact this

/-- The last character of a clean text that ends outside of literals is no ampersand. -/
theorem last_ne_amp {st : Option Char} (hq : QOk st) {h : Str} {d : Char} (hc : clean st (h ++ [d]))
    (he : afterQ st (h ++ [d]) = none) : d ≠ '&' := by
  rw [clean_append] at hc
  rw [afterQ_append] at he
  have hq' := hq.after h
  cases hst : afterQ st h with
  | none =>
    rw [hst] at hc
    have := hc.2
    simp only [clean] at this
    exact this.1
  | some q =>
    rw [hst] at he
    have : d = q := by
      by_cases e : d = q
      · exact e
      · simp [afterQ, nextQ, e] at he
    have hqq := hq' q hst
    rintro rfl
    rw [← this] at hqq
    exact absurd hqq (by decide)

theorem continued_amp (y w : Str) (hw : ∀ c ∈ w, isSpace c = true) :
    continued (y ++ ['&'] ++ w) = some y := by
  rw [continued, trimR_spaces hw, trimR_snoc (by decide)]
  simp

theorem continued_none {y w : Str} {d : Char} (hd : d ≠ '&') (hs : isSpace d = false)
    (hw : ∀ c ∈ w, isSpace c = true) : continued (y ++ [d] ++ w) = none := by
  rw [continued, trimR_spaces hw, trimR_snoc hs]
  simp only [List.reverse_append, List.reverse_cons, List.reverse_nil, List.nil_append,
    List.singleton_append]
  split
  · rename_i heq
    exact absurd (List.cons.inj heq).1 hd
  · rfl

theorem blank_spaces (n : Nat) : ∀ c ∈ List.replicate n ' ', isSpace c = true := by
  intro c hc
  rw [(List.mem_replicate.1 hc).2]
  decide

theorem continuation_amp {l r : Str} (h : trimL l = '&' :: r) : continuation l = r := by
  have e : noSentinel l = l := by rw [noSentinel, h]; rfl
  rw [continuation, e, h]
  rfl

theorem continuation_omp {l r : Str} (h : trimL l = s "!$omp &" ++ r) : continuation l = r := by
  have e : noSentinel l = ' ' :: '&' :: r := by rw [noSentinel, h]; rfl
  rw [continuation, e]
  rfl

theorem continuation_acc {l r : Str} (h : trimL l = s "!$acc &" ++ r) : continuation l = r := by
  have e : noSentinel l = ' ' :: '&' :: r := by rw [noSentinel, h]; rfl
  rw [continuation, e]
  rfl

theorem continuation_plain {l r : Str} {c : Char} (h : trimL l = c :: r) (h1 : c ≠ '&')
    (h2 : c ≠ '!') : continuation l = l := by
  have e : noSentinel l = l := by
    rw [noSentinel, h]
    split
    · rename_i heq; exact absurd (List.cons.inj heq).1 h2
    · rename_i heq; exact absurd (List.cons.inj heq).1 h2
    · rfl
  rw [continuation, e, h]
  split
  · rename_i heq; exact absurd (List.cons.inj heq).1 h1
  · rfl

/-- What is put in front of a hunk counts for nothing but white space. -/
theorem continuation_start (tab : Nat) (li omp acc : Bool) (y : Str)
    (hy : li = false → ∃ c r, y = c :: r ∧ isSpace c = false ∧ c ≠ '&' ∧ c ≠ '!') :
    ∃ pad, continuation (hunkStart tab li omp acc ++ y) = pad ++ y ∧
      (∀ c ∈ pad, isSpace c = true) ∧ (li = true → pad = []) := by
  have bl := blank_spaces tab
  have tr : ∀ z : Str, trimL (List.replicate tab ' ' ++ z) = trimL z := fun z =>
    trimL_of_spaces _ z bl
  cases li with
  | true =>
    refine ⟨[], continuation_amp ?_, by simp, fun _ => rfl⟩
    rw [hunkStart, List.append_assoc, tr]
    rfl
  | false =>
    cases omp with
    | true =>
      refine ⟨[], continuation_omp ?_, by simp, fun _ => rfl⟩
      rw [hunkStart, List.append_assoc, tr]
      rfl
    | false =>
      cases acc with
      | true =>
        refine ⟨[], continuation_acc ?_, by simp, fun _ => rfl⟩
        rw [hunkStart, List.append_assoc, tr]
        rfl
      | false =>
        obtain ⟨c, r, rfl, h1, h2, h3⟩ := hy rfl
        refine ⟨List.replicate tab ' ' ++ s "      ", ?_, ?_, by simp⟩
        · refine (continuation_plain (c := c) (r := r) ?_ h2 h3).trans rfl
          rw [hunkStart, List.append_assoc, tr]
          exact (trimL_of_spaces (s "      ") _ (by decide)).trans
            (trimL_self (by intro d hd; cases hd; exact h1))
        · intro c hc
          rcases List.mem_append.1 hc with hc | hc
          · exact bl c hc
          · have : ∀ c ∈ s "      ", isSpace c = true := by decide
            exact this c hc

theorem endNl_snoc (y : Str) (d : Char) (hd : d ≠ '\n') : endNl (y ++ [d]) = y ++ [d] ++ ['\n'] := by
  rw [endNl, if_neg]
  simp only [List.isSuffixOf_iff_suffix]
  intro h
  obtain ⟨t, ht⟩ := h
  have := congrArg List.getLast? ht
  simp at this
  exact hd this.symm

theorem nl_space : ∀ c ∈ ['\n'], isSpace c = true := by decide

theorem ne_nl_of {d : Char} (h : isSpace d = false) : d ≠ '\n' := by
  rintro rfl
  exact absurd h (by decide)

/-- The normal form does not notice white space after a text that ends outside of literals. -/
theorem normT_trailing {st : Option Char} (hq : QOk st) (h w : Str) (hw : ∀ c ∈ w, isSpace c = true)
    (he : afterQ st h = none) (l : Option Char) (g : Bool) :
    normT (st, l, g) (h ++ w) = normT (st, l, g) h := by
  rw [normT_append]
  have e1 := adv_fst h st hq l g
  rw [he] at e1
  generalize h.foldl adv (st, l, g) = t0 at *
  obtain ⟨a, b, c⟩ := t0
  cases e1
  have := normT_spaces w [] hw b c
  rw [List.append_nil] at this
  rw [this, norm_nil, List.append_nil]

/-- The part played by one cut: the text put together again from the hunk and from what the rest
gives has the same normal form. -/
theorem normT_outside {st : Option Char} (hq : QOk st) {h w r T : Str}
    (hw : ∀ c ∈ w, isSpace c = true) (hl : ∀ c, h.getLast? = some c → isSpace c = false)
    (hst : afterQ st h = none) (hr : r ≠ []) (hh : ∀ c, r.head? = some c → isSpace c = false)
    (hap : ∀ d c, h.getLast? = some d → r.head? = some c → w = [] → apart d c = true)
    (l : Option Char) (g : Bool) (h0 : h = [] → l = none ∨ g = true)
    (hT : ∀ l, normT (none, l, true) T = normT (none, l, true) r) :
    normT (st, l, g) (h ++ s " " ++ T) = normT (st, l, g) (h ++ w ++ r) := by
  rw [List.append_assoc, List.append_assoc, normT_append, normT_append h (w ++ r)]
  have e1 := adv_fst h st hq l g
  rw [hst] at e1
  have e2 : ((h.foldl adv (st, l, g)).2.1 = none ∨ (h.foldl adv (st, l, g)).2.2 = true) ∨
      ∃ d, h.getLast? = some d ∧ (h.foldl adv (st, l, g)).2 = (some d, false) := by
    rcases List.eq_nil_or_concat h with rfl | ⟨h', d, rfl⟩
    · left; exact h0 rfl
    · right
      rw [List.concat_eq_append] at hl ⊢
      exact ⟨d, by simp, adv_snoc h' d (hl d (by simp)) _⟩
  generalize h.foldl adv (st, l, g) = t0 at *
  obtain ⟨a, b, c⟩ := t0
  cases e1
  congr 1
  rw [normT_spaces (s " ") T (by decide), normT_spaces w r hw]
  have sp : (c || !(s " ").isEmpty) = true := by simp [s]
  rw [sp, hT]
  cases r with
  | nil => exact absurd rfl hr
  | cons x r =>
    have hx := hh x rfl
    rcases e2 with (e2 | e2) | ⟨d, hd, e2⟩
    · cases e2
      exact (normT_start _ _).symm
    · simp only at e2
      rw [e2]; rfl
    · simp only [Prod.mk.injEq] at e2
      obtain ⟨rfl, rfl⟩ := e2
      cases w with
      | nil => exact (normT_apart (hap d x hd rfl rfl) hx _).symm
      | cons y w => rfl

theorem continued_start_last {tab : Nat} {li omp acc : Bool} {h : Str} {d : Char}
    (hd : d ≠ '&') (hs : isSpace d = false) :
    continued (endNl (hunkStart tab li omp acc ++ (h ++ [d]))) = none := by
  rw [← List.append_assoc, endNl_snoc _ _ (ne_nl_of hs)]
  exact continued_none hd hs nl_space

theorem trimL_filter (x : Str) :
    (trimL x).filter (fun c => !isSpace c) = x.filter (fun c => !isSpace c) := by
  obtain ⟨w, h1, h2⟩ := trimL_split x
  conv => rhs; rw [h1]
  rw [List.filter_append]
  have : w.filter (fun c => !isSpace c) = [] :=
    List.filter_eq_nil_iff.2 (by intro c hc; simp [h2 c hc])
  rw [this, List.nil_append]

theorem trimR_filter (x : Str) :
    (trimR x).filter (fun c => !isSpace c) = x.filter (fun c => !isSpace c) := by
  obtain ⟨w, h1, h2⟩ := trimR_split x
  conv => rhs; rw [h1]
  rw [List.filter_append]
  have : w.filter (fun c => !isSpace c) = [] :=
    List.filter_eq_nil_iff.2 (by intro c hc; simp [h2 c hc])
  rw [this, List.append_nil]

/-- A line with a further character is not a lone ampersand. -/
theorem loneAmp_false {u v : Str} {d : Char} (hd : isSpace d = false) (hd' : d ∈ u) :
    loneAmp (u ++ '&' :: v) = false := by
  cases h : loneAmp (u ++ '&' :: v) with
  | false => rfl
  | true =>
    rw [loneAmp, beq_iff_eq] at h
    have h1 := congrArg (fun y => (y.filter (fun c => !isSpace c)).length) h
    simp only [trimL_filter, trimR_filter] at h1
    have h2 : ([ '&' ].filter (fun c => !isSpace c)).length = 1 := by decide
    rw [h2, List.filter_append, List.length_append, List.filter_cons_of_pos (by decide)] at h1
    have h3 : 0 < (u.filter (fun c => !isSpace c)).length :=
      List.length_pos_of_mem (List.mem_filter.2 ⟨hd', by simp [hd]⟩)
    simp at h1
    omega

theorem hunkStart_mem {tab : Nat} {li omp acc : Bool} {h : Str}
    (hh : li = false → ∃ c, c ∈ h ∧ isSpace c = false) :
    ∃ c, c ∈ hunkStart tab li omp acc ++ h ∧ isSpace c = false := by
  unfold hunkStart
  cases li with
  | true => exact ⟨'&', by simp [s], by decide⟩
  | false =>
    obtain ⟨c, h1, h2⟩ := hh rfl
    exact ⟨c, by simp [h1], h2⟩

/-- The loop over the continuation lines. -/
theorem wrapRest_join (L : Str) (tab : Nat) (htab : tab ≤ 64) (omp acc : Bool)
    (hclosed : afterQ none L = none) :
    ∀ (n : Nat) (x pre : Str) (li : Bool), L = pre ++ x → x.length < n → x ≠ [] →
      (li = false → afterQ none pre = none ∧ ∀ c, x.head? = some c → isSpace c = false) →
      (li = true → afterQ none pre ≠ none ∨ ∃ c, x.head? = some c ∧ isQuote c = true) →
      clean (afterQ none pre) x → ShortRuns (65 - tab + 1) (afterQ none pre) x →
      ∃ ls T, wrapRest (quoteMask none L) L.length tab omp acc n li x = .ok ls ∧ ls ≠ [] ∧
        (∀ l ∈ ls, l.length ≤ 74) ∧
        joinRest (ls.map endNl) = some T ∧
        (li = true → ∀ l g, normT (afterQ none pre, l, g) T = normT (afterQ none pre, l, g) x) ∧
        (li = false → ∀ l, normT (none, l, true) T = normT (none, l, true) x) := by
  have q0 : QOk none := by intro q h; cases h
  have hstartlen : ∀ li, (hunkStart tab li omp acc).length ≤ tab + 7 := by
    intro li
    unfold hunkStart
    rw [List.length_append, List.length_replicate]
    have : (s "&").length = 1 ∧ (s "!$omp &").length = 7 ∧ (s "!$acc &").length = 7 ∧
      (s "      ").length = 6 := by decide
    cases li <;> cases omp <;> cases acc <;> simp [this]
  intro n
  induction n with
  | zero => intro x pre li _ h; omega
  | succ n ih =>
    intro x pre li hL hn hx hli hli' hcl hsh
    have hq : QOk (afterQ none pre) := q0.after pre
    have hclx : afterQ (afterQ none pre) x = none := by
      rw [← afterQ_append, ← hL]; exact hclosed
    generalize hst : afterQ none pre = st at *
    obtain ⟨q, hsp, hcut⟩ := cut_spec (e := 65 - tab) hq (by omega) hclx hsh hx
    have esub : (65 : Int) - (tab : Int) = ((65 - tab : Nat) : Int) := by omega
    -- the mask
    have hpre : pre.length = L.length - x.length := by rw [hL]; simp
    have hmask : inQuotes (quoteMask none L) ((q : Int) + ((L.length : Int) - (x.length : Int)))
        = ((x[q]?).map fun c => (afterQ st (x.take q)).isSome || isQuote c).getD false := by
      have e1 : (q : Int) + ((L.length : Int) - (x.length : Int)) = ((pre.length + q : Nat) : Int) := by
        have : x.length ≤ L.length := by rw [hL]; simp
        omega
      rw [e1, inQuotes]
      simp only [Int.natCast_nonneg, decide_true, Int.toNat_natCast, Bool.true_and]
      rw [quoteMask_get L none hclosed]
      have e2 : L[pre.length + q]? = x[q]? := by
        rw [hL, List.getElem?_append_right (by omega)]
        congr 1; omega
      have e3 : L.take (pre.length + q) = pre ++ x.take q := by
        rw [hL, List.take_append]
        simp [List.take_of_length_le]
      rw [e2, e3, afterQ_append, hst]
    obtain ⟨hC, hlen1, hlen2, _⟩ := hcut _ hmask
    rw [wrapRest, if_neg hx, esub, hsp]
    dsimp only
    generalize hins : inQuotes (quoteMask none L) ((q : Int) + ((L.length : Int) - (x.length : Int))) = ins at *
    generalize cutAt ins x (q : Int) = cu at *
    obtain ⟨hunk, r⟩ := cu
    dsimp only at hC hlen1 hlen2 ⊢
    have hline : (hunkStart tab li omp acc ++ hunk).length ≤ 74 := by
      rw [List.length_append]
      have := hstartlen li
      omega
    -- the first character of a hunk outside of literals
    have hhead : ∀ h rest, x = h ++ rest → h ≠ [] → ∀ z, li = false →
        ∃ c r, h ++ z = c :: r ∧ isSpace c = false ∧ c ≠ '&' ∧ c ≠ '!' := by
      intro h rest hxe hne z hlf
      obtain ⟨hs0, hs1⟩ := hli hlf
      cases h with
      | nil => exact absurd rfl hne
      | cons d h =>
        have e := hs1 d (by rw [hxe]; rfl)
        have hst0 : st = none := hs0
        rw [hxe, hst0] at hcl
        simp only [List.cons_append, clean] at hcl
        exact ⟨d, h ++ z, rfl, e, hcl.1, hcl.2.1⟩
    -- a hunk that ends outside of literals is not empty
    have hhne : ∀ h w r, x = h ++ w ++ r → (∀ c ∈ w, isSpace c = true) → afterQ st h = none →
        r.length < x.length → h ≠ [] := by
      intro h w r hxe hw hsth hrl h0
      subst h0
      have hwne : w ≠ [] := by
        intro h0; subst h0
        rw [hxe] at hrl; simp at hrl
      cases w with
      | nil => exact hwne rfl
      | cons c w =>
        have hc := hw c (by simp)
        have hxh : x.head? = some c := by rw [hxe]; rfl
        cases hlf : li with
        | false =>
          have h1 := (hli hlf).2 c hxh
          rw [hc] at h1; exact absurd h1 (by simp)
        | true =>
          rcases hli' hlf with h1 | ⟨d, h1, h2⟩
          · exact h1 hsth
          · rw [hxh] at h1
            cases h1
            rw [isSpace_quote h2] at hc
            exact absurd hc (by simp)
    cases hC with
    | @last _ w hxe hw hl hsth =>
      have hend : wrapRest (quoteMask none L) L.length tab omp acc n false [] = .ok [] := by
        cases n with
        | zero =>
          have : x.length ≠ 0 := fun h0 => hx (List.length_eq_zero_iff.1 h0)
          omega
        | succ n => simp [wrapRest]
      rw [hend]
      have hne := hhne hunk w [] (by rw [List.append_nil]; exact hxe) hw hsth (by simpa using hlen2)
      obtain ⟨h', d, hhd⟩ := (List.eq_nil_or_concat hunk).resolve_left hne
      rw [List.concat_eq_append] at hhd
      have hds : isSpace d = false := hl d (by rw [hhd]; simp)
      have hclh : clean st hunk := by
        rw [hxe, clean_append] at hcl
        exact hcl.1
      have hda : d ≠ '&' := by
        rw [hhd] at hclh hsth
        exact last_ne_amp hq hclh hsth
      obtain ⟨pad, hpad, hps, hp0⟩ := continuation_start tab li omp acc (hunk ++ ['\n'])
        (hhead hunk w hxe hne _)
      have hend2 : endNl (hunkStart tab li omp acc ++ hunk)
          = hunkStart tab li omp acc ++ (hunk ++ ['\n']) := by
        rw [hhd, ← List.append_assoc, endNl_snoc _ _ (ne_nl_of hds)]
        simp
      have hcn : continued (endNl (hunkStart tab li omp acc ++ hunk)) = none := by
        rw [hhd]; exact continued_start_last hda hds
      refine ⟨_, pad ++ (hunk ++ ['\n']), rfl, by simp, by simpa using hline, ?_, ?_, ?_⟩
      · simp only [List.map_cons, List.map_nil, joinRest]
        rw [hcn, if_neg (by simp), hend2, hpad]
      · intro hlt l g
        rw [hp0 hlt, List.nil_append, normT_trailing hq hunk _ nl_space hsth, hxe,
          normT_trailing hq hunk w hw hsth]
      · intro hlf l
        have hst0 : st = none := (hli hlf).1
        subst hst0
        rw [normT_spaces pad _ hps, Bool.true_or, normT_trailing hq hunk _ nl_space hsth, hxe,
          normT_trailing hq hunk w hw hsth]
    | @inside h r hxe hh hr hin =>
      have hcl2 := hcl
      rw [hxe, clean_append] at hcl2
      have hsh2 := hsh
      rw [hxe] at hsh2
      have epre : afterQ none (pre ++ h) = afterQ st h := by rw [afterQ_append, hst]
      obtain ⟨ls, T, h1, h2, h3, h4, h5, _⟩ := ih r (pre ++ h) true (by rw [hL, hxe]; simp)
        (by omega) hr (by simp) (by intro _; rw [epre]; exact hin) (by rw [epre]; exact hcl2.2)
        (by rw [epre]; exact ShortRuns_suffix hsh2)
      rw [epre] at h5
      rw [h1]
      obtain ⟨pad, hpad, hps, hp0⟩ := continuation_start tab li omp acc (h ++ (s "&" ++ ['\n']))
        (hhead h r hxe hh _)
      have hend2 : endNl (hunkStart tab li omp acc ++ (h ++ s "&"))
          = hunkStart tab li omp acc ++ (h ++ (s "&" ++ ['\n'])) := by
        have : s "&" = ['&'] := rfl
        rw [this, ← List.append_assoc, endNl_snoc _ _ (by decide)]
        simp
      have hcont : continued (continuation (endNl (hunkStart tab li omp acc ++ (h ++ s "&"))))
          = some (pad ++ h) := by
        rw [hend2, hpad]
        have : pad ++ (h ++ (s "&" ++ ['\n'])) = (pad ++ h) ++ ['&'] ++ ['\n'] := by
          simp [s]
        rw [this]
        exact continued_amp _ _ nl_space
      have key : ∀ l g, normT (st, l, g) (h ++ T) = normT (st, l, g) (h ++ r) := by
        intro l g
        rw [normT_append, normT_append h r]
        have e1 := adv_fst h st hq l g
        generalize h.foldl adv (st, l, g) = t0 at *
        obtain ⟨a, b, c⟩ := t0
        cases e1
        exact congrArg _ (h5 rfl b c)
      refine ⟨_, pad ++ h ++ T, rfl, by simp, ?_, ?_, ?_, ?_⟩
      · intro l hl
        rcases List.mem_cons.1 hl with rfl | hl
        · exact hline
        · exact h3 l hl
      · obtain ⟨l1, ls', rfl⟩ := List.exists_cons_of_ne_nil h2
        simp only [List.map_cons] at h4 ⊢
        have hlone : loneAmp (endNl (hunkStart tab li omp acc ++ (h ++ s "&"))) = false := by
          obtain ⟨c, hc1, hc2⟩ := hunkStart_mem (tab := tab) (li := li) (omp := omp) (acc := acc)
            (h := h) (by
              intro hlf
              obtain ⟨c, r', e1, e2, _⟩ := hhead h r hxe hh [] hlf
              exact ⟨c, by rw [List.append_nil] at e1; rw [e1]; simp, e2⟩)
          rw [hend2]
          have : hunkStart tab li omp acc ++ (h ++ (s "&" ++ ['\n']))
              = (hunkStart tab li omp acc ++ h) ++ '&' :: ['\n'] := by simp [s]
          rw [this]
          exact loneAmp_false hc2 hc1
        rw [joinRest, hlone, hcont, h4]
        · simp
        · simp
      · intro hlt l g
        rw [hp0 hlt, List.nil_append, hxe]
        exact key l g
      · intro hlf l
        have hst0 : st = none := (hli hlf).1
        subst hst0
        rw [List.append_assoc, normT_spaces pad _ hps, Bool.true_or, hxe]
        exact key l true
    | @outside h w r hxe hw hl hsth hr hhd hap =>
      have hne := hhne h w r hxe hw hsth hlen2
      have hxe' : x = h ++ (w ++ r) := by rw [hxe]; simp
      have hcl2 := hcl
      rw [hxe, clean_append] at hcl2
      have hsh2 := hsh
      rw [hxe] at hsh2
      have ehw : afterQ st (h ++ w) = none := by
        rw [afterQ_append, hsth, afterQ_spaces q0 w hw]
      have epre : afterQ none (pre ++ (h ++ w)) = none := by rw [afterQ_append, hst, ehw]
      have hsh3 := ShortRuns_suffix hsh2
      rw [ehw] at hsh3
      obtain ⟨ls, T, h1, h2, h3, h4, _, h6⟩ := ih r (pre ++ (h ++ w)) false
        (by rw [hL, hxe]; simp)
        (by omega) hr (by intro _; exact ⟨epre, hhd⟩) (by simp)
        (by rw [epre]; rw [ehw] at hcl2; exact hcl2.2)
        (by rw [epre]; exact hsh3)
      rw [h1]
      obtain ⟨pad, hpad, hps, hp0⟩ := continuation_start tab li omp acc (h ++ (s " &" ++ ['\n']))
        (hhead h (w ++ r) hxe' hne _)
      have hend2 : endNl (hunkStart tab li omp acc ++ (h ++ s " &"))
          = hunkStart tab li omp acc ++ (h ++ (s " &" ++ ['\n'])) := by
        have : hunkStart tab li omp acc ++ (h ++ s " &")
            = (hunkStart tab li omp acc ++ h ++ [' ']) ++ ['&'] := by simp [s]
        rw [this, endNl_snoc _ _ (by decide)]
        simp [s]
      have hcont : continued (continuation (endNl (hunkStart tab li omp acc ++ (h ++ s " &"))))
          = some (pad ++ (h ++ s " ")) := by
        rw [hend2, hpad]
        have : pad ++ (h ++ (s " &" ++ ['\n'])) = (pad ++ (h ++ s " ")) ++ ['&'] ++ ['\n'] := by
          simp [s]
        rw [this]
        exact continued_amp _ _ nl_space
      have key : ∀ l g, normT (st, l, g) (h ++ s " " ++ T) = normT (st, l, g) (h ++ w ++ r) := by
        intro l g
        exact normT_outside hq hw hl hsth hr hhd hap l g (fun h0 => absurd h0 hne) (h6 rfl)
      refine ⟨_, pad ++ (h ++ s " ") ++ T, rfl, by simp, ?_, ?_, ?_, ?_⟩
      · intro l hl
        rcases List.mem_cons.1 hl with rfl | hl
        · exact hline
        · exact h3 l hl
      · obtain ⟨l1, ls', rfl⟩ := List.exists_cons_of_ne_nil h2
        simp only [List.map_cons] at h4 ⊢
        have hlone : loneAmp (endNl (hunkStart tab li omp acc ++ (h ++ s " &"))) = false := by
          obtain ⟨c, hc1, hc2⟩ := hunkStart_mem (tab := tab) (li := li) (omp := omp) (acc := acc)
            (h := h) (by
              intro hlf
              obtain ⟨c, r', e1, e2, _⟩ := hhead h (w ++ r) hxe' hne [] hlf
              exact ⟨c, by rw [List.append_nil] at e1; rw [e1]; simp, e2⟩)
          rw [hend2]
          have : hunkStart tab li omp acc ++ (h ++ (s " &" ++ ['\n']))
              = (hunkStart tab li omp acc ++ h ++ [' ']) ++ '&' :: ['\n'] := by simp [s]
          rw [this]
          exact loneAmp_false (u := hunkStart tab li omp acc ++ h ++ [' ']) hc2 (List.mem_append.2 (.inl hc1))
        rw [joinRest, hlone, hcont, h4]
        · simp
        · simp
      · intro hlt l g
        rw [hp0 hlt, List.nil_append, hxe]
        exact key l g
      · intro hlf l
        have hst0 : st = none := (hli hlf).1
        subst hst0
        rw [List.append_assoc, normT_spaces pad _ hps, Bool.true_or, hxe]
        exact key l true

theorem ShortRuns_mono {n m : Nat} {st : Option Char} {x : Str} (hn : 1 ≤ n) (hm : n ≤ m)
    (h : ShortRuns n st x) : ShortRuns m st x := by
  intro a w c b hx hl hc
  have e : w.take (m - n) ++ w.drop (m - n) = w := List.take_append_drop _ _
  have := h (a ++ w.take (m - n)) (w.drop (m - n)) c b
    (by rw [hx]; conv => lhs; rw [← e]
        simp only [List.append_assoc])
    (by rw [List.length_drop]; omega)
    (hc.imp
      (fun h d hd => h d (by
        rcases List.mem_append.1 hd with hd | hd
        · exact List.mem_append.2 (.inl (List.mem_of_mem_drop hd))
        · exact List.mem_append.2 (.inr hd)))
      (fun h d hd => h d (by
        rcases List.mem_append.1 hd with hd | hd
        · exact List.mem_append.2 (.inl (List.mem_of_mem_drop hd))
        · exact List.mem_append.2 (.inr hd))))
  rw [List.append_assoc, e] at this
  exact this

/-- Between the position found and the end of the room there is no place to cut. -/
theorem scan_max (x : Str) (e : Nat) : ∀ (n p : Nat), p ≤ e → ∀ q : Nat, scan x e n p = .ok q →
    ∀ i, q < i → i ≤ p → ∀ a b, x[i]? = some a → x[i - 1]? = some b → boundary a b = false := by
  intro n
  induction n with
  | zero => intro p _ q h; simp [scan] at h
  | succ n ih =>
    intro p hp q h i hi1 hi2 a b ha hb
    rw [scan] at h
    by_cases p0 : p = 0
    · omega
    have g1 : pyGet x (p : Int) = x[p]? := by simp [pyGet]
    have g2 : pyGet x ((p : Int) - 1) = x[p - 1]? := by
      have e1 : (0 : Int) ≤ (p : Int) - 1 := by omega
      have e2 : ((p : Int) - 1).toNat = p - 1 := by omega
      rw [pyGet, if_pos e1, e2]
    rw [g1, g2] at h
    cases h1 : x[p]? with
    | none => rw [h1] at h; simp at h
    | some c =>
      cases h2 : x[p - 1]? with
      | none => rw [h1, h2] at h; simp at h
      | some d =>
        rw [h1, h2] at h
        dsimp only at h
        by_cases hb2 : boundary c d = true
        · rw [if_pos hb2] at h
          have : (p : Int) = q := by injection h
          omega
        · rw [if_neg hb2] at h
          by_cases hp1 : (p : Int) - 1 = 0
          · rw [if_pos hp1] at h
            have : (e : Int) = q := by injection h
            omega
          · rw [if_neg hp1, (by omega : (p : Int) - 1 = ((p - 1 : Nat) : Int))] at h
            by_cases hip : i = p
            · subst hip
              rw [h1] at ha; rw [h2] at hb
              cases ha; cases hb
              simpa using hb2
            · exact ih (p - 1) (by omega) q h i hi1 (by omega) a b ha hb

theorem splitPos_max (x : Str) (e : Nat) (he : e < x.length) (q : Nat) (h : splitPos x e = .ok q) :
    ∀ i, q < i → i ≤ e → ∀ a b, x[i]? = some a → x[i - 1]? = some b → boundary a b = false := by
  rw [splitPos, if_neg (by omega)] at h
  exact scan_max x e _ e (Nat.le_refl _) q h

/-- The last character of the statement is no ampersand. -/
theorem last_ne_amp' {P B h w : Str} {d : Char} (hL : P ++ B = h ++ [d] ++ w) (hP : '&' ∉ P)
    (hPs : afterQ none P = none) (hcl : clean none B) (he : afterQ none (h ++ [d]) = none) :
    d ≠ '&' := by
  rcases List.append_eq_append_iff.1 hL with ⟨t, h1, h2⟩ | ⟨t, h1, h2⟩
  · rcases List.eq_nil_or_concat t with rfl | ⟨t', e, rfl⟩
    · rw [List.append_nil] at h1
      rintro rfl
      exact hP (by rw [← h1]; simp)
    · rw [List.concat_eq_append] at h1 h2
      rw [← List.append_assoc] at h1
      have hh := List.append_inj' h1 rfl
      have hd : d = e := by simpa using hh.2
      subst hd
      have q0 : QOk none := by intro q h; cases h
      rw [h2, clean_append] at hcl
      rw [h1, List.append_assoc, afterQ_append, hPs] at he
      exact last_ne_amp q0 hcl.1 he
  · rintro rfl
    exact hP (by rw [h1]; simp)

theorem wrapRest_nil (mask : List Bool) (total tab : Nat) (omp acc : Bool) (n : Nat) (li : Bool)
    (hn : 0 < n) : wrapRest mask total tab omp acc n li [] = .ok [] := by
  cases n with
  | zero => omega
  | succ n => simp [wrapRest]

/-- One line: `P` is the blanks in front, with the sentinel of a directive. -/
theorem wrapLine_core (n : Nat) (L lead P B st0 : Str) (c : Char) (hn : L.length < n)
    (hlong : 72 < L.length) (hL : L = P ++ B) (hL' : L = lead ++ c :: st0)
    (hls : ∀ c ∈ lead, isSpace c = true) (hc : isSpace c = false) (hlead : lead.length ≤ 64)
    (hPamp : '&' ∉ P) (hPs : afterQ none P = none) (hcl : clean none B)
    (hclosed : afterQ none L = none) (hsh : ShortRuns (65 - lead.length + 1) none L)
    (hcom : isComment (trimL (L.take 72)) = false)
    (hpos : ∀ q : Nat, splitPos L 72 = .ok q → lead.length < q ∧ P.length ≤ q ∧
      (((s "!$omp").isPrefixOf (trimL (L.take 72)) || (s "!$acc").isPrefixOf (trimL (L.take 72))) = true →
        5 ≤ q)) :
    ∃ ls T, wrapLine n L = .ok ls ∧ (∀ l ∈ ls, l.length ≤ 74) ∧
      joinLines (ls.map endNl) = some T ∧ normT (none, none, false) T = normT (none, none, false) L := by
  have q0 : QOk none := by intro q h; cases h
  have htake : L.take 72 = lead ++ (c :: st0).take (72 - lead.length) := by
    rw [hL', List.take_append, List.take_of_length_le (by omega)]
  have hcline : trimL (L.take 72) = (c :: st0).take (72 - lead.length) := by
    rw [htake, trimL_of_spaces _ _ hls]
    apply trimL_self
    intro d hd
    rw [List.head?_take, if_neg (by omega)] at hd
    cases hd
    exact hc
  have hclen : (trimL (L.take 72)).length = 72 - lead.length := by
    rw [hcline, List.length_take]
    have : L.length = lead.length + (c :: st0).length := by rw [hL']; simp
    omega
  have hcne : trimL (L.take 72) ≠ [] := by
    intro h; rw [h] at hclen; simp at hclen; omega
  have htab : 72 - (trimL (L.take 72)).length = lead.length := by omega
  have hx : L ≠ [] := by intro h; rw [h] at hlong; simp at hlong
  obtain ⟨q, hsp, hcut⟩ := cut_spec (e := 72) q0 (by omega) hclosed
    (ShortRuns_mono (by omega) (by omega) hsh) hx
  have hsp' : splitPos L 72 = .ok (q : Int) := hsp
  obtain ⟨hq1, hq2, hq3⟩ := hpos q hsp'
  have hmask : inQuotes (quoteMask none L) (q : Int)
      = ((L[q]?).map fun c => (afterQ none (L.take q)).isSome || isQuote c).getD false := by
    rw [inQuotes]
    simp only [Int.natCast_nonneg, decide_true, Int.toNat_natCast, Bool.true_and]
    rw [quoteMask_get L none hclosed]
  obtain ⟨hC, hlen1, hlen2, hlen3⟩ := hcut _ hmask
  rw [wrapLine, if_neg (by omega)]
  dsimp only
  rw [hcom, if_neg (by simp), if_neg hcne, hsp', htab]
  dsimp only
  rw [if_neg (by
    intro h
    rw [Bool.and_eq_true, decide_eq_true_eq] at h
    have := hq3 h.1
    omega)]
  generalize (s "!$omp").isPrefixOf (trimL (L.take 72)) = omp
  generalize (s "!$acc").isPrefixOf (trimL (L.take 72)) = acc
  generalize inQuotes (quoteMask none L) (q : Int) = ins at *
  generalize cutAt ins L (q : Int) = cu at *
  obtain ⟨hunk, r⟩ := cu
  dsimp only at hC hlen1 hlen2 hlen3 ⊢
  -- the first character of the statement is in the part before the rest
  have hcmem : ∀ k, L = k ++ r → c ∈ k := by
    intro k hk
    have h1 : lead.length < k.length := by
      have := congrArg List.length hk
      rw [List.length_append] at this
      omega
    rw [hL'] at hk
    rcases List.append_eq_append_iff.1 hk with ⟨t, h2, h3⟩ | ⟨t, h2, h3⟩
    · cases t with
      | nil => rw [List.append_nil] at h2; rw [h2] at h1; omega
      | cons d t =>
        rw [List.cons_append, List.cons.injEq] at h3
        rw [h2, ← h3.1]; simp
    · rw [h2, List.length_append] at h1; omega
  have hclr : ∀ k, L = k ++ r → clean (afterQ none k) r := by
    intro k hk
    have h1 : P.length ≤ k.length := by
      have := congrArg List.length hk
      rw [List.length_append] at this
      omega
    have hk' := hk
    rw [hL] at hk'
    rcases List.append_eq_append_iff.1 hk' with ⟨t, h2, h3⟩ | ⟨t, h2, h3⟩
    · rw [h3, clean_append] at hcl
      rw [h2, afterQ_append, hPs]
      exact hcl.2
    · have : t = [] := by
        rw [h2, List.length_append] at h1
        exact List.length_eq_zero_iff.1 (by omega)
      subst this
      rw [List.append_nil] at h2
      rw [List.nil_append] at h3
      rw [← h2, hPs, h3]
      exact hcl
  have hshr : ∀ k, L = k ++ r → ShortRuns (65 - lead.length + 1) (afterQ none k) r := by
    intro k hk
    rw [hk] at hsh
    exact ShortRuns_suffix hsh
  cases hC with
  | @last _ w hxe hw hl hsth =>
    rw [wrapRest_nil _ _ _ _ _ _ _ (by omega)]
    have hcm : c ∈ hunk := by
      rcases List.mem_append.1 (hcmem (hunk ++ w) (by rw [List.append_nil]; exact hxe)) with h | h
      · exact h
      · rw [hw c h] at hc; exact absurd hc (by simp)
    obtain ⟨h', d, hhd⟩ := (List.eq_nil_or_concat hunk).resolve_left (by rintro rfl; simp at hcm)
    rw [List.concat_eq_append] at hhd
    have hds : isSpace d = false := hl d (by rw [hhd]; simp)
    have hda : d ≠ '&' := last_ne_amp' (P := P) (B := B) (h := h') (w := w)
      (by rw [← hL, hxe, hhd]) hPamp hPs hcl (by rw [← hhd]; exact hsth)
    refine ⟨_, hunk ++ ['\n'], rfl, by simpa using hlen1, ?_, ?_⟩
    · have e : endNl hunk = h' ++ [d] ++ ['\n'] := by rw [hhd]; exact endNl_snoc _ _ (ne_nl_of hds)
      simp only [List.map_cons, List.map_nil, joinLines]
      rw [e, continued_none hda hds nl_space, if_neg (by simp), hhd]
    · rw [normT_trailing q0 hunk _ nl_space hsth, hxe, normT_trailing q0 hunk w hw hsth]
  | @inside h r hxe hh hr hin =>
    obtain ⟨ls, T, h1, h2, h3, h4, h5, _⟩ := wrapRest_join L lead.length hlead omp acc hclosed n r h
      true hxe (by omega) hr (by simp) (fun _ => hin) (hclr h hxe) (hshr h hxe)
    rw [h1]
    refine ⟨_, h ++ T, rfl, ?_, ?_, ?_⟩
    · intro l hl
      rcases List.mem_cons.1 hl with rfl | hl
      · exact hlen1
      · exact h3 l hl
    · obtain ⟨l1, ls', rfl⟩ := List.exists_cons_of_ne_nil h2
      have e : endNl (h ++ s "&") = h ++ ['&'] ++ ['\n'] := endNl_snoc h '&' (by decide)
      have hlone : loneAmp (h ++ ['&'] ++ ['\n']) = false := by
        rw [List.append_assoc]
        exact loneAmp_false hc (hcmem h hxe)
      simp only [List.map_cons] at h4 ⊢
      rw [joinLines, e, hlone, continued_amp h _ nl_space, h4]
      · simp
      · simp
    · rw [hxe, normT_append, normT_append h r]
      have e1 := adv_fst h none q0 none false
      generalize h.foldl adv (none, none, false) = t0 at *
      obtain ⟨a, b, c⟩ := t0
      cases e1
      exact congrArg _ (h5 rfl b c)
  | @outside h w r hxe hw hl hsth hr hhd hap =>
    have ehw : afterQ none (h ++ w) = none := by
      rw [afterQ_append, hsth, afterQ_spaces q0 w hw]
    have hcm : c ∈ h := by
      rcases List.mem_append.1 (hcmem (h ++ w) hxe) with h | h
      · exact h
      · rw [hw c h] at hc; exact absurd hc (by simp)
    obtain ⟨ls, T, h1, h2, h3, h4, _, h6⟩ := wrapRest_join L lead.length hlead omp acc hclosed n r
      (h ++ w) false hxe (by omega) hr (fun _ => ⟨ehw, hhd⟩) (by simp) (hclr _ hxe) (hshr _ hxe)
    rw [h1]
    refine ⟨_, h ++ s " " ++ T, rfl, ?_, ?_, ?_⟩
    · intro l hl
      rcases List.mem_cons.1 hl with rfl | hl
      · exact hlen1
      · exact h3 l hl
    · obtain ⟨l1, ls', rfl⟩ := List.exists_cons_of_ne_nil h2
      have e : endNl (h ++ s " &") = (h ++ s " ") ++ ['&'] ++ ['\n'] := by
        have : h ++ s " &" = (h ++ s " ") ++ ['&'] := by simp [s]
        rw [this]
        exact endNl_snoc _ '&' (by decide)
      have hlone : loneAmp ((h ++ s " ") ++ ['&'] ++ ['\n']) = false := by
        rw [List.append_assoc]
        exact loneAmp_false hc (List.mem_append.2 (.inl hcm))
      simp only [List.map_cons] at h4 ⊢
      rw [joinLines, e, hlone, continued_amp _ _ nl_space, h4]
      · simp
      · simp
    · rw [hxe]
      exact normT_outside q0 hw hl hsth hr hhd hap none false (fun _ => Or.inl rfl) (h6 rfl)

theorem endNl_cases (L : Str) : ∃ v, endNl L = L ++ v ∧ ∀ c ∈ v, isSpace c = true := by
  unfold endNl
  split
  · exact ⟨[], by simp, by simp⟩
  · exact ⟨['\n'], rfl, nl_space⟩

/-- A line that is short enough. -/
theorem wrapLine_short (n : Nat) (L P B : Str) (c : Char) (hshort : L.length ≤ 72) (hL : L = P ++ B)
    (hcL : c ∈ L) (hc : isSpace c = false)
    (hPamp : '&' ∉ P) (hPs : afterQ none P = none) (hcl : clean none B)
    (hclosed : afterQ none L = none) :
    ∃ ls T, wrapLine n L = .ok ls ∧ (∀ l ∈ ls, l.length ≤ 74) ∧
      joinLines (ls.map endNl) = some T ∧ normT (none, none, false) T = normT (none, none, false) L := by
  have q0 : QOk none := by intro q h; cases h
  obtain ⟨w, h1, h2⟩ := trimR_split L
  have hcm : c ∈ trimR L := by
    rw [h1] at hcL
    rcases List.mem_append.1 hcL with h | h
    · exact h
    · rw [h2 c h] at hc; exact absurd hc (by simp)
  have hsth : afterQ none (trimR L) = none := by
    have h3 := hclosed
    rw [h1, afterQ_append, afterQ_spaces (q0.after _) w h2] at h3
    exact h3
  have hl := trimR_last L
  generalize trimR L = h at *
  obtain ⟨h', d, hhd⟩ := (List.eq_nil_or_concat h).resolve_left (by rintro rfl; simp at hcm)
  rw [List.concat_eq_append] at hhd
  have hds : isSpace d = false := hl d (by rw [hhd]; simp)
  have hda : d ≠ '&' := last_ne_amp' (P := P) (B := B) (h := h') (w := w)
    (by rw [← hL, h1, hhd]) hPamp hPs hcl (by rw [← hhd]; exact hsth)
  obtain ⟨v, hv1, hv2⟩ := endNl_cases L
  refine ⟨[L], endNl L, by rw [wrapLine, if_pos hshort], by simpa using by omega, ?_, ?_⟩
  · simp only [List.map_cons, List.map_nil, joinLines]
    have e : endNl L = h' ++ [d] ++ (w ++ v) := by rw [hv1, h1, hhd]; simp
    rw [e, continued_none hda hds (by
      intro c hc
      rcases List.mem_append.1 hc with h | h
      · exact h2 c h
      · exact hv2 c h), if_neg (by simp)]
  · rw [hv1]
    exact normT_trailing q0 L v hv2 hclosed none false

theorem isWord_quote {c : Char} (h : isWord c = true) : isQuote c = false := by
  cases hq : isQuote c with
  | false => rfl
  | true =>
    rw [isQuote, Bool.or_eq_true, beq_iff_eq, beq_iff_eq] at hq
    rcases hq with rfl | rfl <;> exact absurd h (by decide)

theorem isWord_space {c : Char} (h : isWord c = true) : isSpace c = false := by
  cases hs : isSpace c with
  | false => rfl
  | true =>
    exfalso
    have e : c = Char.ofNat c.toNat := (Char.ofNat_toNat c).symm
    unfold isSpace at hs
    rw [List.contains_iff_mem] at hs
    generalize c.toNat = k at *
    subst e
    have : ∀ k ∈ [9, 10, 11, 12, 13, 28, 29, 30, 31, 32, 0x85, 0xa0, 0x1680, 0x2000, 0x2001, 0x2002,
      0x2003, 0x2004, 0x2005, 0x2006, 0x2007, 0x2008, 0x2009, 0x200a, 0x2028, 0x2029, 0x202f, 0x205f,
      0x3000], isWord (Char.ofNat k) = false := by decide
    rw [this k hs] at h
    exact absurd h (by simp)

theorem afterQ_words {w : Str} (h : ∀ c ∈ w, isWord c = true) : afterQ none w = none := by
  induction w with
  | nil => rfl
  | cons c w ih =>
    have e : afterQ none (c :: w) = afterQ (nextQ none c) w := rfl
    rw [e]
    have : nextQ none c = none := by simp [nextQ, isWord_quote (h c (by simp))]
    rw [this]
    exact ih fun d hd => h d (by simp [hd])

theorem words_run {x : Str} {a e : Nat} (he : e < x.length)
    (h : ∀ i, a < i → i ≤ e → ∀ c d, x[i]? = some c → x[i - 1]? = some d → boundary c d = false)
    (ha : ∀ c, x[a]? = some c → isWord c = true) :
    ∀ k, a + k ≤ e → ∀ c, x[a + k]? = some c → isWord c = true := by
  intro k
  induction k with
  | zero => intro _ c hc; exact ha c hc
  | succ k ih =>
    intro hk c hc
    have h1 : x[a + k]? = some x[a + k] := List.getElem?_eq_getElem (by omega)
    have h2 := ih (by omega) _ h1
    have h3 := boundary_comm_false (h (a + (k + 1)) (by omega) hk c x[a + k] hc
      (by rw [← h1]; rfl))
    rw [← myAlnum_eq] at h2 ⊢
    rw [h3.1, h2]

/-- A statement: it begins with a letter. -/
theorem wrapLine_stmt (n : Nat) (lead st0 : Str) (c : Char) (hn : (lead ++ c :: st0).length < n)
    (hls : ∀ c ∈ lead, isSpace c = true) (hc : isWord c = true) (hlead : lead.length ≤ 64)
    (hcl : clean none (c :: st0)) (hclosed : afterQ none (lead ++ c :: st0) = none)
    (hsh : ShortRuns (65 - lead.length + 1) none (lead ++ c :: st0)) :
    ∃ ls T, wrapLine n (lead ++ c :: st0) = .ok ls ∧ (∀ l ∈ ls, l.length ≤ 74) ∧
      joinLines (ls.map endNl) = some T ∧
      normT (none, none, false) T = normT (none, none, false) (lead ++ c :: st0) := by
  have q0 : QOk none := by intro q h; cases h
  have hcs : isSpace c = false := isWord_space hc
  have hPamp : '&' ∉ lead := by intro h; exact absurd (hls _ h) (by decide)
  have hPs : afterQ none lead = none := afterQ_spaces q0 lead hls
  by_cases hlong : (lead ++ c :: st0).length ≤ 72
  · exact wrapLine_short n _ lead (c :: st0) c hlong rfl (by simp) hcs hPamp hPs hcl hclosed
  have hLl : (lead ++ c :: st0).length = lead.length + (st0.length + 1) := by simp
  have htrim : trimL ((lead ++ c :: st0).take 72) = c :: st0.take (71 - lead.length) := by
    rw [List.take_append, List.take_of_length_le (by omega), trimL_of_spaces _ _ hls]
    have : 72 - lead.length = (71 - lead.length) + 1 := by omega
    rw [this, List.take_succ_cons]
    exact trimL_self (by intro d hd; cases hd; exact hcs)
  have hce : ∀ y : Str, (('!' :: y).isPrefixOf (trimL ((lead ++ c :: st0).take 72))) = false := by
    intro y
    rw [htrim]
    have : ('!' == c) = false := by
      rw [beq_eq_false_iff_ne]
      rintro rfl
      exact absurd hc (by decide)
    simp [List.isPrefixOf, this]
  refine wrapLine_core n _ lead lead (c :: st0) st0 c hn (by omega) rfl rfl hls hcs hlead hPamp hPs
    hcl hclosed hsh ?_ ?_
  · have : (s "!").isPrefixOf (trimL ((lead ++ c :: st0).take 72)) = false := hce []
    rw [isComment, this]; rfl
  · intro q hq
    have h1 : (s "!$omp").isPrefixOf (trimL ((lead ++ c :: st0).take 72)) = false :=
      hce ['$', 'o', 'm', 'p']
    have h2 : (s "!$acc").isPrefixOf (trimL ((lead ++ c :: st0).take 72)) = false :=
      hce ['$', 'a', 'c', 'c']
    rw [h1, h2]
    suffices h : lead.length < q from ⟨h, by omega, by simp⟩
    by_cases h : lead.length < q
    · exact h
    exfalso
    have hmax := splitPos_max _ 72 (by omega) q hq
    have hrun := words_run (x := lead ++ c :: st0) (a := lead.length) (e := 72) (by omega)
      (fun i hi1 hi2 => hmax i (by omega) hi2) (by
        intro d hd
        rw [List.getElem?_append_right (by omega), Nat.sub_self] at hd
        cases hd; exact hc)
    -- the run is too long
    have hwl : ∀ d ∈ (c :: st0).take (66 - lead.length), isWord d = true := by
      intro d hd
      obtain ⟨i, hi, rfl⟩ := List.getElem_of_mem hd
      rw [List.length_take] at hi
      apply hrun i (by omega)
      rw [List.getElem?_append_right (by omega), List.getElem_take, Nat.add_sub_cancel_left]
      exact List.getElem?_eq_getElem _
    have hlen : ((c :: st0).take (66 - lead.length)).length = 66 - lead.length := by
      rw [List.length_take, List.length_cons]; omega
    obtain ⟨w, d, hwd⟩ := (List.eq_nil_or_concat ((c :: st0).take (66 - lead.length))).resolve_left
      (by intro h; rw [h] at hlen; simp at hlen; omega)
    rw [List.concat_eq_append] at hwd
    rw [hwd] at hwl hlen
    have := hsh lead w d ((c :: st0).drop (66 - lead.length))
      (by rw [← hwd, List.append_assoc, List.take_append_drop])
      (by rw [List.length_append] at hlen; simp at hlen; omega) (.inl hwl)
    rcases this with h | h
    · apply h
      rw [afterQ_append, hPs]
      exact afterQ_words fun c hc => hwl c (List.mem_append.2 (.inl hc))
    · rw [isWord_quote (hwl d (by simp))] at h
      exact absurd h (by simp)

/-- A directive. -/
theorem wrapLine_directive (n : Nat) (lead tag st0 : Str)
    (htag : tag = s "!$omp" ∨ tag = s "!$acc") (hn : (lead ++ (tag ++ ' ' :: st0)).length < n)
    (hls : ∀ c ∈ lead, isSpace c = true) (hlead : lead.length ≤ 64)
    (hcl : clean none st0) (hclosed : afterQ none st0 = none)
    (hsh : ShortRuns (65 - lead.length + 1) none (lead ++ (tag ++ ' ' :: st0))) :
    ∃ ls T, wrapLine n (lead ++ (tag ++ ' ' :: st0)) = .ok ls ∧ (∀ l ∈ ls, l.length ≤ 74) ∧
      joinLines (ls.map endNl) = some T ∧
      normT (none, none, false) T = normT (none, none, false) (lead ++ (tag ++ ' ' :: st0)) := by
  have q0 : QOk none := by intro q h; cases h
  have hts : ∃ u v w, tag = ['!', '$', u, v, w] ∧ afterQ none tag = none ∧ '&' ∉ tag ∧
      boundary ' ' w = true := by
    rcases htag with rfl | rfl
    · exact ⟨'o', 'm', 'p', rfl, by decide, by decide, by decide⟩
    · exact ⟨'a', 'c', 'c', rfl, by decide, by decide, by decide⟩
  obtain ⟨u, v, w, htg, htq, hta, hb⟩ := hts
  have hPamp : '&' ∉ lead ++ tag := by
    rw [List.mem_append]
    rintro (h | h)
    · exact absurd (hls _ h) (by decide)
    · exact hta h
  have hPs : afterQ none (lead ++ tag) = none := by
    rw [afterQ_append, afterQ_spaces q0 lead hls]; exact htq
  have hsp : nextQ none ' ' = none := by decide
  have hcl' : clean none (' ' :: st0) := ⟨by decide, by decide, hcl⟩
  have hclosed' : afterQ none (lead ++ (tag ++ ' ' :: st0)) = none := by
    rw [← List.append_assoc, afterQ_append, hPs]
    have e : afterQ none (' ' :: st0) = afterQ (nextQ none ' ') st0 := rfl
    rw [e, hsp]; exact hclosed
  have hLe : lead ++ (tag ++ ' ' :: st0) = (lead ++ tag) ++ (' ' :: st0) := by simp
  have hLe' : lead ++ (tag ++ ' ' :: st0) = lead ++ '!' :: ('$' :: u :: v :: w :: ' ' :: st0) := by
    rw [htg]; simp
  by_cases hlong : (lead ++ (tag ++ ' ' :: st0)).length ≤ 72
  · exact wrapLine_short n _ (lead ++ tag) (' ' :: st0) '!' hlong hLe
      (by rw [hLe']; simp) (by decide) hPamp hPs hcl' hclosed'
  have htrim : trimL ((lead ++ (tag ++ ' ' :: st0)).take 72)
      = '!' :: '$' :: (u :: v :: w :: ' ' :: st0).take (70 - lead.length) := by
    rw [hLe', List.take_append, List.take_of_length_le (by omega), trimL_of_spaces _ _ hls]
    have : 72 - lead.length = (70 - lead.length) + 1 + 1 := by omega
    rw [this, List.take_succ_cons, List.take_succ_cons]
    exact trimL_self (by intro d hd; cases hd; decide)
  refine wrapLine_core n _ lead (lead ++ tag) (' ' :: st0) _ '!' hn (by omega) hLe hLe' hls
    (by decide) hlead hPamp hPs hcl' hclosed' hsh ?_ ?_
  · rw [htrim, isComment]
    have : (s "!$").isPrefixOf ('!' :: '$' :: (u :: v :: w :: ' ' :: st0).take (70 - lead.length))
        = true := rfl
    rw [this]; simp
  · intro q hq
    have htl : tag.length = 5 := by rw [htg]; rfl
    have hlen : (lead ++ tag).length = lead.length + 5 := by rw [List.length_append, htl]
    suffices h : lead.length + 5 ≤ q from ⟨by omega, by omega, fun _ => by omega⟩
    by_cases h : lead.length + 5 ≤ q
    · exact h
    exfalso
    have hmax := splitPos_max _ 72 (by omega) q hq (lead.length + 5) (by omega) (by omega) ' ' w ?_ ?_
    · rw [hb] at hmax; exact absurd hmax (by simp)
    · rw [hLe', List.getElem?_append_right (by omega), Nat.add_sub_cancel_left]; rfl
    · rw [hLe', List.getElem?_append_right (by omega)]
      have : lead.length + 5 - 1 - lead.length = 4 := by omega
      rw [this]; rfl

end Verif.Text
