import Verif.Text.Model
/-! Long Fortran lines. -/

namespace Verif.Text

open Verif.Text.Spec (Str s isSpace trimL trimR continued continuation joinRest joinLines isQuote
  nextQ afterQ isWord isParen apart norm clean ShortRuns)

/-! ### White space -/

theorem isSpace_quote {q : Char} (h : isQuote q = true) : isSpace q = false := by
  simp only [isQuote, Bool.or_eq_true, beq_iff_eq] at h
  rcases h with rfl | rfl <;> decide

theorem quote_ne_space {c q : Char} (h : isQuote q = true) (hc : isSpace c = true) : c ≠ q := by
  rintro rfl
  rw [isSpace_quote h] at hc
  exact absurd hc (by simp)

theorem trimL_split (x : Str) : ∃ w, x = w ++ trimL x ∧ ∀ c ∈ w, isSpace c = true := by
  induction x with
  | nil => exact ⟨[], rfl, by simp⟩
  | cons c r ih =>
    simp only [trimL, List.dropWhile_cons]
    split
    · rename_i h
      obtain ⟨w, h1, h2⟩ := ih
      refine ⟨c :: w, by rw [List.cons_append]; congr 1, ?_⟩
      intro d hd
      rcases List.mem_cons.1 hd with rfl | hd
      · exact h
      · exact h2 d hd
    · exact ⟨[], rfl, by simp⟩

theorem trimL_head (x : Str) : ∀ c, (trimL x).head? = some c → isSpace c = false := by
  induction x with
  | nil => intro c h; simp [trimL] at h
  | cons d r ih =>
    intro c h
    simp only [trimL, List.dropWhile_cons] at h
    split at h
    · exact ih c h
    · rename_i hd
      simp at h
      subst h
      simpa using hd

theorem trimL_of_spaces (w x : Str) (h : ∀ c ∈ w, isSpace c = true) : trimL (w ++ x) = trimL x := by
  induction w with
  | nil => rfl
  | cons c w ih =>
    simp only [trimL, List.cons_append, List.dropWhile_cons, h c (by simp), if_true]
    exact ih fun d hd => h d (by simp [hd])

theorem trimL_self {x : Str} (h : ∀ c, x.head? = some c → isSpace c = false) : trimL x = x := by
  cases x with
  | nil => rfl
  | cons c r => simp [trimL, List.dropWhile_cons, h c rfl]

theorem trimR_split (x : Str) : ∃ w, x = trimR x ++ w ∧ ∀ c ∈ w, isSpace c = true := by
  obtain ⟨w, h1, h2⟩ := trimL_split x.reverse
  refine ⟨w.reverse, ?_, fun c hc => h2 c (by simpa using hc)⟩
  have := congrArg List.reverse h1
  rw [List.reverse_reverse, List.reverse_append] at this
  exact this

theorem trimR_last (x : Str) : ∀ c, (trimR x).getLast? = some c → isSpace c = false := by
  intro c h
  rw [trimR, List.getLast?_reverse] at h
  exact trimL_head x.reverse c h

theorem trimR_snoc {x : Str} {c : Char} (h : isSpace c = false) : trimR (x ++ [c]) = x ++ [c] := by
  simp [trimR, List.dropWhile_cons, h]

theorem trimR_spaces {x w : Str} (h : ∀ c ∈ w, isSpace c = true) : trimR (x ++ w) = trimR x := by
  have := trimL_of_spaces w.reverse x.reverse (fun c hc => h c (by simpa using hc))
  rw [trimR, List.reverse_append]
  show (trimL (w.reverse ++ x.reverse)).reverse = _
  rw [this]; rfl

/-! ### Where literals are -/

/-- The delimiter of the current literal is a quote. -/
def QOk (st : Option Char) : Prop := ∀ q, st = some q → isQuote q = true

theorem QOk.next {st : Option Char} (h : QOk st) (c : Char) : QOk (nextQ st c) := by
  intro q hq
  cases st with
  | none =>
    simp only [nextQ] at hq
    split at hq
    · cases hq; assumption
    · cases hq
  | some p =>
    simp only [nextQ] at hq
    split at hq
    · cases hq
    · cases hq; exact h _ rfl

theorem QOk.after {st : Option Char} (h : QOk st) (x : Str) : QOk (afterQ st x) := by
  induction x generalizing st with
  | nil => exact h
  | cons c r ih => exact ih (h.next c)

theorem afterQ_append (st : Option Char) (x y : Str) :
    afterQ st (x ++ y) = afterQ (afterQ st x) y := by
  simp [afterQ]

theorem afterQ_spaces {st : Option Char} (h : QOk st) (w : Str) (hw : ∀ c ∈ w, isSpace c = true) :
    afterQ st w = st := by
  induction w with
  | nil => rfl
  | cons c w ih =>
    have hc := hw c (by simp)
    have e : nextQ st c = st := by
      cases st with
      | none =>
        have : isQuote c = false := by
          cases hq : isQuote c with
          | false => rfl
          | true => rw [isSpace_quote hq] at hc; exact absurd hc (by simp)
        simp [nextQ, this]
      | some q =>
        have := quote_ne_space (h q rfl) hc
        simp [nextQ, this]
    show afterQ (nextQ st c) w = st
    rw [e]
    exact ih fun d hd => hw d (by simp [hd])

theorem mem_of_closes {q : Char} {x : Str} (h : afterQ (some q) x = none) : q ∈ x := by
  induction x with
  | nil => simp [afterQ] at h
  | cons c r ih =>
    by_cases e : c = q
    · simp [e]
    · have : afterQ (some q) r = none := by
        have h' : afterQ (nextQ (some q) c) r = none := h
        simpa [nextQ, e] using h'
      simp [ih this]

theorem quoteMask_get (x : Str) : ∀ (st : Option Char), afterQ st x = none → ∀ i,
    (quoteMask st x)[i]? =
      (x[i]?).map fun c => (afterQ st (x.take i)).isSome || isQuote c := by
  induction x with
  | nil => intro st _ i; simp [quoteMask]
  | cons c r ih =>
    intro st h i
    have h' : afterQ (nextQ st c) r = none := h
    have e : quoteMask st (c :: r) = (st.isSome || isQuote c) :: quoteMask (nextQ st c) r := by
      cases st with
      | none =>
        rw [quoteMask]
        by_cases hq : isQuote c = true
        · have hm : c ∈ r := by
            apply mem_of_closes
            simpa [nextQ, hq] using h'
          have : (isQuote c && r.contains c) = true := by simp [hq, hm]
          rw [if_pos this]
          simp [nextQ, hq]
        · have : ¬ (isQuote c && r.contains c) = true := by simp [hq]
          rw [if_neg this]
          simp [nextQ, hq]
      | some q =>
        rw [quoteMask]
        simp [nextQ]
    rw [e]
    cases i with
    | zero => simp [afterQ]
    | succ i =>
      have := ih _ h' i
      simpa [afterQ] using this

/-! ### Normal forms -/

/-- How reading a character changes the state of `norm`. -/
def adv : Option Char × Option Char × Bool → Char → Option Char × Option Char × Bool
  | (none, last, gap), c =>
    if isSpace c then (none, last, true) else (nextQ none c, some c, false)
  | (some q, _, _), c => (nextQ (some q) c, some c, false)

/-- `norm` on a triple. -/
def normT (t : Option Char × Option Char × Bool) (x : Str) : Str := norm t.1 t.2.1 t.2.2 x

theorem normT_append (x y : Str) : ∀ t, normT t (x ++ y) = normT t x ++ normT (x.foldl adv t) y := by
  induction x with
  | nil => intro t; obtain ⟨st, l, g⟩ := t; cases st <;> simp [normT, norm]
  | cons c r ih =>
    intro t
    obtain ⟨st, l, g⟩ := t
    cases st with
    | none =>
      simp only [normT, List.cons_append, norm, List.foldl_cons, adv]
      split
      · exact ih (none, l, true)
      · have := ih (nextQ none c, some c, false)
        simp only [normT] at this
        simp [this]
    | some q =>
      simp only [normT, List.cons_append, norm, List.foldl_cons, adv]
      have := ih (nextQ (some q) c, some c, false)
      simp only [normT] at this
      simp [this]

theorem adv_fst (x : Str) (st : Option Char) (hst : QOk st) : ∀ l g,
    (x.foldl adv (st, l, g)).1 = afterQ st x := by
  induction x generalizing st with
  | nil => intro l g; rfl
  | cons c r ih =>
    intro l g
    show (r.foldl adv (adv (st, l, g) c)).1 = afterQ (nextQ st c) r
    cases st with
    | none =>
      simp only [adv]
      split
      · rename_i hc
        have e : nextQ none c = none := by
          have := afterQ_spaces (st := none) (by intro q h; cases h) [c] (by simpa using hc)
          simpa [afterQ] using this
        rw [e]
        exact ih none (by intro q h; cases h) _ _
      · exact ih _ (hst.next c) _ _
    | some q => exact ih _ (hst.next c) _ _

theorem adv_snoc (x : Str) (c : Char) (hc : isSpace c = false) (t) :
    ((x ++ [c]).foldl adv t).2 = (some c, false) := by
  rw [List.foldl_append]
  obtain ⟨st, l, g⟩ := x.foldl adv t
  cases st <;> simp [adv, hc]

theorem normT_spaces (w y : Str) (hw : ∀ c ∈ w, isSpace c = true) (l : Option Char) (g : Bool) :
    normT (none, l, g) (w ++ y) = normT (none, l, g || !w.isEmpty) y := by
  induction w generalizing g with
  | nil => simp
  | cons c w ih =>
    have := ih (fun d hd => hw d (by simp [hd])) true
    simp only [normT] at this ⊢
    simp only [List.cons_append, norm, hw c (by simp), if_true]
    rw [this]; simp

theorem normT_apart {d c : Char} {r : Str} (h : apart d c = true) (hc : isSpace c = false) (g : Bool) :
    normT (none, some d, g) (c :: r) = normT (none, some d, true) (c :: r) := by
  simp [normT, norm, hc, h]

theorem normT_start (y : Str) (g : Bool) : normT (none, none, g) y = normT (none, none, true) y := by
  induction y generalizing g with
  | nil => rfl
  | cons c r ih =>
    simp only [normT, norm]

theorem norm_nil (t) : normT t [] = [] := by
  obtain ⟨st, l, g⟩ := t
  cases st <;> simp [normT, norm]

/-! ### Finding the position -/

theorem scan_spec (x : Str) (e : Nat) (he : e < x.length) : ∀ (n p : Nat), 1 ≤ p → p ≤ e → p < n →
    ∃ q : Nat, scan x e n p = .ok q ∧ 1 ≤ q ∧ q ≤ e ∧
      ((∃ a b, x[q]? = some a ∧ x[q - 1]? = some b ∧ boundary a b = true) ∨
        (q = e ∧ ∀ i, 1 ≤ i → i ≤ p → ∀ a b, x[i]? = some a → x[i - 1]? = some b →
          boundary a b = false)) := by
  intro n
  induction n with
  | zero => intro p h1 h2 h3; omega
  | succ n ih =>
    intro p h1 h2 h3
    have g1 : pyGet x (p : Int) = some x[p] := by
      simp [pyGet, (by omega : p < x.length)]
    have g2 : pyGet x ((p : Int) - 1) = some x[p - 1] := by
      have e1 : (0 : Int) ≤ (p : Int) - 1 := by omega
      have e2 : ((p : Int) - 1).toNat = p - 1 := by omega
      rw [pyGet, if_pos e1, e2]
      simp [(by omega : p - 1 < x.length)]
    rw [scan, g1, g2]
    dsimp only
    by_cases hb : boundary x[p] x[p - 1] = true
    · rw [if_pos hb]
      exact ⟨p, rfl, h1, h2, Or.inl ⟨_, _, by simp [(by omega : p < x.length)],
        by simp [(by omega : p - 1 < x.length)], hb⟩⟩
    · rw [if_neg hb]
      have hb' : boundary x[p] x[p - 1] = false := by simpa using hb
      by_cases hp : (p : Int) - 1 = 0
      · rw [if_pos hp]
        have : p = 1 := by omega
        subst this
        refine ⟨e, rfl, by omega, Nat.le_refl _, Or.inr ⟨rfl, ?_⟩⟩
        intro i hi1 hi2 a b ha hb2
        have : i = 1 := by omega
        subst this
        rw [List.getElem?_eq_getElem (by omega)] at ha hb2
        cases ha; cases hb2
        exact hb'
      · rw [if_neg hp]
        have ec : (p : Int) - 1 = ((p - 1 : Nat) : Int) := by omega
        rw [ec]
        obtain ⟨q, h4, h5, h6, h7⟩ := ih (p - 1) (by omega) (by omega) (by omega)
        refine ⟨q, h4, h5, h6, h7.imp id ?_⟩
        rintro ⟨hq, hall⟩
        refine ⟨hq, ?_⟩
        intro i hi1 hi2 a b ha hb2
        by_cases hi : i = p
        · subst hi
          rw [List.getElem?_eq_getElem (by omega)] at ha hb2
          cases ha; cases hb2
          exact hb'
        · exact hall i hi1 (by omega) a b ha hb2

theorem splitPos_spec (x : Str) (e : Nat) (he : 1 ≤ e) :
    ∃ q : Nat, splitPos x e = .ok q ∧ q ≤ e ∧
      ((q = x.length) ∨ (1 ≤ q ∧ e < x.length ∧
        ((∃ a b, x[q]? = some a ∧ x[q - 1]? = some b ∧ boundary a b = true) ∨
        (q = e ∧ ∀ i, 1 ≤ i → i ≤ e → ∀ a b, x[i]? = some a → x[i - 1]? = some b →
          boundary a b = false)))) := by
  rw [splitPos]
  by_cases h : (x.length : Int) ≤ (e : Int)
  · rw [if_pos h]
    exact ⟨x.length, rfl, by omega, Or.inl rfl⟩
  · rw [if_neg h]
    obtain ⟨q, h1, h2, h3, h4⟩ := scan_spec x e (by omega) ((e : Int) + x.length + 2).toNat e he
      (Nat.le_refl _) (by omega)
    exact ⟨q, h1, h3, Or.inr ⟨h2, by omega, h4⟩⟩

/-! ### One cut -/

theorem boundary_comm_false {a b : Char} (h : boundary a b = false) :
    myAlnum a = myAlnum b ∧ myWhite a = myWhite b := by
  unfold boundary at h
  revert h
  cases myAlnum a <;> cases myAlnum b <;> cases myWhite a <;> cases myWhite b <;> decide

theorem myAlnum_eq (c : Char) : myAlnum c = isWord c := by
  have e : "_+-.".toList = ['_', '+', '-', '.'] := rfl
  simp only [myAlnum, isWord, e, List.contains_cons, List.contains_nil, Char.isAlphanum]
  cases c == '_' <;> cases c == '+' <;> cases c == '-' <;> cases c == '.' <;>
    cases c.isAlpha <;> cases c.isDigit <;> rfl

theorem myWhite_iff (c : Char) : myWhite c = true ↔ c = ' ' ∨ c = '\t' ∨ isParen c = true := by
  have e : " \t()".toList = [' ', '\t', '(', ')'] := rfl
  simp [myWhite, isParen, e]

theorem myWhite_paren {c : Char} (h : myWhite c = true) (hs : isSpace c = false) :
    isParen c = true := by
  rcases (myWhite_iff c).1 h with rfl | rfl | h
  · exact absurd hs (by decide)
  · exact absurd hs (by decide)
  · exact h

theorem apart_of_boundary {a b : Char} (h : boundary a b = true) (ha : isSpace a = false)
    (hb : isSpace b = false) : apart b a = true := by
  unfold apart
  rw [← myAlnum_eq, ← myAlnum_eq]
  unfold boundary at h
  by_cases h1 : myWhite a = true
  · simp [myWhite_paren h1 ha]
  · by_cases h2 : myWhite b = true
    · simp [myWhite_paren h2 hb]
    · simp only [Bool.not_eq_true] at h1 h2
      cases e1 : myAlnum a <;> cases e2 : myAlnum b <;> simp_all

theorem same_class {x : Str} {e : Nat} (he : e < x.length)
    (h : ∀ i, 1 ≤ i → i ≤ e → ∀ a b, x[i]? = some a → x[i - 1]? = some b → boundary a b = false) :
    ∀ i (hi : i ≤ e), myAlnum (x[i]'(by omega)) = myAlnum (x[0]'(by omega)) ∧
      myWhite (x[i]'(by omega)) = myWhite (x[0]'(by omega)) := by
  intro i
  induction i with
  | zero => intro _; exact ⟨rfl, rfl⟩
  | succ i ih =>
    intro hi
    obtain ⟨h1, h2⟩ := ih (by omega)
    have := boundary_comm_false (h (i + 1) (by omega) hi (x[i + 1]'(by omega)) (x[i]'(by omega))
      (List.getElem?_eq_getElem (by omega)) (List.getElem?_eq_getElem (by omega)))
    exact ⟨this.1.trans h1, this.2.trans h2⟩

/-- What a cut does to the rest `x` of a line that is read in state `st`. -/
inductive Cut (st : Option Char) (x : Str) : Bool → Str → Str → Prop
  | last {h w : Str} (hx : x = h ++ w) (hw : ∀ c ∈ w, isSpace c = true)
      (hl : ∀ c, h.getLast? = some c → isSpace c = false) (hst : afterQ st h = none) :
      Cut st x false h []
  | inside {h r : Str} (hx : x = h ++ r) (hh : h ≠ []) (hr : r ≠ [])
      (hin : afterQ st h ≠ none ∨ ∃ c, r.head? = some c ∧ isQuote c = true) :
      Cut st x true (h ++ s "&") r
  | outside {h w r : Str} (hx : x = h ++ w ++ r) (hw : ∀ c ∈ w, isSpace c = true)
      (hl : ∀ c, h.getLast? = some c → isSpace c = false) (hst : afterQ st h = none) (hr : r ≠ [])
      (hh : ∀ c, r.head? = some c → isSpace c = false)
      (hap : ∀ d c, h.getLast? = some d → r.head? = some c → w = [] → apart d c = true) :
      Cut st x false (h ++ s " &") r

theorem cut_spec {st : Option Char} {x : Str} {e : Nat} (hst : QOk st) (he : 1 ≤ e)
    (hclosed : afterQ st x = none) (hshort : ShortRuns (e + 1) st x) (hx : x ≠ []) :
    ∃ q : Nat, splitPos x e = .ok q ∧
      ∀ inside : Bool, inside = ((x[q]?).map fun c => (afterQ st (x.take q)).isSome || isQuote c).getD false →
        Cut st x inside (cutAt inside x q).1 (cutAt inside x q).2 ∧
        (cutAt inside x q).1.length ≤ e + 2 ∧ (cutAt inside x q).2.length < x.length ∧
        (cutAt inside x q).2.length + q ≤ x.length := by
  obtain ⟨q, hq, hqe, hcase⟩ := splitPos_spec x e he
  refine ⟨q, hq, ?_⟩
  intro inside hin
  have hqpos : 1 ≤ q := by
    rcases hcase with h | h
    · have : x.length ≠ 0 := fun h0 => hx (List.length_eq_zero_iff.1 h0)
      omega
    · exact h.1
  have hqlen : q ≤ x.length := by
    rcases hcase with h | h
    · omega
    · omega
  have eT : pyTake x (q : Int) = x.take q := by simp [pyTake]
  have eD : pyDrop x (q : Int) = x.drop q := by simp [pyDrop]
  have hlenT : (x.take q).length = q := by simp; omega
  obtain ⟨wr, hwr, hwrs⟩ := trimR_split (x.take q)
  obtain ⟨wl, hwl, hwls⟩ := trimL_split (x.drop q)
  have htrimlen : (trimR (x.take q)).length ≤ q := by
    have := congrArg List.length hwr
    rw [hlenT, List.length_append] at this
    omega
  have hdroplen : (trimL (x.drop q)).length ≤ x.length - q := by
    have := congrArg List.length hwl
    rw [List.length_drop, List.length_append] at this
    omega
  cases hib : inside with
  | true =>
    subst hib
    have hlt : q < x.length := by
      by_cases c : q < x.length
      · exact c
      · rw [List.getElem?_eq_none (by omega)] at hin
        simp at hin
    have hne : x.drop q ≠ [] := by
      intro c
      have := congrArg List.length c
      simp at this; omega
    simp only [cutAt, eT, eD, if_true, hne, if_false]
    refine ⟨.inside (List.take_append_drop q x).symm ?_ hne ?_, ?_, ?_, ?_⟩
    · intro c
      have := congrArg List.length c
      rw [hlenT] at this; simp at this; omega
    · rw [List.getElem?_eq_getElem hlt] at hin
      simp only [Option.map_some, Option.getD_some] at hin
      rcases Bool.or_eq_true_iff.1 hin.symm with h | h
      · left
        intro h0; rw [h0] at h; simp at h
      · right
        exact ⟨x[q], by rw [List.head?_drop, List.getElem?_eq_getElem hlt], h⟩
    · rw [List.length_append, hlenT]
      have : (s "&").length = 1 := rfl
      omega
    · rw [List.length_drop]; omega
    · rw [List.length_drop]; omega
  | false =>
    subst hib
    -- outside of literals
    have hstq : afterQ st (x.take q) = none := by
      by_cases c : q < x.length
      · rw [List.getElem?_eq_getElem c] at hin
        simp only [Option.map_some, Option.getD_some, Bool.false_eq, Bool.or_eq_false_iff] at hin
        have := hin.1
        cases h : afterQ st (x.take q) with
        | none => rfl
        | some v => rw [h] at this; simp at this
      · have : x.take q = x := List.take_of_length_le (by omega)
        rw [this]; exact hclosed
    have hsth : afterQ st (trimR (x.take q)) = none := by
      have h1 := hstq
      rw [hwr, afterQ_append, afterQ_spaces (hst.after _) wr hwrs] at h1
      exact h1
    have hxeq : x = trimR (x.take q) ++ (wr ++ wl) ++ trimL (x.drop q) := by
      conv => lhs; rw [← List.take_append_drop q x, hwr, hwl]
      simp
    have hws : ∀ c ∈ wr ++ wl, isSpace c = true := by
      intro c hc
      rcases List.mem_append.1 hc with hc | hc
      · exact hwrs c hc
      · exact hwls c hc
    by_cases hr : trimL (x.drop q) = []
    · simp only [cutAt, eT, eD, Bool.false_eq_true, if_false, hr, if_true]
      refine ⟨.last (w := wr ++ wl) ?_ hws (trimR_last _) hsth, by omega, ?_⟩
      · conv => lhs; rw [hxeq, hr]
        simp
      · have : x.length ≠ 0 := fun h0 => hx (List.length_eq_zero_iff.1 h0)
        simp; omega
    · simp only [cutAt, eT, eD, Bool.false_eq_true, if_false, hr]
      refine ⟨.outside (w := wr ++ wl) hxeq hws (trimR_last _) hsth hr (trimL_head _) ?_, ?_, ?_⟩
      · intro d c hd hc hw
        have hwr0 : wr = [] := (List.append_eq_nil_iff.1 hw).1
        have hwl0 : wl = [] := (List.append_eq_nil_iff.1 hw).2
        rw [hwr0, List.append_nil] at hwr
        rw [hwl0, List.nil_append] at hwl
        have hdsp := trimR_last _ d hd
        have hcsp := trimL_head _ c hc
        rw [← hwr] at hd
        rw [← hwl] at hc
        have hlt : q < x.length := by
          by_cases cc : q < x.length
          · exact cc
          · rw [List.drop_of_length_le (by omega)] at hc; simp at hc
        have xc : x[q]? = some c := by
          rw [List.head?_drop] at hc; exact hc
        have xd : x[q - 1]? = some d := by
          rw [List.getLast?_eq_getElem?, hlenT, List.getElem?_take] at hd
          simpa [(by omega : q - 1 < q)] using hd
        rcases hcase with hc1 | ⟨_, hel, hc2 | ⟨hqe2, hall⟩⟩
        · omega
        · obtain ⟨a, b, ha, hb, hbd⟩ := hc2
          rw [xc] at ha; rw [xd] at hb
          cases ha; cases hb
          exact apart_of_boundary hbd hcsp hdsp
        · subst hqe2
          have cls := same_class hel hall
          have gq : x[q] = c := by
            rw [List.getElem?_eq_getElem hlt] at xc; exact Option.some.inj xc
          have gd : x[q - 1] = d := by
            rw [List.getElem?_eq_getElem (by omega)] at xd; exact Option.some.inj xd
          -- a run of characters of the same class
          by_cases wh : myWhite (x[0]'(by omega)) = true
          · have h1 := (cls q (Nat.le_refl _)).2
            rw [gq, wh] at h1
            have := myWhite_paren h1 hcsp
            simp [apart, this]
          · exfalso
            have hcut : x = [] ++ (x.take q ++ [c]) ++ x.drop (q + 1) := by
              rw [List.nil_append, ← gq, List.append_assoc, List.singleton_append,
                List.getElem_cons_drop, List.take_append_drop]
            have mem : ∀ y ∈ x.take q ++ [c], ∃ i, ∃ hi : i ≤ q, x[i]'(by omega) = y := by
              intro y hy
              rcases List.mem_append.1 hy with hy | hy
              · obtain ⟨i, hi, rfl⟩ := List.getElem_of_mem hy
                rw [hlenT] at hi
                exact ⟨i, by omega, by simp⟩
              · rw [List.mem_singleton.1 hy]
                exact ⟨q, Nat.le_refl _, gq⟩
            have hs := hshort [] (x.take q) c (x.drop (q + 1)) hcut (by rw [hlenT]) ?_
            · rw [List.nil_append, hstq] at hs
              rw [List.getElem?_eq_getElem hlt] at hin
              simp only [Option.map_some, Option.getD_some, Bool.false_eq, Bool.or_eq_false_iff] at hin
              rw [gq] at hin
              rcases hs with hs | hs
              · exact hs rfl
              · rw [hin.2] at hs; exact absurd hs (by simp)
            · by_cases al : myAlnum (x[0]'(by omega)) = true
              · left
                intro y hy
                obtain ⟨i, hi, rfl⟩ := mem y hy
                rw [← myAlnum_eq, (cls i hi).1, al]
              · right
                intro y hy
                obtain ⟨i, hi, rfl⟩ := mem y hy
                have h1 := (cls i hi).1
                have h2 := (cls i hi).2
                simp only [Bool.not_eq_true] at al wh
                rw [al, myAlnum_eq] at h1
                rw [wh] at h2
                have h3 : ¬ (myWhite x[i] = true) := by rw [h2]; simp
                rw [myWhite_iff] at h3
                refine ⟨h1, fun c => h3 (Or.inl c), fun c => h3 (Or.inr (Or.inl c)), ?_⟩
                cases hp : isParen x[i] with
                | false => rfl
                | true => exact absurd (Or.inr (Or.inr hp)) h3
      · rw [List.length_append]
        have : (s " &").length = 2 := rfl
        omega
      · have : x.length ≠ 0 := fun h0 => hx (List.length_eq_zero_iff.1 h0)
        omega

end Verif.Text
