import Verif.Text.WrapMain
import Verif.Text.IndentLemmas
import Verif.Text.PrintLemmas
/-! The last steps towards the properties. -/

namespace Verif.Text

open Verif.Text.Spec (Str s CExpr CAtom IsName NoTwo Apart textAll namedAll isSpace trimL norm Wrappable
  StandsFor Inert Each fInert joinLines SameTokens)

/-! ### String expressions -/

mutual
theorem flatOne_text (ρ : Str → Str) : ∀ e : CExpr, (flatOne e).flatMap (CAtom.text ρ) = e.text ρ
  | .lit x => by simp [flatOne, CAtom.text, CExpr.text]
  | .mac n => by simp [flatOne, CAtom.text, CExpr.text]
  | .expr es => by rw [flatOne, merged_text, CExpr.text]; exact flatAll_text ρ es
theorem flatAll_text (ρ : Str → Str) : ∀ es : List CExpr,
    (flatAll es).flatMap (CAtom.text ρ) = textAll ρ es
  | [] => by simp [flatAll, textAll]
  | e :: es => by
    rw [flatAll, textAll, List.flatMap_append, flatOne_text ρ e, flatAll_text ρ es]
end

theorem mergeLits_mac (l : List CAtom) : ∀ a n, CAtom.mac n ∈ mergeLits a l → CAtom.mac n ∈ a :: l := by
  induction l with
  | nil => intro a n h; simpa [mergeLits] using h
  | cons b r ih =>
    intro a n h
    cases a with
    | mac m =>
      simp only [mergeLits, List.mem_cons] at h
      rcases h with h | h
      · simp [h]
      · have := ih b n h
        simp only [List.mem_cons] at this ⊢
        exact Or.inr this
    | lit x =>
      cases b with
      | lit y =>
        have := ih _ n h
        simp only [List.mem_cons] at this ⊢
        rcases this with h | h
        · cases h
        · exact Or.inr (Or.inr h)
      | mac m =>
        simp only [mergeLits, List.mem_cons] at h
        rcases h with h | h
        · cases h
        · have := ih _ n h
          simp only [List.mem_cons] at this ⊢
          exact Or.inr this

theorem merged_mac {l : List CAtom} {n : Str} (h : CAtom.mac n ∈ merged l) : CAtom.mac n ∈ l := by
  cases l with
  | nil => exact h
  | cons a r => exact mergeLits_mac r a n h

mutual
theorem flatOne_named : ∀ e : CExpr, e.named → ∀ n, CAtom.mac n ∈ flatOne e → IsName n
  | .lit x, _, n, h => by simp [flatOne] at h
  | .mac m, hn, n, h => by
    simp only [flatOne, List.mem_singleton, CAtom.mac.injEq] at h
    rw [h]; exact hn
  | .expr es, hn, n, h => by
    rw [flatOne] at h
    exact flatAll_named es hn n (merged_mac h)
theorem flatAll_named : ∀ es : List CExpr, namedAll es → ∀ n, CAtom.mac n ∈ flatAll es → IsName n
  | [], _, n, h => by simp [flatAll] at h
  | e :: es, hn, n, h => by
    rw [namedAll] at hn
    rw [flatAll] at h
    rcases List.mem_append.1 h with h | h
    · exact flatOne_named e hn.1 n h
    · exact flatAll_named es hn.2 n h
end

theorem textAll_append (ρ : Str → Str) (a b : List CExpr) :
    textAll ρ (a ++ b) = textAll ρ a ++ textAll ρ b := by
  induction a with
  | nil => rfl
  | cons e es ih => simp [textAll, ih]

theorem add_text (ρ : Str → Str) (a b : CExpr) : (a.add b).text ρ = a.text ρ ++ b.text ρ := by
  cases a <;> simp [CExpr.add, CExpr.text, textAll, textAll_append]

theorem append_text (ρ : Str → Str) (es : List CExpr) (b : CExpr) :
    ((CExpr.expr es).append b).text ρ = (CExpr.expr es).text ρ ++ b.text ρ := by
  simp [CExpr.append, CExpr.text, textAll, textAll_append]

theorem join_text (ρ : Str → Str) (sep : CExpr) (xs : List CExpr) :
    (CExpr.join sep xs).text ρ = Spec.joined (sep.text ρ) (xs.map (CExpr.text ρ)) := by
  cases xs with
  | nil => simp [CExpr.join, CExpr.text, textAll, Spec.joined]
  | cons x xs =>
    have key : ∀ (ys : List CExpr) (es : List CExpr) (zs : List Str), zs ≠ [] →
        (CExpr.expr es).text ρ = Spec.joined (sep.text ρ) zs →
        (ys.foldl (fun r e => (r.append sep).append e) (CExpr.expr es)).text ρ
          = Spec.joined (sep.text ρ) (zs ++ ys.map (CExpr.text ρ)) := by
      intro ys
      induction ys with
      | nil => intro es zs _ h; simpa using h
      | cons y ys ih =>
        intro es zs hz h
        rw [List.foldl_cons]
        have e : ((CExpr.expr es).append sep).append y = CExpr.expr (es ++ [sep] ++ [y]) := rfl
        rw [e, ih (es ++ [sep] ++ [y]) (zs ++ [y.text ρ]) (by simp)]
        · simp
        · rw [joined_append _ _ _ hz, ← h]
          simp [CExpr.text, textAll, textAll_append]
    have e : (CExpr.expr []).append x = CExpr.expr [x] := rfl
    rw [CExpr.join, e]
    exact key xs [x] [x.text ρ] (by simp) (by simp [CExpr.text, textAll, Spec.joined])

/-! ### Lines -/

theorem normT_same {t l : Str} (h : normT (none, none, false) t = normT (none, none, false) l) :
    SameTokens t l := h

theorem wrapLine_wrappable {n : Nat} {L : Str} (h : Wrappable L) (hn : L.length < n) :
    ∃ ls T, wrapLine n L = .ok ls ∧ (∀ l ∈ ls, l.length ≤ 74) ∧
      joinLines (ls.map endNl) = some T ∧ SameTokens T L := by
  cases h with
  | stmt lead c rest hl h64 hc hcl hq hs =>
    exact wrapLine_stmt n lead rest c hn hl hc h64 hcl hq
      (by rw [(by omega : 65 - lead.length + 1 = 66 - lead.length)]; exact hs)
  | directive lead tag rest ht hl h64 hcl hq hs =>
    exact wrapLine_directive n lead tag rest ht hn hl h64 hcl hq
      (by rw [(by omega : 65 - lead.length + 1 = 66 - lead.length)]; exact hs)

theorem endNl_or (l : Str) : [endNl l] = [l] ∨ [endNl l] = [l ++ ['\n']] := by
  unfold endNl
  split
  · exact Or.inl rfl
  · exact Or.inr rfl

theorem wrapLine_inert {n : Nat} {L : Str} (h : Inert L) : wrapLine n L = .ok [L] := by
  obtain ⟨hi, hl⟩ := h
  by_cases h72 : L.length ≤ 72
  · rw [wrapLine, if_pos h72]
  · rcases hl with ⟨_, hl⟩ | hl
    · omega
    rw [wrapLine, if_neg h72]
    obtain ⟨w, h1, h2⟩ := Verif.Text.trimL_split L
    have hw : w.length ≤ 64 := by
      have := congrArg List.length h1
      rw [List.length_append] at this
      omega
    unfold fInert at hi
    cases e : trimL L with
    | nil =>
      rw [e, List.append_nil] at h1
      rw [h1] at h72; omega
    | cons c r =>
      rw [e] at hi h1
      have hc : c = '!' := by
        by_cases hc : c = '!'
        · exact hc
        · exfalso
          split at hi
          · rename_i heq; cases heq
          · rename_i heq; exact hc (List.cons.inj heq).1
          · rename_i heq; exact hc (List.cons.inj heq).1
          · exact hi
      subst hc
      have hcs : isSpace '!' = false := by decide
      have htrim : trimL (L.take 72) = '!' :: r.take (71 - w.length) := by
        rw [h1, List.take_append, List.take_of_length_le (by omega), trimL_of_spaces _ _ h2]
        have : 72 - w.length = (71 - w.length) + 1 := by omega
        rw [this, List.take_succ_cons]
        exact trimL_self (by intro d hd; cases hd; exact hcs)
      have hcom : isComment (trimL (L.take 72)) = true := by
        rw [htrim]
        cases r with
        | nil => simp [isComment, s, List.isPrefixOf]
        | cons d r =>
          have hd : d ≠ '$' := by
            rintro rfl
            exact hi
          obtain ⟨m, hm⟩ : ∃ m, 71 - w.length = m + 1 := ⟨70 - w.length, by omega⟩
          rw [hm, List.take_succ_cons]
          have e1 : (s "!").isPrefixOf ('!' :: d :: r.take m) = true := rfl
          have e2 : (s "!$").isPrefixOf ('!' :: d :: r.take m) = false := by
            have : ('$' == d) = false := by
              rw [beq_eq_false_iff_ne]; exact fun h => hd h.symm
            simp [s, List.isPrefixOf, this]
          rw [isComment, e1, e2]; rfl
      dsimp only
      rw [hcom, if_pos rfl]

theorem wrap_each (n : Nat) (lines : List Str)
    (h : ∀ l ∈ lines, (Wrappable l ∧ l.length < n) ∨ Inert l) :
    ∃ groups : List (List Str), wrap n lines = .ok groups.flatten ∧ Each StandsFor groups lines ∧
      ∀ g ∈ groups, (∀ l ∈ g, l.length ≤ 75) ∨ ∃ l ∈ lines, g = [l] ∨ g = [l ++ ['\n']] := by
  induction lines with
  | nil => exact ⟨[], rfl, trivial, by simp⟩
  | cons L lines ih =>
    obtain ⟨gs, h1, h2, h3⟩ := ih fun l hl => h l (by simp [hl])
    rcases h L (by simp) with ⟨hw, hn⟩ | hi
    · obtain ⟨ls, T, e1, e2, e3, e4⟩ := wrapLine_wrappable hw hn
      refine ⟨ls.map endNl :: gs, ?_, ⟨Or.inr ⟨T, e3, e4⟩, h2⟩, ?_⟩
      · rw [wrap, e1, h1]; rfl
      · intro g hg
        rcases List.mem_cons.1 hg with rfl | hg
        · left
          intro l hl
          rw [List.mem_map] at hl
          obtain ⟨k, hk, rfl⟩ := hl
          have := e2 k hk
          unfold endNl
          split
          · omega
          · rw [List.length_append]; simp; omega
        · exact (h3 g hg).imp id fun ⟨l, hl, e⟩ => ⟨l, by simp [hl], e⟩
    · have e1 := wrapLine_inert (n := n) hi
      refine ⟨[endNl L] :: gs, ?_, ⟨Or.inl ⟨hi.1, endNl_or L⟩, h2⟩, ?_⟩
      · rw [wrap, e1, h1]; rfl
      · intro g hg
        rcases List.mem_cons.1 hg with rfl | hg
        · right
          exact ⟨L, by simp, endNl_or L⟩
        · exact (h3 g hg).imp id fun ⟨l, hl, e⟩ => ⟨l, by simp [hl], e⟩

/-! ### Lengths -/

theorem trimR_length (x : Str) : (Spec.trimR x).length ≤ x.length := by
  obtain ⟨w, h, _⟩ := trimR_split x
  have := congrArg List.length h
  rw [List.length_append] at this
  omega

theorem cutAt_length (ins : Bool) (x : Str) (q : Nat) : (cutAt ins x q).1.length ≤ q + 2 := by
  have eT : pyTake x (q : Int) = x.take q := by simp [pyTake]
  have h1 : (x.take q).length ≤ q := by rw [List.length_take]; omega
  have h2 := trimR_length (x.take q)
  have e1 : (s "&").length = 1 := rfl
  have e2 : (s " &").length = 2 := rfl
  unfold cutAt
  dsimp only
  rw [eT]
  cases ins <;> simp only [if_true, Bool.false_eq_true, if_false] <;> split <;>
    (try simp only [List.length_append, e1, e2]) <;> omega

theorem wrapRest_length (mask : List Bool) (total tab : Nat) (htab : tab ≤ 64) (omp acc : Bool) :
    ∀ (n : Nat) (li : Bool) (x : Str) (ls : List Str),
      wrapRest mask total tab omp acc n li x = .ok ls → ∀ l ∈ ls, l.length ≤ 74 := by
  intro n
  induction n with
  | zero => intro li x ls h; simp [wrapRest] at h
  | succ n ih =>
    intro li x ls h
    rw [wrapRest] at h
    split at h
    · injection h with h; subst h; simp
    · obtain ⟨q, hq, hq2, _⟩ := splitPos_spec x (65 - tab) (by omega)
      have esub : (65 : Int) - (tab : Int) = ((65 - tab : Nat) : Int) := by omega
      rw [esub, hq] at h
      dsimp only at h
      generalize inQuotes mask ((q : Int) + ((total : Int) - (x.length : Int))) = ins at h
      have hcl := cutAt_length ins x q
      generalize cutAt ins x (q : Int) = cu at *
      obtain ⟨hunk, r⟩ := cu
      dsimp only at h hcl
      have hstart : (hunkStart tab li omp acc).length ≤ tab + 7 := by
        unfold hunkStart
        rw [List.length_append, List.length_replicate]
        have : (s "&").length = 1 ∧ (s "!$omp &").length = 7 ∧ (s "!$acc &").length = 7 ∧
          (s "      ").length = 6 := by decide
        cases li <;> cases omp <;> cases acc <;> simp [this]
      cases hr : wrapRest mask total tab omp acc n ins r with
      | error => rw [hr] at h; simp at h
      | running => rw [hr] at h; simp at h
      | ok ks =>
        rw [hr] at h
        injection h with h
        subst h
        intro l hl
        rcases List.mem_cons.1 hl with rfl | hl
        · rw [List.length_append]; omega
        · exact ih ins r ks hr l hl

theorem wrapLine_length {n : Nat} {L : Str} {ls : List Str} (h : wrapLine n L = .ok ls)
    (hi : L.length ≤ (trimL L).length + 64) :
    (∀ l ∈ ls, l.length ≤ 74) ∨ (fInert L ∧ ls = [L]) := by
  rw [wrapLine] at h
  split at h
  · injection h with h; subst h
    left; simp; omega
  · rename_i h72
    dsimp only at h
    split at h
    · rename_i hcom
      injection h with h; subst h
      right
      refine ⟨?_, rfl⟩
      -- the comment
      obtain ⟨w, h1, h2⟩ := Verif.Text.trimL_split L
      have hw : w.length ≤ 64 := by
        have := congrArg List.length h1
        rw [List.length_append] at this
        omega
      have htr : trimL (L.take 72) = (trimL L).take (72 - w.length) := by
        conv => lhs; rw [h1]
        rw [List.take_append, List.take_of_length_le (by omega), trimL_of_spaces _ _ h2]
        apply trimL_self
        intro d hd
        rw [List.head?_take, if_neg (by omega)] at hd
        exact trimL_head L d hd
      rw [htr] at hcom
      have hm : ∃ m, 72 - w.length = m + 1 + 1 := ⟨70 - w.length, by omega⟩
      obtain ⟨m, hm⟩ := hm
      rw [hm] at hcom
      unfold fInert
      cases e : trimL L with
      | nil => trivial
      | cons c r =>
        rw [e] at hcom
        cases r with
        | nil =>
          rw [List.take_succ_cons, List.take_nil] at hcom
          have hc : c = '!' := by
            by_cases hc : c = '!'
            · exact hc
            · have : ('!' == c) = false := by rw [beq_eq_false_iff_ne]; exact fun h => hc h.symm
              simp [isComment, s, List.isPrefixOf, this] at hcom
          subst hc; trivial
        | cons d r =>
          rw [List.take_succ_cons, List.take_succ_cons] at hcom
          have hc : c = '!' := by
            by_cases hc : c = '!'
            · exact hc
            · have : ('!' == c) = false := by rw [beq_eq_false_iff_ne]; exact fun h => hc h.symm
              simp [isComment, s, List.isPrefixOf, this] at hcom
          subst hc
          have hd : d ≠ '$' := by
            rintro rfl
            simp [isComment, s, List.isPrefixOf] at hcom
          split
          · trivial
          · rename_i heq
            have := (List.cons.inj (List.cons.inj heq).2).1
            exact hd this
          · trivial
          · rename_i _ h3
            exact absurd rfl (h3 (d :: r))
    · split at h
      · simp at h
      · obtain ⟨q, hq, hq2, _⟩ := splitPos_spec L 72 (by omega)
        have hq' : splitPos L 72 = .ok (q : Int) := hq
        rw [hq'] at h
        dsimp only at h
        split at h
        · simp at h
        · generalize inQuotes (quoteMask none L) (q : Int) = ins at h
          have hcl := cutAt_length ins L q
          generalize cutAt ins L (q : Int) = cu at *
          obtain ⟨hunk, r⟩ := cu
          dsimp only at h hcl
          have htab : 72 - (trimL (L.take 72)).length ≤ 64 := by
            obtain ⟨w, h1, h2⟩ := Verif.Text.trimL_split L
            have hw : w.length ≤ 64 := by
              have := congrArg List.length h1
              rw [List.length_append] at this
              omega
            have htr : trimL (L.take 72) = (trimL L).take (72 - w.length) := by
              conv => lhs; rw [h1]
              rw [List.take_append, List.take_of_length_le (by omega), trimL_of_spaces _ _ h2]
              apply trimL_self
              intro d hd
              rw [List.head?_take, if_neg (by omega)] at hd
              exact trimL_head L d hd
            rw [htr, List.length_take]
            have := congrArg List.length h1
            rw [List.length_append] at this
            omega
          split at h
          · simp at h
          · simp at h
          · rename_i ks hk
            injection h with h
            subst h
            left
            intro l hl
            rcases List.mem_cons.1 hl with rfl | hl
            · omega
            · exact wrapRest_length _ _ _ htab _ _ _ _ _ _ hk l hl

end Verif.Text
