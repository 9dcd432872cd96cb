/-
Lemmas for `Verif.PyOut.Props`: blocks.
-/
import Verif.PyOut.Model

namespace Verif.PyOut.LemmasBlocks

open Spec Model

/-! How lines are read. -/

theorem reads_indent {n : Nat} {ls : List Line} {t : Tree} (h : Reads n ls t) : Reads (n + 4) (indent ls) t := by
  induction h with
  | nil n => exact .nil _
  | skip k hw _ ih => exact .skip _ hw ih
  | stmt _ ih => exact .stmt ih
  | pass _ ih => exact .pass ih
  | doc _ ih => exact .doc ih
  | block hm _ hne _ ihb ihr =>
    simp only [indent, List.map_cons, List.map_append]
    exact .block (by omega) ihb hne ihr

/-- Lines that Python does not skip. -/
def Sig (l : Line) : Prop := l.word.skipped = false

theorem reads_ge {n : Nat} {ls : List Line} {t : Tree} (h : Reads n ls t) : ∀ l ∈ ls, Sig l → n ≤ l.indent := by
  induction h with
  | nil n => intro l hl; cases hl
  | skip k hw _ ih =>
    intro l hl hs
    rcases List.mem_cons.1 hl with rfl | hl
    · rw [Sig, hw] at hs; cases hs
    · exact ih l hl hs
  | stmt _ ih | pass _ ih | doc _ ih =>
    intro l hl hs
    rcases List.mem_cons.1 hl with rfl | hl
    · exact Nat.le_refl _
    · exact ih l hl hs
  | block hm _ hne _ ihb ihr =>
    intro l hl hs
    rcases List.mem_cons.1 hl with rfl | hl
    · exact Nat.le_refl _
    · rcases List.mem_append.1 hl with hl | hl
      · have := ihb l hl hs; omega
      · exact ihr l hl hs

/-- The first line that is not skipped has the indentation of the block. -/
theorem reads_first {n : Nat} {ls : List Line} {t : Tree} (h : Reads n ls t) : ∀ (a : List Line) (l : Line) (b : List Line), ls = a ++ l :: b →
    (∀ x ∈ a, ¬ Sig x) → Sig l → l.indent = n := by
  induction h with
  | nil n => intro a l b he; simp at he
  | skip k hw _ ih =>
    intro a l b he ha hs
    cases a with
    | nil =>
      simp only [List.nil_append, List.cons.injEq] at he
      rw [← he.1, Sig, hw] at hs; cases hs
    | cons x a =>
      simp only [List.cons_append, List.cons.injEq] at he
      exact ih a l b he.2 (fun y hy => ha y (by simp [hy])) hs
  | stmt | pass | doc | block =>
    intro a l b he ha hs
    cases a with
    | nil => simp only [List.nil_append, List.cons.injEq] at he; rw [← he.1]
    | cons x a =>
      simp only [List.cons_append, List.cons.injEq] at he
      exact absurd (by rw [← he.1]; rfl) (ha x (by simp))

theorem reads_drop : ∀ (d ls : List Line) {n : Nat} {t : Tree}, (∀ x ∈ d, ¬ Sig x) → Reads n (d ++ ls) t → Reads n ls t := by
  intro d
  induction d with
  | nil => intro ls n t _ h; exact h
  | cons x d ih =>
    intro ls n t hd h
    have hx := hd x (by simp)
    refine ih ls (fun y hy => hd y (by simp [hy])) ?_
    generalize hL : x :: d ++ ls = L at h
    cases h with
    | nil => simp at hL
    | skip k hw h =>
      simp only [List.cons_append, List.cons.injEq] at hL
      rw [hL.2]; exact h
    | stmt | pass | doc | block =>
      simp only [List.cons_append, List.cons.injEq] at hL
      rw [hL.1] at hx
      exact (hx rfl).elim

theorem reads_add : ∀ (d ls : List Line) {n : Nat} {t : Tree}, (∀ x ∈ d, ¬ Sig x) → Reads n ls t → Reads n (d ++ ls) t := by
  intro d
  induction d with
  | nil => intro ls n t _ h; exact h
  | cons x d ih =>
    intro ls n t hd h
    have hx := hd x (by simp)
    obtain ⟨k, w⟩ := x
    exact .skip k (by cases hw : w.skipped with | true => rfl | false => exact absurd hw hx) (ih ls (fun y hy => hd y (by simp [hy])) h)

theorem reads_snoc {n : Nat} {ls : List Line} {t : Tree} (h : Reads n ls t) : ∀ (d : List Line), (∀ x ∈ d, ¬ Sig x) → Reads n (ls ++ d) t := by
  induction h with
  | nil n => intro d hd; simpa using reads_add d [] hd (.nil n)
  | skip k hw _ ih => intro d hd; exact .skip k hw (ih d hd)
  | stmt _ ih => intro d hd; exact .stmt (ih d hd)
  | pass _ ih => intro d hd; exact .pass (ih d hd)
  | doc _ ih => intro d hd; exact .doc (ih d hd)
  | @block _ _ h _ _ _ _ hm hb hne _ _ ihr =>
    intro d hd
    have := Reads.block (h := h) hm hb hne (ihr d hd)
    simpa using this

theorem exists_sig {n : Nat} {ls : List Line} {t : Tree} (h : Reads n ls t) : t ≠ .nil → ∃ a l b, ls = a ++ l :: b ∧ (∀ x ∈ a, ¬ Sig x) ∧ Sig l := by
  induction h with
  | nil n => intro h; exact absurd rfl h
  | skip k hw _ ih =>
    intro h
    obtain ⟨a, l, b, he, ha, hl⟩ := ih h
    refine ⟨⟨k, _⟩ :: a, l, b, by rw [he]; rfl, fun x hx => ?_, hl⟩
    rcases List.mem_cons.1 hx with rfl | hx
    · intro hs; rw [Sig, hw] at hs; cases hs
    · exact ha x hx
  | stmt | pass | doc | block => intro _; exact ⟨[], _, _, rfl, by simp, rfl⟩

/-- A list of lines has a first line that is not skipped, or none. -/
theorem split_sig : ∀ (d : List Line), (∀ x ∈ d, ¬ Sig x) ∨ ∃ a l b, d = a ++ l :: b ∧ (∀ x ∈ a, ¬ Sig x) ∧ Sig l := by
  intro d
  induction d with
  | nil => exact Or.inl (by simp)
  | cons x d ih =>
    by_cases hx : Sig x
    · exact Or.inr ⟨[], x, d, rfl, by simp, hx⟩
    · rcases ih with h | ⟨a, l, b, rfl, ha, hl⟩
      · refine Or.inl (fun y hy => ?_)
        rcases List.mem_cons.1 hy with rfl | hy
        · exact hx
        · exact h y hy
      · refine Or.inr ⟨x :: a, l, b, rfl, fun y hy => ?_, hl⟩
        rcases List.mem_cons.1 hy with rfl | hy
        · exact hx
        · exact ha y hy

/-- Lines that belong to a block and to what follows the block are skipped. -/
theorem overlap {n m : Nat} {d rest : List Line} {t : Tree} (hm : n < m) (hr : Reads n (d ++ rest) t) (hb : ∀ l ∈ d, Sig l → m ≤ l.indent) :
    ∀ x ∈ d, ¬ Sig x := by
  rcases split_sig d with h | ⟨a, l, b, rfl, ha, hl⟩
  · exact h
  · have h1 := reads_first hr a l (b ++ rest) (by simp) ha hl
    have h2 := hb l (by simp) hl
    omega

theorem reads_trim {n : Nat} {ls : List Line} {t : Tree} (h : Reads n ls t) : ∀ (p d : List Line), ls = p ++ d → (∀ x ∈ d, ¬ Sig x) → Reads n p t := by
  induction h with
  | nil n =>
    intro p d he _
    have : p = [] := by
      cases p with
      | nil => rfl
      | cons => simp at he
    subst this
    exact .nil n
  | @skip n k w ls t hw h ih =>
    intro p d he hd
    cases p with
    | nil =>
      simp only [List.nil_append] at he
      subst he
      have := reads_drop (⟨k, w⟩ :: ls) [] (n := n) (t := t) hd (by simpa using Reads.skip k hw h)
      exact this
    | cons x p =>
      simp only [List.cons_append, List.cons.injEq] at he
      rw [← he.1]
      exact .skip k hw (ih p d he.2 hd)
  | stmt _ ih =>
    intro p d he hd
    cases p with
    | nil => simp only [List.nil_append] at he; subst he; exact (hd _ List.mem_cons_self rfl).elim
    | cons x p =>
      simp only [List.cons_append, List.cons.injEq] at he
      rw [← he.1]; exact .stmt (ih p d he.2 hd)
  | pass _ ih =>
    intro p d he hd
    cases p with
    | nil => simp only [List.nil_append] at he; subst he; exact (hd _ List.mem_cons_self rfl).elim
    | cons x p =>
      simp only [List.cons_append, List.cons.injEq] at he
      rw [← he.1]; exact .pass (ih p d he.2 hd)
  | doc _ ih =>
    intro p d he hd
    cases p with
    | nil => simp only [List.nil_append] at he; subst he; exact (hd _ List.mem_cons_self rfl).elim
    | cons x p =>
      simp only [List.cons_append, List.cons.injEq] at he
      rw [← he.1]; exact .doc (ih p d he.2 hd)
  | @block n m h body rest b t hm hb hne hr ihb ihr =>
    intro p d he hd
    cases p with
    | nil => simp only [List.nil_append] at he; subst he; exact (hd _ List.mem_cons_self rfl).elim
    | cons x p =>
      simp only [List.cons_append, List.cons.injEq] at he
      rw [← he.1]
      rcases List.append_eq_append_iff.1 he.2 with ⟨e, rfl, h2⟩ | ⟨e, h1, rfl⟩
      · exact .block hm hb hne (ihr e d h2 hd)
      · have hb' := ihb p e h1 (fun x hx => hd x (by simp [hx]))
        have hr' : Reads n [] t := reads_drop rest [] (fun x hx => hd x (by simp [hx])) (by simpa using hr)
        simpa using Reads.block (h := h) hm hb' hne hr'

/-- Lines are read in one way only. -/
theorem reads_unique {n : Nat} {ls : List Line} {t : Tree} (h : Reads n ls t) : ∀ t', Reads n ls t' → t' = t := by
  induction h with
  | nil n => intro t' h'; cases h'; rfl
  | skip k hw _ ih =>
    intro t' h'
    cases h' with
    | skip _ _ h' => exact ih t' h'
    | stmt | pass | doc | block => cases hw
  | stmt _ ih =>
    intro t' h'
    cases h' with
    | skip _ hw _ => cases hw
    | stmt h' => rw [ih _ h']
  | pass _ ih =>
    intro t' h'
    cases h' with
    | skip _ hw _ => cases hw
    | pass h' => rw [ih _ h']
  | doc _ ih =>
    intro t' h'
    cases h' with
    | skip _ hw _ => cases hw
    | doc h' => rw [ih _ h']
  | @block n m h body rest b t hm hb hne hr ihb ihr =>
    intro t' h'
    generalize hL : (⟨n, .head h⟩ :: (body ++ rest) : List Line) = L at h'
    cases h' with
    | nil => cases hL
    | skip k hw h' =>
      simp only [List.cons.injEq, Line.mk.injEq] at hL
      rw [← hL.1.2] at hw; cases hw
    | stmt => simp at hL
    | pass => simp at hL
    | doc => simp at hL
    | @block _ m' h2 body' rest' b' t'' hm' hb' hne' hr' =>
      simp only [List.cons.injEq, Line.mk.injEq, Word.head.injEq, true_and] at hL
      obtain ⟨rfl, hL⟩ := hL
      have key : Reads m' body b' ∧ Reads n rest t'' := by
        rcases List.append_eq_append_iff.1 hL with ⟨e, rfl, rfl⟩ | ⟨e, rfl, rfl⟩
        · have hs := overlap hm' hr (fun l hl => reads_ge hb' l (by simp [hl]))
          exact ⟨reads_trim hb' _ e rfl hs, reads_add e _ hs hr'⟩
        · have hs := overlap hm hr' (fun l hl => reads_ge hb l (by simp [hl]))
          exact ⟨reads_snoc hb' e hs, reads_drop e _ hs hr'⟩
      have hmm : m' = m := by
        obtain ⟨a, l, c, he, ha, hl⟩ := exists_sig hb hne
        have h1 := reads_first hb a l c he ha hl
        have h2 := reads_first key.1 a l c he ha hl
        omega
      subst hmm
      rw [ihb _ key.1, ihr _ key.2]

/-! The statements that are printed. -/

mutual
/-- The statements that Python reads. -/
def tree : Code → Tree
  | .nil => .nil
  | .stmt s r => .stmt s (tree r)
  | .pass r => .pass (tree r)
  | .silent r => tree r
  | .comment r => tree r
  | .loop n b r => .block (.loop n) (if isNil b then .pass .nil else tree b) (tree r)
  | .ifs c r => chainTree true c (tree r)
def chainTree (first : Bool) : Chain → Tree → Tree
  | .nil, k => k
  | .cons c b r, k => .block (head first c r) (if isNil b then .pass .nil else tree b) (chainTree false r k)
end

theorem isNil_iff (b : Code) : isNil b = true ↔ b = .nil := by
  cases b <;> simp [isNil]

theorem tree_ne : ∀ (c : Code), c.shows = true → tree c ≠ .nil
  | .nil, h => by cases h
  | .stmt .., _ => by simp [tree]
  | .pass _, _ => by simp [tree]
  | .silent r, h => by simp only [tree]; exact tree_ne r h
  | .comment r, h => by simp only [tree]; exact tree_ne r h
  | .loop .., _ => by simp [tree]
  | .ifs .nil r, h => by
    simp only [tree, chainTree]
    exact tree_ne r (by simpa [Code.shows, Chain.shows] using h)
  | .ifs (.cons ..) r, _ => by simp [tree, chainTree]

theorem body_ne (b : Code) (h : b = .nil ∨ b.shows = true) : (if isNil b then Tree.pass .nil else tree b) ≠ .nil := by
  rcases h with rfl | h
  · simp [isNil]
  · cases hb : isNil b with
    | true => simp
    | false => simpa using tree_ne b h

mutual
theorem stmts_reads : ∀ (c : Code), c.Filled → Reads 0 (stmts c) (tree c)
  | .nil, _ => .nil 0
  | .stmt s r, h => by simp only [stmts, tree]; exact .stmt (stmts_reads r h)
  | .pass r, h => by simp only [stmts, tree]; exact .pass (stmts_reads r h)
  | .silent r, h => by simp only [stmts, tree]; exact stmts_reads r h
  | .comment r, h => by simp only [stmts, tree]; exact .skip 0 rfl (stmts_reads r h)
  | .loop n b r, h => by
    simp only [Code.Filled] at h
    simp only [stmts, tree]
    refine .block (m := 4) (by omega) ?_ (body_ne b h.1) (stmts_reads r h.2.2)
    have hb := stmts_reads b h.2.1
    cases hn : isNil b with
    | true => simpa using reads_indent (n := 0) (.pass (.nil 0))
    | false => simpa using reads_indent hb
  | .ifs c r, h => by
    simp only [stmts, tree]
    exact sections_reads c true h.1 (stmts_reads r h.2)
theorem sections_reads : ∀ (c : Chain) (first : Bool), c.Filled → ∀ {ls : List Line} {k : Tree}, Reads 0 ls k →
    Reads 0 (sections first c ++ ls) (chainTree first c k)
  | .nil, _, _, _, _, hk => by simpa [sections, chainTree] using hk
  | .cons c b r, first, h, ls, k, hk => by
    simp only [Chain.Filled] at h
    simp only [sections, chainTree, List.cons_append, List.append_assoc]
    refine .block (m := 4) (by omega) ?_ (body_ne b h.1) (sections_reads r false h.2.2 hk)
    have hb := stmts_reads b h.2.1
    cases hn : isNil b with
    | true => simpa using reads_indent (n := 0) (.pass (.nil 0))
    | false => simpa using reads_indent hb
end

mutual
theorem tree_grammatical : ∀ (c : Code) (o : Bool), (tree c).Grammatical o
  | .nil, _ => by simp [tree, Tree.Grammatical]
  | .stmt s r, _ => by simpa [tree, Tree.Grammatical] using tree_grammatical r false
  | .pass r, _ => by simpa [tree, Tree.Grammatical] using tree_grammatical r false
  | .silent r, o => by simp only [tree]; exact tree_grammatical r o
  | .comment r, o => by simp only [tree]; exact tree_grammatical r o
  | .loop n b r, o => by
    have hb := tree_grammatical b false
    have hr := tree_grammatical r false
    cases hn : isNil b <;> simp [tree, Tree.Grammatical, hn, hb, hr]
  | .ifs c r, o => by
    simp only [tree]
    exact chain_grammatical c true o (fun h => by cases h) (fun o => tree_grammatical r o)
theorem chain_grammatical : ∀ (c : Chain) (first o : Bool), (first = false → o = true) → ∀ {k : Tree}, (∀ o, k.Grammatical o) →
    (chainTree first c k).Grammatical o
  | .nil, _, o, _, k, hk => by simpa [chainTree] using hk o
  | .cons c b r, first, o, ho, k, hk => by
    have hb := tree_grammatical b false
    have hb' : (if isNil b then Tree.pass .nil else tree b).Grammatical false := by
      cases hn : isNil b <;> simp [Tree.Grammatical, hb]
    simp only [chainTree, Tree.Grammatical]
    refine ⟨?_, hb', ?_⟩
    · cases first with
      | true => simp [head]
      | false =>
        have := ho rfl
        subst this
        cases hh : head false c r <;> simp
    · cases r with
      | nil => simpa [chainTree] using hk _
      | cons c' b' r' =>
        have hh : head first c (.cons c' b' r') = .if_ c ∨ head first c (.cons c' b' r') = .elif_ c := by
          cases first <;> simp [head, isLast]
        rcases hh with hh | hh <;> rw [hh]
        all_goals
          exact chain_grammatical (.cons c' b' r') false true (fun _ => rfl) hk
end

variable {σ : Type}

theorem seq_skip (p : Effect σ) : seq skip p = p := by
  funext a c f
  apply propext
  constructor
  · rintro (⟨b, ⟨rfl, _⟩, h⟩ | ⟨⟨_, rfl⟩, h⟩)
    · exact h
    · exact absurd rfl h
  · intro h; exact Or.inl ⟨a, ⟨rfl, rfl⟩, h⟩

theorem branch_tt (S : Sem σ) (p q : Effect σ) : branch (Cond.tt.holds S) p q = p := by
  funext a b f
  simp [branch, Cond.holds]

mutual
theorem tree_sem (S : Sem σ) : ∀ (c : Code), (tree c).sem S = (c.means S, skip)
  | .nil => by simp [tree, Tree.sem, Code.means]
  | .stmt s r => by simp [tree, Tree.sem, Code.means, tree_sem S r]
  | .pass r => by simp [tree, Tree.sem, Code.means, tree_sem S r]
  | .silent r => by simp [tree, Code.means, tree_sem S r]
  | .comment r => by simp [tree, Code.means, tree_sem S r]
  | .loop n b r => by
    have hb := tree_sem S b
    cases hn : isNil b with
    | true =>
      have := (isNil_iff b).1 hn
      subst this
      simp [tree, Tree.sem, Code.means, tree_sem S r, isNil]
    | false => simp [tree, Tree.sem, Code.means, tree_sem S r, hn, hb]
  | .ifs c r => by
    simp only [tree, Code.means]
    rw [(chain_sem S c).1 (tree r) (by rw [tree_sem S r]), tree_sem S r]
theorem chain_sem (S : Sem σ) : ∀ (c : Chain),
    (∀ k : Tree, (k.sem S).2 = skip → (chainTree true c k).sem S = (seq (c.means S) (k.sem S).1, skip)) ∧
    (∀ k : Tree, (k.sem S).2 = skip → (chainTree false c k).sem S = ((k.sem S).1, c.means S))
  | .nil => by
    constructor
    · intro k hk; simp only [chainTree, Chain.means, seq_skip]; rw [← hk]
    · intro k hk; simp only [chainTree, Chain.means]; rw [← hk]
  | .cons c b r => by
    have hb : ((if isNil b then Tree.pass .nil else tree b).sem S).1 = b.means S := by
      cases hn : isNil b with
      | true =>
        have := (isNil_iff b).1 hn
        subst this
        simp [Tree.sem, Code.means]
      | false => simp [tree_sem S b]
    have hr := (chain_sem S r).2
    constructor
    · intro k hk
      simp only [chainTree, head, if_true, Tree.sem, Chain.means]
      rw [hb, hr k hk]
    · intro k hk
      by_cases hl : (isLast r && c == .tt) = true
      · simp only [chainTree, head, Bool.false_eq_true, if_false, if_pos hl, Tree.sem, Chain.means]
        simp only [Bool.and_eq_true, beq_iff_eq] at hl
        rw [hb, hr k hk, hl.2, branch_tt]
      · simp only [chainTree, head, Bool.false_eq_true, if_false, if_neg hl, Tree.sem, Chain.means]
        rw [hb, hr k hk]
end

/-- The body of a function. -/
def bodyTree (b : Code) : Tree := if isNil b then .pass .nil else tree b

theorem bodyTree_means (S : Sem σ) (b : Code) : (bodyTree b).means S = b.means S := by
  unfold bodyTree Tree.means
  cases hn : isNil b with
  | true =>
    have := (isNil_iff b).1 hn
    subst this
    simp [Tree.sem, Code.means]
  | false => simp [tree_sem S b]

theorem block_reads (b : Code) (h : b.Filled) : Reads 0 (block b) (bodyTree b) := by
  unfold block bodyTree
  cases hn : isNil b with
  | true => simpa using Reads.pass (.nil 0)
  | false => simpa using stmts_reads b h

theorem bodyTree_grammatical (b : Code) : (bodyTree b).Grammatical false := by
  unfold bodyTree
  cases hn : isNil b with
  | true => simp [Tree.Grammatical]
  | false => simpa using tree_grammatical b false

def defTree (d : Def) : Tree := if d.doc then .pass (bodyTree d.body) else bodyTree d.body

/-- The statements of a module. -/
def moduleTree : List Def → Tree
  | [] => .nil
  | d :: ds => .block (.def_ d.name) (defTree d) (moduleTree ds)

theorem module_reads : ∀ (ds : List Def), (∀ d ∈ ds, d.body.Filled ∧ (d.doc = true ∨ d.body = .nil ∨ d.body.shows = true)) →
    Reads 0 (module ds) (moduleTree ds) := by
  intro ds
  induction ds with
  | nil => intro _; exact .nil 0
  | cons d ds ih =>
    intro h
    obtain ⟨h1, h2⟩ := h d (by simp)
    have hr : Reads 0 (⟨0, .blank⟩ :: module ds) (moduleTree ds) := .skip 0 rfl (ih (fun e he => h e (by simp [he])))
    have hb := reads_indent (block_reads d.body h1)
    simp only [module, function, List.cons_append, List.append_assoc, List.nil_append, moduleTree]
    cases hd : d.doc with
    | true =>
      have := Reads.block (n := 0) (m := 4) (h := .def_ d.name) (by omega) (Reads.doc hb) (by simp) hr
      simpa [defTree, hd, indent] using this
    | false =>
      have hne : bodyTree d.body ≠ .nil := by
        rw [hd] at h2
        exact body_ne d.body (by simpa using h2)
      have := Reads.block (n := 0) (m := 4) (h := .def_ d.name) (by omega) hb hne hr
      simpa [defTree, hd] using this

theorem module_grammatical : ∀ (ds : List Def), (moduleTree ds).Grammatical false := by
  intro ds
  induction ds with
  | nil => simp [moduleTree, Tree.Grammatical]
  | cons d ds ih =>
    have := bodyTree_grammatical d.body
    cases hd : d.doc <;> simp [moduleTree, defTree, Tree.Grammatical, hd, ih, this]

theorem defTree_means (S : Sem σ) (d : Def) : (defTree d).means S = d.body.means S := by
  have := bodyTree_means S d.body
  cases hd : d.doc with
  | true => simpa [defTree, hd, Tree.means, Tree.sem] using this
  | false => simpa [defTree, hd] using this

theorem module_functions (S : Sem σ) : ∀ (ds : List Def),
    (moduleTree ds).functions.map (fun f => (f.1, f.2.means S)) = ds.map fun d => (d.name, d.body.means S) := by
  intro ds
  induction ds with
  | nil => rfl
  | cons d ds ih => simp [moduleTree, Tree.functions, ih, defTree_means]

/-! Programs without conditions that are known to be false. -/

theorem append_filled : ∀ (p q : Code), p.Filled → q.Filled → (append p q).Filled
  | .nil, q, _, hq => by simpa [append] using hq
  | .stmt s r, q, hp, hq => by simp only [append, Code.Filled]; exact append_filled r q hp hq
  | .pass r, q, hp, hq => by simp only [append, Code.Filled]; exact append_filled r q hp hq
  | .silent r, q, hp, hq => by simp only [append, Code.Filled]; exact append_filled r q hp hq
  | .comment r, q, hp, hq => by simp only [append, Code.Filled]; exact append_filled r q hp hq
  | .loop n b r, q, hp, hq => by
    simp only [append, Code.Filled] at *
    exact ⟨hp.1, hp.2.1, append_filled r q hp.2.2 hq⟩
  | .ifs c r, q, hp, hq => by
    simp only [append, Code.Filled] at *
    exact ⟨hp.1, append_filled r q hp.2 hq⟩

theorem append_shows : ∀ (p q : Code), p.shows = true → (append p q).shows = true
  | .nil, _, h => by cases h
  | .stmt .., _, _ => by simp [append, Code.shows]
  | .pass _, _, _ => by simp [append, Code.shows]
  | .silent r, q, h => by simp only [append, Code.shows]; exact append_shows r q h
  | .comment r, q, h => by simp only [append, Code.shows]; exact append_shows r q h
  | .loop .., _, _ => by simp [append, Code.shows]
  | .ifs c r, q, h => by
    simp only [append, Code.shows, Bool.or_eq_true] at *
    rcases h with h | h
    · exact Or.inl h
    · exact Or.inr (append_shows r q h)

mutual
theorem visit_filled : ∀ (p : Src), p.plain = true → (visit p).Filled ∧ (p.solid = true → (visit p).shows = true)
  | .nil, _ => ⟨by simp [visit, Code.Filled], by simp [Src.solid]⟩
  | .stmt s r, h => ⟨by simp only [visit, Code.Filled]; exact (visit_filled r h).1, by simp [visit, Code.shows]⟩
  | .pass r, h => ⟨by simp only [visit, Code.Filled]; exact (visit_filled r h).1, by simp [visit, Code.shows]⟩
  | .comment r, h => ⟨by simp only [visit, Code.Filled]; exact (visit_filled r h).1,
      by simp only [visit, Code.shows, Src.solid]; exact (visit_filled r h).2⟩
  | .empty r, h => ⟨by simp only [visit]; exact (visit_filled r h).1,
      by simp only [visit, Src.solid]; exact (visit_filled r h).2⟩
  | .loop n b r, h => by
    simp only [Src.plain, Bool.and_eq_true] at h
    have hb := visit_filled b h.1.2
    refine ⟨?_, by simp [visit, Code.shows]⟩
    simp only [visit, Code.Filled]
    exact ⟨Or.inr (hb.2 h.1.1), hb.1, (visit_filled r h.2).1⟩
  | .ifs c r, h => by
    simp only [Src.plain, Bool.and_eq_true] at h
    have hc := visitIf_filled c h.1.2
    have hr := visit_filled r h.2
    simp only [visit]
    cases hv : visitIf c with
    | inl b =>
      obtain ⟨h1, h2⟩ := hc.1 b hv
      exact ⟨append_filled b _ h1 hr.1, fun _ => append_shows b _ h2⟩
    | inr ch =>
      obtain ⟨h1, h2⟩ := hc.2 ch hv
      refine ⟨by simp only [Code.Filled]; exact ⟨h1, hr.1⟩, fun _ => ?_⟩
      simp only [Code.shows, h2 h.1.1, Bool.true_or]
theorem visitIf_filled : ∀ (c : SrcChain), c.plain = true →
    (∀ b, visitIf c = .inl b → b.Filled ∧ b.shows = true) ∧ (∀ ch, visitIf c = .inr ch → ch.Filled ∧ (c.isCons = true → ch.shows = true))
  | .nil, _ => ⟨fun b h => (by simp [visitIf] at h), fun ch h => (by
      simp only [visitIf, Sum.inr.injEq] at h
      subst h
      exact ⟨by simp [Chain.Filled], by simp [SrcChain.isCons]⟩)⟩
  | .cons (some false) c b r, h => by simp [SrcChain.plain] at h
  | .cons (some true) c b r, h => by
    simp only [SrcChain.plain, Bool.and_eq_true] at h
    have hb := visit_filled b h.1.2
    refine ⟨fun b' hb' => ?_, fun ch hch => (by simp [visitIf] at hch)⟩
    simp only [visitIf, Sum.inl.injEq] at hb'
    subst hb'
    exact ⟨hb.1, hb.2 h.1.1.2⟩
  | .cons none c b r, h => by
    simp only [SrcChain.plain, Bool.and_eq_true] at h
    have hb := visit_filled b h.1.2
    have hr := visitIf_filled r h.2
    refine ⟨fun b' hb' => (by simp [visitIf] at hb'), fun ch hch => ?_⟩
    simp only [visitIf, Sum.inr.injEq] at hch
    subst hch
    refine ⟨?_, by simp [Chain.shows]⟩
    simp only [Chain.Filled]
    refine ⟨Or.inr (hb.2 h.1.1.2), hb.1, ?_⟩
    cases hv : visitIf r with
    | inl b' =>
      obtain ⟨h1, h2⟩ := hr.1 b' hv
      simp only [Chain.Filled]
      exact ⟨Or.inr h2, h1, trivial⟩
    | inr ch => exact (hr.2 ch hv).1
end

end Verif.PyOut.LemmasBlocks
