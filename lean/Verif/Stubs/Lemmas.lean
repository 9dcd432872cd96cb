import Verif.Stubs.Model

namespace Verif.Stubs
open Verif.Types.Spec (Num)

/-- A name. -/
def IsId (n : Txt) : Prop := ∃ c cs, n = c :: cs ∧ isIdS c = true ∧ cs.all isIdC = true

instance (n : Txt) : Decidable (IsId n) :=
  match n with
  | [] => isFalse (by rintro ⟨_, _, h, _⟩; cases h)
  | c :: cs => decidable_of_iff (isIdS c = true ∧ cs.all isIdC = true)
      ⟨fun h => ⟨c, cs, rfl, h⟩, by rintro ⟨_, _, h, h'⟩; cases h; exact h'⟩

mutual
/-- All names of the type are known where the stub is read, arrays have NumPy element types, at least one dimension and an order if they have several,
and no tuple is empty. -/
def Wf (env : Txt → Option Obj) : Ty → Prop
  | .num t => env (numName t) = some (.num t)
  | .str => env ['s', 't', 'r'] = some .str
  | .cls n => IsId n ∧ env n = some (.cls n)
  | .arr t r o => env (numName t) = some (.num t) ∧ npT t = t ∧ r ≠ 0 ∧ (o = none ↔ r < 2)
  | .htup t => env ['t', 'u', 'p', 'l', 'e'] = some .tuple ∧ Wf env t
  | .tup ts => env ['t', 'u', 'p', 'l', 'e'] = some .tuple ∧ ts ≠ [] ∧ Wfs env ts
  | .list t => env ['l', 'i', 's', 't'] = some .list ∧ Wf env t
  | .set t => env ['s', 'e', 't'] = some .set ∧ Wf env t
  | .dict k v => env ['d', 'i', 'c', 't'] = some .dict ∧ Wf env k ∧ Wf env v
  | .final t => env ['F', 'i', 'n', 'a', 'l'] = some .final ∧ Wf env t ∧ ∀ u, t ≠ .final u
/-- The same for all types of a list. -/
def Wfs (env : Txt → Option Obj) : List Ty → Prop
  | [] => True
  | t :: ts => Wf env t ∧ Wfs env ts
end

/-- What may follow a type. -/
def Stop : Txt → Prop
  | [] => True
  | c :: _ => c = ']' ∨ c = ',' ∨ c = ')'

/-- A closing bracket. -/
def End : Txt → Prop
  | [] => True
  | c :: _ => c = ']' ∨ c = ')'

theorem End.stop {r : Txt} (h : End r) : Stop r := by
  cases r with
  | nil => trivial
  | cons c cs => rcases h with h | h
                 · exact Or.inl h
                 · exact Or.inr (Or.inr h)

/-- `p` reads exactly `txt`, with the result `a`. -/
def Parses {α : Type} (p : Txt → Option (α × Txt)) (txt : Txt) (a : α) : Prop := ∀ rest, Stop rest → p (txt ++ rest) = some (a, rest)

theorem idS_notWs {c : Char} (h : isIdS c = true) : isWs c = false := by
  rw [Bool.eq_false_iff]
  intro hw
  simp only [isWs, Bool.or_eq_true, decide_eq_true_eq] at hw
  rcases hw with ((rfl | rfl) | rfl) | rfl <;> exact absurd h (by decide)

theorem skip_cons {c : Char} {i : Txt} (h : isWs c = false) : skip (c :: i) = c :: i := by simp [skip, h]

theorem skip_space (i : Txt) : skip (' ' :: i) = skip i := by simp [skip, isWs]

theorem lit_space (s i : Txt) : lit s (' ' :: i) = lit s i := by simp [lit, skip_space]

theorem ident_space (i : Txt) : ident (' ' :: i) = ident i := by simp [ident, skip_space]

theorem quoted_space (q : Char) (i : Txt) : quoted q (' ' :: i) = quoted q i := by simp [quoted, lit_space]

theorem dataType_space (i : Txt) : dataType (' ' :: i) = dataType i := by simp [dataType, ident_space, lit_space, quoted_space]

theorem typeP_space (f : Nat) (i : Txt) : typeP f (' ' :: i) = typeP f i := by
  cases f with
  | zero => rfl
  | succ f => simp only [typeP, dataType_space]

theorem indexP_space (f : Nat) (i : Txt) : indexP (typeP f) (' ' :: i) = indexP (typeP f) i := by
  simp only [indexP, lit_space, typeP_space]

theorem lit1 {c : Char} {i : Txt} (h : isWs c = false) : lit [c] (c :: i) = some i := by
  simp [lit, skip_cons h, strip]

theorem lit1_ne {c d : Char} {i : Txt} (h : isWs d = false) (hc : c ≠ d) : lit [c] (d :: i) = none := by
  simp [lit, skip_cons h, strip, hc]

theorem stop_idC {c : Char} (h : c = ']' ∨ c = ',' ∨ c = ')') : isIdC c = false := by
  rcases h with rfl | rfl | rfl <;> decide

theorem stop_ws {c : Char} (h : c = ']' ∨ c = ',' ∨ c = ')') : isWs c = false := by
  rcases h with rfl | rfl | rfl <;> decide

theorem takeWhile_id {cs rest : Txt} (h : cs.all isIdC = true) (hr : ∀ c r, rest = c :: r → isIdC c = false) :
    (cs ++ rest).takeWhile isIdC = cs ∧ (cs ++ rest).dropWhile isIdC = rest := by
  induction cs with
  | nil =>
    cases rest with
    | nil => simp
    | cons c r => simp [hr c r rfl]
  | cons c cs ih =>
    simp only [List.all_cons, Bool.and_eq_true] at h
    simp [h.1, ih h.2]

theorem ident_ok {n rest : Txt} (h : IsId n) (hr : ∀ c r, rest = c :: r → isIdC c = false) : ident (n ++ rest) = some (n, rest) := by
  obtain ⟨c, cs, rfl, hc, hcs⟩ := h
  have := takeWhile_id hcs hr
  simp [ident, skip_cons (idS_notWs hc), hc, this.1, this.2]

theorem dataType_id {n rest : Txt} (h : IsId n) (hr : ∀ c r, rest = c :: r → isIdC c = false) : dataType (n ++ rest) = some (.id n, rest) := by
  simp [dataType, ident_ok h hr]

/-- A list of elements. -/
def tails {α : Type} (l : List (Txt × α)) : Txt := (l.map (fun x => ',' :: x.1)).flatten

theorem tails_stop {α : Type} (l : List (Txt × α)) {rest : Txt} (h : End rest) : Stop (tails l ++ rest) := by
  cases l with
  | nil => exact h.stop
  | cons x l => simp [tails, Stop]

theorem end_comma {r : Txt} (h : End r) : lit [','] r = none := by
  cases r with
  | nil => rfl
  | cons c cs =>
    rcases h with rfl | rfl
    · exact lit1_ne (by decide) (by decide)
    · exact lit1_ne (by decide) (by decide)

theorem sepMore_ok {α : Type} {p : Txt → Option (α × Txt)} {l : List (Txt × α)} (h : ∀ x ∈ l, Parses p x.1 x.2) {k : Nat} (hk : l.length ≤ k)
    {rest : Txt} (hr : End rest) : sepMore ',' p k (tails l ++ rest) = (l.map (·.2), rest) := by
  induction l generalizing k with
  | nil =>
    cases k with
    | zero => rfl
    | succ k => simp [sepMore, tails, end_comma hr]
  | cons x l ih =>
    cases k with
    | zero => simp at hk
    | succ k =>
      have e : tails (x :: l) ++ rest = ',' :: (x.1 ++ (tails l ++ rest)) := by simp [tails]
      have h1 := h x (by simp) _ (tails_stop l hr)
      have h2 := ih (fun y hy => h y (by simp [hy])) (k := k) (by simpa using hk)
      rw [e]
      simp only [sepMore, lit1 (show isWs ',' = false by decide), h1, h2, List.map_cons]

theorem length_tails {α : Type} (l : List (Txt × α)) : l.length ≤ (tails l).length := by
  induction l with
  | nil => simp
  | cons x l ih =>
    simp only [tails, List.map_cons, List.flatten_cons, List.length_append, List.length_cons] at ih ⊢
    omega

theorem sepBy_ok {α : Type} {p : Txt → Option (α × Txt)} {x : Txt × α} {l : List (Txt × α)} (hx : Parses p x.1 x.2) (h : ∀ x ∈ l, Parses p x.1 x.2)
    {rest : Txt} (hr : End rest) : sepBy ',' p (x.1 ++ (tails l ++ rest)) = (x.2 :: l.map (·.2), rest) := by
  have h2 := sepMore_ok h (k := (tails l ++ rest).length) (by have := length_tails l; simp only [List.length_append]; omega) hr
  simp only [sepBy, hx _ (tails_stop l hr), h2]

theorem end_cons (r : Txt) : End (']' :: r) := Or.inl rfl

theorem stop_order {r : Txt} (h : Stop r) : orderP r = none := by
  cases r with
  | nil => rfl
  | cons c cs =>
    have : lit ['('] (c :: cs) = none := lit1_ne (stop_ws h) (by rcases h with rfl | rfl | rfl <;> decide)
    simp [orderP, this]

theorem stop_bracket {r : Txt} (h : Stop r) : lit ['['] r = none := by
  cases r with
  | nil => rfl
  | cons c cs => exact lit1_ne (stop_ws h) (by rcases h with rfl | rfl | rfl <;> decide)

theorem typeP_name {n : Txt} (h : IsId n) {f : Nat} (hf : f ≠ 0) : Parses (typeP f) n (.name (.id n)) := by
  intro rest hr
  obtain ⟨f, rfl⟩ := Nat.exists_eq_succ_of_ne_zero hf
  have h1 : dataType (n ++ rest) = some (.id n, rest) := dataType_id h (by
    intro c r e
    subst e
    exact stop_idC hr)
  simp [typeP, h1, stop_bracket hr]

theorem typeP_idx {n : Txt} (h : IsId n) {f : Nat} {x : Txt × SArg} {l : List (Txt × SArg)} (hx : Parses (indexP (typeP f)) x.1 x.2)
    (hl : ∀ x ∈ l, Parses (indexP (typeP f)) x.1 x.2) :
    Parses (typeP (f + 1)) (n ++ '[' :: (x.1 ++ (tails l ++ [']']))) (.idx (.id n) (x.2 :: l.map (·.2)) none) := by
  intro rest hr
  have h1 : dataType (n ++ ('[' :: (x.1 ++ (tails l ++ (']' :: rest))))) = some (.id n, '[' :: (x.1 ++ (tails l ++ (']' :: rest)))) :=
    dataType_id h (by
      intro c r e
      cases e
      decide)
  have h2 := sepBy_ok hx hl (end_cons rest)
  have e : n ++ '[' :: (x.1 ++ (tails l ++ [']'])) ++ rest = n ++ ('[' :: (x.1 ++ (tails l ++ (']' :: rest)))) := by simp
  rw [e]
  simp only [typeP, h1, lit1 (show isWs '[' = false by decide), h2, lit1 (show isWs ']' = false by decide), stop_order hr]

theorem typeP_idx_order {n : Txt} (h : IsId n) {f : Nat} {x : Txt × SArg} {l : List (Txt × SArg)} (hx : Parses (indexP (typeP f)) x.1 x.2)
    (hl : ∀ x ∈ l, Parses (indexP (typeP f)) x.1 x.2) (o : Order) :
    Parses (typeP (f + 1)) (n ++ '[' :: (x.1 ++ (tails l ++ (']' :: orderTxt (some o))))) (.idx (.id n) (x.2 :: l.map (·.2)) (orderLetter (some o))) := by
  intro rest hr
  have h1 : dataType (n ++ ('[' :: (x.1 ++ (tails l ++ (']' :: (orderTxt (some o) ++ rest)))))) =
      some (.id n, '[' :: (x.1 ++ (tails l ++ (']' :: (orderTxt (some o) ++ rest))))) :=
    dataType_id h (by
      intro c r e
      cases e
      decide)
  have h2 := sepBy_ok hx hl (end_cons (orderTxt (some o) ++ rest))
  have e : n ++ '[' :: (x.1 ++ (tails l ++ (']' :: orderTxt (some o)))) ++ rest =
      n ++ ('[' :: (x.1 ++ (tails l ++ (']' :: (orderTxt (some o) ++ rest))))) := by simp
  have h3 : ∃ s, orderLetter (some o) = some s ∧ orderP (orderTxt (some o) ++ rest) = some (s, rest) := by
    cases o
    · exact ⟨['C'], rfl, rfl⟩
    · exact ⟨['F'], rfl, rfl⟩
  obtain ⟨s, e1, e2⟩ := h3
  rw [e, e1]
  simp only [typeP, h1, lit1 (show isWs '[' = false by decide), h2, lit1 (show isWs ']' = false by decide), e2]

theorem index_slice {f : Nat} : Parses (indexP (typeP f)) [':'] .slice := by
  intro rest _
  simp [indexP, lit1 (show isWs ':' = false by decide)]

theorem index_ell {f : Nat} : Parses (indexP (typeP f)) [' ', '.', '.', '.'] .ell := by
  intro rest _
  have h1 : lit [':'] ('.' :: '.' :: '.' :: rest) = none := lit1_ne (by decide) (by decide)
  have h2 : lit ['.', '.', '.'] ('.' :: '.' :: '.' :: rest) = some rest := by simp [lit, skip, isWs, strip]
  show indexP (typeP f) (' ' :: '.' :: '.' :: '.' :: rest) = _
  simp only [indexP, lit_space, h1, h2]

theorem index_ty {f : Nat} {t : Txt} {s : Syn} (h : Parses (typeP f) t s) (hd : ∃ c cs, t = c :: cs ∧ isIdS c = true) :
    Parses (indexP (typeP f)) t (.ty s) := by
  intro rest hr
  obtain ⟨c, cs, rfl, hc⟩ := hd
  have hw := idS_notWs hc
  have h1 : lit [':'] (c :: (cs ++ rest)) = none := lit1_ne hw (by rintro rfl; exact absurd hc (by decide))
  have h2 : lit ['.', '.', '.'] (c :: (cs ++ rest)) = none := by
    have : ¬ '.' = c := by rintro rfl; exact absurd hc (by decide)
    simp [lit, skip_cons hw, strip, this]
  have h3 := h rest hr
  simp only [List.cons_append] at h3 ⊢
  simp only [indexP, h1, h2, h3]

theorem index_sp {f : Nat} {t : Txt} {a : SArg} (h : Parses (indexP (typeP f)) t a) : Parses (indexP (typeP f)) (' ' :: t) a := by
  intro rest hr
  rw [List.cons_append, indexP_space]
  exact h rest hr

theorem isId_num (t : Num) : IsId (numName t) := by cases t <;> decide

theorem head_num (t : Num) (r : Txt) : ∃ c cs, numName t ++ r = c :: cs ∧ isIdS c = true := by
  obtain ⟨c, cs, e, h, _⟩ := isId_num t
  exact ⟨c, cs ++ r, by rw [e]; rfl, h⟩

theorem print_head {env : Txt → Option Obj} {t : Ty} (h : Wf env t) : ∃ c cs, printT t = c :: cs ∧ isIdS c = true := by
  cases t with
  | num t => simpa [printT] using head_num t []
  | str => exact ⟨_, _, rfl, by decide⟩
  | cls n =>
    obtain ⟨⟨c, cs, rfl, hc, -⟩, -⟩ := h
    exact ⟨c, cs, by simp [printT], hc⟩
  | arr t r o =>
    simp only [printT, List.append_assoc, List.cons_append]
    exact head_num t _
  | htup t => simp only [printT]; exact ⟨_, _, rfl, by decide⟩
  | tup ts =>
    cases ts with
    | nil => exact absurd rfl h.2.1
    | cons t ts => simp only [printT]; exact ⟨_, _, rfl, by decide⟩
  | list t => simp only [printT]; exact ⟨_, _, rfl, by decide⟩
  | set t => simp only [printT]; exact ⟨_, _, rfl, by decide⟩
  | dict k v => simp only [printT]; exact ⟨_, _, rfl, by decide⟩
  | final t => simp only [printT]; exact ⟨_, _, rfl, by decide⟩

end Verif.Stubs
