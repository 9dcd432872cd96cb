import Verif.Stubs.Lemmas

namespace Verif.Stubs
open Verif.Types.Spec (Num)

/-- The text is read as an annotation that means exactly `t`. -/
def Reads (env : Txt → Option Obj) (f : Nat) (txt : Txt) (t : Ty) : Prop :=
  ∃ s, Parses (typeP f) txt s ∧ resolve env f s = some [(t, none)]

theorem applyOrder_none (l : List (Ty × Option Mem)) : applyOrder none l = some l := rfl

theorem dedup_one (a : Ty × Option Mem) : dedup [a] = [a] := rfl

theorem all_slices (n : Nat) : (List.replicate n SArg.slice).all (fun a => match a with | .slice => true | _ => false) = true := by
  induction n with
  | zero => rfl
  | succ n ih => simp [List.replicate_succ, ih]

theorem colons_eq (n : Nat) : colons n = tails (List.replicate n ([':'], SArg.slice)) := by
  induction n with
  | zero => rfl
  | succ n ih =>
    rw [List.replicate_succ]
    simp only [colons, tails, List.map_cons, List.flatten_cons] at ih ⊢
    rw [ih]
    simp

theorem reads_arr {env : Txt → Option Obj} {t : Num} {r : Nat} {o : Option Order} (h : Wf env (.arr t r o)) {f : Nat} :
    Reads env (f + 1) (printT (.arr t r o)) (.arr t r o) := by
  obtain ⟨h1, h2, h3, h4⟩ := h
  obtain ⟨n, rfl⟩ := Nat.exists_eq_succ_of_ne_zero h3
  have hl : ∀ x ∈ List.replicate n (([':'] : Txt), SArg.slice), Parses (indexP (typeP f)) x.1 x.2 := by
    intro x hx
    obtain ⟨-, rfl⟩ := List.mem_replicate.1 hx
    exact index_slice
  have hm : SArg.slice :: (List.replicate n (([':'] : Txt), SArg.slice)).map (·.2) = List.replicate (n + 1) .slice := by
    simp [List.map_replicate, List.replicate_succ]
  have hi : indexed (resolve env f) (.num t) (List.replicate (n + 1) .slice) = some [(.arr t (n + 1) (if n + 1 < 2 then none else some .C), none)] := by
    have e : (List.replicate (n + 1) SArg.slice).isEmpty = false := by simp
    simp only [indexed, e, all_slices, if_true, arrOf, h2, List.length_replicate, Option.map_some]
    simp
  cases o with
  | none =>
    refine ⟨.idx (.id (numName t)) (List.replicate (n + 1) .slice) none, ?_, ?_⟩
    · have := typeP_idx (isId_num t) (x := ([':'], .slice)) (f := f) index_slice hl
      rw [hm, ← colons_eq] at this
      simpa [printT, orderTxt] using this
    · have hr : n + 1 < 2 := h4.1 rfl
      simp only [resolve, h1, hi, if_pos hr, dedup_one, applyOrder_none]
  | some o =>
    refine ⟨.idx (.id (numName t)) (List.replicate (n + 1) .slice) (orderLetter (some o)), ?_, ?_⟩
    · have := typeP_idx_order (isId_num t) (x := ([':'], .slice)) (f := f) index_slice hl o
      rw [hm, ← colons_eq] at this
      simpa [printT] using this
    · have hr : ¬ n + 1 < 2 := fun h => by have := h4.2 h; simp at this
      simp only [resolve, h1, hi, if_neg hr, dedup_one]
      cases o <;> rfl

theorem reads_idx1 {env : Txt → Option Obj} {n : Txt} (hn : IsId n) {b : Obj} (hb : env n = some b) {f : Nat} {t u : Ty}
    (ht : Reads env f (printT t) t) (hd : ∃ c cs, printT t = c :: cs ∧ isIdS c = true)
    (hi : ∀ s, resolve env f s = some [(t, none)] → indexed (resolve env f) b [.ty s] = some [(u, none)]) :
    Reads env (f + 1) (n ++ '[' :: (printT t ++ [']'])) u := by
  obtain ⟨s, h1, h2⟩ := ht
  refine ⟨.idx (.id n) [.ty s] none, ?_, ?_⟩
  · have := typeP_idx hn (x := (printT t, .ty s)) (l := []) (index_ty h1 hd) (by simp)
    simpa [tails] using this
  · simp only [resolve, hb, hi s h2, dedup_one, applyOrder_none]

/-- Lists of types. -/
theorem all_syn (l : List (Txt × Syn)) : all SArg.syn? (l.map (fun x => SArg.ty x.2)) = some (l.map (·.2)) := by
  induction l with
  | nil => rfl
  | cons x l ih => simp [all, SArg.syn?, ih]

theorem product_one {α : Type} (l : List α) : product (l.map (fun a => [a])) = [l] := by
  induction l with
  | nil => rfl
  | cons a l ih => simp [product, ih]

/-- The text of further types is read. -/
def ReadsAll (env : Txt → Option Obj) (f : Nat) (ts : List Ty) : Prop :=
  ∃ l : List (Txt × Syn), printTs ts = tails l ∧ (∀ x ∈ l, Parses (indexP (typeP f)) x.1 (SArg.ty x.2)) ∧
    all (resolve env f) (l.map (·.2)) = some (ts.map (fun t => [(t, none)]))

theorem tails_map {α β : Type} (g : α → β) (l : List (Txt × α)) : tails (l.map (fun x => (x.1, g x.2))) = tails l := by
  simp [tails, List.map_map, Function.comp_def]

theorem indexed_tuple {rec : Syn → Option (List (Ty × Option Mem))} (s : Syn) (ss : List Syn) (ts : List Ty)
    (h : all rec (s :: ss) = some (ts.map (fun t => [(t, none)]))) :
    indexed rec .tuple (.ty s :: ss.map .ty) = some [(.tup ts, none)] := by
  have e1 : all SArg.syn? (.ty s :: ss.map .ty) = some (s :: ss) := by
    have := all_syn ((s :: ss).map (fun x => (([] : Txt), x)))
    simpa [List.map_map, Function.comp_def] using this
  have e3 : (ts.map (fun t => [((t : Ty), (none : Option Mem))])).map (·.map (·.1)) = ts.map (fun a => [a]) := by simp [List.map_map, Function.comp_def]
  have key : (match all SArg.syn? (.ty s :: ss.map .ty) with
      | some ss => (all rec ss).map (fun ls => (product (ls.map (·.map (·.1)))).map fun ts => (Ty.tup ts, (none : Option Mem)))
      | none => none) = some [(.tup ts, none)] := by
    simp only [e1, h, Option.map_some, e3, product_one, List.map_cons, List.map_nil]
  unfold indexed
  rw [if_neg (by decide), if_neg (by simp), if_neg (by simp), if_neg (by simp [List.any_eq_false])]
  cases ss with
  | nil => exact key
  | cons u us => exact key

mutual
/-- Every type is read as it was printed. -/
theorem reads_ok (env : Txt → Option Obj) : (t : Ty) → Wf env t → ∀ f, (printT t).length ≤ f → Reads env f (printT t) t
  | .num t, h, f, hf => by
    have hf0 : f ≠ 0 := by
      obtain ⟨c, cs, e, -⟩ := print_head h
      rw [e] at hf
      simp at hf
      omega
    refine ⟨.name (.id (numName t)), by simpa [printT] using typeP_name (isId_num t) hf0, ?_⟩
    obtain ⟨f, rfl⟩ := Nat.exists_eq_succ_of_ne_zero hf0
    simp only [resolve, show env (numName t) = some (.num t) from h]
  | .str, h, f, hf => by
    have hf0 : f ≠ 0 := by simp [printT] at hf; omega
    refine ⟨.name (.id ['s', 't', 'r']), by simpa [printT] using typeP_name (n := ['s', 't', 'r']) (by decide) hf0, ?_⟩
    obtain ⟨f, rfl⟩ := Nat.exists_eq_succ_of_ne_zero hf0
    simp only [resolve, show env ['s', 't', 'r'] = some .str from h]
  | .cls n, h, f, hf => by
    have hf0 : f ≠ 0 := by
      obtain ⟨c, cs, e, -⟩ := print_head (env := env) (t := .cls n) h
      rw [e] at hf
      simp at hf
      omega
    refine ⟨.name (.id n), by simpa [printT] using typeP_name h.1 hf0, ?_⟩
    obtain ⟨f, rfl⟩ := Nat.exists_eq_succ_of_ne_zero hf0
    simp only [resolve, h.2]
  | .arr t r o, h, f, hf => by
    have hf0 : f ≠ 0 := by
      obtain ⟨c, cs, e, -⟩ := print_head (env := env) (t := .arr t r o) h
      rw [e] at hf
      simp at hf
      omega
    obtain ⟨f, rfl⟩ := Nat.exists_eq_succ_of_ne_zero hf0
    exact reads_arr h
  | .htup t, h, f, hf => by
    simp only [printT, List.length_append, List.length_cons, List.length_nil] at hf
    obtain ⟨f, rfl⟩ := Nat.exists_eq_succ_of_ne_zero (show f ≠ 0 by omega)
    obtain ⟨s, h1, h2⟩ := reads_ok env t h.2 f (by omega)
    refine ⟨.idx (.id ['t', 'u', 'p', 'l', 'e']) [.ty s, .ell] none, ?_, ?_⟩
    · have := typeP_idx (n := ['t', 'u', 'p', 'l', 'e']) (by decide) (x := (printT t, .ty s)) (l := [([' ', '.', '.', '.'], .ell)])
        (index_ty h1 (print_head h.2)) (by simpa using index_ell)
      simpa [tails, printT] using this
    · simp only [resolve, h.1]
      simp [indexed, h2, dedup_one, applyOrder_none]
  | .tup [], h, _, _ => absurd rfl h.2.1
  | .tup (t :: ts), h, f, hf => by
    simp only [printT, List.length_append, List.length_cons, List.length_nil] at hf
    obtain ⟨f, rfl⟩ := Nat.exists_eq_succ_of_ne_zero (show f ≠ 0 by omega)
    obtain ⟨s, h1, h2⟩ := reads_ok env t h.2.2.1 f (by omega)
    obtain ⟨l, e1, e2, e3⟩ := readsAll_ok env ts h.2.2.2 f (by omega)
    refine ⟨.idx (.id ['t', 'u', 'p', 'l', 'e']) (.ty s :: (l.map (·.2)).map .ty) none, ?_, ?_⟩
    · have := typeP_idx (n := ['t', 'u', 'p', 'l', 'e']) (by decide) (x := (printT t, .ty s)) (l := l.map (fun x => (x.1, SArg.ty x.2)))
        (index_ty h1 (print_head h.2.2.1)) (by
          intro x hx
          obtain ⟨y, hy, rfl⟩ := List.mem_map.1 hx
          exact e2 y hy)
      rw [tails_map, ← e1] at this
      simpa [printT, List.map_map, Function.comp_def] using this
    · have := indexed_tuple (rec := resolve env f) s (l.map (·.2)) (t :: ts) (by simp only [all, h2, e3, List.map_cons])
      simp only [resolve, h.1, this, dedup_one, applyOrder_none]
  | .list t, h, f, hf => by
    simp only [printT, List.length_append, List.length_cons, List.length_nil] at hf
    obtain ⟨f, rfl⟩ := Nat.exists_eq_succ_of_ne_zero (show f ≠ 0 by omega)
    have := reads_idx1 (n := ['l', 'i', 's', 't']) (by decide) h.1 (u := .list t) (reads_ok env t h.2 f (by omega)) (print_head h.2)
      (fun s hs => by simp [indexed, hs])
    simpa [printT] using this
  | .set t, h, f, hf => by
    simp only [printT, List.length_append, List.length_cons, List.length_nil] at hf
    obtain ⟨f, rfl⟩ := Nat.exists_eq_succ_of_ne_zero (show f ≠ 0 by omega)
    have := reads_idx1 (n := ['s', 'e', 't']) (by decide) h.1 (u := .set t) (reads_ok env t h.2 f (by omega)) (print_head h.2)
      (fun s hs => by simp [indexed, hs])
    simpa [printT] using this
  | .final t, h, f, hf => by
    simp only [printT, List.length_append, List.length_cons, List.length_nil] at hf
    obtain ⟨f, rfl⟩ := Nat.exists_eq_succ_of_ne_zero (show f ≠ 0 by omega)
    have := reads_idx1 (n := ['F', 'i', 'n', 'a', 'l']) (by decide) h.1 (u := .final t) (reads_ok env t h.2.1 f (by omega)) (print_head h.2.1)
      (fun s hs => by
        have hnf := h.2.2
        cases t <;> simp [indexed, hs]
        exact absurd rfl (hnf _))
    simpa [printT] using this
  | .dict k v, h, f, hf => by
    simp only [printT, List.length_append, List.length_cons, List.length_nil] at hf
    obtain ⟨f, rfl⟩ := Nat.exists_eq_succ_of_ne_zero (show f ≠ 0 by omega)
    obtain ⟨s, h1, h2⟩ := reads_ok env k h.2.1 f (by omega)
    obtain ⟨u, h3, h4⟩ := reads_ok env v h.2.2 f (by omega)
    refine ⟨.idx (.id ['d', 'i', 'c', 't']) [.ty s, .ty u] none, ?_, ?_⟩
    · have := typeP_idx (n := ['d', 'i', 'c', 't']) (by decide) (x := (printT k, .ty s)) (l := [(' ' :: printT v, .ty u)])
        (index_ty h1 (print_head h.2.1)) (by simpa using index_sp (index_ty h3 (print_head h.2.2)))
      simpa [tails, printT] using this
    · simp only [resolve, h.1]
      simp [indexed, h2, h4, dedup_one, applyOrder_none]
/-- The same for lists of types. -/
theorem readsAll_ok (env : Txt → Option Obj) : (ts : List Ty) → Wfs env ts → ∀ f, (printTs ts).length ≤ f → ReadsAll env f ts
  | [], _, _, _ => ⟨[], rfl, by simp, rfl⟩
  | t :: ts, h, f, hf => by
    simp only [printTs, List.length_append, List.length_cons] at hf
    obtain ⟨s, h1, h2⟩ := reads_ok env t h.1 f (by omega)
    obtain ⟨l, e1, e2, e3⟩ := readsAll_ok env ts h.2 f (by omega)
    refine ⟨(' ' :: printT t, s) :: l, by simp [printTs, e1, tails], ?_, by simp [all, h2, e3]⟩
    intro x hx
    rcases List.mem_cons.1 hx with rfl | hx
    · exact index_sp (index_ty h1 (print_head h.1))
    · exact e2 x hx
end

end Verif.Stubs
