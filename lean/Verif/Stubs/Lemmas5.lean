import Verif.Stubs.Model

namespace Verif.Stubs
open Verif.Types.Spec (Num)

/-- No name in the annotation stands for a union. -/
inductive Single (env : Txt → Option Obj) : Syn → Prop where
  | name {x} : (∀ ts, env x ≠ some (.alias ts)) → Single env (.name (.id x))
  | idx {x args o} : (∀ ts, env x ≠ some (.alias ts)) → (∀ s, .ty s ∈ args → Single env s) → Single env (.idx (.id x) args o)

/-- Annotations without `Final` and `Annotated`; orders `C` and `F` are only given for arrays whose element type is one type, `...` only in tuples, and
dictionaries contain no unions. -/
inductive Clear (env : Txt → Option Obj) : Syn → Prop where
  | name {d} : Clear env (.name d)
  | idx {x args o} :
      (∀ c, o = some c → (∃ t, env x = some (.num t)) ∧ (c = ['C'] ∨ c = ['c'] ∨ c = ['F'] ∨ c = ['f'])) →
      env x ≠ some .final → env x ≠ some .annotated → (.ell ∈ args → env x = some .tuple) →
      (env x = some .dict → ∀ s, .ty s ∈ args → Single env s) → (∀ s, .ty s ∈ args → Clear env s) → Clear env (.idx (.id x) args o)

/-- Lists of the same length whose elements are related in pairs. -/
inductive Pairs {α β : Type} (R : α → β → Prop) : List α → List β → Prop where
  | nil : Pairs R [] []
  | cons {a b l r} : R a b → Pairs R l r → Pairs R (a :: l) (b :: r)

theorem mem_product {α : Type} {ls : List (List α)} {l : List α} : l ∈ product ls ↔ Pairs (· ∈ ·) l ls := by
  induction ls generalizing l with
  | nil =>
    simp only [product, List.mem_singleton]
    constructor
    · rintro rfl; exact .nil
    · intro h; cases h; rfl
  | cons a ls ih =>
    simp only [product, List.mem_flatMap, List.mem_map]
    constructor
    · rintro ⟨x, hx, y, hy, rfl⟩
      exact .cons hx (ih.1 hy)
    · intro h
      cases h with
      | cons h1 h2 => exact ⟨_, h1, _, ih.2 h2, rfl⟩

theorem dedup_sub {l : List (Ty × Option Mem)} {p : Ty × Option Mem} : p ∈ dedup l → p ∈ l := by
  induction l with
  | nil => simp [dedup]
  | cons a l ih =>
    simp only [dedup, List.mem_cons, List.mem_filter]
    rintro (h | ⟨h, -⟩)
    · exact Or.inl h
    · exact Or.inr (ih h)

theorem mem_dedup {l : List (Ty × Option Mem)} (h : ∀ p ∈ l, p.2 = none ∧ unfinal p.1 = p.1) {p : Ty × Option Mem} : p ∈ dedup l ↔ p ∈ l := by
  refine ⟨dedup_sub, ?_⟩
  induction l with
  | nil => simp
  | cons a l ih =>
    have ih := ih (fun q hq => h q (by simp [hq]))
    intro hp
    rcases List.mem_cons.1 hp with rfl | hp
    · simp [dedup]
    · have h1 := h p (by simp [hp])
      have h2 := h a (by simp)
      simp only [dedup, List.mem_cons, List.mem_filter]
      by_cases e : a = p
      · exact Or.inl e.symm
      · refine Or.inr ⟨ih hp, ?_⟩
        have : a.1 ≠ p.1 := fun e' => e (Prod.ext e' (h2.1.trans h1.1.symm))
        simp [h1.1, h2.1, h1.2, h2.2, this]

theorem slices_eq {args : List SArg} (h : args.all (fun a => match a with | .slice => true | _ => false) = true) : args = List.replicate args.length .slice := by
  induction args with
  | nil => rfl
  | cons a l ih =>
    simp only [List.all_cons, Bool.and_eq_true] at h
    cases a with
    | slice => simp only [List.length_cons, List.replicate_succ]; rw [← ih h.2]
    | ell => simp at h
    | ty s => simp at h

theorem all_some {α β : Type} {f : α → Option β} {l : List α} {r : List β} (h : all f l = some r) : Pairs (fun a b => f a = some b) l r := by
  induction l generalizing r with
  | nil => simp only [all, Option.some.injEq] at h; subst h; exact .nil
  | cons a l ih =>
    simp only [all] at h
    cases h1 : f a with
    | none => simp [h1] at h
    | some b =>
      cases h2 : all f l with
      | none => simp [h1, h2] at h
      | some bs =>
        simp only [h1, h2, Option.some.injEq] at h
        subst h
        exact .cons h1 (ih h2)

theorem all_syn_some {args : List SArg} {ss : List Syn} (h : all SArg.syn? args = some ss) : args = ss.map .ty := by
  have := all_some h
  clear h
  induction this with
  | nil => rfl
  | @cons a b as bs h1 _ ih =>
    cases a with
    | slice => cases h1
    | ell => cases h1
    | ty s => cases h1; rw [ih]; rfl

variable {env : Txt → Option Obj} {rec : Syn → Option (List (Ty × Option Mem))} {args : List SArg} {l : List (Ty × Option Mem)}

theorem indexed_num {t : Num} (h : indexed rec (.num t) args = some l) :
    args = List.replicate args.length .slice ∧ args.length ≠ 0 ∧ l = [(.arr (npT t) args.length (if args.length < 2 then none else some .C), none)] := by
  unfold indexed at h
  rw [if_neg (by simp)] at h
  split at h
  · simp at h
  · rename_i h0
    split at h
    · rename_i h1
      exact ⟨slices_eq h1, by simpa using h0, by simpa [arrOf] using h.symm⟩
    · split at h
      · cases h
      · cases h

theorem indexed_alias {ts : List Ty} (h : indexed rec (.alias ts) args = some l) :
    args = List.replicate args.length .slice ∧ args.length ≠ 0 ∧ ∃ us, all (arrOf args.length) ts = some us ∧ l = us.map (·, none) := by
  unfold indexed at h
  rw [if_neg (by simp)] at h
  split at h
  · simp at h
  · rename_i h0
    split at h
    · rename_i h1
      simp only [Option.map_eq_some_iff] at h
      obtain ⟨us, e1, e2⟩ := h
      exact ⟨slices_eq h1, by simpa using h0, us, e1, e2.symm⟩
    · split at h
      · cases h
      · cases h

theorem indexed_list (h : indexed rec .list args = some l) (he : .ell ∉ args) :
    ∃ s u, args = [.ty s] ∧ rec s = some u ∧ l = u.map fun a => (.list a.1, none) := by
  unfold indexed at h
  rw [if_neg (by simp)] at h
  split at h
  · simp at h
  · split at h
    · cases h
    · split at h
      · cases h
      · split at h <;> first
          | (contradiction; done)
          | (cases h; done)
          | (simp at he; done)
          | (simp only [Option.map_eq_some_iff] at h
             obtain ⟨u, e1, e2⟩ := h
             exact ⟨_, u, rfl, e1, e2.symm⟩)

theorem indexed_set (h : indexed rec .set args = some l) (he : .ell ∉ args) :
    ∃ s u, args = [.ty s] ∧ rec s = some u ∧ l = u.map fun a => (.set a.1, none) := by
  unfold indexed at h
  rw [if_neg (by simp)] at h
  split at h
  · simp at h
  · split at h
    · cases h
    · split at h
      · cases h
      · split at h <;> first
          | (contradiction; done)
          | (cases h; done)
          | (simp at he; done)
          | (simp only [Option.map_eq_some_iff] at h
             obtain ⟨u, e1, e2⟩ := h
             exact ⟨_, u, rfl, e1, e2.symm⟩)

theorem indexed_dict (h : indexed rec .dict args = some l) :
    ∃ s u ks vs, args = [.ty s, .ty u] ∧ rec s = some ks ∧ rec u = some vs ∧ l = List.zipWith (fun k v => (.dict k.1 v.1, none)) ks vs := by
  unfold indexed at h
  rw [if_neg (by simp)] at h
  split at h
  · simp at h
  · split at h
    · cases h
    · split at h
      · cases h
      · split at h <;> first
          | (contradiction; done)
          | (cases h; done)
          | (split at h
             · rename_i e1 e2
               exact ⟨_, _, _, _, rfl, e1, e2, (Option.some.inj h).symm⟩
             · cases h)

theorem indexed_tup (h : indexed rec .tuple args = some l) :
    (∃ s u, args = [.ty s, .ell] ∧ rec s = some u ∧ l = u.map fun a => (.htup a.1, none)) ∨
    ∃ ss ls, args = ss.map .ty ∧ all rec ss = some ls ∧ l = (product (ls.map (·.map (·.1)))).map fun ts => (.tup ts, none) := by
  unfold indexed at h
  rw [if_neg (by simp)] at h
  split at h
  · rename_i h0
    have : args = [] := by simpa using h0
    subst this
    refine Or.inr ⟨[], [], rfl, rfl, by simpa [product] using h.symm⟩
  · split at h
    · cases h
    · split at h
      · cases h
      · split at h <;> first
          | (contradiction; done)
          | (cases h; done)
          | (simp only [Option.map_eq_some_iff] at h
             obtain ⟨u, e1, e2⟩ := h
             exact Or.inl ⟨_, u, rfl, e1, e2.symm⟩)
          | (split at h
             · rename_i ss e
               simp only [Option.map_eq_some_iff] at h
               obtain ⟨ls, e1, e2⟩ := h
               exact Or.inr ⟨ss, ls, all_syn_some e, e1, e2.symm⟩
             · cases h)

theorem indexed_other {o : Obj} (h : indexed rec o args = some l) : o ≠ .str ∧ ∀ c, o ≠ .cls c := by
  refine ⟨?_, ?_⟩
  · rintro rfl
    unfold indexed at h
    rw [if_neg (by simp)] at h
    split at h
    · simp at h
    · split at h
      · cases h
      · split at h <;> cases h
  · rintro c rfl
    unfold indexed at h
    rw [if_neg (by simp)] at h
    split at h
    · simp at h
    · split at h
      · cases h
      · split at h <;> cases h

/-- What an annotation with brackets can mean. -/
theorem means_inv {x : Txt} {o : Option Txt} {t : Ty} (h : Means env (.idx (.id x) args o) t) :
    (∃ n rank r, Means env (.name (.id x)) (.num n) ∧ rank ≠ 0 ∧ MeansOrder rank o r ∧ args = List.replicate rank .slice ∧ t = .arr (npT n) rank r) ∨
    (env x = some .list ∧ ∃ s u, args = [.ty s] ∧ o = none ∧ t = .list u ∧ Means env s u) ∨
    (env x = some .set ∧ ∃ s u, args = [.ty s] ∧ o = none ∧ t = .set u ∧ Means env s u) ∨
    (env x = some .dict ∧ ∃ s u k v, args = [.ty s, .ty u] ∧ o = none ∧ t = .dict k v ∧ Means env s k ∧ Means env u v) ∨
    (env x = some .tuple ∧ o = none ∧ ((∃ s u, args = [.ty s, .ell] ∧ t = .htup u ∧ Means env s u) ∨
      ∃ ps : List (Syn × Ty), args = ps.map (fun p => .ty p.1) ∧ t = .tup (ps.map (·.2)) ∧ ∀ p ∈ ps, Means env p.1 p.2)) := by
  cases h with
  | arr h1 h2 h3 => exact Or.inl ⟨_, _, _, h1, h2, h3, rfl, rfl⟩
  | list h1 h2 => exact Or.inr (Or.inl ⟨h1, _, _, rfl, rfl, rfl, h2⟩)
  | set h1 h2 => exact Or.inr (Or.inr (Or.inl ⟨h1, _, _, rfl, rfl, rfl, h2⟩))
  | htup h1 h2 => exact Or.inr (Or.inr (Or.inr (Or.inr ⟨h1, rfl, Or.inl ⟨_, _, rfl, rfl, h2⟩⟩)))
  | dict h1 h2 h3 => exact Or.inr (Or.inr (Or.inr (Or.inl ⟨h1, _, _, _, _, rfl, rfl, rfl, h2, h3⟩)))
  | tup h1 h2 => exact Or.inr (Or.inr (Or.inr (Or.inr ⟨h1, rfl, Or.inr ⟨_, rfl, rfl, h2⟩⟩)))

theorem means_name {x : Txt} {t : Ty} (h : Means env (.name (.id x)) t) :
    (∃ n, env x = some (.num n) ∧ t = .num n) ∨ (env x = some .str ∧ t = .str) ∨ (∃ c, env x = some (.cls c) ∧ t = .cls c) ∨
      ∃ ts, env x = some (.alias ts) ∧ t ∈ ts := by
  cases h with
  | num h => exact Or.inl ⟨_, h, rfl⟩
  | str h => exact Or.inr (Or.inl ⟨h, rfl⟩)
  | cls h => exact Or.inr (Or.inr (Or.inl ⟨_, h, rfl⟩))
  | alias h h' => exact Or.inr (Or.inr (Or.inr ⟨_, h, h'⟩))

theorem applyOrder_len {o : Option Txt} {p : Ty × Option Mem} {r : List (Ty × Option Mem)} (h : applyOrder o [p] = some r) : ∃ q, r = [q] := by
  unfold applyOrder at h
  split at h
  · split at h
    · exact ⟨_, (Option.some.inj h).symm⟩
    · simp only [Option.map_eq_some_iff] at h
      obtain ⟨u, -, e⟩ := h
      exact ⟨_, e.symm⟩
  · exact ⟨_, (Option.some.inj h).symm⟩

theorem singles {ss : List Syn} {ls : List (List (Ty × Option Mem))} (h : all rec ss = some ls) (hs : ∀ s ∈ ss, ∀ r, rec s = some r → ∃ q, r = [q]) :
    ∃ ps : List (Ty × Option Mem), ls = ps.map (fun a => [a]) := by
  have := all_some h
  clear h
  induction this with
  | nil => exact ⟨[], rfl⟩
  | cons h1 _ ih =>
    obtain ⟨q, rfl⟩ := hs _ (by simp) _ h1
    obtain ⟨ps, e⟩ := ih (fun s hs' => hs s (by simp [hs']))
    exact ⟨q :: ps, by rw [e]; rfl⟩

theorem product_ones {α : Type} (l : List α) : product (l.map (fun a => [a])) = [l] := by
  induction l with
  | nil => rfl
  | cons a l ih => simp [product, ih]

/-- Annotations without unions have one type. -/
theorem single_len {s : Syn} (hs : Single env s) (hc : Clear env s) : ∀ f {r : List (Ty × Option Mem)}, resolve env f s = some r → ∃ q, r = [q] := by
  induction hs with
  | @name x h =>
    intro f r hr
    cases f with
    | zero => cases hr
    | succ f =>
      simp only [resolve] at hr
      split at hr <;> first
        | exact ⟨_, (Option.some.inj hr).symm⟩
        | (cases hr; done)
        | (rename_i e; exact absurd e (h _))
  | @idx x args o h hargs ih =>
    intro f r hr
    cases hc with
    | idx c1 c2 c3 c4 c5 c6 =>
    cases f with
    | zero => cases hr
    | succ f =>
      simp only [resolve] at hr
      cases hb : env x with
      | none => simp [hb] at hr
      | some b =>
        simp only [hb] at hr
        cases hi : indexed (resolve env f) b args with
        | none => simp [hi] at hr
        | some l =>
          simp only [hi] at hr
          have hl : ∃ q, l = [q] := by
            cases b with
            | num t => exact ⟨_, (indexed_num hi).2.2⟩
            | str => exact absurd rfl (indexed_other hi).1
            | cls c => exact absurd rfl ((indexed_other hi).2 c)
            | alias ts => exact absurd hb (h ts)
            | final => exact absurd hb c2
            | annotated => exact absurd hb c3
            | list =>
              obtain ⟨s, u, e, h1, rfl⟩ := indexed_list hi (fun he => by have := c4 he; rw [hb] at this; cases this)
              obtain ⟨q, rfl⟩ := ih s (by simp [e]) (c6 s (by simp [e])) f h1
              exact ⟨_, rfl⟩
            | set =>
              obtain ⟨s, u, e, h1, rfl⟩ := indexed_set hi (fun he => by have := c4 he; rw [hb] at this; cases this)
              obtain ⟨q, rfl⟩ := ih s (by simp [e]) (c6 s (by simp [e])) f h1
              exact ⟨_, rfl⟩
            | dict =>
              obtain ⟨s, u, ks, vs, e, h1, h2, rfl⟩ := indexed_dict hi
              obtain ⟨q, rfl⟩ := ih s (by simp [e]) (c6 s (by simp [e])) f h1
              obtain ⟨q', rfl⟩ := ih u (by simp [e]) (c6 u (by simp [e])) f h2
              exact ⟨_, rfl⟩
            | tuple =>
              rcases indexed_tup hi with ⟨s, u, e, h1, rfl⟩ | ⟨ss, ls, e, h1, rfl⟩
              · obtain ⟨q, rfl⟩ := ih s (by simp [e]) (c6 s (by simp [e])) f h1
                exact ⟨_, rfl⟩
              · obtain ⟨ps, rfl⟩ := singles h1 (fun s hs r hr => ih s (by simp [e, hs]) (c6 s (by simp [e, hs])) f hr)
                have e3 : (ps.map (fun a => [a])).map (·.map (·.1)) = (ps.map (·.1)).map (fun a => [a]) := by simp [List.map_map, Function.comp_def]
                rw [e3, product_ones]
                exact ⟨_, rfl⟩
          obtain ⟨q, rfl⟩ := hl
          exact applyOrder_len hr

theorem applyOrder_noorder {l r : List (Ty × Option Mem)} (h : applyOrder none l = some r) : r = l := (Option.some.inj h).symm

theorem unfinal_not {t : Ty} (h : ∀ u, t ≠ .final u) : unfinal t = t := by
  cases t <;> first | rfl | exact absurd rfl (h _)

theorem mem_tups {ss : List Syn} {ls : List (List (Ty × Option Mem))} (h : all rec ss = some ls)
    (hs : ∀ s ∈ ss, ∀ r, rec s = some r → ∀ p : Ty × Option Mem, p ∈ r ↔ p.2 = none ∧ Means env s p.1) (ts : List Ty) :
    Pairs (· ∈ ·) ts (ls.map (·.map (·.1))) ↔ ∃ ps : List (Syn × Ty), ss = ps.map (·.1) ∧ ts = ps.map (·.2) ∧ ∀ p ∈ ps, Means env p.1 p.2 := by
  have := all_some h
  clear h
  induction this generalizing ts with
  | nil =>
    constructor
    · intro h
      cases h
      exact ⟨[], rfl, rfl, by simp⟩
    · rintro ⟨ps, e, rfl, -⟩
      have : ps = [] := by simpa using e.symm
      subst this
      exact .nil
  | @cons s r ss rs h1 _ ih =>
    have hm := hs s (by simp) r h1
    have ih := ih (fun s' hs' => hs s' (by simp [hs']))
    constructor
    · intro h
      cases h with
      | @cons t _ ts' _ e1 e2 =>
        obtain ⟨ps, g1, g2, g3⟩ := (ih ts').1 e2
        obtain ⟨q, q1, rfl⟩ := List.mem_map.1 e1
        refine ⟨(s, q.1) :: ps, by simp [← g1], by simp [← g2], ?_⟩
        intro p hp
        rcases List.mem_cons.1 hp with rfl | hp
        · exact ((hm q).1 q1).2
        · exact g3 p hp
    · rintro ⟨ps, e, rfl, h⟩
      cases ps with
      | nil => simp at e
      | cons p ps =>
        simp only [List.map_cons, List.cons.injEq] at e
        obtain ⟨rfl, rfl⟩ := e
        refine .cons ?_ ((ih _).2 ⟨ps, rfl, rfl, fun q hq => h q (by simp [hq])⟩)
        exact List.mem_map.2 ⟨(p.2, none), (hm _).2 ⟨rfl, h p (by simp)⟩, rfl⟩

theorem letter_cases {c : Txt} {r : Option Order} {rank : Nat} (hr : ¬ rank < 2) (hc : c = ['C'] ∨ c = ['c'] ∨ c = ['F'] ∨ c = ['f']) :
    MeansOrder rank (some c) r ↔ r = if capitalize c = ['C'] then some .C else some .F := by
  rcases hc with rfl | rfl | rfl | rfl <;> simp [MeansOrder, hr, capitalize] <;> decide

theorem arrOf_some {n : Nat} {t u : Ty} (h : arrOf n t = some u) : ∃ m, t = .num m ∧ u = .arr (npT m) n (if n < 2 then none else some .C) := by
  cases t with
  | num m => exact ⟨m, rfl, (Option.some.inj h).symm⟩
  | _ => cases h

theorem mem_arrs {n : Nat} {ts us : List Ty} (h : all (arrOf n) ts = some us) (u : Ty) :
    u ∈ us ↔ ∃ m, .num m ∈ ts ∧ u = .arr (npT m) n (if n < 2 then none else some .C) := by
  have := all_some h
  clear h
  induction this with
  | nil => simp
  | cons h1 _ ih =>
    obtain ⟨m, rfl, rfl⟩ := arrOf_some h1
    simp only [List.mem_cons, ih]
    constructor
    · rintro (rfl | ⟨m', h, rfl⟩)
      · exact ⟨m, Or.inl rfl, rfl⟩
      · exact ⟨m', Or.inr h, rfl⟩
    · rintro ⟨m', h | h, rfl⟩
      · cases h; exact Or.inl rfl
      · exact Or.inr ⟨m', h, rfl⟩

theorem replicate_slice {n m : Nat} (h : List.replicate n SArg.slice = List.replicate m .slice) : n = m := by
  have := congrArg List.length h
  simpa using this

theorem replicate_ty {n : Nat} {s : Syn} {r : List SArg} (h : .ty s :: r = List.replicate n SArg.slice) : False := by
  cases n with
  | zero => cases h
  | succ n => rw [List.replicate_succ] at h; cases h

/-- An accepted annotation has the types that it means. -/
theorem resolve_means (hf : ∀ x ts, env x = some (.alias ts) → ∀ u, .final u ∉ ts) {s : Syn} (hc : Clear env s) :
    ∀ f {l : List (Ty × Option Mem)}, resolve env f s = some l → ∀ p : Ty × Option Mem, p ∈ l ↔ p.2 = none ∧ Means env s p.1 := by
  induction hc with
  | @name d =>
    intro f l hl p
    cases f with
    | zero => cases hl
    | succ f =>
      cases d with
      | str s => cases hl
      | id x =>
        simp only [resolve] at hl
        obtain ⟨t, m⟩ := p
        split at hl
        · rename_i n e
          cases hl
          simp only [List.mem_singleton, Prod.mk.injEq]
          constructor
          · rintro ⟨rfl, rfl⟩; exact ⟨rfl, .num e⟩
          · rintro ⟨rfl, h⟩
            rcases means_name h with ⟨n', e', rfl⟩ | ⟨e', -⟩ | ⟨c, e', -⟩ | ⟨ts, e', -⟩
            · rw [e] at e'; cases e'; exact ⟨rfl, rfl⟩
            all_goals (rw [e] at e'; cases e')
        · rename_i e
          cases hl
          simp only [List.mem_singleton, Prod.mk.injEq]
          constructor
          · rintro ⟨rfl, rfl⟩; exact ⟨rfl, .str e⟩
          · rintro ⟨rfl, h⟩
            rcases means_name h with ⟨n', e', -⟩ | ⟨e', rfl⟩ | ⟨c, e', -⟩ | ⟨ts, e', -⟩
            · rw [e] at e'; cases e'
            · exact ⟨rfl, rfl⟩
            all_goals (rw [e] at e'; cases e')
        · rename_i c e
          cases hl
          simp only [List.mem_singleton, Prod.mk.injEq]
          constructor
          · rintro ⟨rfl, rfl⟩; exact ⟨rfl, .cls e⟩
          · rintro ⟨rfl, h⟩
            rcases means_name h with ⟨n', e', -⟩ | ⟨e', -⟩ | ⟨c', e', rfl⟩ | ⟨ts, e', -⟩
            · rw [e] at e'; cases e'
            · rw [e] at e'; cases e'
            · rw [e] at e'; cases e'; exact ⟨rfl, rfl⟩
            · rw [e] at e'; cases e'
        · rename_i ts e
          cases hl
          rw [mem_dedup]
          · simp only [List.mem_map, Prod.mk.injEq]
            constructor
            · rintro ⟨u, hu, rfl, rfl⟩; exact ⟨rfl, .alias e hu⟩
            · rintro ⟨rfl, h⟩
              rcases means_name h with ⟨n', e', -⟩ | ⟨e', -⟩ | ⟨c', e', -⟩ | ⟨ts', e', h'⟩
              · rw [e] at e'; cases e'
              · rw [e] at e'; cases e'
              · rw [e] at e'; cases e'
              · rw [e] at e'; cases e'; exact ⟨_, h', rfl, rfl⟩
          · intro q hq
            obtain ⟨u, hu, rfl⟩ := List.mem_map.1 hq
            exact ⟨rfl, unfinal_not (fun v e' => hf _ _ e v (e' ▸ hu))⟩
        · cases hl
  | @idx x args o c1 c2 c3 c4 c5 c6 ih =>
    intro f l hl p
    obtain ⟨t, m⟩ := p
    cases f with
    | zero => cases hl
    | succ f =>
      simp only [resolve] at hl
      cases hb : env x with
      | none => simp [hb] at hl
      | some b =>
        simp only [hb] at hl
        cases hi : indexed (resolve env f) b args with
        | none => simp [hi] at hl
        | some l0 =>
          simp only [hi] at hl
          have hno : (∀ n, b ≠ .num n) → o = none := by
            intro h
            cases o with
            | none => rfl
            | some c =>
              obtain ⟨n, e⟩ := (c1 c rfl).1
              rw [hb] at e
              exact absurd (Option.some.inj e) (h n)
          cases b with
          | str => exact absurd rfl (indexed_other hi).1
          | cls c => exact absurd rfl ((indexed_other hi).2 c)
          | final => exact absurd hb c2
          | annotated => exact absurd hb c3
          | num n =>
            obtain ⟨e1, e2, rfl⟩ := indexed_num hi
            have hm : ∀ r, MeansOrder args.length o r → Means env (.idx (.id x) args o) (.arr (npT n) args.length r) := by
              intro r hr
              have := Means.arr (env := env) (x := x) (t := n) (.num hb) e2 hr
              rw [← e1] at this
              exact this
            have hm' : ∀ u, Means env (.idx (.id x) args o) u → ∃ r, u = .arr (npT n) args.length r ∧ MeansOrder args.length o r := by
              intro u hu
              rcases means_inv hu with ⟨n', rank, r, g1, g2, g3, g4, rfl⟩ | ⟨g, -⟩ | ⟨g, -⟩ | ⟨g, -⟩ | ⟨g, -⟩
              · rcases means_name g1 with ⟨n'', e', e''⟩ | ⟨e', -⟩ | ⟨c, e', -⟩ | ⟨ts, e', -⟩
                · rw [hb] at e'
                  cases e'
                  cases e''
                  have : args.length = rank := by rw [g4]; simp
                  subst this
                  exact ⟨r, rfl, g3⟩
                all_goals (rw [hb] at e'; cases e')
              all_goals (rw [hb] at g; cases g)
            have key : ∃ r0, l = [(.arr (npT n) args.length r0, none)] ∧ ∀ r, MeansOrder args.length o r ↔ r = r0 := by
              cases o with
              | none =>
                refine ⟨_, applyOrder_noorder hl, ?_⟩
                intro r
                unfold MeansOrder
                split <;> rfl
              | some c =>
                have hcc := (c1 c rfl).2
                by_cases hr : args.length < 2
                · refine ⟨none, ?_, by intro r; simp [MeansOrder, hr]⟩
                  simp only [if_pos hr, applyOrder, orderOf, orderLetter, swapOrder, Option.map_none, Option.map_some, dedup, List.filter_nil] at hl
                  simpa using hl.symm
                · refine ⟨if capitalize c = ['C'] then some .C else some .F, ?_, fun r => letter_cases hr hcc⟩
                  simp only [if_neg hr, applyOrder, orderOf, orderLetter, swapOrder, Option.map_some, dedup, List.filter_nil, Option.some.injEq] at hl
                  by_cases hC : capitalize c = ['C']
                  · rw [if_pos hC.symm] at hl; rw [if_pos hC]; exact (Option.some.inj hl).symm
                  · rw [if_neg (fun e => hC e.symm)] at hl; rw [if_neg hC]; exact (Option.some.inj hl).symm
            obtain ⟨r0, rfl, hr0⟩ := key
            simp only [List.mem_singleton, Prod.mk.injEq]
            constructor
            · rintro ⟨rfl, rfl⟩; exact ⟨rfl, hm _ ((hr0 _).2 rfl)⟩
            · rintro ⟨rfl, h⟩
              obtain ⟨r, rfl, hr⟩ := hm' _ h
              exact ⟨by rw [(hr0 r).1 hr], rfl⟩
          | alias ts =>
            obtain ⟨e1, e2, us, e3, rfl⟩ := indexed_alias hi
            have ho := hno (by intro n e; cases e)
            subst ho
            rw [applyOrder_noorder hl]
            rw [mem_dedup]
            · simp only [List.mem_map, Prod.mk.injEq]
              constructor
              · rintro ⟨u, hu, rfl, rfl⟩
                obtain ⟨n, hn, rfl⟩ := (mem_arrs e3 u).1 hu
                refine ⟨rfl, ?_⟩
                have := Means.arr (env := env) (x := x) (t := n) (o := none) (.alias hb hn) e2 (r := if args.length < 2 then none else some .C) (by
                  unfold MeansOrder; split <;> rfl)
                rw [← e1] at this
                exact this
              · rintro ⟨rfl, h⟩
                rcases means_inv h with ⟨n', rank, r, g1, g2, g3, g4, rfl⟩ | ⟨g, -⟩ | ⟨g, -⟩ | ⟨g, -⟩ | ⟨g, -⟩
                · have : args.length = rank := by rw [g4]; simp
                  subst this
                  rcases means_name g1 with ⟨n'', e', -⟩ | ⟨e', -⟩ | ⟨c, e', -⟩ | ⟨ts', e', h'⟩
                  · rw [hb] at e'; cases e'
                  · rw [hb] at e'; cases e'
                  · rw [hb] at e'; cases e'
                  · rw [hb] at e'
                    cases e'
                    refine ⟨_, (mem_arrs e3 _).2 ⟨n', h', rfl⟩, ?_, rfl⟩
                    congr 1
                    unfold MeansOrder at g3
                    split at g3
                    · rename_i h; rw [if_pos h]; exact g3.symm
                    · rename_i h; rw [if_neg h]; exact g3.symm
                all_goals (rw [hb] at g; cases g)
            · intro q hq
              obtain ⟨u, hu, rfl⟩ := List.mem_map.1 hq
              obtain ⟨n, -, rfl⟩ := (mem_arrs e3 u).1 hu
              exact ⟨rfl, rfl⟩
          | list =>
            obtain ⟨s, u, rfl, h1, rfl⟩ := indexed_list hi (fun he => by have := c4 he; rw [hb] at this; cases this)
            have ho := hno (by intro n e; cases e)
            subst ho
            rw [applyOrder_noorder hl, mem_dedup]
            · have hs := ih s (by simp) f h1
              simp only [List.mem_map, Prod.mk.injEq]
              constructor
              · rintro ⟨q, hq, rfl, rfl⟩; exact ⟨rfl, .list hb ((hs q).1 hq).2⟩
              · rintro ⟨rfl, h⟩
                rcases means_inv h with ⟨_, _, _, _, _, _, g, _⟩ | ⟨-, s', u', g, -, rfl, g'⟩ | ⟨g, -⟩ | ⟨g, -⟩ | ⟨g, -⟩
                · exact (replicate_ty g).elim
                · cases g; exact ⟨(u', none), (hs _).2 ⟨rfl, g'⟩, rfl, rfl⟩
                all_goals (rw [hb] at g; cases g)
            · intro q hq
              obtain ⟨u, hu, rfl⟩ := List.mem_map.1 hq
              exact ⟨rfl, rfl⟩
          | set =>
            obtain ⟨s, u, rfl, h1, rfl⟩ := indexed_set hi (fun he => by have := c4 he; rw [hb] at this; cases this)
            have ho := hno (by intro n e; cases e)
            subst ho
            rw [applyOrder_noorder hl, mem_dedup]
            · have hs := ih s (by simp) f h1
              simp only [List.mem_map, Prod.mk.injEq]
              constructor
              · rintro ⟨q, hq, rfl, rfl⟩; exact ⟨rfl, .set hb ((hs q).1 hq).2⟩
              · rintro ⟨rfl, h⟩
                rcases means_inv h with ⟨_, _, _, _, _, _, g, _⟩ | ⟨g, -⟩ | ⟨-, s', u', g, -, rfl, g'⟩ | ⟨g, -⟩ | ⟨g, -⟩
                · exact (replicate_ty g).elim
                · rw [hb] at g; cases g
                · cases g; exact ⟨(u', none), (hs _).2 ⟨rfl, g'⟩, rfl, rfl⟩
                all_goals (rw [hb] at g; cases g)
            · intro q hq
              obtain ⟨u, hu, rfl⟩ := List.mem_map.1 hq
              exact ⟨rfl, rfl⟩
          | dict =>
            obtain ⟨s, u, ks, vs, rfl, h1, h2, rfl⟩ := indexed_dict hi
            have ho := hno (by intro n e; cases e)
            subst ho
            rw [applyOrder_noorder hl]
            obtain ⟨k, rfl⟩ := single_len (c5 hb s (by simp)) (c6 s (by simp)) f h1
            obtain ⟨v, rfl⟩ := single_len (c5 hb u (by simp)) (c6 u (by simp)) f h2
            have hk := ih s (by simp) f h1
            have hv := ih u (by simp) f h2
            show (t, m) ∈ [(Ty.dict k.1 v.1, none)] ↔ _
            simp only [List.mem_singleton, Prod.mk.injEq]
            constructor
            · rintro ⟨rfl, rfl⟩; exact ⟨rfl, .dict hb ((hk k).1 (by simp)).2 ((hv v).1 (by simp)).2⟩
            · rintro ⟨rfl, h⟩
              rcases means_inv h with ⟨_, _, _, _, _, _, g, _⟩ | ⟨g, -⟩ | ⟨g, -⟩ | ⟨-, s', u', k', v', g, -, rfl, g1, g2⟩ | ⟨g, -⟩
              · exact (replicate_ty g).elim
              · rw [hb] at g; cases g
              · rw [hb] at g; cases g
              · cases g
                have e1 := (hk (k', none)).2 ⟨rfl, g1⟩
                have e2 := (hv (v', none)).2 ⟨rfl, g2⟩
                simp only [List.mem_singleton] at e1 e2
                rw [← e1, ← e2]
                exact ⟨rfl, rfl⟩
              · rw [hb] at g; cases g
          | tuple =>
            have ho := hno (by intro n e; cases e)
            subst ho
            rw [applyOrder_noorder hl]
            rcases indexed_tup hi with ⟨s, u, rfl, h1, rfl⟩ | ⟨ss, ls, rfl, h1, rfl⟩
            · rw [mem_dedup]
              · have hs := ih s (by simp) f h1
                simp only [List.mem_map, Prod.mk.injEq]
                constructor
                · rintro ⟨q, hq, rfl, rfl⟩; exact ⟨rfl, .htup hb ((hs q).1 hq).2⟩
                · rintro ⟨rfl, h⟩
                  rcases means_inv h with ⟨_, _, _, _, _, _, g, _⟩ | ⟨g, -⟩ | ⟨g, -⟩ | ⟨g, -⟩ | ⟨-, -, ⟨s', u', g, rfl, g'⟩ | ⟨ps, g, -, -⟩⟩
                  · exact (replicate_ty g).elim
                  · rw [hb] at g; cases g
                  · rw [hb] at g; cases g
                  · rw [hb] at g; cases g
                  · cases g; exact ⟨(u', none), (hs _).2 ⟨rfl, g'⟩, rfl, rfl⟩
                  · have : SArg.ell ∈ ps.map (fun p => SArg.ty p.1) := by rw [← g]; simp
                    simp at this
              · intro q hq
                obtain ⟨u, hu, rfl⟩ := List.mem_map.1 hq
                exact ⟨rfl, rfl⟩
            · rw [mem_dedup]
              · have hs := mem_tups (env := env) h1 (fun s hs r hr => ih s (by simp [hs]) f hr)
                simp only [List.mem_map, Prod.mk.injEq]
                constructor
                · rintro ⟨ts, hq, rfl, rfl⟩
                  obtain ⟨ps, rfl, rfl, g⟩ := (hs ts).1 (mem_product.1 hq)
                  refine ⟨rfl, ?_⟩
                  have := Means.tup (env := env) hb g
                  simpa [List.map_map, Function.comp_def] using this
                · rintro ⟨rfl, h⟩
                  rcases means_inv h with ⟨_, rank, _, _, g0, _, g, _⟩ | ⟨g, -⟩ | ⟨g, -⟩ | ⟨g, -⟩ | ⟨-, -, ⟨s', u', g, rfl, g'⟩ | ⟨ps, g, rfl, g'⟩⟩
                  · obtain ⟨k, rfl⟩ := Nat.exists_eq_succ_of_ne_zero g0
                    rw [List.replicate_succ] at g
                    cases ss <;> cases g
                  · rw [hb] at g; cases g
                  · rw [hb] at g; cases g
                  · rw [hb] at g; cases g
                  · have : SArg.ell ∈ ss.map SArg.ty := by rw [g]; simp
                    simp at this
                  · refine ⟨_, mem_product.2 ((hs _).2 ⟨ps, ?_, rfl, g'⟩), rfl, rfl⟩
                    have inj : ∀ (a : List Syn) (b : List (Syn × Ty)), a.map SArg.ty = b.map (fun p => SArg.ty p.1) → a = b.map (·.1) := by
                      intro a
                      induction a with
                      | nil => intro b hb; cases b <;> simp_all
                      | cons c a iha =>
                        intro b hb
                        cases b with
                        | nil => simp at hb
                        | cons d b =>
                          simp only [List.map_cons, List.cons.injEq, SArg.ty.injEq] at hb
                          rw [hb.1, iha b hb.2]
                          rfl
                    exact inj _ _ g
              · intro q hq
                obtain ⟨u, hu, rfl⟩ := List.mem_map.1 hq
                exact ⟨rfl, rfl⟩

end Verif.Stubs
