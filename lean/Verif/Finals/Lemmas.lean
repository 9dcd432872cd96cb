import Verif.Finals.Model

namespace Verif.Finals.Lemmas
open Verif.Finals.Spec Verif.Finals.Model

theorem count_slice_le (ixs : List Ix) : ixs.count .slice ≤ ixs.length := List.count_le_length

theorem all_slice_iff (ixs : List Ix) : (∀ i ∈ ixs, i = .slice) ↔ ixs.count .slice = ixs.length := by
  rw [List.count_eq_length]
  constructor
  · intro h i hi; exact (h i hi).symm
  · intro h i hi; exact (h i hi).symm

theorem indexTy_rank (t : Ty) (ixs : List Ix) : (indexTy t ixs).rank = keeps t.rank ixs := by
  unfold indexTy keeps
  simp only
  split
  · rename_i h; simp [h]
  · split
    · rfl
    · rename_i h; exact (Decidable.not_not.mp h).symm

/-- The mark is kept exactly by slices of all dimensions. -/
theorem indexTy_final (t : Ty) (ixs : List Ix) (hl : ixs.length ≤ t.rank) (hne : ixs ≠ []) :
    (indexTy t ixs).final = true ↔ t.final = true ∧ ∀ i ∈ ixs, i = .slice := by
  have hc := count_slice_le ixs
  have hp : 0 < ixs.length := List.length_pos_iff.mpr hne
  rw [all_slice_iff]
  unfold indexTy
  simp only
  split
  · constructor
    · intro h; exact absurd h (by simp)
    · intro h; omega
  · split
    · constructor
      · intro h; exact absurd h (by simp)
      · intro h; omega
    · constructor
      · intro h; exact ⟨h, by omega⟩
      · intro h; exact h.1

theorem put_self {α : Type} (g : Name → Option α) (x : Name) (a : α) : put g x a x = some a := by
  simp [put]

theorem put_ne {α : Type} (g : Name → Option α) (x y : Name) (a : α) (h : y ≠ x) :
    put g x a y = g y := by simp [put, h]

/-- The types agree with the values. -/
def Agree (Γ : Name → Option Var) (env : Name → Option Obj) : Prop :=
  ∀ x, (Γ x).map (fun v => v.ty.rank) = (env x).map Obj.rank

theorem agree_some {Γ : Name → Option Var} {env : Name → Option Obj} (h : Agree Γ env) {x : Name}
    {v : Var} (hv : Γ x = some v) : ∃ o, env x = some o ∧ o.rank = v.ty.rank := by
  have := h x
  rw [hv] at this
  cases ho : env x with
  | none => rw [ho] at this; simp at this
  | some o => rw [ho] at this; simp at this; exact ⟨o, rfl, this.symm⟩

theorem agree_none {Γ : Name → Option Var} {env : Name → Option Obj} (h : Agree Γ env) {x : Name}
    (hv : Γ x = none) : env x = none := by
  have := h x
  rw [hv] at this
  cases ho : env x with
  | none => rfl
  | some o => rw [ho] at this; simp at this

theorem rank_eq {Γ : Name → Option Var} {env : Name → Option Obj} (h : Agree Γ env) :
    ∀ (e : Expr) (t : Ty), exprTy Γ e = some t → e.rank env = t.rank
  | .new r, t, ht => by simp [exprTy] at ht; subst ht; rfl
  | .var x, t, ht => by
      simp only [exprTy] at ht
      cases hv : Γ x with
      | none => rw [hv] at ht; simp at ht
      | some v =>
        rw [hv] at ht; simp at ht; subst ht
        obtain ⟨o, ho, hr⟩ := agree_some h hv
        simp [Expr.rank, ho, hr]
  | .index x ixs, t, ht => by
      simp only [exprTy] at ht
      cases hv : Γ x with
      | none => rw [hv] at ht; simp at ht
      | some v =>
        rw [hv] at ht
        simp only at ht
        split at ht
        · simp at ht; subst ht
          obtain ⟨o, ho, hr⟩ := agree_some h hv
          simp [Expr.rank, ho, hr, indexTy_rank]
        · simp at ht
  | .neg e, t, ht => by
      simp only [exprTy] at ht
      simpa [Expr.rank] using rank_eq h e t ht
  | .add a b, t, ht => by
      simp only [exprTy] at ht
      cases ha : exprTy Γ a with
      | none => rw [ha] at ht; simp at ht
      | some s =>
        cases hb : exprTy Γ b with
        | none => rw [ha, hb] at ht; simp at ht
        | some u =>
          rw [ha, hb] at ht; simp at ht; subst ht
          simp [Expr.rank, rank_eq h a s ha, rank_eq h b u hb]

theorem value_rank {Γ : Name → Option Var} {s : Run} (h : Agree Γ s.env) (e : Expr) (t : Ty)
    (ht : exprTy Γ e = some t) : (e.value s).rank = t.rank := by
  have hr := rank_eq h e t ht
  rw [← hr]
  cases e with
  | var x =>
    simp only [Expr.value, Expr.rank]
    cases ho : s.env x with
    | none => simp
    | some o =>
      simp only [Option.map_some, Option.getD_some]
      split
      · rename_i h0; exact h0.symm
      · rfl
  | index x ixs =>
    have hx : ∃ v, Γ x = some v := by
      simp only [exprTy] at ht
      cases hv : Γ x with
      | none => rw [hv] at ht; simp at ht
      | some v => exact ⟨v, rfl⟩
    obtain ⟨v, hv⟩ := hx
    obtain ⟨o, ho, hro⟩ := agree_some h hv
    simp only [Expr.value, Expr.rank, ho, Option.map_some, Option.getD_some]
    split
    · rename_i h0; exact h0.symm
    · rfl
  | new r => rfl
  | neg e => rfl
  | add a b => rfl

/-- The value is new, or it uses the memory of a name. -/
theorem value_cases (s : Run) (e : Expr) :
    (e.value s).id = s.next ∨
      ∃ y o, e.Of y ∧ s.env y = some o ∧ (e.value s).id = o.id ∧ (e.value s).rank ≠ 0 ∧
        isView e = true := by
  cases e with
  | var x =>
    simp only [Expr.value]
    cases ho : s.env x with
    | none => exact Or.inl rfl
    | some o =>
      simp only
      split
      · exact Or.inl rfl
      · rename_i h; exact Or.inr ⟨x, o, Or.inl rfl, ho, rfl, h, rfl⟩
  | index x ixs =>
    simp only [Expr.value]
    cases ho : s.env x with
    | none => exact Or.inl rfl
    | some o =>
      simp only
      split
      · exact Or.inl rfl
      · rename_i h; exact Or.inr ⟨x, o, Or.inr ⟨ixs, rfl⟩, ho, rfl, h, rfl⟩
  | new r => exact Or.inl rfl
  | neg e => exact Or.inl rfl
  | add a b => exact Or.inl rfl

theorem infer_rank (t : Ty) : (infer t).rank = t.rank := by
  unfold infer
  split
  · rename_i h; exact h.symm
  · rfl

/-- What an accepted statement does to the variables: nothing, or a new one is added. -/
theorem check_cases {sigs : List (List Ty)} {Γ Γ' : Name → Option Var} {st : Stmt}
    (h : check sigs Γ st = some Γ') :
    Γ' = Γ ∨ ∃ x v, Γ x = none ∧ Γ' = put Γ x v := by
  cases st with
  | assign x e =>
    simp only [check] at h
    cases ht : exprTy Γ e with
    | none => rw [ht] at h; simp at h
    | some t0 =>
      rw [ht] at h
      simp only at h
      cases hx : Γ x with
      | none =>
        rw [hx] at h
        simp only at h
        split at h
        · simp at h
        · simp only [Option.some.injEq] at h; exact Or.inr ⟨x, _, hx, h.symm⟩
      | some v =>
        rw [hx] at h
        simp only at h
        repeat' split at h
        all_goals first | (simp at h; done) | exact Or.inl (by simpa using h.symm)
  | declare x t e =>
    simp only [check] at h
    split at h
    · rename_i hx _
      repeat' split at h
      all_goals first | (simp at h; done) | exact Or.inr ⟨x, _, hx, by simpa using h.symm⟩
    · simp at h
  | store x ixs e =>
    simp only [check] at h
    split at h
    · repeat' split at h
      all_goals first | (simp at h; done) | exact Or.inl (by simpa using h.symm)
    · simp at h
  | aug x e =>
    simp only [check] at h
    split at h
    · repeat' split at h
      all_goals first | (simp at h; done) | exact Or.inl (by simpa using h.symm)
    · simp at h
  | augAt x ixs e =>
    simp only [check] at h
    split at h
    · repeat' split at h
      all_goals first | (simp at h; done) | exact Or.inl (by simpa using h.symm)
    · simp at h
  | call f args =>
    simp only [check] at h
    split at h
    · split at h
      · exact Or.inl (by simpa using h.symm)
      · simp at h
    · simp at h

theorem check_mono {sigs : List (List Ty)} {Γ Γ' : Name → Option Var} {st : Stmt}
    (h : check sigs Γ st = some Γ') {x : Name} {v : Var} (hx : Γ x = some v) : Γ' x = some v := by
  rcases check_cases h with h1 | ⟨y, w, hy, h1⟩
  · rw [h1]; exact hx
  · rw [h1]
    by_cases hxy : x = y
    · rw [hxy, hy] at hx; simp at hx
    · rw [put_ne _ _ _ _ hxy]; exact hx

theorem checkAll_mono {sigs : List (List Ty)} : ∀ (sts : List Stmt) (Γ Γ' : Name → Option Var)
    (_ : checkAll sigs Γ sts = some Γ') {x : Name} {v : Var} (_ : Γ x = some v), Γ' x = some v
  | [], Γ, Γ', h, x, v, hx => by simp [checkAll] at h; rw [← h]; exact hx
  | st :: sts, Γ, Γ', h, x, v, hx => by
      simp only [checkAll] at h
      cases h1 : check sigs Γ st with
      | none => rw [h1] at h; simp at h
      | some Γ1 =>
        rw [h1] at h
        exact checkAll_mono sts Γ1 Γ' h (check_mono h1 hx)

theorem check_declare {sigs : List (List Ty)} {Γ Γ' : Name → Option Var} {x : Name} {t : Ty}
    {e : Expr} (h : check sigs Γ (.declare x t e) = some Γ') : Γ' x = some ⟨t, false⟩ := by
  simp only [check] at h
  split at h
  · repeat' split at h
    all_goals first | (simp at h; done) | skip
    simp only [Option.some.injEq] at h
    rw [← h, put_self]
  · simp at h

theorem declared {sigs : List (List Ty)} : ∀ (sts : List Stmt) (Γ Γ' : Name → Option Var)
    (_ : checkAll sigs Γ sts = some Γ') {x : Name} {t : Ty} {e : Expr}
    (_ : Stmt.declare x t e ∈ sts), Γ' x = some ⟨t, false⟩
  | [], _, _, _, _, _, _, hm => by simp at hm
  | st :: sts, Γ, Γ', h, x, t, e, hm => by
      simp only [checkAll] at h
      cases h1 : check sigs Γ st with
      | none => rw [h1] at h; simp at h
      | some Γ1 =>
        rw [h1] at h
        rcases List.mem_cons.mp hm with h2 | h2
        · rw [← h2] at h1
          exact checkAll_mono sts Γ1 Γ' h (check_declare h1)
        · exact declared sts Γ1 Γ' h h2

/-- What holds while a function runs, for the name `x`. -/
structure Inv (x : Name) (Γ : Name → Option Var) (s : Run) : Prop where
  agree : Agree Γ s.env
  below : ∀ y o, s.env y = some o → o.id < s.next
  mutBelow : ∀ i ∈ s.mutated, i < s.next
  reb : Γ x = none → x ∉ s.rebound
  kept : ∀ v, Γ x = some v → v.ty.final = true → Kept s x

theorem ids_mem {s : Run} {y : Name} {i : Nat} (h : i ∈ s.ids y) : ∃ o, s.env y = some o ∧ i = o.id := by
  unfold Run.ids at h
  cases ho : s.env y with
  | none => rw [ho] at h; simp at h
  | some o => rw [ho] at h; simp at h; exact ⟨o, rfl, h⟩

/-- Only `x` has the memory of `x`. -/
def Single (x : Name) (s : Run) : Prop :=
  ∀ y ox oy, s.env x = some ox → s.env y = some oy → ox.id = oy.id → y = x

/-- Writing to the memory of another name. -/
theorem inv_mutate {x y : Name} {Γ : Name → Option Var} {s : Run} (h : Inv x Γ s)
    (hs : Single x s) (hy : ∀ v, Γ x = some v → v.ty.final = true → y ≠ x) :
    Inv x Γ { s with mutated := s.ids y ++ s.mutated } where
  agree := h.agree
  below := h.below
  mutBelow := by
    intro i hi
    rcases List.mem_append.mp hi with h1 | h1
    · obtain ⟨o, ho, hi⟩ := ids_mem h1
      rw [hi]; exact h.below y o ho
    · exact h.mutBelow i h1
  reb := h.reb
  kept := by
    intro v hv hf
    obtain ⟨h1, h2⟩ := h.kept v hv hf
    refine ⟨h1, fun o ho hm => ?_⟩
    rcases List.mem_append.mp hm with h3 | h3
    · obtain ⟨o', ho', hi⟩ := ids_mem h3
      exact hy v hv hf (hs y o o' ho ho' hi)
    · exact h2 o ho h3

theorem inv_rebound {x y : Name} {Γ : Name → Option Var} {s : Run} (h : Inv x Γ s)
    (hb : Γ y ≠ none) (hy : ∀ v, Γ x = some v → v.ty.final = true → y ≠ x) :
    Inv x Γ { s with rebound := y :: s.rebound } where
  agree := h.agree
  below := h.below
  mutBelow := h.mutBelow
  reb := by
    intro hx hm
    rcases List.mem_cons.mp hm with h1 | h1
    · rw [← h1] at hb; exact hb hx
    · exact h.reb hx h1
  kept := by
    intro v hv hf
    obtain ⟨h1, h2⟩ := h.kept v hv hf
    refine ⟨fun hm => ?_, h2⟩
    rcases List.mem_cons.mp hm with h3 | h3
    · exact hy v hv hf h3.symm
    · exact h1 h3

/-- A name gets a value. -/
theorem inv_bind {x y : Name} {Γ Γ' : Name → Option Var} {s : Run} {e : Expr} {t : Ty}
    (h : Inv x Γ s) (ht : exprTy Γ e = some t)
    (hG : ∀ z, z ≠ y → Γ' z = Γ z) (hr : (Γ' y).map (fun v => v.ty.rank) = some t.rank)
    (hy : ∀ v, Γ' x = some v → v.ty.final = true →
      y ≠ x ∨ (Γ x = none ∧ (e.value s).id = s.next)) : Inv x Γ' (s.bind y e) where
  agree := by
    intro z
    by_cases hz : z = y
    · subst hz
      rw [hr]
      simp [Run.bind, put_self, value_rank h.agree e t ht]
    · rw [hG z hz]
      simp only [Run.bind]
      rw [put_ne _ _ _ _ hz]
      exact h.agree z
  below := by
    intro z o ho
    simp only [Run.bind] at ho ⊢
    by_cases hz : z = y
    · subst hz
      rw [put_self] at ho
      have ho : e.value s = o := by simpa using ho
      rw [← ho]
      rcases value_cases s e with h1 | ⟨w, o', _, hw, h1, _⟩
      · rw [h1]; exact Nat.lt_succ_self _
      · rw [h1]; exact Nat.lt_succ_of_lt (h.below w o' hw)
    · rw [put_ne _ _ _ _ hz] at ho
      exact Nat.lt_succ_of_lt (h.below z o ho)
  mutBelow := by
    intro i hi
    simp only [Run.bind] at hi ⊢
    exact Nat.lt_succ_of_lt (h.mutBelow i hi)
  reb := by
    intro hx
    have hxy : x ≠ y := by
      intro hxy
      rw [← hxy, hx] at hr
      simp at hr
    have h0 := h.reb (by rw [← hG x hxy]; exact hx)
    simp only [Run.bind]
    split
    · intro hm
      rcases List.mem_cons.mp hm with h1 | h1
      · exact hxy h1
      · exact h0 h1
    · exact h0
  kept := by
    intro v hv hf
    rcases hy v hv hf with h1 | ⟨h1, h2⟩
    · have hxy : x ≠ y := fun hc => h1 hc.symm
      rw [hG x hxy] at hv
      obtain ⟨h3, h4⟩ := h.kept v hv hf
      constructor
      · simp only [Run.bind]
        split
        · intro hm
          rcases List.mem_cons.mp hm with h5 | h5
          · exact hxy h5
          · exact h3 h5
        · exact h3
      · intro o ho
        simp only [Run.bind] at ho ⊢
        rw [put_ne _ _ _ _ hxy] at ho
        exact h4 o ho
    · have h0 := h.reb h1
      have hn := agree_none h.agree h1
      by_cases hxy : x = y
      · subst hxy
        constructor
        · simp only [Run.bind, hn]
          simpa using h0
        · intro o ho hm
          simp only [Run.bind] at ho hm
          rw [put_self] at ho
          have ho : e.value s = o := by simpa using ho
          have := h.mutBelow _ hm
          rw [← ho, h2] at this
          exact Nat.lt_irrefl _ this
      · rw [hG x hxy, h1] at hv
        simp at hv

/-- The functions called do not write to their marked parameters. -/
def Good (sigs : List (List Ty)) (eff : List (List Bool)) : Prop :=
  ∀ (f : Nat) (sig : List Ty), sigs[f]? = some sig → ∀ (k : Nat) (t : Ty), sig[k]? = some t →
    t.final = true → ((eff[f]?).getD [])[k]? ≠ some true

theorem zip_mem_get {α β : Type} {l : List α} {m : List β} {p : α × β} (h : p ∈ l.zip m) :
    ∃ k : Nat, l[k]? = some p.1 ∧ m[k]? = some p.2 := by
  obtain ⟨k, hk⟩ := List.mem_iff_getElem?.mp h
  rw [List.getElem?_zip_eq_some] at hk
  exact ⟨k, hk⟩

theorem mem_zip_of_get {α β : Type} {l : List α} {m : List β} {a : α} {b : β} {k : Nat}
    (h1 : l[k]? = some a) (h2 : m[k]? = some b) : (a, b) ∈ l.zip m := by
  apply List.mem_iff_getElem?.mpr
  exact ⟨k, by rw [List.getElem?_zip_eq_some]; exact ⟨h1, h2⟩⟩

theorem value_below {x : Name} {Γ : Name → Option Var} {s : Run} (h : Inv x Γ s) (e : Expr) :
    (e.value s).id < s.next + 1 := by
  rcases value_cases s e with h1 | ⟨w, o', _, hw, h1, _⟩
  · rw [h1]; exact Nat.lt_succ_self _
  · rw [h1]; exact Nat.lt_succ_of_lt (h.below w o' hw)

theorem inv_step {x : Name} {sigs : List (List Ty)} {eff : List (List Bool)}
    {Γ Γ' : Name → Option Var} {s : Run} {st : Stmt} (hg : Good sigs eff) (h : Inv x Γ s)
    (hs : Single x s) (hd : st.Direct sigs (· = x)) (hc : check sigs Γ st = some Γ') :
    Inv x Γ' (s.step eff st) := by
  cases st with
  | assign y e =>
    simp only [check] at hc
    cases ht : exprTy Γ e with
    | none => rw [ht] at hc; simp at hc
    | some t0 =>
      rw [ht] at hc
      simp only at hc
      cases hx : Γ y with
      | none =>
        rw [hx] at hc
        simp only at hc
        split at hc
        · simp at hc
        · rename_i hnf
          simp only [Option.some.injEq] at hc
          refine inv_bind h ht ?_ ?_ ?_
          · intro z hz; rw [← hc, put_ne _ _ _ _ hz]
          · rw [← hc, put_self]; simp [infer_rank]
          · intro v hv hf
            refine Or.inl fun hyx => ?_
            rw [← hc, hyx, put_self] at hv
            have hv : (⟨infer t0, isView e && (infer t0).rank != 0⟩ : Var) = v := by simpa using hv
            rw [← hv] at hf
            exact hnf hf
      | some v =>
        rw [hx] at hc
        simp only at hc
        split at hc
        · simp at hc
        · rename_i hnf
          split at hc
          · simp at hc
          · rename_i hrk
            have hrk : v.ty.rank = t0.rank := by
              rw [← infer_rank t0]; exact Decidable.not_not.mp hrk
            have hG : Γ' = Γ := by
              repeat' split at hc
              all_goals first | (simp at hc; done) | exact (by simpa using hc.symm)
            subst hG
            refine inv_bind h ht (fun _ _ => rfl) (by rw [hx]; simp [hrk]) ?_
            intro w hw hf
            refine Or.inl fun hyx => ?_
            rw [← hyx, hx] at hw
            have hw : v = w := by simpa using hw
            rw [← hw] at hf
            exact hnf hf
  | declare y t e =>
    simp only [check] at hc
    split at hc
    · rename_i te hy he
      split at hc
      · simp at hc
      · rename_i hrk
        have hrk : te.rank = t.rank := Decidable.not_not.mp hrk
        split at hc
        · simp at hc
        · rename_i hv
          simp only [Option.some.injEq] at hc
          refine inv_bind h he ?_ ?_ ?_
          · intro z hz; rw [← hc, put_ne _ _ _ _ hz]
          · rw [← hc, put_self]; simp [hrk]
          · intro v hv' hf
            by_cases hyx : y = x
            · right
              refine ⟨by rw [← hyx]; exact hy, ?_⟩
              rcases value_cases s e with h1 | ⟨w, o', _, hw, h1, h2, h3⟩
              · exact h1
              · exact absurd ⟨by rw [← hrk, ← value_rank h.agree e te he]; exact h2, h3⟩ hv
            · exact Or.inl hyx
    · simp at hc
  | store y ixs e =>
    have hG : Γ' = Γ := by
      rcases check_cases hc with h1 | h1
      · exact h1
      · obtain ⟨z, w, hz, h1⟩ := h1
        simp only [check] at hc
        split at hc
        · repeat' split at hc
          all_goals first | (simp at hc; done) | exact (by simpa using hc.symm)
        · simp at hc
    subst hG
    refine inv_mutate h hs ?_
    intro v hv hf hyx
    subst hyx
    simp only [Stmt.Direct, forall_const] at hd
    simp only [check] at hc
    split at hc
    · rename_i t te h1 h2
      simp only [exprTy, hv] at h1
      split at h1
      · rename_i hl
        simp only [Option.some.injEq] at h1
        rw [← h1, if_pos ((indexTy_final v.ty ixs hl.2 hl.1).mpr ⟨hf, hd⟩)] at hc
        simp at hc
      · simp at h1
    · simp at hc
  | aug y e =>
    have hyb : ∃ t, exprTy Γ (.var y) = some t ∧ t.final = false ∧ Γ' = Γ := by
      simp only [check] at hc
      split at hc
      · rename_i t te h1 h2
        split at hc
        · simp at hc
        · rename_i hnf
          refine ⟨t, h1, by simpa using hnf, ?_⟩
          split at hc
          · simpa using hc.symm
          · simp at hc
      · simp at hc
    obtain ⟨t, h1, hnf, hG⟩ := hyb
    subst hG
    simp only [exprTy] at h1
    have hyx : ∀ v, Γ' x = some v → v.ty.final = true → y ≠ x := by
      intro v hv hf hyx
      rw [hyx, hv] at h1
      have h1 : v.ty = t := by simpa using h1
      rw [h1, hnf] at hf
      exact absurd hf (by simp)
    simp only [Run.step]
    split
    · refine inv_rebound h ?_ hyx
      intro hn
      rw [hn] at h1
      simp at h1
    · exact inv_mutate h hs hyx
  | augAt y ixs e =>
    have hG : Γ' = Γ := by
      simp only [check] at hc
      split at hc
      · repeat' split at hc
        all_goals first | (simp at hc; done) | exact (by simpa using hc.symm)
      · simp at hc
    subst hG
    refine inv_mutate h hs ?_
    intro v hv hf hyx
    subst hyx
    simp only [Stmt.Direct, forall_const] at hd
    simp only [check] at hc
    split at hc
    · rename_i t te h1 h2
      simp only [exprTy, hv] at h1
      split at h1
      · rename_i hl
        simp only [Option.some.injEq] at h1
        rw [← h1, if_pos ((indexTy_final v.ty ixs hl.2 hl.1).mpr ⟨hf, hd⟩)] at hc
        simp at hc
      · simp at h1
    · simp at hc
  | call f args =>
    simp only [check] at hc
    cases hsig : sigs[f]? with
    | none => rw [hsig] at hc; simp at hc
    | some sig =>
      rw [hsig] at hc
      simp only at hc
      split at hc
      · rename_i hcomp
        simp only [Option.some.injEq] at hc
        subst hc
        simp only [compatible, Bool.and_eq_true, beq_iff_eq, List.all_eq_true] at hcomp
        obtain ⟨hlen, hall⟩ := hcomp
        simp only [Run.step]
        refine ⟨h.agree, ?_, ?_, h.reb, ?_⟩
        · intro z o ho; exact Nat.lt_succ_of_lt (h.below z o ho)
        · intro i hi
          rcases List.mem_append.mp hi with h1 | h1
          · obtain ⟨p, _, hp⟩ := List.mem_map.mp h1
            rw [← hp]; exact value_below h p.1
          · exact Nat.lt_succ_of_lt (h.mutBelow i h1)
        · intro v hv hf
          obtain ⟨h1, h2⟩ := h.kept v hv hf
          refine ⟨h1, fun o ho hm => ?_⟩
          rcases List.mem_append.mp hm with h3 | h3
          · obtain ⟨p, hp, hid⟩ := List.mem_map.mp h3
            obtain ⟨hp1, hp2⟩ := List.mem_filter.mp hp
            obtain ⟨k, hk1, hk2⟩ := zip_mem_get hp1
            have hp2 : p.2 = true := hp2
            rw [hp2] at hk2
            have hklt : k < args.length := (List.getElem?_eq_some_iff.mp hk1).1
            have hks : ∃ t, sig[k]? = some t := by
              have : k < sig.length := by rw [← hlen]; exact hklt
              exact ⟨_, List.getElem?_eq_getElem this⟩
            obtain ⟨t, htk⟩ := hks
            have hmem := mem_zip_of_get hk1 htk
            rcases value_cases s p.1 with h4 | ⟨y, o', hof, hy, h4, h5, _⟩
            · have := h.below x o ho
              rw [← hid, h4] at this
              exact Nat.lt_irrefl _ this
            · have hyx : y = x := hs y o o' ho hy (by rw [← hid, h4])
              have hte := hall _ hmem
              cases hty : exprTy Γ p.1 with
              | none => rw [hty] at hte; simp at hte
              | some te =>
                rw [hty] at hte
                have hte : te.rank = t.rank := by simpa using hte
                have hr := value_rank h.agree p.1 te hty
                have hfin := hd sig hsig (p.1, t) hmem y hyx hof (by
                  show t.rank ≠ 0
                  rw [← hte, ← hr]; exact h5)
                exact hg f sig hsig k t htk hfin hk2
          · exact h2 o ho h3
      · simp at hc

theorem inv_all {x : Name} {sigs : List (List Ty)} {eff : List (List Bool)} (hg : Good sigs eff) :
    ∀ (sts : List Stmt) (Γ Γ' : Name → Option Var) (s : Run), Inv x Γ s →
      (∀ n, Single x ((sts.take n).foldl (Run.step eff) s)) →
      (∀ st ∈ sts, st.Direct sigs (· = x)) → checkAll sigs Γ sts = some Γ' →
      Inv x Γ' (sts.foldl (Run.step eff) s)
  | [], Γ, Γ', s, h, _, _, hc => by
      simp only [checkAll, Option.some.injEq] at hc
      rw [← hc]; exact h
  | st :: sts, Γ, Γ', s, h, hs, hd, hc => by
      simp only [checkAll] at hc
      cases h1 : check sigs Γ st with
      | none => rw [h1] at hc; simp at hc
      | some Γ1 =>
        rw [h1] at hc
        have hstep := inv_step hg h (hs 0) (hd st (List.mem_cons_self ..)) h1
        exact inv_all hg sts Γ1 Γ' _ hstep (fun n => hs (n + 1))
          (fun st' h' => hd st' (List.mem_cons_of_mem _ h')) hc

theorem inv_start (f : Func) (x : Name) : Inv x (params f) f.start where
  agree := by
    intro z
    simp only [params, Func.start]
    cases f.params[z]? <;> rfl
  below := by
    intro z o ho
    simp only [Func.start] at ho ⊢
    cases hz : f.params[z]? with
    | none => rw [hz] at ho; simp at ho
    | some t =>
      rw [hz] at ho
      simp only [Option.map_some, Option.some.injEq] at ho
      rw [← ho]
      exact (List.getElem?_eq_some_iff.mp hz).1
  mutBelow := by intro i hi; simp [Func.start] at hi
  reb := by intro _; simp [Func.start]
  kept := by intro v _ _; exact ⟨by simp [Func.start], by simp [Func.start]⟩

theorem kept_of {x : Name} {sigs : List (List Ty)} {eff : List (List Bool)} (hg : Good sigs eff)
    (f : Func) (hm : f.Marked x) (ho : f.OneName eff (· = x))
    (hd : ∀ st ∈ f.body, st.Direct sigs (· = x))
    (hc : (checkAll sigs (params f) f.body).isSome = true) : Kept (f.run eff) x := by
  obtain ⟨Γ', hΓ⟩ := Option.isSome_iff_exists.mp hc
  have h := inv_all hg f.body _ Γ' f.start (inv_start f x)
    (fun n y ox oy h1 h2 h3 => ho n x y ox oy rfl h1 h2 h3) hd hΓ
  rcases hm with ⟨t, ht, hf⟩ | ⟨t, e, hb, hf⟩
  · exact h.kept ⟨t, false⟩ (checkAll_mono _ _ _ hΓ (by simp [params, ht])) hf
  · exact h.kept ⟨t, false⟩ (declared _ _ _ hΓ hb) hf

/-- Parameters keep their memory while it is not given away: the marked ones are not written. -/
theorem param_env {sigs : List (List Ty)} {eff : List (List Bool)} {f : Func} {x : Name}
    (hk : x ∉ (f.run eff).rebound) (hx : x < f.params.length) :
    ∃ o, (f.run eff).env x = some o ∧ o.id = x := by
  have key : ∀ (sts : List Stmt) (s : Run), (∃ o, s.env x = some o ∧ o.id = x) →
      x ∉ (sts.foldl (Run.step eff) s).rebound →
      (∃ o, (sts.foldl (Run.step eff) s).env x = some o ∧ o.id = x) := by
    intro sts
    induction sts with
    | nil => intro s h _; exact h
    | cons st sts ih =>
      intro s h hr
      have mono : ∀ (sts : List Stmt) (s : Run), x ∈ s.rebound →
          x ∈ (sts.foldl (Run.step eff) s).rebound := by
        intro sts
        induction sts with
        | nil => intro s h; exact h
        | cons st sts ih =>
          intro s h
          apply ih
          cases st <;> simp only [Run.step, Run.bind] <;>
            (try split) <;> first | exact h | exact List.mem_cons_of_mem _ h
      apply ih _ _ hr
      have hnr : x ∉ (s.step eff st).rebound := fun hc => hr (mono sts _ hc)
      have hbind : ∀ y e, x ∉ (s.bind y e).rebound → ∃ o, (s.bind y e).env x = some o ∧ o.id = x := by
        intro y e hb
        obtain ⟨o, ho, hi⟩ := h
        by_cases hxy : x = y
        · subst hxy
          simp only [Run.bind, ho] at hb
          simp at hb
        · refine ⟨o, ?_, hi⟩
          simp only [Run.bind]
          rw [put_ne _ _ _ _ hxy]; exact ho
      cases st with
      | assign y e => exact hbind y e hnr
      | declare y t e => exact hbind y e hnr
      | store y ixs e => exact h
      | aug y e => simp only [Run.step]; split <;> exact h
      | augAt y ixs e => exact h
      | call f args => exact h
  apply key
  · exact ⟨⟨x, (f.params[x]).rank⟩, by simp [Func.start, List.getElem?_eq_getElem hx], rfl⟩
  · exact hk

theorem writes_false {eff : List (List Bool)} {f : Func} {x : Name} (hk : Kept (f.run eff) x)
    (hx : x < f.params.length) : (f.writes eff)[x]? ≠ some true := by
  obtain ⟨o, ho, hi⟩ := param_env (sigs := []) hk.1 hx
  have := hk.2 o ho
  rw [hi] at this
  simp [Func.writes, hx, this]

theorem effects_length (fs : List Func) : (effects fs).length = fs.length := by
  have key : ∀ (fs : List Func) (e : List (List Bool)),
      (fs.foldl (fun eff f => eff ++ [f.writes eff]) e).length = e.length + fs.length := by
    intro fs
    induction fs with
    | nil => intro e; rfl
    | cons f fs ih => intro e; simp [ih]; omega
  simpa [effects] using key fs []

theorem effects_snoc (fs : List Func) (f : Func) :
    effects (fs ++ [f]) = effects fs ++ [f.writes (effects fs)] := by
  simp [effects, List.foldl_append]

theorem accept_get : ∀ (fs : List Func) (sigs : List (List Ty)), accept sigs fs = true →
    ∀ (k : Nat) (f : Func), fs[k]? = some f →
      (checkAll (sigs ++ (fs.take k).map Func.params) (params f) f.body).isSome = true
  | [], _, _, k, f, hf => by simp at hf
  | g :: fs, sigs, h, k, f, hf => by
      simp only [accept, Bool.and_eq_true] at h
      cases k with
      | zero =>
        simp only [List.getElem?_cons_zero, Option.some.injEq] at hf
        subst hf
        simpa using h.1
      | succ k =>
        simp only [List.getElem?_cons_succ] at hf
        simpa using accept_get fs _ h.2 k f hf

theorem direct_one {sigs : List (List Ty)} {m : Name → Prop} {x : Name} (hx : m x) {st : Stmt}
    (h : st.Direct sigs m) : st.Direct sigs (· = x) := by
  cases st with
  | store y ixs e => intro hy; exact h (by rw [hy]; exact hx)
  | augAt y ixs e => intro hy; exact h (by rw [hy]; exact hx)
  | call f args => intro sig hs p hp y hy; exact h sig hs p hp y (by rw [hy]; exact hx)
  | assign y e => trivial
  | declare y t e => trivial
  | aug y e => trivial

/-- The main argument, for a choice of marked names that contains the marked parameters. -/
theorem all_kept (mk : Func → Name → Prop) (hp : ∀ f x, f.MarkedParam x → mk f x)
    (hm : ∀ f x, mk f x → f.Marked x) (fs : List Func) (ha : accept [] fs = true)
    (hd : Direct mk fs) (ho : OneName mk fs) :
    ∀ n, n ≤ fs.length →
      Good ((fs.take n).map Func.params) (effects (fs.take n)) ∧
      ∀ (k : Nat) (f : Func), k < n → fs[k]? = some f → ∀ x, mk f x → Kept (f.run (effects (fs.take k))) x
  | 0, _ => ⟨by intro f sig h; simp at h, by intro k f hk; omega⟩
  | n + 1, hn => by
      obtain ⟨hg, ih⟩ := all_kept mk hp hm fs ha hd ho n (by omega)
      have hnlt : n < fs.length := by omega
      have hget : fs[n]? = some fs[n] := List.getElem?_eq_getElem hnlt
      have hc := accept_get fs [] ha n _ hget
      simp only [List.nil_append] at hc
      have hkept : ∀ x, mk fs[n] x → Kept ((fs[n]).run (effects (fs.take n))) x := by
        intro x hx
        refine kept_of hg _ (hm _ _ hx) ?_ (fun st hst => direct_one hx (hd n _ hget st hst)) hc
        intro j x' y ox oy hx' h1 h2 h3
        have hx'' : mk fs[n] x' := by rw [hx']; exact hx
        exact ho n _ hget j x' y ox oy hx'' h1 h2 h3
      have htake : fs.take (n + 1) = fs.take n ++ [fs[n]] := by
        rw [List.take_succ, hget]; rfl
      constructor
      · rw [htake, effects_snoc, List.map_append]
        intro f sig hsig k t hk hf
        have hlen : ((fs.take n).map Func.params).length = n := by simp; omega
        have hlen' : (effects (fs.take n)).length = n := by rw [effects_length]; simp; omega
        by_cases hfn : f < n
        · rw [List.getElem?_append_left (by omega)] at hsig ⊢
          exact hg f sig hsig k t hk hf
        · rw [List.getElem?_append_right (by omega), hlen] at hsig
          rw [List.getElem?_append_right (by omega), hlen']
          have hf0 : f - n = 0 := by
            cases hfn' : f - n with
            | zero => rfl
            | succ m => rw [hfn'] at hsig; simp at hsig
          rw [hf0] at hsig ⊢
          simp only [List.map_cons, List.map_nil, List.getElem?_cons_zero, Option.some.injEq,
            Option.getD_some] at hsig ⊢
          subst hsig
          exact writes_false (hkept k (hp _ _ ⟨t, hk, hf⟩)) (List.getElem?_eq_some_iff.mp hk).1
      · intro k f hk hf x hx
        by_cases hkn : k < n
        · exact ih k f hkn hf x hx
        · have : k = n := by omega
          subst this
          rw [hget] at hf
          have hf : fs[k] = f := by simpa using hf
          subst hf
          exact hkept x hx

theorem compiles_get : ∀ (fs : List Func) (sigs : List (List Ty)), compiles sigs fs = true →
    ∀ (k : Nat) (f : Func), fs[k]? = some f →
      ∀ st ∈ f.body, fortran (sigs ++ (fs.take k).map Func.params) (intentIn f) st = true
  | [], _, _, k, f, hf => by simp at hf
  | g :: fs, sigs, h, k, f, hf => by
      simp only [compiles, Bool.and_eq_true] at h
      cases k with
      | zero =>
        simp only [List.getElem?_cons_zero, Option.some.injEq] at hf
        subst hf
        simpa [List.all_eq_true] using h.1
      | succ k =>
        simp only [List.getElem?_cons_succ] at hf
        simpa using compiles_get fs _ h.2 k f hf

theorem intentIn_iff (f : Func) (x : Name) : intentIn f x = true ↔ f.MarkedParam x := by
  unfold intentIn Func.MarkedParam
  cases f.params[x]? with
  | none => simp
  | some t => simp

theorem direct_of_fortran {sigs : List (List Ty)} {f : Func} {st : Stmt}
    (h : fortran sigs (intentIn f) st = true) : st.Direct sigs f.MarkedParam := by
  cases st with
  | store y ixs e =>
    intro hm
    simp [fortran, (intentIn_iff f y).mpr hm] at h
  | augAt y ixs e =>
    intro hm
    simp [fortran, (intentIn_iff f y).mpr hm] at h
  | call g args =>
    intro sig hs p hp y hm hof hr
    simp only [fortran, hs, Option.getD_some, List.all_eq_true] at h
    have h1 := h p hp
    rcases hof with h2 | ⟨ixs, h2⟩ <;>
    · rw [h2] at h1
      simpa [(intentIn_iff f y).mpr hm, hr] using h1
  | assign y e => trivial
  | declare y t e => trivial
  | aug y e => trivial

end Verif.Finals.Lemmas
