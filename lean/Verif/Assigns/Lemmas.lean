import Verif.Assigns.Model

namespace Verif.Assigns.Lemmas
open Spec Model

/-! ## Expressions -/

theorem under_mono {n m : Nat} (h : n ≤ m) {e : Ex} (he : e.under n) : e.under m := by
  induction e with
  | lit z => trivial
  | var x => exact Nat.lt_of_lt_of_le he h
  | el a ix ih => exact ⟨Nat.lt_of_lt_of_le he.1 h, ih he.2⟩
  | un f e ih => exact ih he
  | bin f a b iha ihb => exact ⟨iha he.1, ihb he.2⟩

theorem same_eq {e e' : Ex} (h : same e e' = true) : e = e' := by
  induction e generalizing e' with
  | lit z => cases e' <;> simp_all [same]
  | var x => cases e' <;> simp_all [same]
  | el a i ih =>
    cases e' with
    | el b j =>
      simp only [same, Bool.and_eq_true, decide_eq_true_eq] at h
      rw [h.1, ih h.2]
    | _ => simp [same] at h
  | un f e ih => cases e' <;> simp [same] at h
  | bin f a b iha ihb => cases e' <;> simp [same] at h

theorem same_refl {e : Ex} (h : e.plain) : same e e = true := by
  induction e with
  | lit z => simp [same]
  | var x => simp [same]
  | el a i ih => simp [same, ih h]
  | un f e ih => cases h
  | bin f a b iha ihb => cases h

theorem plain_of_same {e e' : Ex} (h : same e e' = true) : e.plain := by
  induction e generalizing e' with
  | lit z => trivial
  | var x => trivial
  | el a i ih =>
    cases e' with
    | el b j =>
      simp only [same, Bool.and_eq_true] at h
      exact ih h.2
    | _ => simp [same] at h
  | un f e ih => cases e' <;> simp [same] at h
  | bin f a b iha ihb => cases e' <;> simp [same] at h

theorem same_expr_el {l : Target} {a : Name} {ix : Ex} (h : same (expr l) (.el a ix) = true) :
    l = .el a ix := by
  have := same_eq h
  cases l <;> simp [expr] at this
  rw [this.1, this.2]

theorem same_expr_var {l : Target} {x : Name} (h : same (expr l) (.var x) = true) : l = .var x := by
  have := same_eq h
  cases l <;> simp [expr] at this
  rw [this]

/-- Two states have the same variables and arrays under `n`. -/
def Agree (n : Nat) (s t : St) : Prop := (∀ x, x < n → s.v x = t.v x) ∧ ∀ x, x < n → s.a x = t.a x

theorem Agree.refl (n : Nat) (s : St) : Agree n s s := ⟨fun _ _ => rfl, fun _ _ => rfl⟩

theorem Agree.symm {n : Nat} {s t : St} (h : Agree n s t) : Agree n t s :=
  ⟨fun x hx => (h.1 x hx).symm, fun x hx => (h.2 x hx).symm⟩

theorem Agree.trans {n : Nat} {s t u : St} (h : Agree n s t) (h' : Agree n t u) : Agree n s u :=
  ⟨fun x hx => (h.1 x hx).trans (h'.1 x hx), fun x hx => (h.2 x hx).trans (h'.2 x hx)⟩

theorem Agree.mono {n m : Nat} {s t : St} (h : Agree n s t) (hm : m ≤ n) : Agree m s t :=
  ⟨fun x hx => h.1 x (by omega), fun x hx => h.2 x (by omega)⟩

theorem eval_agree {n : Nat} {s t : St} (h : Agree n s t) {e : Ex} (he : e.under n) :
    eval s e = eval t e := by
  induction e with
  | lit z => rfl
  | var x => simp only [eval, h.1 x he]
  | el a ix ih => simp only [eval, ih he.2, h.2 a he.1]
  | un f e ih => simp only [eval, ih he]
  | bin f a b iha ihb => simp only [eval, iha he.1, ihb he.2]

theorem locate_agree {n : Nat} {s t : St} (h : Agree n s t) {a : Name} {ix : Ex} (ha : a < n)
    (he : ix.under n) : locate s a ix = locate t a ix := by
  simp only [locate, eval_agree h he, h.2 a ha]

theorem assign_agree {n : Nat} {s t s' : St} (h : Agree n s t) {l : Target} (hl : l.under n) {z : Int}
    (hs : assign s l z = some s') : ∃ t', assign t l z = some t' ∧ Agree n s' t' := by
  cases l with
  | var x =>
    simp only [assign, Option.some.injEq] at hs ⊢
    subst hs
    refine ⟨_, rfl, fun y hy => ?_, h.2⟩
    simp only
    split
    · rfl
    · exact h.1 y hy
  | el a ix =>
    simp only [assign, locate_agree h hl.1 hl.2] at hs ⊢
    cases hp : locate t a ix with
    | none => rw [hp] at hs; cases hs
    | some p =>
      rw [hp] at hs
      simp only [Option.bind_eq_bind, Option.bind_some, Option.pure_def, Option.some.injEq] at hs ⊢
      subst hs
      refine ⟨_, rfl, h.1, fun y hy => ?_⟩
      simp only
      split
      · rw [h.2 a hl.1]
      · exact h.2 y hy

theorem assigns_agree {n : Nat} {ls : List (Target × Int)} (hl : ∀ x ∈ ls, x.1.under n) {s t s' : St}
    (h : Agree n s t) (hs : assigns s ls = some s') :
    ∃ t', assigns t ls = some t' ∧ Agree n s' t' := by
  induction ls generalizing s t with
  | nil =>
    cases hs
    exact ⟨t, rfl, h⟩
  | cons x ls ih =>
    simp only [assigns] at hs ⊢
    cases h1 : assign s x.1 x.2 with
    | none => rw [h1] at hs; cases hs
    | some s1 =>
      rw [h1] at hs
      obtain ⟨t1, h2, h3⟩ := assign_agree h (hl x (by simp)) h1
      rw [h2]
      exact ih (fun y hy => hl y (by simp [hy])) h3 hs

theorem assign_length {s s' : St} {l : Target} {z : Int} (h : assign s l z = some s') (a : Name) :
    (s'.a a).length = (s.a a).length := by
  cases l with
  | var x =>
    simp only [assign, Option.some.injEq] at h
    subst h; rfl
  | el b ix =>
    simp only [assign] at h
    cases hp : locate s b ix with
    | none => rw [hp] at h; cases h
    | some p =>
      rw [hp] at h
      simp only [Option.bind_eq_bind, Option.bind_some, Option.pure_def, Option.some.injEq] at h
      subst h
      simp only
      split
      · rename_i h; subst h; simp
      · rfl

/-- The assignment of `l` does not change what `e` reads. -/
def Misses (s : St) (l : Target) (e : Ex) : Prop :=
  match l with
  | .var x => ¬ e.uses x
  | .el a ix => ∀ i, Reads a i e → ∀ p q, locate s a ix = some p → locate s a i = some q → p ≠ q

theorem assign_eval {s s' : St} {l : Target} {z : Int} (h : assign s l z = some s') {e : Ex}
    (he : Misses s l e) : eval s' e = eval s e := by
  cases l with
  | var x =>
    simp only [assign, Option.some.injEq] at h
    subst h
    simp only [Misses] at he
    induction e with
    | lit z => rfl
    | var y =>
      simp only [eval]
      rw [if_neg (show ¬ y = x from fun h => he h)]
    | el a ix ih => simp only [eval, ih he]
    | un f e ih => simp only [eval, ih he]
    | bin f a b iha ihb =>
      simp only [eval, iha (fun h => he (.inl h)), ihb (fun h => he (.inr h))]
  | el a ix =>
    simp only [Misses] at he
    have hlen := assign_length h
    simp only [assign] at h
    cases hp : locate s a ix with
    | none => rw [hp] at h; cases h
    | some p =>
      rw [hp] at h he
      simp only [Option.bind_eq_bind, Option.bind_some, Option.pure_def, Option.some.injEq] at h
      induction e with
      | lit z => rfl
      | var y => subst h; rfl
      | el b i ih =>
        have h1 := ih (fun j hj => he j (.inr hj))
        simp only [eval, h1]
        cases hi : eval s i with
        | none => rfl
        | some y =>
          simp only [Option.bind_eq_bind, Option.bind_some, hlen]
          cases hq : position (s.a b).length y with
          | none => rfl
          | some q =>
            simp only [Option.bind_some]
            subst h
            simp only
            split
            · rename_i hb
              subst hb
              have := he i (.inl ⟨rfl, rfl⟩) p q rfl (by simp [locate, hi, hq])
              rw [List.getElem?_set_ne this]
            · rfl
      | un f e ih => simp only [eval, ih he]
      | bin f c d ihc ihd =>
        simp only [eval, ihc (fun j hj => he j (.inl hj)), ihd (fun j hj => he j (.inr hj))]

theorem misses_of_stable {s : St} {l : Target} {ls : List Target} (hl : l ∈ ls) {e : Ex}
    (h : Stable ls e) : Misses s l e := by
  have := h l hl
  cases l with
  | var x => exact this
  | el a ix => exact fun i hi => absurd ⟨i, hi⟩ this

/-! ## Substitution -/

theorem subst_hit {l : Target} {n : Nat} {e : Ex} (h : same (expr l) e = true) :
    subst l n e = .var n := by
  unfold subst; rw [if_pos h]

theorem subst_under {l : Target} {n : Nat} {e : Ex} (he : e.under n) :
    (subst l n e).under (n + 1) := by
  induction e with
  | lit z => unfold subst; split <;> simp [Ex.under]
  | var x =>
    unfold subst
    split
    · simp [Ex.under]
    · exact Nat.lt_succ_of_lt he
  | el a ix ih =>
    unfold subst
    split
    · simp [Ex.under]
    · exact ⟨Nat.lt_succ_of_lt he.1, ih he.2⟩
  | un f e ih =>
    unfold subst
    split
    · simp [Ex.under]
    · exact ih he
  | bin f a b iha ihb =>
    unfold subst
    split
    · simp [Ex.under]
    · exact ⟨iha he.1, ihb he.2⟩

/-- A temporary with the value of the target. -/
def save (s : St) (n : Nat) (z : Int) : St := { s with v := fun y => if y = n then z else s.v y }

theorem save_agree (s : St) (n : Nat) (z : Int) : Agree n s (save s n z) :=
  ⟨fun x hx => by simp [save, Nat.ne_of_lt hx], fun _ _ => rfl⟩

theorem subst_eval {s : St} {l : Target} {n : Nat} {z : Int} (hl : eval s (expr l) = some z) {e : Ex}
    (he : e.under n) : eval (save s n z) (subst l n e) = eval s e := by
  have hit : ∀ e : Ex, same (expr l) e = true → eval (save s n z) (subst l n e) = eval s e := by
    intro e h
    rw [subst_hit h, ← same_eq h, hl]
    simp [eval, save]
  induction e with
  | lit y =>
    by_cases h : same (expr l) (.lit y) = true
    · exact hit _ h
    · unfold subst; rw [if_neg h]; rfl
  | var x =>
    by_cases h : same (expr l) (.var x) = true
    · exact hit _ h
    · unfold subst; rw [if_neg h]
      exact (eval_agree (save_agree s n z) he).symm
  | el a ix ih =>
    by_cases h : same (expr l) (.el a ix) = true
    · exact hit _ h
    · unfold subst; rw [if_neg h]
      simp only [eval, ih he.2]
      rfl
  | un f e ih =>
    by_cases h : same (expr l) (.un f e) = true
    · exact hit _ h
    · unfold subst; rw [if_neg h]
      simp only [eval, ih he]
  | bin f a b iha ihb =>
    by_cases h : same (expr l) (.bin f a b) = true
    · exact hit _ h
    · unfold subst; rw [if_neg h]
      simp only [eval, iha he.1, ihb he.2]

/-- What is read after the substitution. -/
theorem subst_reads {l : Target} {n : Nat} {a : Name} {i e : Ex} (h : Reads a i (subst l n e)) :
    ∃ i₀, Reads a i₀ e ∧ i = subst l n i₀ ∧ same (expr l) (.el a i₀) = false := by
  induction e with
  | lit y => unfold subst at h; split at h <;> cases h
  | var x => unfold subst at h; split at h <;> cases h
  | el b j ih =>
    unfold subst at h
    split at h
    · cases h
    · rename_i hs
      rcases h with ⟨rfl, rfl⟩ | h
      · exact ⟨j, .inl ⟨rfl, rfl⟩, rfl, by simpa using hs⟩
      · obtain ⟨i₀, h1, h2⟩ := ih h
        exact ⟨i₀, .inr h1, h2⟩
  | un f e ih =>
    unfold subst at h
    split at h
    · cases h
    · exact ih h
  | bin f c d ihc ihd =>
    unfold subst at h
    split at h
    · cases h
    · rcases h with h | h
      · obtain ⟨i₀, h1, h2⟩ := ihc h
        exact ⟨i₀, .inl h1, h2⟩
      · obtain ⟨i₀, h1, h2⟩ := ihd h
        exact ⟨i₀, .inr h1, h2⟩

theorem subst_uses {l : Target} {n : Nat} {x : Name} {e : Ex} (hx : x ≠ n)
    (h : (subst l n e).uses x) : e.uses x ∧ l ≠ .var x := by
  have key : ∀ e : Ex, same (expr l) e = true → ¬ (subst l n e).uses x := by
    intro e h
    rw [subst_hit h]
    exact fun h => hx h.symm
  induction e with
  | lit y =>
    by_cases hs : same (expr l) (.lit y) = true
    · exact absurd h (key _ hs)
    · unfold subst at h; rw [if_neg hs] at h; cases h
  | var y =>
    by_cases hs : same (expr l) (.var y) = true
    · exact absurd h (key _ hs)
    · unfold subst at h; rw [if_neg hs] at h
      have h : y = x := h
      subst h
      refine ⟨rfl, fun hl => hs ?_⟩
      rw [hl]
      simp [expr, same]
  | el b j ih =>
    by_cases hs : same (expr l) (.el b j) = true
    · exact absurd h (key _ hs)
    · unfold subst at h; rw [if_neg hs] at h; exact ih h
  | un f e ih =>
    by_cases hs : same (expr l) (.un f e) = true
    · exact absurd h (key _ hs)
    · unfold subst at h; rw [if_neg hs] at h; exact ih h
  | bin f a b iha ihb =>
    by_cases hs : same (expr l) (.bin f a b) = true
    · exact absurd h (key _ hs)
    · unfold subst at h; rw [if_neg hs] at h
      rcases h with h | h
      · exact ⟨.inl (iha h).1, (iha h).2⟩
      · exact ⟨.inr (ihb h).1, (ihb h).2⟩

theorem depends_el {l : Target} {b : Name} {j : Ex} (h : ¬ (Ex.el b j).depends l) :
    ¬ j.depends l := by
  cases l with
  | var x => exact h
  | el a ix => exact fun ⟨i, hi⟩ => h ⟨i, .inr hi⟩

theorem depends_un {l : Target} {f : Int → Int} {j : Ex} (h : ¬ (Ex.un f j).depends l) :
    ¬ j.depends l := by
  cases l with
  | var x => exact h
  | el a ix => exact h

theorem depends_bin {l : Target} {f : Int → Int → Int} {c d : Ex} (h : ¬ (Ex.bin f c d).depends l) :
    ¬ c.depends l ∧ ¬ d.depends l := by
  cases l with
  | var x => exact ⟨fun hu => h (.inl hu), fun hu => h (.inr hu)⟩
  | el a ix => exact ⟨fun ⟨i, hi⟩ => h ⟨i, .inl hi⟩, fun ⟨i, hi⟩ => h ⟨i, .inr hi⟩⟩

/-- Nothing happens in an expression on which the target has no influence. -/
theorem subst_stable {l : Target} {n : Nat} {e : Ex} (h : ¬ e.depends l) : subst l n e = e := by
  have hs : same (expr l) e = false := by
    cases hs : same (expr l) e with
    | false => rfl
    | true =>
      have := same_eq hs
      subst this
      cases l with
      | var x => exact absurd rfl h
      | el a ix => exact absurd ⟨ix, .inl ⟨rfl, rfl⟩⟩ h
  unfold subst
  rw [hs]
  induction e with
  | lit y => rfl
  | var y => rfl
  | el b j ih =>
    have h1 := depends_el h
    have : subst l n j = j := by
      unfold subst
      cases h2 : same (expr l) j with
      | true =>
        have := same_eq h2
        subst this
        cases l with
        | var x => exact absurd rfl h1
        | el a ix => exact absurd ⟨ix, .inl ⟨rfl, rfl⟩⟩ h1
      | false => exact ih h1 h2
    simp [this]
  | un f j ih =>
    have h1 := depends_un h
    have : subst l n j = j := by
      unfold subst
      cases h2 : same (expr l) j with
      | true =>
        have := same_eq h2
        subst this
        cases l with
        | var x => exact absurd rfl h1
        | el a ix => exact absurd ⟨ix, .inl ⟨rfl, rfl⟩⟩ h1
      | false => exact ih h1 h2
    simp [this]
  | bin f c d ihc ihd =>
    have key : ∀ j : Ex, ¬ j.depends l → (same (expr l) j = false →
        (if false = true then Ex.var n else match j with
          | .lit z => .lit z
          | .var x => .var x
          | .el a ix => .el a (subst l n ix)
          | .un f e => .un f (subst l n e)
          | .bin f a b => .bin f (subst l n a) (subst l n b)) = j) → subst l n j = j := by
      intro j h1 ih
      unfold subst
      cases h2 : same (expr l) j with
      | true =>
        have := same_eq h2
        subst this
        cases l with
        | var x => exact absurd rfl h1
        | el a ix => exact absurd ⟨ix, .inl ⟨rfl, rfl⟩⟩ h1
      | false => exact ih h2
    have := depends_bin h
    simp [key c this.1 (ihc this.1), key d this.2 (ihd this.2)]

theorem subst_shows {l : Target} {n : Nat} {x : Name} {e : Ex} (h : e.shows x) (hl : l ≠ .var x) :
    (subst l n e).shows x := by
  have miss : ∀ e : Ex, e.shows x → same (expr l) e = false := by
    intro e he
    cases hs : same (expr l) e with
    | false => rfl
    | true =>
      have := same_eq hs
      subst this
      cases l with
      | var y =>
        have he : y = x := he
        subst he
        exact absurd rfl hl
      | el a i => cases he
  induction e with
  | lit y => cases h
  | var y => unfold subst; rw [miss _ h]; exact h
  | el b j ih => cases h
  | un f e ih => unfold subst; rw [miss _ h]; exact ih h
  | bin f a b iha ihb =>
    unfold subst
    rw [miss _ h]
    rcases h with h | h
    · exact .inl (iha h)
    · exact .inr (ihb h)

theorem subst_displays {l : Target} {n : Nat} {a : Name} {ix e : Ex} (h : Displays a ix e)
    (hs : ¬ ix.depends l) (hl : l ≠ .el a ix) : Displays a ix (subst l n e) := by
  have miss : ∀ e : Ex, Displays a ix e → same (expr l) e = false := by
    intro e he
    cases hs : same (expr l) e with
    | false => rfl
    | true =>
      have := same_eq hs
      subst this
      cases l with
      | var y => cases he
      | el b i =>
        obtain ⟨rfl, rfl⟩ := he
        exact absurd rfl hl
  induction e with
  | lit y => cases h
  | var y => cases h
  | el b j ih =>
    unfold subst
    rw [miss _ h]
    obtain ⟨rfl, rfl⟩ := h
    exact ⟨rfl, subst_stable hs⟩
  | un f e ih => unfold subst; rw [miss _ h]; exact ih h
  | bin f c d ihc ihd =>
    unfold subst
    rw [miss _ h]
    rcases h with h | h
    · exact .inl (ihc h)
    · exact .inr (ihd h)

/-! ## The search -/

theorem nodes_shows {x : Name} {e : Ex} (h : e.shows x) : Ex.var x ∈ nodes e := by
  induction e with
  | lit y => cases h
  | var y => have h : y = x := h; subst h; simp [nodes]
  | el b j ih => cases h
  | un f e ih => exact ih h
  | bin f a b iha ihb =>
    simp only [nodes, List.mem_append]
    exact h.imp iha ihb

theorem nodes_displays {a : Name} {ix e : Ex} (h : Displays a ix e) : Ex.el a ix ∈ nodes e := by
  induction e with
  | lit y => cases h
  | var y => cases h
  | el b j ih => obtain ⟨rfl, rfl⟩ := h; simp [nodes]
  | un f e ih => exact ih h
  | bin f c d ihc ihd =>
    simp only [nodes, List.mem_append]
    exact h.imp ihc ihd

/-- What is found in an expression has a value if the expression has one. -/
theorem nodes_eval {s : St} {e d : Ex} (hd : d ∈ nodes e) (he : (eval s e).isSome) :
    (eval s d).isSome := by
  induction e with
  | lit y => cases hd
  | var y => simp only [nodes, List.mem_singleton] at hd; subst hd; exact he
  | el b j ih => simp only [nodes, List.mem_singleton] at hd; subst hd; exact he
  | un f e ih =>
    refine ih hd ?_
    simpa [eval] using he
  | bin f a b iha ihb =>
    simp only [eval] at he
    simp only [nodes, List.mem_append] at hd
    cases ha : eval s a with
    | none => rw [ha] at he; cases he
    | some y =>
      cases hb : eval s b with
      | none => rw [ha, hb] at he; cases he
      | some y' =>
        exact hd.elim (fun h => iha h (by rw [ha]; rfl)) (fun h => ihb h (by rw [hb]; rfl))

theorem unsaved_var {x : Name} {rs : List Ex} (h : ∃ r ∈ rs, r.shows x) :
    unsaved (.var x) rs = true := by
  obtain ⟨r, hr, hs⟩ := h
  exact List.any_eq_true.2 ⟨.var x, List.mem_flatMap.2 ⟨r, hr, nodes_shows hs⟩, by simp [expr, same]⟩

theorem unsaved_el {a : Name} {ix : Ex} {rs : List Ex} (hp : ix.plain)
    (h : ∃ r ∈ rs, Displays a ix r) : unsaved (.el a ix) rs = true := by
  obtain ⟨r, hr, hs⟩ := h
  exact List.any_eq_true.2 ⟨.el a ix, List.mem_flatMap.2 ⟨r, hr, nodes_displays hs⟩,
    by simp [expr, same, same_refl hp]⟩

theorem unsaved_eval {s : St} {l : Target} {rs : List Ex} (h : unsaved l rs = true)
    (hr : ∀ r ∈ rs, (eval s r).isSome) : ∃ z, eval s (expr l) = some z := by
  obtain ⟨d, hd, hs⟩ := List.any_eq_true.1 h
  obtain ⟨r, h1, h2⟩ := List.mem_flatMap.1 hd
  rw [same_eq hs]
  exact Option.isSome_iff_exists.1 (nodes_eval h2 (hr r h1))

end Verif.Assigns.Lemmas
