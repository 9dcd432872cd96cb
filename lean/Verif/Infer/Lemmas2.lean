import Verif.Infer.Lemmas

namespace Verif.Infer
open Verif.Types (addT)
open Verif.Types.Spec (Num)

variable {r : Num → Num → Prop}

theorem Cong.conv (h : Cong r) {a b : Num} {q : Rat} (hr : r a b) (hf : Fits a q) : conv b q = q := by
  rw [← conv_congr (h.size hr), conv_fits hf]

theorem check_some {t d : Num} {q z : Rat} (h : check t q = some (d, z)) : t = d ∧ q = z ∧ Fits d z := by
  unfold check at h
  split at h
  · next hf => cases h; exact ⟨rfl, rfl, hf⟩
  · simp at h

theorem rel2_get {α β : Type} {p : α → β → Prop} {l : List α} {m : List β} (h : Rel2 p l m) {i : Nat} {a : α} {b : β} (ha : l[i]? = some a)
    (hb : m[i]? = some b) : p a b := by
  induction l generalizing m i with
  | nil => simp at ha
  | cons c l ih =>
    cases m with
    | nil => simp at hb
    | cons d m =>
      cases i with
      | zero => simp at ha hb; subst ha hb; exact h.1
      | succ i => simp at ha hb; exact ih h.2 ha hb

theorem rel2_length {α β : Type} {p : α → β → Prop} {l : List α} {m : List β} (h : Rel2 p l m) : l.length = m.length := by
  induction l generalizing m with
  | nil => cases m with
    | nil => rfl
    | cons => exact h.elim
  | cons c l ih => cases m with
    | nil => exact h.elim
    | cons => simp [ih h.2]

theorem typ_ext {Γ Γ' : Nat → Option STy} (hx : Ext Γ Γ') {e : Expr} {t : Num} (h : typ Γ e = some t) : typ Γ' e = some t := by
  induction e generalizing t with
  | lit => exact h
  | var x =>
    simp only [typ] at h ⊢
    split at h
    · next e' => rw [hx _ _ e']; exact h
    · simp at h
  | elem x i =>
    simp only [typ] at h ⊢
    split at h
    · next e' => rw [hx _ _ e']; exact h
    · next e' => rw [hx _ _ e']; exact h
    · next e' => rw [hx _ _ e']; exact h
    · simp at h
  | bin o a b iha ihb =>
    simp only [typ] at h ⊢
    split at h
    · next ea eb => rw [iha ea, ihb eb]; exact h
    · simp at h
  | cast u a iha =>
    simp only [typ, Option.map_eq_some_iff] at h ⊢
    obtain ⟨v, hv, h⟩ := h
    exact ⟨v, iha hv, h⟩
  | cond c a b ihc iha ihb =>
    simp only [typ] at h ⊢
    split at h
    · next ec ea eb => rw [ihc ec, iha ea, ihb eb]; exact h
    · simp at h

/-- A value that is read belongs to the type of the expression. -/
theorem eval_ok (hr : Cong r) {Γ Δ : Nat → Option STy} (hx : Ext Γ Δ) {env : Nat → Option PVal} {cenv : Nat → Option (List Rat)}
    (hs : Sim r Δ env cenv) {e : Expr} {t d : Num} {q : Rat} (hT : typ Γ e = some t) (hS : StrictE r Γ e) (h : pyEval env e = some (d, q)) :
    r d t ∧ Fits d q ∧ cEval cenv e = some q := by
  induction e generalizing t d q with
  | lit u z =>
    obtain ⟨rfl, rfl, hf⟩ := check_some h
    cases hT
    exact ⟨hS, hf, rfl⟩
  | var x =>
    simp only [pyEval] at h
    simp only [typ] at hT
    have hv := hs x
    split at h
    · next t' q' e' =>
      cases h
      rw [e'] at hv
      obtain ⟨T, h1, h2, h3⟩ := hv
      split at hT
      · next e'' =>
        cases hT
        rw [hx _ _ e''] at h1
        cases h1
        exact ⟨h2.1, h2.2, by simp [cEval, h3, PVal.nums]⟩
      · simp at hT
    · simp at h
  | elem x i =>
    simp only [pyEval] at h
    simp only [typ] at hT
    have hv := hs x
    split at h
    · next l e' =>
      rw [e'] at hv
      obtain ⟨T, h1, h2, h3⟩ := hv
      have hc : cEval cenv (.elem x i) = some q := by simp [cEval, h3, PVal.nums, h]
      split at hT
      · next e'' =>
        cases hT
        rw [hx _ _ e''] at h1
        cases h1
        have := h2 _ (List.mem_of_getElem? h)
        exact ⟨this.1, this.2, hc⟩
      · next e'' =>
        rw [hx _ _ e''] at h1
        cases h1
        have := rel2_get h2 h hT
        exact ⟨this.1, this.2, hc⟩
      · next e'' =>
        rw [hx _ _ e''] at h1
        cases h1
        exact h2.elim
      · simp at hT
    · next l e' =>
      rw [e'] at hv
      obtain ⟨T, h1, h2, h3⟩ := hv
      have hc : cEval cenv (.elem x i) = some q := by simp [cEval, h3, PVal.nums, h]
      split at hT
      · next e'' =>
        rw [hx _ _ e''] at h1
        cases h1
        exact h2.elim
      · next e'' =>
        rw [hx _ _ e''] at h1
        cases h1
        exact h2.elim
      · next e'' =>
        cases hT
        rw [hx _ _ e''] at h1
        cases h1
        have := h2 _ (List.mem_of_getElem? h)
        exact ⟨this.1, this.2, hc⟩
      · simp at hT
    · simp at h
  | bin o a b iha ihb =>
    simp only [pyEval] at h
    simp only [typ] at hT
    split at h
    · next t1 x1 t2 x2 e1 e2 =>
      split at hT
      · next u1 u2 e3 e4 =>
        split at h
        · next z ez =>
          obtain ⟨hd, rfl, hf⟩ := check_some h
          subst hd
          obtain ⟨ra, -, ca⟩ := iha e3 hS.1 e1
          obtain ⟨rb, -, cb⟩ := ihb e4 hS.2 e2
          rw [dynT_addT] at hT
          cases hT
          exact ⟨hr.op ra rb, hf, by simp [cEval, ca, cb, ez]⟩
        · simp at h
      · simp at hT
    · simp at h
  | cast u a iha =>
    simp only [pyEval] at h
    simp only [typ, Option.map_eq_some_iff] at hT
    obtain ⟨v, hv, rfl⟩ := hT
    split at h
    · next e1 =>
      obtain ⟨rfl, rfl, hf⟩ := check_some h
      obtain ⟨-, -, ca⟩ := iha hv hS.2 e1
      exact ⟨hS.1, hf, by simp [cEval, ca, conv_convV hf]⟩
    · simp at h
  | cond c a b ihc iha ihb =>
    simp only [pyEval] at h
    have hT' := hT
    simp only [typ] at hT
    split at h
    · next z ez =>
      split at hT
      · next ec ea eb =>
        obtain ⟨-, -, cc⟩ := ihc ec hS.1 ez
        have hb := hS.2.2.2 _ _ _ ea eb hT'
        split at h
        · next hz =>
          obtain ⟨h1, h2, h3⟩ := iha ea hS.2.1 h
          exact ⟨hr.trans h1 hb.1, h2, by simp [cEval, cc, hz, h3]⟩
        · next hz =>
          obtain ⟨h1, h2, h3⟩ := ihb eb hS.2.2.1 h
          refine ⟨hr.trans h1 hb.2, h2, ?_⟩
          simp only [cEval, cc, if_neg hz, h3]
      · simp at hT
    · simp at h

theorem evals_ok (hr : Cong r) {Γ Δ : Nat → Option STy} (hx : Ext Γ Δ) {env : Nat → Option PVal} {cenv : Nat → Option (List Rat)}
    (hs : Sim r Δ env cenv) {es : List Expr} {us : List Num} {l : List (Num × Rat)} (hT : typs Γ es = some us)
    (hS : ∀ e ∈ es, StrictE r Γ e) (h : pyEvals env es = some l) :
    Rel2 (fun p u => r p.1 u ∧ Fits p.1 p.2) l us ∧ cEvals cenv es = some (l.map (·.2)) := by
  induction es generalizing us l with
  | nil => cases hT; cases h; exact ⟨trivial, rfl⟩
  | cons e es ih =>
    simp only [pyEvals] at h
    simp only [typs] at hT
    split at h
    · next v vs e1 e2 =>
      split at hT
      · next e3 e4 =>
        cases h
        cases hT
        obtain ⟨a1, a2, a3⟩ := eval_ok hr hx hs e3 (hS e (by simp)) (d := v.1) (q := v.2) e1
        obtain ⟨b1, b2⟩ := ih e4 (fun e he => hS e (by simp [he])) e2
        exact ⟨⟨⟨a1, a2⟩, b1⟩, by simp [cEvals, a3, b2]⟩
      · simp at hT
    · simp at h

/-- The values of expressions that do not read `x` do not depend on it. -/
theorem cEval_reads {x : Nat} {e : Expr} (h : ¬ e.Reads x) {c c' : Nat → Option (List Rat)} (hc : ∀ y, y ≠ x → c y = c' y) :
    cEval c e = cEval c' e := by
  induction e with
  | lit => rfl
  | var y => simp only [cEval, hc y (by simpa [Expr.Reads] using h)]
  | elem y i => simp only [cEval, hc y (by simpa [Expr.Reads] using h)]
  | bin o a b iha ihb =>
    simp only [Expr.Reads, not_or] at h
    simp only [cEval, iha h.1, ihb h.2]
  | cast t a iha => simp only [cEval, iha h]
  | cond p a b ihp iha ihb =>
    simp only [Expr.Reads, not_or] at h
    simp only [cEval, ihp h.1, iha h.2.1, ihb h.2.2]

/-- Storing the elements one by one. -/
theorem storeEach_ok {x : Nat} {es : List Expr} {ts : List Num} {qs : List Rat} (hl : es.length = ts.length) :
    ∀ {i : Nat} {c c' : Nat → Option (List Rat)} {old : List Rat}, (∀ y, y ≠ x → c y = c' y) → c x = some old → old.length = i + es.length →
    (∀ e ∈ es, ¬ e.Reads x) → cEvals c' es = some qs →
    ∃ d, storeEach x i ts es c = some d ∧ d x = some (old.take i ++ List.zipWith conv ts qs) ∧ ∀ y, y ≠ x → d y = c y := by
  induction es generalizing ts qs with
  | nil =>
    intro i c c' old h1 h2 h3 h4 h5
    cases h5
    refine ⟨c, by cases ts <;> rfl, ?_, fun _ _ => rfl⟩
    rw [h2]
    simp at h3
    simp [← h3]
  | cons e es ih =>
    intro i c c' old h1 h2 h3 h4 h5
    cases ts with
    | nil => simp at hl
    | cons t ts =>
      simp only [cEvals] at h5
      split at h5
      · next q qs' e1 e2 =>
        cases h5
        have hq : cEval c e = some q := by rw [cEval_reads (h4 e (by simp)) h1]; exact e1
        simp only [List.length_cons] at hl h3
        obtain ⟨d, d1, d2, d3⟩ := ih (ts := ts) (qs := qs') (by omega) (i := i + 1)
          (c := fun y => if y = x then (c x).map (·.set i (conv t q)) else c y) (c' := c') (old := old.set i (conv t q))
          (fun y hy => by simp [hy, h1 y hy]) (by simp [h2]) (by simp; omega) (fun e he => h4 e (by simp [he])) e2
        refine ⟨d, by simp only [storeEach, hq]; exact d1, ?_, fun y hy => by rw [d3 y hy]; simp [hy]⟩
        rw [d2]
        have hi : i < old.length := by omega
        have : (old.set i (conv t q)).take (i + 1) = old.take i ++ [conv t q] := by
          rw [List.take_add_one, List.take_set_of_le (Nat.le_refl i)]
          simp [hi]
        rw [this]
        simp
      · simp at h5

end Verif.Infer
