import Verif.Returns.Model
namespace Verif.Returns.Lemmas
open Verif.Returns.Spec Verif.Returns.Model

@[simp] theorem upd_same {α : Type} (f : Nat → α) (x : Nat) (v : α) : upd f x v x = v := by simp [upd]

theorem upd_ne {α : Type} (f : Nat → α) {x y : Nat} (v : α) (h : y ≠ x) : upd f x v y = f y := by simp [upd, h]

/-- The value depends on the variables that are read. -/
theorem eval_congr {s t : St} {e : Expr} (hv : ∀ x, e.Reads x → s.vars x = t.vars x) (ha : e.usesArray = true → s.arrs = t.arrs) :
    eval s e = eval t e := by
  induction e with
  | num n => rfl
  | var x => simp only [eval]; rw [hv x rfl]
  | elt a i ih =>
    have h := ha rfl
    simp only [eval, h]
    rw [ih hv (fun _ => h)]
  | add l r ihl ihr | sub l r ihl ihr | mul l r ihl ihr | max l r ihl ihr =>
    simp only [eval]
    rw [ihl (fun x h => hv x (Or.inl h)) (fun h => ha (by simp [Expr.usesArray, h])),
      ihr (fun x h => hv x (Or.inr h)) (fun h => ha (by simp [Expr.usesArray, h]))]

theorem exec_andThen (after : Int → Int) (c k : Code) (s : St) : exec after (c.andThen k) s = (exec after c s).bind (exec after k) := by
  induction c generalizing s with
  | done => rfl
  | assign x e c ih | aug x e c ih => simp only [Code.andThen, exec, ih, Option.bind_assoc]
  | store a i e c ih => simp only [Code.andThen, exec, ih, Option.bind_assoc, funext ih]
  | ite c a b d _ _ ih => simp only [Code.andThen, exec, funext ih, Option.bind_assoc]
  | loop x n a d _ ih => simp only [Code.andThen, exec, ih, Option.bind_assoc]
  | free a c ih => simp only [Code.andThen, exec, ih]

theorem last_andThen (c k : Code) : last (c.andThen k) = (last k).or (last c) := by
  induction c with
  | done => simp [Code.andThen, last]
  | assign x e c ih | aug x e c ih => simp only [Code.andThen, last, ih, Option.or_assoc]
  | store a i e c ih => simp only [Code.andThen, last, ih, Option.or_assoc]
  | ite c a b d _ _ ih => simp only [Code.andThen, last, ih, Option.or_assoc]
  | loop x n a d _ ih => simp only [Code.andThen, last, ih, Option.or_assoc]
  | free a c ih => simp only [Code.andThen, last, ih]

theorem last_frees (l : List Nat) : last (frees l) = none := by
  induction l with
  | nil => rfl
  | cons a l ih => exact ih

/-- Freeing changes no variable. -/
theorem exec_frees (after : Int → Int) (l : List Nat) (s : St) : ∃ t, exec after (frees l) s = some t ∧ t.vars = s.vars := by
  induction l generalizing s with
  | nil => exact ⟨s, rfl, rfl⟩
  | cons a l ih => obtain ⟨t, h1, h2⟩ := ih { s with arrs := upd s.arrs a none }; exact ⟨t, h1, h2⟩

theorem dropLast_andThen {c k : Code} {l : Last} (h : last k = some l) : dropLast (c.andThen k) = c.andThen (dropLast k) := by
  have hl : ∀ c : Code, last (c.andThen k) = some l := fun c => by rw [last_andThen, h]; rfl
  induction c with
  | done => rfl
  | assign x e c ih => simp only [Code.andThen, dropLast, hl, ih]
  | aug x e c ih => simp only [Code.andThen, dropLast, ih]
  | store a i e c ih => simp only [Code.andThen, dropLast, ih]
  | ite c a b d _ _ ih => simp only [Code.andThen, dropLast, hl, ih]
  | loop x n a d _ ih => simp only [Code.andThen, dropLast, hl, ih]
  | free a c ih => simp only [Code.andThen, dropLast, ih]

theorem andThen_assoc (a b c : Code) : (a.andThen b).andThen c = a.andThen (b.andThen c) := by
  induction a with
  | done => rfl
  | assign x e d ih | aug x e d ih => simp only [Code.andThen, ih]
  | store a i e d ih => simp only [Code.andThen, ih]
  | ite d a b e _ _ ih => simp only [Code.andThen, ih]
  | loop x n a d _ ih => simp only [Code.andThen, ih]
  | free a d ih => simp only [Code.andThen, ih]

/-- A block that ends with an assignment. -/
theorem endsWith_split {x : Nat} : ∀ {c : Code}, c.EndsWith x → ∃ (b : Code) (e : Expr), c = b.andThen (.assign x e .done)
  | .done, h => h.elim
  | .assign y e .done, h => ⟨.done, e, by rw [show y = x from h]; rfl⟩
  | .assign y e (.assign z f c), h => by obtain ⟨b, g, hb⟩ := endsWith_split (c := .assign z f c) h; exact ⟨.assign y e b, g, by rw [hb]; rfl⟩
  | .assign y e (.aug z f c), h => by obtain ⟨b, g, hb⟩ := endsWith_split (c := .aug z f c) h; exact ⟨.assign y e b, g, by rw [hb]; rfl⟩
  | .assign y e (.store a i f c), h => by obtain ⟨b, g, hb⟩ := endsWith_split (c := .store a i f c) h; exact ⟨.assign y e b, g, by rw [hb]; rfl⟩
  | .assign y e (.ite d a f c), h => by obtain ⟨b, g, hb⟩ := endsWith_split (c := .ite d a f c) h; exact ⟨.assign y e b, g, by rw [hb]; rfl⟩
  | .assign y e (.loop d a f c), h => by obtain ⟨b, g, hb⟩ := endsWith_split (c := .loop d a f c) h; exact ⟨.assign y e b, g, by rw [hb]; rfl⟩
  | .assign y e (.free d c), h => by obtain ⟨b, g, hb⟩ := endsWith_split (c := .free d c) h; exact ⟨.assign y e b, g, by rw [hb]; rfl⟩
  | .aug y e c, h => by obtain ⟨b, g, hb⟩ := endsWith_split (c := c) h; exact ⟨.aug y e b, g, by rw [hb]; rfl⟩
  | .store a i e c, h => by obtain ⟨b, g, hb⟩ := endsWith_split (c := c) h; exact ⟨.store a i e b, g, by rw [hb]; rfl⟩
  | .ite d a f c, h => by obtain ⟨b, g, hb⟩ := endsWith_split (c := c) h; exact ⟨.ite d a f b, g, by rw [hb]; rfl⟩
  | .loop d a f c, h => by obtain ⟨b, g, hb⟩ := endsWith_split (c := c) h; exact ⟨.loop d a f b, g, by rw [hb]; rfl⟩
  | .free d c, h => by obtain ⟨b, g, hb⟩ := endsWith_split (c := c) h; exact ⟨.free d b, g, by rw [hb]; rfl⟩

/-- After an assignment at the end and the freeing of arrays. -/
theorem assign_frees (after : Int → Int) (r : Nat) (e : Expr) (fr : List Nat) (s : St) :
    ((exec after (.assign r e (frees fr)) s).map fun s => s.vars r) = eval s e := by
  simp only [exec]
  cases h : eval s e with
  | none => rfl
  | some v =>
    obtain ⟨t, h1, h2⟩ := exec_frees after fr (s.put r v)
    simp only [Option.bind_some, h1, Option.map_some, h2]; simp [St.put]

/-- How C prints a block that ends with the assignment of `e`. -/
theorem printC_assign (after : Int → Int) (r x : Nat) (b : Code) (e : Expr) (fr : List Nat) (s : St) (hx : e.usesArray = true → x = r) :
    ((exec after (printC r (b.andThen (.assign x e (frees fr)))).1 s).bind fun s => eval s (printC r (b.andThen (.assign x e (frees fr)))).2) =
      (exec after b s).bind fun s => eval s e := by
  have hl : last (.assign x e (frees fr)) = some (.assign x e) := by simp only [last, last_frees]; rfl
  have h1 : last (b.andThen (.assign x e (frees fr))) = some (.assign x e) := by rw [last_andThen, hl]; rfl
  have hp : printC r (b.andThen (.assign x e (frees fr))) =
      if e.usesArray then (b.andThen (.assign x e (frees fr)), .var r) else (dropLast (b.andThen (.assign x e (frees fr))), e) := by
    simp only [printC, h1]
  rw [hp]
  by_cases ha : e.usesArray = true
  · have hxr := hx ha
    subst hxr
    rw [if_pos ha]
    simp only [exec_andThen]
    cases exec after b s with
    | none => rfl
    | some t =>
      have := assign_frees after x e fr t
      simp only [Option.bind_some]
      rw [← this]
      cases exec after (.assign x e (frees fr)) t with
      | none => rfl
      | some u => rfl
  · rw [if_neg ha]
    simp only []
    rw [dropLast_andThen hl, exec_andThen]
    cases exec after b s with
    | none => rfl
    | some t =>
      have hd : dropLast (.assign x e (frees fr)) = frees fr := by simp only [dropLast, last_frees]
      obtain ⟨u, hu, hv⟩ := exec_frees after fr t
      simp only [Option.bind_some, hd, hu]
      exact eval_congr (fun y _ => by rw [hv]) (fun h => absurd h ha)

/-- How C prints a block whose last assignment is inside the `if` or loop `k` at its end. -/
theorem printC_block (after : Int → Int) (r x : Nat) (b k : Code) (e : Expr) (fr : List Nat) (s : St)
    (hl : last k = some (.assign x e)) (hd : dropLast (k.andThen (frees fr)) = k.andThen (frees fr)) (ha : e.usesArray = false) :
    ((exec after (printC r ((b.andThen k).andThen (frees fr))).1 s).bind fun s =>
      eval s (printC r ((b.andThen k).andThen (frees fr))).2) = (exec after (b.andThen k) s).bind fun s => eval s e := by
  have hk : last (k.andThen (frees fr)) = some (.assign x e) := by rw [last_andThen, last_frees, hl]; rfl
  have h1 : last ((b.andThen k).andThen (frees fr)) = some (.assign x e) := by rw [andThen_assoc, last_andThen, hk]; rfl
  have hp : printC r ((b.andThen k).andThen (frees fr)) = ((b.andThen k).andThen (frees fr), e) := by
    simp only [printC, h1]
    rw [if_neg (by simp [ha]), andThen_assoc, dropLast_andThen hk, hd]
  rw [hp]
  simp only []
  rw [exec_andThen]
  cases exec after (b.andThen k) s with
  | none => rfl
  | some t =>
    obtain ⟨u, hu, hv⟩ := exec_frees after fr t
    simp only [Option.bind_some, hu]
    exact eval_congr (fun y _ => by rw [hv]) (fun h => by rw [ha] at h; cases h)

/-- How C prints a block if the variable is returned. -/
theorem printC_var (after : Int → Int) (r : Nat) (b : Code) (fr : List Nat) (s : St)
    (h : ∀ x e, last b = some (.assign x e) → e.usesArray = true) :
    ((exec after (printC r (b.andThen (frees fr))).1 s).bind fun s => eval s (printC r (b.andThen (frees fr))).2) =
      (exec after b s).map fun s => s.vars r := by
  have hk : last (b.andThen (frees fr)) = last b := by rw [last_andThen, last_frees]; rfl
  have hp : printC r (b.andThen (frees fr)) = (b.andThen (frees fr), .var r) := by
    unfold printC
    rw [hk]
    split
    · next x e hl => rw [if_pos (h _ _ hl)]
    · rfl
  rw [hp]
  simp only []
  rw [exec_andThen]
  cases exec after b s with
  | none => rfl
  | some t =>
    obtain ⟨u, hu, hv⟩ := exec_frees after fr t
    simp only [Option.bind_some, hu, eval, hv, Option.map_some]

/-! ## Tuples -/

theorem results_pass (after : Int → Int) (xs : List Nat) (es : List Expr) (s : St) (hlen : xs.length = es.length) (hnd : xs.Nodup)
    (h : ∀ i j (hi : i < xs.length) (hj : j < es.length), i < j → es[i]? ≠ some (.var xs[i]) → ¬ es[j].Reads xs[i]) :
    ((exec after (assigns xs es) s).map fun t => xs.map t.vars) = pyReturn s es ∧
      ∀ t, exec after (assigns xs es) s = some t → ∀ y, y ∉ xs → t.vars y = s.vars y := by
  induction xs generalizing es s with
  | nil =>
    cases es with
    | nil => exact ⟨rfl, fun t ht y _ => by cases ht; rfl⟩
    | cons e es => simp at hlen
  | cons x xs ih =>
    cases es with
    | nil => simp at hlen
    | cons e es =>
      have hnd' := List.nodup_cons.1 hnd
      have h' : ∀ i j (hi : i < xs.length) (hj : j < es.length), i < j → es[i]? ≠ some (.var xs[i]) → ¬ es[j].Reads xs[i] := by
        intro i j hi hj hij hne
        exact h (i + 1) (j + 1) (by simp; omega) (by simp; omega) (by omega) (by simpa using hne)
      have hlen' : xs.length = es.length := by simpa using hlen
      by_cases he : e = .var x
      · subst he
        obtain ⟨h1, h2⟩ := ih es s hlen' hnd'.2 h'
        simp only [assigns, if_true, pyReturn, eval, Option.bind_some]
        rw [← h1]
        constructor
        · cases hx : exec after (assigns xs es) s with
          | none => rfl
          | some t => simp [h2 t hx x hnd'.1]
        · intro t ht y hy
          simp only [List.mem_cons, not_or] at hy
          exact h2 t ht y hy.2
      · simp only [assigns, if_neg he, exec, pyReturn]
        cases hv : eval s e with
        | none => exact ⟨rfl, fun t ht => by cases ht⟩
        | some v =>
          obtain ⟨h1, h2⟩ := ih es (s.put x v) hlen' hnd'.2 h'
          have hsame : pyReturn (s.put x v) es = pyReturn s es := by
            have hall : ∀ e' ∈ es, eval (s.put x v) e' = eval s e' := by
              intro e' he'
              obtain ⟨j, hj, rfl⟩ := List.getElem_of_mem he'
              have hno := h 0 (j + 1) (by simp) (by simp; omega) (by omega) (by simpa using he)
              refine eval_congr (fun y hy => ?_) (fun _ => rfl)
              have : y ≠ x := by rintro rfl; exact hno (by simpa using hy)
              simp [St.put, upd_ne _ _ this]
            clear ih h h1 h2 h' hlen hlen'
            induction es with
            | nil => rfl
            | cons e' es ih2 =>
              simp only [pyReturn]
              rw [hall e' (by simp), ih2 (fun e'' h'' => hall e'' (by simp [h'']))]
          rw [hsame] at h1
          simp only [Option.bind_some]
          rw [← h1]
          constructor
          · cases hx : exec after (assigns xs es) (s.put x v) with
            | none => rfl
            | some t => simp [h2 t hx x hnd'.1, St.put]
          · intro t ht y hy
            simp only [List.mem_cons, not_or] at hy
            rw [h2 t ht y hy.2]
            simp [St.put, upd_ne _ _ hy.1]

def Last.set : Last → Bool × Expr → Prop
  | .assign _ e, p => p = (true, e)
  | .aug, p => p.1 = false
  | .store e, p => p = (false, e)

theorem last_lastSet (c : Code) : match last c with
    | none => c.lastSet = none
    | some l => ∃ p, c.lastSet = some p ∧ Last.set l p := by
  have key : ∀ (a b : Option Last) (x y : Option (Bool × Expr)),
      (match a with | none => x = none | some l => ∃ p, x = some p ∧ Last.set l p) →
      (match b with | none => y = none | some l => ∃ p, y = some p ∧ Last.set l p) →
      match a.or b with | none => x.or y = none | some l => ∃ p, x.or y = some p ∧ Last.set l p := by
    intro a b x y ha hb
    cases a with
    | none => subst ha; simpa using hb
    | some l => obtain ⟨p, rfl, h⟩ := ha; exact ⟨p, rfl, h⟩
  induction c with
  | done => rfl
  | assign x e c ih => exact key _ (some _) _ (some _) ih ⟨_, rfl, rfl⟩
  | aug x e c ih => exact key _ (some _) _ (some _) ih ⟨_, rfl, rfl⟩
  | store a i e c ih => exact key _ (some _) _ (some _) ih ⟨_, rfl, rfl⟩
  | ite d a b c iha ihb ihc => exact key _ _ _ _ ihc (key _ _ _ _ ihb iha)
  | loop x n a c iha ihc => exact key _ _ _ _ ihc iha
  | free a c ih => exact ih

theorem lastSet_plain {c : Code} {e : Expr} (h : c.lastSet = some (true, e)) : ∃ x, last c = some (.assign x e) := by
  have := last_lastSet c
  cases hl : last c with
  | none => rw [hl] at this; simp only at this; rw [h] at this; cases this
  | some l =>
    rw [hl] at this
    obtain ⟨p, h1, h2⟩ := this
    rw [h] at h1
    cases h1
    cases l with
    | assign x e' => simp only [Last.set, Prod.mk.injEq, true_and] at h2; exact ⟨x, by rw [h2]⟩
    | aug => simp [Last.set] at h2
    | store e' => simp [Last.set] at h2

theorem last_assign {c : Code} {x : Nat} {e : Expr} (h : last c = some (.assign x e)) : c.lastSet = some (true, e) := by
  have := last_lastSet c
  rw [h] at this
  obtain ⟨p, h1, h2⟩ := this
  rw [h1, h2]

end Verif.Returns.Lemmas
