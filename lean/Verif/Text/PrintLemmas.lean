import Verif.Text.Model
/-! `print`. -/

namespace Verif.Text

open Verif.Text.Spec (Str s joined printf Arg Kind Inner Outer pyPrint showBool depths reprs Printf Write run runF NoPercent FBool)

theorem run_append (a b : List Printf) :
    run (a ++ b) = match run a, run b with | some x, some y => some (x ++ y) | _, _ => none := by
  induction a with
  | nil => simp only [List.nil_append, run]; cases run b <;> simp
  | cons p ps ih =>
    simp only [List.cons_append, run, ih]
    cases printf p.fmt p.args <;> cases run ps <;> cases run b <;> simp

theorem runF_append (a b : List Write) : runF (a ++ b) = runF a ++ runF b := by
  induction a with
  | nil => rfl
  | cons p ps ih => simp [runF, ih]

/-- The format `f` takes the arguments `v` and writes `t`. -/
def Rend (f : Str) (v : List Str) (t : Str) : Prop :=
  ∀ r as, printf (f ++ r) (v ++ as) = (printf r as).map (t ++ ·)

theorem Rend.nil : Rend [] [] [] := by
  intro r as
  cases h : printf r as <;> simp [h]

theorem Rend.plain {x : Str} (h : '%' ∉ x) : Rend x [] x := by
  induction x with
  | nil => exact Rend.nil
  | cons c x ih =>
    intro r as
    have hc : c ≠ '%' := fun e => h (by simp [e])
    have ih' := ih (fun hx => h (by simp [hx])) r as
    simp only [List.nil_append] at ih' ⊢
    rw [List.cons_append, printf]
    · rw [ih']; cases printf r as <;> simp
    all_goals simp_all

theorem Rend.arg (a : Str) : Rend (s "%s") [a] a := by
  intro r as
  show printf ('%' :: 's' :: r) (a :: as) = _
  rw [printf]

theorem Rend.append {f g : Str} {v w : List Str} {t u : Str} (h : Rend f v t) (k : Rend g w u) :
    Rend (f ++ g) (v ++ w) (t ++ u) := by
  intro r as
  rw [List.append_assoc, List.append_assoc, h, k]
  cases printf r as <;> simp

theorem Rend.printf_eq {f : Str} {v : List Str} {t : Str} (h : Rend f v t) :
    printf f v = some t := by
  have := h [] []
  simpa [printf] using this

theorem joined_two (sep a b : Str) (xs : List Str) :
    joined sep (a :: b :: xs) = a ++ sep ++ joined sep (b :: xs) := rfl

theorem joined_append (sep x : Str) (xs : List Str) (h : xs ≠ []) :
    joined sep (xs ++ [x]) = joined sep xs ++ sep ++ x := by
  induction xs with
  | nil => exact absurd rfl h
  | cons a xs ih =>
    cases xs with
    | nil => simp [joined]
    | cons b xs =>
      have := ih (by simp)
      simp only [List.cons_append] at this ⊢
      rw [joined_two, this, joined_two]
      simp

theorem joined_concat (sep : Str) (xs ys : List Str) (hx : xs ≠ []) (hy : ys ≠ []) :
    joined sep (xs ++ ys) = joined sep xs ++ sep ++ joined sep ys := by
  induction xs with
  | nil => exact absurd rfl hx
  | cons a xs ih =>
    cases xs with
    | nil =>
      cases ys with
      | nil => exact absurd rfl hy
      | cons y ys => simp [joined]
    | cons b xs =>
      have := ih (by simp)
      simp only [List.cons_append] at this ⊢
      rw [joined_two, this, joined_two]
      simp

/-- Formats waiting to be printed, the arguments they take and the texts they write. -/
inductive Pend : List Str → List Str → List Str → Prop
  | nil : Pend [] [] []
  | snoc {fs vs ts f v t} (h : Pend fs vs ts) (k : Rend f v t) :
      Pend (fs ++ [f]) (vs ++ v) (ts ++ [t])

theorem Pend.nil_iff {fs vs ts} (h : Pend fs vs ts) : (fs = [] ↔ ts = []) ∧ (fs = [] → vs = []) := by
  cases h <;> simp

theorem Pend.rend {fs vs ts} (h : Pend fs vs ts) {sep : Str} (hs : '%' ∉ sep) :
    Rend (joined sep fs) vs (joined sep ts) := by
  induction h with
  | nil => exact Rend.nil
  | snoc h k ih =>
    rename_i fs vs ts f v t
    by_cases e : fs = []
    · have e2 := h.nil_iff.1.1 e
      have e3 := h.nil_iff.2 e
      subst e e2 e3
      simpa [joined] using k
    · have e2 : ts ≠ [] := fun c => e (h.nil_iff.1.2 c)
      rw [joined_append _ _ _ e, joined_append _ _ _ e2]
      have := (ih.append (Rend.plain hs)).append k
      simpa using this

theorem cFlush_run {fs vs ts} (h : Pend fs vs ts) {sep fin : Str} (hs : '%' ∉ sep)
    (hf : '%' ∉ fin) :
    run (cFlush sep fs vs fin) = some (if ts = [] then [] else joined sep ts ++ fin) := by
  unfold cFlush
  by_cases e : fs = []
  · rw [if_pos e, if_pos (h.nil_iff.1.1 e)]; rfl
  · have e2 : ts ≠ [] := fun c => e (h.nil_iff.1.2 c)
    rw [if_neg e, if_neg e2]
    have := ((h.rend hs).append (Rend.plain hf)).printf_eq
    simp only [List.append_nil] at this
    simp [run, toPrintf, this]

theorem cArray_run (xs : List Str) {fin : Str} (hf : '%' ∉ fin) :
    run (cArray xs fin) = some (s "[" ++ joined (s " ") xs ++ s "]" ++ fin) := by
  have body : ∀ ys : List Str, run (ys.map fun x => (⟨s "%s ", [x]⟩ : Printf))
      = some (ys.flatMap fun y => y ++ s " ") := by
    intro ys
    induction ys with
    | nil => rfl
    | cons y ys ih =>
      simp only [List.map_cons, run, ih]
      have : printf (s "%s ") [y] = some (y ++ s " ") := by
        have h : s "%s " = s "%s" ++ s " " := rfl
        rw [h]
        have := ((Rend.arg y).append (Rend.plain (x := s " ") (by decide))).printf_eq
        simpa using this
      rw [this]; simp
  have o : printf (s "[") [] = some (s "[") := by
    simpa using (Rend.plain (x := s "[") (by decide)).printf_eq
  have c : printf (s "]" ++ fin) [] = some (s "]" ++ fin) :=
    (Rend.plain (x := s "]" ++ fin) (by
      simp only [List.mem_append, not_or]
      exact ⟨by decide, hf⟩)).printf_eq
  have last : ∀ x : Str, run [⟨s "%s", [x]⟩] = some x := by
    intro x
    have := (Rend.arg x).printf_eq
    simp [run, this]
  have j : joined (s " ") xs = (xs.dropLast.flatMap fun y => y ++ s " ") ++
      (match xs.getLast? with | some x => x | none => []) := by
    clear body o c last
    induction xs with
    | nil => rfl
    | cons a xs ih =>
      cases xs with
      | nil => simp [joined]
      | cons b xs =>
        rw [joined_two, ih]
        simp [List.getLast?_cons_cons]
  have step : ∀ q : List Printf, run (⟨s "[", []⟩ :: q) = (run q).map (s "[" ++ ·) := by
    intro q
    simp only [run, o]
    cases run q <;> simp
  have fin' : run [⟨s "]" ++ fin, []⟩] = some (s "]" ++ fin) := by
    simp only [run, c, List.append_nil]
  rw [cArray, List.cons_append, List.cons_append, step, run_append, run_append, body, fin', j]
  cases e : xs.getLast? with
  | none => simp [run]
  | some x => simp only [last]; simp

theorem _root_.Verif.Text.Spec.Inner.str_eq {leaf : Arg → Prop} {a : Arg} (h : Inner leaf a) : a.str = a.repr := by
  cases h <;> rfl

theorem depths_mem {es : List Arg} {e : Arg} (h : e ∈ es) : e.depth ≤ depths es := by
  induction es with
  | nil => simp at h
  | cons a as ih =>
    rw [depths]
    rcases List.mem_cons.1 h with rfl | h
    · exact Nat.le_max_left _ _
    · exact Nat.le_trans (ih h) (Nat.le_max_right _ _)

theorem reprs_eq (es : List Arg) : reprs es = es.map Arg.repr := by
  induction es with
  | nil => rfl
  | cons a as ih => simp [reprs, ih]

/-- The arguments of the inner call that prints a tuple, list or set. -/
def innerArgs (k : Kind) (es : List Arg) : List Arg :=
  .lit (tags k).1 :: spread es ++ [.lit (tags k).2]

theorem joined_nil (xs : List Str) : joined [] xs = xs.flatten := by
  induction xs with
  | nil => rfl
  | cons a xs ih =>
    cases xs with
    | nil => simp [joined]
    | cons b xs => rw [joined_two, ih]; simp

theorem spread_flat (es : List Arg) (sep : Str) :
    (((es.flatMap fun e => [e, Arg.lit sep]).dropLast).map Arg.str).flatten
      = joined sep (es.map Arg.str) := by
  induction es with
  | nil => rfl
  | cons a as ih =>
    cases as with
    | nil => simp [joined]
    | cons b bs =>
      rw [List.map_cons, List.map_cons, joined_two, ← List.map_cons, ← ih]
      simp [Arg.str]

theorem innerArgs_print {leaf : Arg → Prop} (k : Kind) (es : List Arg) (fin : Str)
    (h : Inner leaf (.seq k es)) :
    pyPrint [] fin (innerArgs k es) = (Arg.seq k es).str ++ fin := by
  cases h with
  | seq h h1 h0 =>
    have e : es.map Arg.str = reprs es := by
      rw [reprs_eq]
      exact List.map_congr_left fun e he => (h e he).str_eq
    have sp := spread_flat es (s ", ")
    rw [e] at sp
    have str : (Arg.seq k es).str = k.enclose (reprs es) := rfl
    rw [str, pyPrint, joined_nil, innerArgs, spread]
    rw [List.map_append, List.map_cons, List.map_append, List.flatten_append,
      List.flatten_cons, List.flatten_append, sp]
    have hl : (reprs es).length = es.length := by rw [reprs_eq]; simp
    by_cases one : es.length = 1
    · have hk := h1 one
      subst hk
      rw [if_pos one]
      obtain ⟨x, hx⟩ : ∃ x, reprs es = [x] := List.length_eq_one_iff.1 (hl.trans one)
      rw [hx]
      simp [joined, tags, Kind.enclose, Arg.str, s]
    · rw [if_neg one]
      have hne : ∀ x, reprs es ≠ [x] := fun x hx => one (by rw [← hl, hx]; rfl)
      have close : k.enclose (reprs es) = (tags k).1 ++ joined (s ", ") (reprs es) ++ (tags k).2 := by
        cases k with
        | tuple =>
          rw [Kind.enclose]
          · rfl
          · exact hne
        | list => rfl
        | set =>
          rw [Kind.enclose]
          · rfl
          · intro hx
            have : es = [] := by
              have := congrArg List.length hx
              rw [hl] at this
              exact List.length_eq_zero_iff.1 this
            exact h0 this rfl
      rw [close]
      simp [Arg.str]

theorem spread_mem {es : List Arg} {a : Arg} (h : a ∈ spread es) :
    a ∈ es ∨ a = .lit (s ", ") ∨ a = .lit (s ",") := by
  rw [spread, List.mem_append] at h
  rcases h with h | h
  · have := (List.dropLast_sublist _).subset h
    rw [List.mem_flatMap] at this
    obtain ⟨e, he, hm⟩ := this
    simp only [List.mem_cons, List.not_mem_nil, or_false] at hm
    rcases hm with rfl | rfl
    · exact Or.inl he
    · exact Or.inr (Or.inl rfl)
  · split at h
    · exact Or.inr (Or.inr (by simpa using h))
    · simp at h

theorem tags_mem (k : Kind) : '%' ∉ (tags k).1 ∧ '%' ∉ (tags k).2 := by
  cases k <;> decide

theorem innerArgs_outer {leaf : Arg → Prop} {k : Kind} {es : List Arg}
    (h : Inner leaf (.seq k es)) (hl : ∀ x, '%' ∉ x → leaf (.lit x)) :
    ∀ a ∈ innerArgs k es, Outer leaf a ∧ ¬ a.isArray ∧ a.depth ≤ depths es := by
  cases h with
  | seq h h1 h0 =>
    have lit : ∀ x : Str, '%' ∉ x →
        Outer leaf (.lit x) ∧ ¬ (Arg.lit x).isArray ∧ (Arg.lit x).depth ≤ depths es :=
      fun x hx => ⟨.lit (hl x hx), fun c => c, by simp [Arg.depth]⟩
    intro a ha
    rw [innerArgs, List.mem_append, List.mem_cons, List.mem_singleton] at ha
    rcases ha with (rfl | ha) | rfl
    · exact lit _ (tags_mem k).1
    · rcases spread_mem ha with ha | rfl | rfl
      · refine ⟨.inner (h a ha), ?_, depths_mem ha⟩
        cases h a ha <;> exact fun c => c
      · exact lit _ (by decide)
      · exact lit _ (by decide)
    · exact lit _ (tags_mem k).2

theorem cLoop_run {inner : List Arg → Str → Str → List Printf} {sep fin : Str} {n : Nat}
    (hs : '%' ∉ sep) (hf : '%' ∉ fin)
    (hi : ∀ k es f, '%' ∉ f → Inner NoPercent (.seq k es) → depths es < n →
      run (inner (innerArgs k es) [] f) = some ((Arg.seq k es).str ++ f)) :
    ∀ (args : List Arg) (fs vs ts : List Str), Pend fs vs ts → (args ≠ [] ∨ ts ≠ []) →
    (∀ a ∈ args, Outer NoPercent a ∧ a.depth ≤ n) →
    (sep = [] ∨ ∀ a ∈ args.dropLast, ¬ a.isArray) →
    run (cLoop inner sep fin args fs vs) = some (joined sep (ts ++ args.map Arg.str) ++ fin) := by
  intro args
  induction args with
  | nil =>
    intro fs vs ts hp hne _ _
    have : ts ≠ [] := by simpa using hne
    rw [cLoop, cFlush_run hp hs hf, if_neg this]
    simp
  | cons a r ih =>
    intro fs vs ts hp hne ho ha
    clear hne
    have hr : ∀ b ∈ r, Outer NoPercent b ∧ b.depth ≤ n := fun b hb => ho b (by simp [hb])
    have har : sep = [] ∨ ∀ b ∈ r.dropLast, ¬ b.isArray := by
      refine ha.imp id fun h b hb => h b ?_
      cases r with
      | nil => simp at hb
      | cons c q => simp [hb]
    have pendStep : ∀ f v t, Rend f v t → t = a.str →
        cLoop inner sep fin (a :: r) fs vs = cLoop inner sep fin r (fs ++ [f]) (vs ++ v) →
        run (cLoop inner sep fin (a :: r) fs vs)
          = some (joined sep (ts ++ (a :: r).map Arg.str) ++ fin) := by
      intro f v t hR ht he
      rw [he, ih _ _ _ (hp.snoc hR) (Or.inr (by simp)) hr har, ht]
      simp
    -- after an argument printed by statements of its own
    have flushStep : ∀ mid : List Printf, ∀ d : Str,
        d = (if r = [] then fin else sep) →
        run mid = some (a.str ++ d) →
        run (cFlush sep fs vs sep ++ mid ++ cLoop inner sep fin r [] [])
          = some (joined sep (ts ++ (a :: r).map Arg.str) ++ fin) := by
      intro mid d hd hm
      rw [run_append, run_append, cFlush_run hp hs hs, hm]
      have pre : joined sep (ts ++ (a :: r).map Arg.str) =
          (if ts = [] then [] else joined sep ts ++ sep) ++ joined sep ((a :: r).map Arg.str) := by
        by_cases e : ts = []
        · simp [e]
        · rw [if_neg e, joined_concat _ _ _ e (by simp)]
      rw [pre]
      by_cases e : r = []
      · rw [if_pos e] at hd
        subst e
        have : cLoop inner sep fin [] [] [] = [] := by simp [cLoop, cFlush]
        rw [this, hd]
        simp [run, joined]
      · rw [if_neg e] at hd
        subst hd
        rw [ih [] [] [] .nil (Or.inl e) hr har]
        have : joined d ((a :: r).map Arg.str) = a.str ++ d ++ joined d (r.map Arg.str) := by
          cases r with
          | nil => exact absurd rfl e
          | cons b q => simp [joined_two]
        rw [this]; simp
    obtain ⟨hOut, hdep⟩ := ho a (by simp)
    cases hOut with
    | lit h => exact pendStep _ [] _ (Rend.plain h) rfl (by rw [cLoop]; simp)
    | array =>
      rename_i xs
      rw [cLoop]
      by_cases e : r = []
      · refine flushStep _ fin (by simp [e]) ?_
        rw [if_pos e, cArray_run xs hf]; rfl
      · rcases ha with hsep | ha
        · refine flushStep _ [] (by simp [e, hsep]) ?_
          rw [if_neg e, cArray_run xs (by simp)]; rfl
        · exfalso
          refine ha (.array xs) ?_ trivial
          cases r with
          | nil => exact absurd rfl e
          | cons b q => simp
    | inner h =>
      cases h with
      | num => exact pendStep _ _ _ (Rend.arg _) rfl (by rw [cLoop]; rfl)
      | bool hb => exact pendStep _ _ _ (Rend.arg _) rfl (by rw [cLoop]; rfl)
      | seq h h1 h0 =>
        rename_i k es
        rw [cLoop]
        refine flushStep _ (if r = [] then fin else sep) rfl ?_
        refine hi k es _ ?_ (.seq h h1 h0) ?_
        · split <;> assumption
        · simp only [Arg.depth] at hdep; omega

theorem cPrint_run : ∀ (n : Nat) (args : List Arg) (sep fin : Str), '%' ∉ sep → '%' ∉ fin →
    (∀ a ∈ args, Outer NoPercent a ∧ a.depth ≤ n) →
    (sep = [] ∨ ∀ a ∈ args.dropLast, ¬ a.isArray) →
    run (cPrint (n + 1) args sep fin) = some (pyPrint sep fin args) := by
  intro n
  induction n with
  | zero =>
    intro args sep fin hs hf ho ha
    rw [cPrint]
    by_cases e : args = []
    · subst e
      have := (Rend.plain hf).printf_eq
      simp [toPrintf, run, this, pyPrint, joined]
    · rw [if_neg e, cLoop_run (n := 0) hs hf (fun _ _ _ _ _ h => absurd h (Nat.not_lt_zero _))
        args [] [] [] .nil (Or.inl e) ho ha]
      rfl
  | succ n ih =>
    intro args sep fin hs hf ho ha
    rw [cPrint]
    by_cases e : args = []
    · subst e
      have := (Rend.plain hf).printf_eq
      simp [toPrintf, run, this, pyPrint, joined]
    · rw [if_neg e]
      rw [cLoop_run (n := n + 1) hs hf ?_ args [] [] [] .nil (Or.inl e) ho ha]
      · rfl
      · intro k es f hfp hin hd
        have out := innerArgs_outer hin (fun x hx => hx)
        rw [ih (innerArgs k es) [] f (by simp) hfp
          (fun a ha => ⟨(out a ha).1, by have := (out a ha).2.2; omega⟩) (Or.inl rfl)]
        rw [innerArgs_print k es f hin]

/-! ### Fortran -/

theorem toWrite_run (sep fin : Str) (vals : List Str) :
    runF [toWrite sep vals fin] = joined sep vals ++ fin := by
  have h : (vals.flatMap fun v => [v, sep]).dropLast.flatten = joined sep vals := by
    induction vals with
    | nil => rfl
    | cons a as ih =>
      cases as with
      | nil => simp [joined]
      | cons b bs =>
        rw [joined_two, ← ih]
        simp
  simp only [runF, toWrite, List.flatten_append, h, List.append_nil]
  by_cases e : fin = s "\n" <;> simp [e]

theorem fFlush_run (sep fin : Str) (vals : List Str) :
    runF (fFlush sep vals fin) = if vals = [] then [] else joined sep vals ++ fin := by
  unfold fFlush
  split
  · rfl
  · exact toWrite_run sep fin vals

theorem fArray_run (xs : List Str) :
    runF (fArray xs) = s "[" ++ joined (s " ") xs ++ s "]" := by
  have body : ∀ ys : List Str, runF (ys.map fun x => toWrite (s " ") [x] (s " "))
      = ys.flatMap fun y => y ++ s " " := by
    intro ys
    induction ys with
    | nil => rfl
    | cons y ys ih =>
      have h := toWrite_run (s " ") (s " ") [y]
      rw [List.map_cons, ← List.singleton_append, runF_append, h, ih]
      simp [joined]
  have j : joined (s " ") xs = (xs.dropLast.flatMap fun y => y ++ s " ") ++
      (match xs.getLast? with | some x => x | none => []) := by
    clear body
    induction xs with
    | nil => rfl
    | cons a xs ih =>
      cases xs with
      | nil => simp [joined]
      | cons b xs =>
        rw [joined_two, ih]
        simp [List.getLast?_cons_cons]
  rw [fArray, ← List.singleton_append, runF_append, runF_append, runF_append, body,
    toWrite_run, toWrite_run, j]
  cases e : xs.getLast? with
  | none => simp [runF, joined]
  | some x =>
    have := toWrite_run (s " ") [] [x]
    simp only [this]
    simp [joined]

theorem fLoop_run {inner : List Arg → Str → Str → List Write} {sep fin : Str} {n : Nat}
    (hi : ∀ k es f, Inner FBool (.seq k es) → depths es < n →
      runF (inner (innerArgs k es) [] f) = (Arg.seq k es).str ++ f) :
    ∀ (args : List Arg) (ts : List Str),
    (∀ a ∈ args, Outer FBool a ∧ a.depth ≤ n) →
    (sep = [] ∨ ∀ a ∈ args.dropLast, ¬ a.isArray) →
    runF (fLoop inner sep fin args ts) = joined sep (ts ++ args.map Arg.str) ++ fin := by
  intro args
  induction args with
  | nil =>
    intro ts _ _
    rw [fLoop, toWrite_run]
    simp
  | cons a r ih =>
    intro ts ho ha
    have hr : ∀ b ∈ r, Outer FBool b ∧ b.depth ≤ n := fun b hb => ho b (by simp [hb])
    have har : sep = [] ∨ ∀ b ∈ r.dropLast, ¬ b.isArray := by
      refine ha.imp id fun h b hb => h b ?_
      cases r with
      | nil => simp at hb
      | cons c q => simp [hb]
    have pendStep : ∀ t, t = a.str →
        fLoop inner sep fin (a :: r) ts = fLoop inner sep fin r (ts ++ [t]) →
        runF (fLoop inner sep fin (a :: r) ts)
          = joined sep (ts ++ (a :: r).map Arg.str) ++ fin := by
      intro t ht he
      rw [he, ih _ hr har, ht]
      simp
    have flushStep : ∀ mid : List Write, ∀ d : Str,
        d = (if r = [] then [] else sep) →
        runF mid = a.str ++ d →
        runF (fFlush sep ts sep ++ mid ++ fLoop inner sep fin r [])
          = joined sep (ts ++ (a :: r).map Arg.str) ++ fin := by
      intro mid d hd hm
      rw [runF_append, runF_append, fFlush_run, hm, ih [] hr har]
      have pre : joined sep (ts ++ (a :: r).map Arg.str) =
          (if ts = [] then [] else joined sep ts ++ sep) ++ joined sep ((a :: r).map Arg.str) := by
        by_cases e : ts = []
        · simp [e]
        · rw [if_neg e, joined_concat _ _ _ e (by simp)]
      rw [pre]
      by_cases e : r = []
      · rw [if_pos e] at hd
        subst e
        rw [hd]
        simp [joined]
      · rw [if_neg e] at hd
        subst hd
        have : joined d ((a :: r).map Arg.str) = a.str ++ d ++ joined d (r.map Arg.str) := by
          cases r with
          | nil => exact absurd rfl e
          | cons b q => simp [joined_two]
        rw [this]; simp
    obtain ⟨hOut, hdep⟩ := ho a (by simp)
    cases hOut with
    | lit h => exact pendStep _ rfl (by rw [fLoop]; rfl)
    | array =>
      rename_i xs
      rw [fLoop]
      by_cases e : r = []
      · refine flushStep _ [] (by simp [e]) ?_
        rw [fArray_run xs]; simp [Arg.str]
      · rcases ha with hsep | ha
        · refine flushStep _ [] (by simp [e, hsep]) ?_
          rw [fArray_run xs]; simp [Arg.str]
        · exfalso
          refine ha (.array xs) ?_ trivial
          cases r with
          | nil => exact absurd rfl e
          | cons b q => simp
    | inner h =>
      cases h with
      | num => exact pendStep _ rfl (by rw [fLoop]; rfl)
      | bool hb =>
        rename_i l b
        refine pendStep (fBool l b) ?_ (by rw [fLoop])
        rcases hb with rfl | rfl
        · rfl
        · cases l <;> rfl
      | seq h h1 h0 =>
        rename_i k es
        rw [fLoop]
        refine flushStep _ (if r = [] then [] else sep) rfl ?_
        refine hi k es _ (.seq h h1 h0) ?_
        simp only [Arg.depth] at hdep; omega

theorem fPrint_run : ∀ (n : Nat) (args : List Arg) (sep fin : Str),
    (∀ a ∈ args, Outer FBool a ∧ a.depth ≤ n) →
    (sep = [] ∨ ∀ a ∈ args.dropLast, ¬ a.isArray) →
    runF (fPrint (n + 1) args sep fin) = pyPrint sep fin args := by
  intro n
  induction n with
  | zero =>
    intro args sep fin ho ha
    rw [fPrint, fLoop_run (n := 0) (fun _ _ _ _ h => absurd h (Nat.not_lt_zero _)) args [] ho ha]
    rfl
  | succ n ih =>
    intro args sep fin ho ha
    rw [fPrint, fLoop_run (n := n + 1) ?_ args [] ho ha]
    · rfl
    · intro k es f hin hd
      have out := innerArgs_outer hin (fun x _ => trivial)
      rw [ih (innerArgs k es) [] f
        (fun a ha => ⟨(out a ha).1, by have := (out a ha).2.2; omega⟩) (Or.inl rfl)]
      rw [innerArgs_print k es f hin]

end Verif.Text
