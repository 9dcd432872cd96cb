import Verif.Recursion.Ends

/-!
# C128, C129: recursive functions
-/

namespace Verif.Recursion

/-! ### helpers -/

theorem inlineLeads_mentions {P : Prog} {f g : Nat} (h : InlineLeads P f g) :
    Mentions P f g := by
  induction h with
  | one h _ => exact .one (List.mem_append_left _ h)
  | more h _ _ ih => exact .more (List.mem_append_left _ h) ih

theorem stack_suffix {P : Prog} : ∀ {a s : List Nat}, Stack P (a ++ s) → s ≠ [] → Stack P s
  | [], _, h, _ => h
  | x :: a, s, h, hs => by
    cases a with
    | nil =>
      cases s with
      | nil => exact absurd rfl hs
      | cons y s =>
        cases h with
        | call h _ => exact h
    | cons y a =>
      cases h with
      | call h _ => exact stack_suffix (a := y :: a) h hs

theorem leads_trans {P : Prog} {a b c : Nat} (h : Leads P a b) (h' : Into P (P.body b) c) :
    Leads P a c := by
  induction h with
  | one h => exact .more h (.one h')
  | more h _ ih => exact .more h (ih h')

theorem stack_leads {P : Prog} : ∀ {s : List Nat} {f : Nat}, Stack P (f :: s) →
    ∀ x ∈ s, Leads P x f
  | [], _, _, _, hx => by cases hx
  | g :: s, f, h, x, hx => by
    cases h with
    | call h hi =>
      rcases List.mem_cons.1 hx with rfl | hx
      · exact .one hi
      · exact leads_trans (stack_leads h x hx) hi

theorem count_split {f : Nat} : ∀ {s : List Nat}, 2 ≤ s.count f →
    ∃ a t, s = a ++ f :: t ∧ f ∈ t
  | [], h => by simp at h
  | x :: s, h => by
    by_cases e : x = f
    · subst e
      refine ⟨[], s, rfl, ?_⟩
      rw [List.count_cons_self] at h
      exact List.count_pos_iff.1 (by omega)
    · rw [List.count_cons_of_ne e] at h
      obtain ⟨a, t, h1, h2⟩ := count_split h
      exact ⟨x :: a, t, by rw [h1]; rfl, h2⟩

theorem stack_extend {P : Prog} {f g : Nat} (h : Leads P f g) : ∀ {s : List Nat},
    Stack P (f :: s) → ∃ t, Stack P (g :: t) ∧ f :: s <:+ t := by
  induction h with
  | one h => exact fun hs => ⟨_, .call hs h, List.suffix_refl _⟩
  | more h _ ih =>
    intro s hs
    obtain ⟨t, h1, h2⟩ := ih (.call hs h)
    exact ⟨t, h1, (List.suffix_cons _ _).trans h2⟩

/-! ### C128 -/

/-- If no `@inline` function mentions itself, directly or indirectly, the translation
ends; a function that can be called is declared `recursive` exactly if its body,
with the `@inline` functions filled in, calls it; and therefore the Fortran program is
legal, whatever the functions do, exactly if every function that can lead to itself
does so directly. -/
theorem C128_iff_partial {P : Prog} (hP : P.Closed)
    (hI : ∀ h, P.inl h = true → ¬ Mentions P h h) :
    ∃ N st, (∀ n, N ≤ n → run P n = some (.ok st)) ∧
      (∀ f s, Stack P (f :: s) → (printed st f = true ↔ Into P (P.body f) f)) ∧
      (Legal P (printed st) ↔
        ∀ f s, Stack P (f :: s) → Leads P f f → Into P (P.body f) f) := by
  have hm : ∀ g ∈ ments (P.init.map Item.call ++ P.top.map .define), g < P.size := by
    intro g hg
    rw [ments_append, ments_call, ments_define] at hg
    rcases List.mem_append.1 hg with h | h
    · exact hP.init g h
    · exact hP.top g h
  obtain ⟨N, st, hw, he⟩ := walk_ends hP (fun h hi hl => hI h hi (inlineLeads_mentions hl))
    (synCount P St.start) (P.size + 1) (P.init.map .call ++ P.top.map .define) none St.start
    (Nat.le_refl _) (fun x _ _ => by have := rank_le P x; omega) hm
    (fun c e => by cases e) (fun _ _ => rfl)
  have hp := walk_post hI (fun h _ ha => by cases ha) (hw N (Nat.le_refl _))
  have hsem : ∀ f s, Stack P (f :: s) → P.inl f = false ∧ st.status f = .sem := by
    intro f s h
    generalize hs : f :: s = t at h
    induction h generalizing f s with
    | start h1 h2 =>
      cases hs
      refine ⟨h2, ?_⟩
      have := he.defined _ (List.mem_append_right _ (List.mem_map.2 ⟨_, h1, rfl⟩))
        (by rw [h2]; simp)
      exact (he.sem _ rfl).resolve_left this
    | call h1 h2 ih =>
      cases hs
      obtain ⟨a, b⟩ := ih _ _ rfl
      exact ⟨into_inl h2, (he.sem _ rfl).resolve_left (hp.closed _ a rfl b _ h2)⟩
  have hmark : ∀ f s, Stack P (f :: s) → (printed st f = true ↔ Into P (P.body f) f) := by
    intro f s h
    obtain ⟨a, b⟩ := hsem f s h
    unfold printed
    rw [hp.mark f a]
    simp [St.start, b]
  refine ⟨N, st, hw, hmark, ?_⟩
  constructor
  · intro hL f s h hl
    obtain ⟨t, h1, h2⟩ := stack_extend hl h
    refine (hmark f s h).1 (hL _ h1 f ?_)
    rw [List.count_cons_self]
    have : 0 < t.count f := List.count_pos_iff.2 (h2.subset List.mem_cons_self)
    omega
  · intro hL s hs f hc
    obtain ⟨a, t, rfl, ht⟩ := count_split hc
    have h1 := stack_suffix hs (by simp)
    exact (hmark f t h1).2 (hL f t h1 (stack_leads h1 f ht))

/-- `def f(n): … f(n - 1) …`, `def g(n): … f(n) …` with an `@inline` function between:
the hypotheses hold and the program is legal. -/
def okProg : Prog :=
  ⟨3, fun x => x == 2, fun _ => false, fun x => if x = 0 then [2] else if x = 1 then [0] else
    [], fun _ => [], [1], [0, 1, 2]⟩

example : okProg.Closed ∧ ∀ h, okProg.inl h = true → ¬ Mentions okProg h h := by
  refine ⟨⟨by decide, by simp [okProg], by decide, by decide⟩, ?_⟩
  intro h hi hm
  have : h = 2 := by simpa [okProg] using hi
  subst this
  cases hm with
  | one h => simp [okProg] at h
  | more h => simp [okProg] at h

/-- C128 fails: two functions that call each other are not declared `recursive`,
although one of them can be active twice. -/
theorem C128_violated_mutual :
    let P : Prog := ⟨2, fun _ => false, fun _ => false,
      fun x => if x = 0 then [1] else [0], fun _ => [], [], [0, 1]⟩
    ∃ st, run P 10 = some (.ok st) ∧ ¬ Legal P (printed st) := by
  intro P
  refine ⟨_, rfl, fun h => ?_⟩
  have hs : Stack P [0, 1, 0] := by
    refine .call (.call (.start ?_ rfl) (.here ?_ rfl)) (.here ?_ rfl) <;> simp [P]
  have := h _ hs 0 (by decide)
  cases this

/-- C128 fails: a function that is called by a function defined inside it is not
declared `recursive`. -/
theorem C128_violated_nested :
    let P : Prog := ⟨2, fun _ => false, fun _ => false,
      fun x => if x = 0 then [1] else [0], fun x => if x = 0 then [1] else [], [], [0]⟩
    ∃ st, run P 10 = some (.ok st) ∧ ¬ Legal P (printed st) := by
  intro P
  refine ⟨_, rfl, fun h => ?_⟩
  have hs : Stack P [0, 1, 0] := by
    refine .call (.call (.start ?_ rfl) (.here ?_ rfl)) (.here ?_ rfl) <;> simp [P]
  have := h _ hs 0 (by decide)
  cases this

/-- C128 fails: a function that calls itself through an `@inline` function is declared
`recursive` only if it stands before the `@inline` function in the file. -/
theorem C128_violated_order :
    let P := fun top : List Nat => (⟨2, fun x => x == 0, fun _ => false,
      fun x => if x = 0 then [1] else [0], fun _ => [], [], top⟩ : Prog)
    (∃ st, run (P [1, 0]) 10 = some (.ok st) ∧ printed st 1 = true) ∧
    (∃ st, run (P [0, 1]) 10 = some (.ok st) ∧ ¬ Legal (P [0, 1]) (printed st)) := by
  intro P
  refine ⟨⟨_, rfl, rfl⟩, _, rfl, fun h => ?_⟩
  have hs : Stack (P [0, 1]) [1, 1] := by
    refine .call (.start ?_ rfl) (.through (h := 0) ?_ rfl (.here ?_ rfl)) <;> simp [P]
  have := h _ hs 1 (by decide)
  cases this

/-! ### C129 -/

/-- If no `@inline` function leads to itself by calls of `@inline` functions, the
translation of the module ends without an error, every function is translated once,
and none is left out but `@inline` functions that are also `@private`. -/
theorem C129_partial {P : Prog} (hP : P.Closed)
    (hI : ∀ h, P.inl h = true → ¬ InlineLeads P h h) :
    ∃ N st, (∀ n, N ≤ n → run P n = some (.ok st)) ∧ st.done.Nodup ∧
      (∀ f ∈ P.top, ¬ (P.inl f = true ∧ P.priv f = true) → f ∈ st.done) ∧
      (∀ f, f ∈ st.done ↔ st.status f ≠ .syn) := by
  have hm : ∀ g ∈ ments (P.init.map Item.call ++ P.top.map .define), g < P.size := by
    intro g hg
    rw [ments_append, ments_call, ments_define] at hg
    rcases List.mem_append.1 hg with h | h
    · exact hP.init g h
    · exact hP.top g h
  obtain ⟨N, st, hw, he⟩ := walk_ends hP hI
    (synCount P St.start) (P.size + 1) (P.init.map .call ++ P.top.map .define) none St.start
    (Nat.le_refl _) (fun x _ _ => by have := rank_le P x; omega) hm
    (fun c e => by cases e) (fun _ _ => rfl)
  obtain ⟨d, d1, d2, d3⟩ := he.done
  simp only [St.start, List.nil_append] at d1
  have hd : ∀ f, f ∈ st.done ↔ st.status f ≠ .syn := by
    intro f
    rw [d1, d3]
    constructor
    · rintro ⟨_, h⟩; rw [h]; simp
    · intro h
      exact ⟨rfl, (he.sem f rfl).resolve_left h⟩
  refine ⟨N, st, hw, by rw [d1]; exact d2, ?_, hd⟩
  intro f hf hp
  rw [hd]
  exact he.defined f (List.mem_append_right _ (List.mem_map.2 ⟨_, hf, rfl⟩)) hp

/-- Mutual recursion of ordinary functions meets the hypotheses. -/
example : let P : Prog := ⟨2, fun _ => false, fun _ => false,
      fun x => if x = 0 then [1] else [0], fun _ => [], [], [0, 1]⟩
    P.Closed ∧ ∀ h, P.inl h = true → ¬ InlineLeads P h h := by
  intro P
  refine ⟨⟨?_, by simp [P], by simp [P], by simp [P]⟩, by simp [P]⟩
  intro f _ g hg
  simp only [P] at hg ⊢
  split at hg <;> simp at hg <;> omega

/-- C129 fails: the translation never ends (Python stops it with an internal error, the
recursion limit) if a function calls an `@inline` function
that calls itself and stands after it (or is `@private`). -/
theorem C129_violated (priv : Nat → Bool) (n : Nat) :
    run ⟨2, fun x => x == 1, priv, fun _ => [1], fun _ => [], [], [0, 1]⟩ n = none := by
  have key : ∀ n cur l (st : St), st.status 1 = .syn →
      walk ⟨2, fun x => x == 1, priv, fun _ => [1], fun _ => [], [], [0, 1]⟩ n cur
        (.call 1 :: l) st = none := by
    intro n
    induction n with
    | zero => intros; rfl
    | succ n ih =>
      intro cur l st hs
      simp only [walk, hs]
      simp [ih cur [] st hs, andThen]
  cases n with
  | zero => rfl
  | succ n =>
    simp only [run, List.map_nil, List.nil_append, List.map_cons, walk]
    rw [if_pos (by simp [St.start])]
    rw [show Prog.items _ 0 = [Item.call 1] from rfl]
    rw [key n _ _ _ (by simp [St.start, St.set])]
    rfl

/-- In the other order the same program is rejected with an error message. -/
example : run ⟨2, fun x => x == 1, fun _ => false, fun _ => [1], fun _ => [], [], [1, 0]⟩ 10
    = some .fatal := rfl

end Verif.Recursion
