import Verif.Paths.Model
namespace Verif.Paths.Lemmas
open Verif.Paths.Spec Verif.Paths.Model

variable {σ V : Type}

theorem trAssert_check {m : Mode} (hm : m ≠ .cRelease) (c : σ → Option (Bool × σ)) (r : Gen σ V) : trAssert m c r = .check c r := by
  cases m
  · rfl
  · rfl
  · exact absurd rfl hm

/-- If `f` is defined, so is `g`, with the same value. -/
theorem andThen_forth {f g : σ → Option (Out σ V)} (h : ∀ s o, f s = some o → g s = some o) (x : Option (Out σ V)) (y : Option (Out σ V))
    (hxy : ∀ o, x = some o → y = some o) (o : Out σ V) (ho : x.bind (Out.andThen f) = some o) : y.bind (Out.andThen g) = some o := by
  cases hx : x with
  | none => rw [hx] at ho; cases ho
  | some p =>
    rw [hx] at ho
    rw [hxy p hx]
    cases p <;> simp only [Option.bind_some, Out.andThen] at ho ⊢ <;> first | exact h _ _ ho | exact ho

theorem iter_forth {f g : σ → Option (Out σ V)} (b : Nat → σ → σ) (h : ∀ s o, f s = some o → g s = some o) (m k : Nat) (s : σ) (o : Out σ V)
    (ho : iter f b m k s = some o) : iter g b m k s = some o := by
  induction m generalizing k s with
  | zero => exact ho
  | succ m ih =>
    simp only [iter] at ho ⊢
    cases hf : f (b k s) with
    | none => rw [hf] at ho; cases ho
    | some p =>
      rw [hf] at ho
      rw [h _ _ hf]
      cases p <;> simp only [Option.bind_some] at ho ⊢ <;> first | exact ih _ _ ho | exact ho

theorem exec_done {n : Nat} {s : σ} {o : Out σ V} (h : exec n .done s = some o) : o = .next s := by
  cases n with
  | zero => cases h
  | succ n => simpa [exec, eq_comm] using h

/-- Python's outcome is the one of the generated code, in as many steps. -/
theorem forth (m : Mode) (hm : m ≠ .cRelease) (n : Nat) (c : Code σ V) (s : σ) (o : Out σ V) (hc : c.NoElse) (h : exec n c s = some o) :
    run n (tr m c) s = some o := by
  induction n generalizing c s o with
  | zero => cases h
  | succ n ih =>
    cases c with
    | done => exact h
    | brk => exact h
    | cont => exact h
    | ret e => rw [exec] at h; rw [tr, run]; exact h
    | act f r =>
      rw [exec] at h; rw [tr, run]
      cases hf : f s with
      | none => rw [hf] at h; exact h
      | some t => rw [hf] at h; exact ih _ _ _ hc h
    | assert f r =>
      rw [exec] at h; rw [tr, trAssert_check hm, run]
      rcases hf : f s with _ | ⟨_ | _, t⟩ <;> rw [hf] at h
      · exact h
      · exact h
      · exact ih _ _ _ hc h
    | ite f a b r =>
      rw [exec] at h; rw [tr, run]
      rcases hf : f s with _ | ⟨_ | _, t⟩ <;> rw [hf] at h
      · exact h
      · exact andThen_forth (fun s o => ih r s o hc.2.2) _ _ (fun o => ih b t o hc.2.1) o h
      · exact andThen_forth (fun s o => ih r s o hc.2.2) _ _ (fun o => ih a t o hc.1) o h
    | «while» f b e r =>
      obtain ⟨h1, rfl, h3⟩ := hc
      rw [exec] at h; rw [tr, run]
      rcases hf : f s with _ | ⟨_ | _, t⟩ <;> rw [hf] at h
      · exact h
      · simp only at h ⊢
        cases hd : exec n (.done : Code σ V) t with
        | none => rw [hd] at h; cases h
        | some p => rw [hd, exec_done hd] at h; exact ih _ _ _ h3 h
      · simp only at h ⊢
        cases hb : exec n b t with
        | none => rw [hb] at h; cases h
        | some p =>
          rw [hb] at h
          rw [ih _ _ _ h1 hb]
          cases p <;> simp only [Option.bind_some] at h ⊢
          · exact ih (.while f b .done r) _ _ ⟨h1, rfl, h3⟩ h
          · exact ih _ _ _ h3 h
          · exact ih (.while f b .done r) _ _ ⟨h1, rfl, h3⟩ h
          all_goals exact h
    | «for» cnt x b e r =>
      obtain ⟨h1, rfl, h3⟩ := hc
      rw [exec] at h; rw [tr, run]
      cases hf : cnt s with
      | none => rw [hf] at h; exact h
      | some m =>
        rw [hf] at h
        simp only at h ⊢
        cases hb : iter (exec n b) x m 0 s with
        | none => rw [hb] at h; cases h
        | some p =>
          rw [hb] at h
          rw [iter_forth x (fun s o => ih b s o h1) _ _ _ _ hb]
          cases p <;> simp only [Option.bind_some] at h ⊢
          · next t =>
            cases hd : exec n (.done : Code σ V) t with
            | none => rw [hd] at h; cases h
            | some p => rw [hd, exec_done hd] at h; exact ih _ _ _ h3 h
          · exact ih _ _ _ h3 h
          all_goals exact h

/-- The outcome of the generated code is Python's; Python needs at most one step more. -/
theorem back (m : Mode) (hm : m ≠ .cRelease) (n : Nat) (c : Code σ V) (s : σ) (o : Out σ V) (hc : c.NoElse) (h : run n (tr m c) s = some o) :
    exec (n + 1) c s = some o := by
  induction n generalizing c s o with
  | zero => rw [run] at h; cases h
  | succ n ih =>
    cases c with
    | done => rw [tr, run] at h; exact h
    | brk => rw [tr, run] at h; exact h
    | cont => rw [tr, run] at h; exact h
    | ret e => rw [tr, run] at h; rw [exec]; exact h
    | act f r =>
      rw [tr, run] at h; rw [exec]
      cases hf : f s with
      | none => rw [hf] at h; exact h
      | some t => rw [hf] at h; exact ih _ _ _ hc h
    | assert f r =>
      rw [tr, trAssert_check hm, run] at h; rw [exec]
      rcases hf : f s with _ | ⟨_ | _, t⟩ <;> rw [hf] at h
      · exact h
      · exact h
      · exact ih _ _ _ hc h
    | ite f a b r =>
      rw [tr, run] at h; rw [exec]
      rcases hf : f s with _ | ⟨_ | _, t⟩ <;> rw [hf] at h
      · exact h
      · exact andThen_forth (fun s o => ih r s o hc.2.2) _ _ (fun o => ih b t o hc.2.1) o h
      · exact andThen_forth (fun s o => ih r s o hc.2.2) _ _ (fun o => ih a t o hc.1) o h
    | «while» f b e r =>
      obtain ⟨h1, rfl, h3⟩ := hc
      rw [tr, run] at h; rw [exec]
      rcases hf : f s with _ | ⟨_ | _, t⟩ <;> rw [hf] at h
      · exact h
      · simp only [exec, Option.bind_some, Out.andThen] at h ⊢
        exact ih _ _ _ h3 h
      · simp only at h ⊢
        cases hb : run n (tr m b) t with
        | none => rw [hb] at h; cases h
        | some p =>
          rw [hb] at h
          rw [ih _ _ _ h1 hb]
          cases p <;> simp only [Option.bind_some] at h ⊢
          · exact ih (.while f b .done r) _ _ ⟨h1, rfl, h3⟩ h
          · exact ih _ _ _ h3 h
          · exact ih (.while f b .done r) _ _ ⟨h1, rfl, h3⟩ h
          all_goals exact h
    | «for» cnt x b e r =>
      obtain ⟨h1, rfl, h3⟩ := hc
      rw [tr, run] at h; rw [exec]
      cases hf : cnt s with
      | none => rw [hf] at h; exact h
      | some k =>
        rw [hf] at h
        simp only at h ⊢
        cases hb : iter (run n (tr m b)) x k 0 s with
        | none => rw [hb] at h; cases h
        | some p =>
          rw [hb] at h
          rw [iter_forth x (fun s o => ih b s o h1) _ _ _ _ hb]
          cases p <;> simp only [Option.bind_some] at h ⊢
          · simp only [exec, Option.bind_some, Out.andThen]
            exact ih _ _ _ h3 h
          · exact ih _ _ _ h3 h
          all_goals exact h

/-- One more step does no harm. -/
theorem run_mono (n : Nat) (c : Gen σ V) (s : σ) (o : Out σ V) (h : run n c s = some o) : run (n + 1) c s = some o := by
  induction n generalizing c s o with
  | zero => rw [run] at h; cases h
  | succ n ih =>
    cases c with
    | done => exact h
    | brk => exact h
    | cont => exact h
    | ret e => exact h
    | act f r =>
      rw [run] at h ⊢
      cases hf : f s with
      | none => rw [hf] at h; exact h
      | some t => rw [hf] at h; exact ih _ _ _ h
    | check f r =>
      rw [run] at h ⊢
      rcases hf : f s with _ | ⟨_ | _, t⟩ <;> rw [hf] at h
      · exact h
      · exact h
      · exact ih _ _ _ h
    | ite f a b r =>
      rw [run] at h ⊢
      rcases hf : f s with _ | ⟨_ | _, t⟩ <;> rw [hf] at h
      · exact h
      · exact andThen_forth (fun s o => ih r s o) _ _ (fun o => ih b t o) o h
      · exact andThen_forth (fun s o => ih r s o) _ _ (fun o => ih a t o) o h
    | «while» f b r =>
      rw [run] at h ⊢
      rcases hf : f s with _ | ⟨_ | _, t⟩ <;> rw [hf] at h
      · exact h
      · exact ih _ _ _ h
      · simp only at h ⊢
        cases hb : run n b t with
        | none => rw [hb] at h; cases h
        | some p =>
          rw [hb] at h
          rw [ih _ _ _ hb]
          cases p <;> simp only [Option.bind_some] at h ⊢ <;> first | exact ih _ _ _ h | exact h
    | «for» cnt x b r =>
      rw [run] at h ⊢
      cases hf : cnt s with
      | none => rw [hf] at h; exact h
      | some m =>
        rw [hf] at h
        simp only at h ⊢
        cases hb : iter (run n b) x m 0 s with
        | none => rw [hb] at h; cases h
        | some p =>
          rw [hb] at h
          rw [iter_forth x (fun s o => ih b s o) _ _ _ _ hb]
          cases p <;> simp only [Option.bind_some] at h ⊢ <;> first | exact ih _ _ _ h | exact h

/-- An outcome that is no failed assertion. -/
abbrev Fine (o : Out σ V) : Prop := ∀ t, o ≠ .failed t

theorem andThen_fine {f g : σ → Option (Out σ V)} (h : ∀ s o, Fine o → f s = some o → g s = some o) (x y : Option (Out σ V))
    (hxy : ∀ o, Fine o → x = some o → y = some o) (o : Out σ V) (hn : Fine o) (ho : x.bind (Out.andThen f) = some o) :
    y.bind (Out.andThen g) = some o := by
  cases hx : x with
  | none => rw [hx] at ho; cases ho
  | some p =>
    rw [hx] at ho
    have hp : Fine p := by
      intro t hp; subst hp
      simp only [Option.bind_some, Out.andThen, Option.some.injEq] at ho
      exact hn t ho.symm
    rw [hxy p hp hx]
    cases p <;> simp only [Option.bind_some, Out.andThen] at ho ⊢ <;> first | exact h _ _ hn ho | exact ho

theorem iter_fine {f g : σ → Option (Out σ V)} (b : Nat → σ → σ) (h : ∀ s o, Fine o → f s = some o → g s = some o) (m k : Nat) (s : σ)
    (o : Out σ V) (hn : Fine o) (ho : iter f b m k s = some o) : iter g b m k s = some o := by
  induction m generalizing k s with
  | zero => exact ho
  | succ m ih =>
    simp only [iter] at ho ⊢
    cases hf : f (b k s) with
    | none => rw [hf] at ho; cases ho
    | some p =>
      rw [hf] at ho
      have hp : Fine p := by
        intro t hp; subst hp
        simp only [Option.bind_some, Option.some.injEq] at ho
        exact hn t ho.symm
      rw [h _ _ hp hf]
      cases p <;> simp only [Option.bind_some] at ho ⊢ <;> first | exact ih _ _ ho | exact ho

theorem release (n : Nat) (c : Code σ V) (s : σ) (o : Out σ V) (hc : c.NoElse) (hp : c.PureAsserts) (ho : Fine o) (h : exec n c s = some o) :
    run n (tr .cRelease c) s = some o := by
  induction n generalizing c s o with
  | zero => cases h
  | succ n ih =>
    cases c with
    | done => exact h
    | brk => exact h
    | cont => exact h
    | ret e => rw [exec] at h; rw [tr, run]; exact h
    | act f r =>
      rw [exec] at h; rw [tr, run]
      cases hf : f s with
      | none => rw [hf] at h; exact h
      | some t => rw [hf] at h; exact ih _ _ _ hc hp ho h
    | assert f r =>
      rw [exec] at h
      simp only [tr, trAssert]
      obtain ⟨b, hb⟩ := hp.1 s
      rw [hb] at h
      cases b with
      | false => simp only [Option.some.injEq] at h; exact absurd h.symm (ho s)
      | true => exact run_mono _ _ _ _ (ih _ _ _ hc hp.2 ho h)
    | ite f a b r =>
      rw [exec] at h; rw [tr, run]
      rcases hf : f s with _ | ⟨_ | _, t⟩ <;> rw [hf] at h
      · exact h
      · exact andThen_fine (fun s o hn => ih r s o hc.2.2 hp.2.2 hn) _ _ (fun o hn => ih b t o hc.2.1 hp.2.1 hn) o ho h
      · exact andThen_fine (fun s o hn => ih r s o hc.2.2 hp.2.2 hn) _ _ (fun o hn => ih a t o hc.1 hp.1 hn) o ho h
    | «while» f b e r =>
      obtain ⟨h1, rfl, h3⟩ := hc
      obtain ⟨p1, p2, p3⟩ := hp
      rw [exec] at h; rw [tr, run]
      rcases hf : f s with _ | ⟨_ | _, t⟩ <;> rw [hf] at h
      · exact h
      · simp only at h ⊢
        cases hd : exec n (.done : Code σ V) t with
        | none => rw [hd] at h; cases h
        | some p => rw [hd, exec_done hd] at h; exact ih _ _ _ h3 p3 ho h
      · simp only at h ⊢
        cases hb : exec n b t with
        | none => rw [hb] at h; cases h
        | some p =>
          rw [hb] at h
          have hpf : Fine p := by
            intro t hp; subst hp
            simp only [Option.bind_some, Option.some.injEq] at h
            exact ho t h.symm
          rw [ih _ _ _ h1 p1 hpf hb]
          cases p <;> simp only [Option.bind_some] at h ⊢
          · exact ih (.while f b .done r) _ _ ⟨h1, rfl, h3⟩ ⟨p1, p2, p3⟩ ho h
          · exact ih _ _ _ h3 p3 ho h
          · exact ih (.while f b .done r) _ _ ⟨h1, rfl, h3⟩ ⟨p1, p2, p3⟩ ho h
          all_goals exact h
    | «for» cnt x b e r =>
      obtain ⟨h1, rfl, h3⟩ := hc
      obtain ⟨p1, p2, p3⟩ := hp
      rw [exec] at h; rw [tr, run]
      cases hf : cnt s with
      | none => rw [hf] at h; exact h
      | some m =>
        rw [hf] at h
        simp only at h ⊢
        cases hb : iter (exec n b) x m 0 s with
        | none => rw [hb] at h; cases h
        | some p =>
          rw [hb] at h
          have hpf : Fine p := by
            intro t hp; subst hp
            simp only [Option.bind_some, Option.some.injEq] at h
            exact ho t h.symm
          rw [iter_fine x (fun s o hn => ih b s o h1 p1 hn) _ _ _ _ hpf hb]
          cases p <;> simp only [Option.bind_some] at h ⊢
          · next t =>
            cases hd : exec n (.done : Code σ V) t with
            | none => rw [hd] at h; cases h
            | some p => rw [hd, exec_done hd] at h; exact ih _ _ _ h3 p3 ho h
          · exact ih _ _ _ h3 p3 ho h
          all_goals exact h

theorem andThen_not_next {f : σ → Option (Out σ V)} (x : Option (Out σ V)) (o : Out σ V)
    (h : (∀ s o, f s = some o → ∀ t, o ≠ .next t) ∨ ∀ p, x = some p → ∀ t, p ≠ .next t)
    (ho : x.bind (Out.andThen f) = some o) : ∀ t, o ≠ .next t := by
  cases hx : x with
  | none => rw [hx] at ho; cases ho
  | some p =>
    rw [hx] at ho
    rcases h with h | h
    · cases p <;> simp only [Option.bind_some, Out.andThen, Option.some.injEq] at ho <;> first | exact h _ _ ho | (intro t; rw [← ho]; simp)
    · have := h p hx
      cases p <;> simp only [Option.bind_some, Out.andThen, Option.some.injEq] at ho <;>
        first | exact absurd rfl (this _) | (intro t; rw [← ho]; simp)

/-- Code that ends with `return` does not end otherwise. -/
theorem returns (n : Nat) (c : Code σ V) (s : σ) (o : Out σ V) (hc : c.Returns) (h : exec n c s = some o) : ∀ t, o ≠ .next t := by
  induction n generalizing c s o with
  | zero => cases h
  | succ n ih =>
    cases c with
    | done => exact absurd hc id
    | brk => exact absurd hc id
    | cont => exact absurd hc id
    | ret e =>
      rw [exec] at h
      intro t
      rcases he : e s with _ | ⟨v, u⟩ <;> rw [he] at h <;> simp only [Option.some.injEq] at h <;> rw [← h] <;> simp
    | act f r =>
      rw [exec] at h
      cases hf : f s with
      | none => rw [hf] at h; simp only [Option.some.injEq] at h; intro t; rw [← h]; simp
      | some t => rw [hf] at h; exact ih r _ _ hc h
    | assert f r =>
      rw [exec] at h
      rcases hf : f s with _ | ⟨_ | _, u⟩ <;> rw [hf] at h
      · simp only [Option.some.injEq] at h; intro t; rw [← h]; simp
      · simp only [Option.some.injEq] at h; intro t; rw [← h]; simp
      · exact ih r _ _ hc h
    | ite f a b r =>
      rw [exec] at h
      rcases hf : f s with _ | ⟨_ | _, u⟩ <;> rw [hf] at h
      · simp only [Option.some.injEq] at h; intro t; rw [← h]; simp
      · refine andThen_not_next _ _ ?_ h
        rcases hc with hc | hc
        · exact Or.inr fun p hp => ih _ _ _ hc.2 hp
        · exact Or.inl fun s o ho => ih _ _ _ hc ho
      · refine andThen_not_next _ _ ?_ h
        rcases hc with hc | hc
        · exact Or.inr fun p hp => ih _ _ _ hc.1 hp
        · exact Or.inl fun s o ho => ih _ _ _ hc ho
    | «while» f b e r =>
      rw [exec] at h
      rcases hf : f s with _ | ⟨_ | _, u⟩ <;> rw [hf] at h
      · simp only [Option.some.injEq] at h; intro t; rw [← h]; simp
      · exact andThen_not_next _ _ (Or.inl fun s o ho => ih r _ _ hc ho) h
      · simp only at h
        cases hb : exec n b u with
        | none => rw [hb] at h; cases h
        | some p =>
          rw [hb] at h
          cases p <;> simp only [Option.bind_some, Option.some.injEq] at h
          · exact ih (.while f b e r) _ _ hc h
          · exact ih r _ _ hc h
          · exact ih (.while f b e r) _ _ hc h
          all_goals (intro t; rw [← h]; simp)
    | «for» cnt x b e r =>
      rw [exec] at h
      cases hf : cnt s with
      | none => rw [hf] at h; simp only [Option.some.injEq] at h; intro t; rw [← h]; simp
      | some m =>
        rw [hf] at h
        simp only at h
        cases hb : iter (exec n b) x m 0 s with
        | none => rw [hb] at h; cases h
        | some p =>
          rw [hb] at h
          cases p <;> simp only [Option.bind_some, Option.some.injEq] at h
          · exact andThen_not_next _ _ (Or.inl fun s o ho => ih r _ _ hc ho) h
          · exact ih r _ _ hc h
          all_goals (intro t; rw [← h]; simp)

end Verif.Paths.Lemmas
