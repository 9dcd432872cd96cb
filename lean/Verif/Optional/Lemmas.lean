import Verif.Optional.Checked

namespace Verif.Optional

/-- The relation between states of the Python function and of the generated one. -/
structure Rel (O : Var → Bool) (F A : List Var) (σ : PySt) (s : St) : Prop where
  plain : ∀ x, O x = false → σ x = none ∨ ∃ v, σ x = some (some v) ∧ s (.plain x) = some v
  arg : ∀ x, O x = true → x ∉ A → σ x = some (s (.arg x))
  bound : ∀ x, O x = true → ∃ ρ, σ x = some ρ
  loc : ∀ x ρ, O x = true → x ∈ F → σ x = some ρ → s (.loc x) = ρ

def Known (N : List Var) (σ : PySt) : Prop := ∀ x ∈ N, ∃ v, σ x = some (some v)

def KOk (K : List TV) (s : St) : Prop := ∀ t ∈ K, ∃ v, s t = some v

theorem Rel.mono {O F A B σ s} (h : Rel O F A σ s) (hab : ∀ x, x ∈ A → x ∈ B) : Rel O F B σ s :=
  ⟨h.plain, fun x ho hx => h.arg x ho (fun hA => hx (hab x hA)), h.bound, h.loc⟩

/-- Only temporaries differ. -/
def Agree (s s1 : St) : Prop := ∀ t, (∀ k, t ≠ .cond k) → s1 t = s t

theorem Rel.agree {O F A σ s s1} (h : Rel O F A σ s) (ha : Agree s s1) : Rel O F A σ s1 := by
  refine ⟨fun x hx => ?_, fun x ho hx => ?_, h.bound, fun x ρ ho hx hσ => ?_⟩
  · rw [ha (.plain x) (by simp)]; exact h.plain x hx
  · rw [ha (.arg x) (by simp)]; exact h.arg x ho hx
  · rw [ha (.loc x) (by simp)]; exact h.loc x ρ ho hx hσ

theorem tv_cases (O : Var → Bool) (A : List Var) (x : Var) :
    (O x = false ∧ tv O A x = .plain x) ∨ (O x = true ∧ x ∈ A ∧ tv O A x = .loc x) ∨ (O x = true ∧ x ∉ A ∧ tv O A x = .arg x) := by
  unfold tv
  cases ho : O x
  · simp
  · by_cases hx : x ∈ A
    · simp [hx]
    · simp [hx]

theorem isArg_iff {O : Var → Bool} {A : List Var} {x : Var} : isArg O A x = true ↔ O x = true ∧ x ∉ A := by
  simp [isArg]

theorem rel_known {O F A N σ s} (h : Rel O F A σ s) (hAF : ∀ x, x ∈ A → x ∈ F) (hN : Known N σ) : KOk (ks O A N) s := by
  intro t ht
  obtain ⟨x, hx, rfl⟩ := List.mem_map.1 ht
  obtain ⟨v, hv⟩ := hN x hx
  rcases tv_cases O A x with ⟨ho, e⟩ | ⟨ho, hA, e⟩ | ⟨ho, hA, e⟩
  · rcases h.plain x ho with h1 | ⟨w, h1, h2⟩
    · rw [h1] at hv; cases hv
    · exact ⟨w, by rw [e]; exact h2⟩
  · exact ⟨v, by rw [e]; exact h.loc x _ ho (hAF x hA) hv⟩
  · have := h.arg x ho hA
    rw [hv] at this
    exact ⟨v, by rw [e]; exact (Option.some.inj this).symm⟩

theorem KOk.append {K L s} (h : KOk K s) (h' : KOk L s) : KOk (K ++ L) s := by
  intro t ht
  rcases List.mem_append.1 ht with h1 | h1
  · exact h t h1
  · exact h' t h1

theorem Known.append {K L : List Var} {σ} (h : Known K σ) (h' : Known L σ) : Known (K ++ L) σ := by
  intro t ht
  rcases List.mem_append.1 ht with h1 | h1
  · exact h t h1
  · exact h' t h1

/-! ## Facts -/

theorem facts_py (σ : PySt) (c : Cond Var) : ∀ b, pyTest σ c = some b → Known (facts c b) σ := by
  induction c with
  | const b => intro t _ x hx; cases t <;> simp [facts] at hx
  | lt a b => intro t _ x hx; cases t <;> simp [facts] at hx
  | eq a b => intro t _ x hx; cases t <;> simp [facts] at hx
  | truth e =>
    intro t h x hx
    cases e <;> cases t <;> simp [facts] at hx
    subst hx
    simp only [pyTest, pyExpr] at h
    cases h1 : σ x with
    | none => rw [h1] at h; cases h
    | some r => cases r with
      | none => rw [h1] at h; cases h
      | some v => exact ⟨v, rfl⟩
  | isNone y =>
    intro t h x hx
    cases t <;> simp [facts] at hx
    subst hx
    simp only [pyTest] at h
    cases h1 : σ x with
    | none => rw [h1] at h; cases h
    | some r => cases r with
      | none => rw [h1] at h; cases h
      | some v => exact ⟨v, rfl⟩
  | notNone y =>
    intro t h x hx
    cases t <;> simp [facts] at hx
    subst hx
    simp only [pyTest] at h
    cases h1 : σ x with
    | none => rw [h1] at h; cases h
    | some r => cases r with
      | none => rw [h1] at h; cases h
      | some v => exact ⟨v, rfl⟩
  | not c ih =>
    intro t h x hx
    simp only [pyTest] at h
    simp only [facts] at hx
    cases h1 : pyTest σ c with
    | none => rw [h1] at h; cases h
    | some r =>
      rw [h1] at h
      simp only [Option.map_some, Option.some.injEq] at h
      subst h
      exact ih r h1 x (by simpa using hx)
  | and a b iha ihb =>
    intro t h x hx
    cases t with
    | false => simp [facts] at hx
    | true =>
      simp only [pyTest] at h
      simp only [facts] at hx
      cases h1 : pyTest σ a with
      | none => rw [h1] at h; cases h
      | some r =>
        cases r with
        | false => rw [h1] at h; cases h
        | true =>
          rw [h1] at h
          exact Known.append (iha true h1) (ihb true h) x hx
  | or a b iha ihb =>
    intro t h x hx
    cases t with
    | true => simp [facts] at hx
    | false =>
      simp only [pyTest] at h
      simp only [facts] at hx
      cases h1 : pyTest σ a with
      | none => rw [h1] at h; cases h
      | some r =>
        cases r with
        | true => rw [h1] at h; cases h
        | false =>
          rw [h1] at h
          exact Known.append (iha false h1) (ihb false h) x hx

theorem facts_t (st : Bool) (s : St) (c : Cond TV) : ∀ b, tst st s c = some b → KOk (facts c b) s := by
  induction c with
  | const b => intro t _ x hx; cases t <;> simp [facts] at hx
  | lt a b => intro t _ x hx; cases t <;> simp [facts] at hx
  | eq a b => intro t _ x hx; cases t <;> simp [facts] at hx
  | truth e =>
    intro t h x hx
    cases e <;> cases t <;> simp [facts] at hx
    subst hx
    simp only [tst, tx] at h
    cases h1 : s x with
    | none => rw [h1] at h; cases h
    | some v => exact ⟨v, rfl⟩
  | isNone y =>
    intro t h x hx
    cases t <;> simp [facts] at hx
    subst hx
    simp only [tst] at h
    cases h1 : s x with
    | none => rw [h1] at h; cases h
    | some v => exact ⟨v, rfl⟩
  | notNone y =>
    intro t h x hx
    cases t <;> simp [facts] at hx
    subst hx
    simp only [tst] at h
    cases h1 : s x with
    | none => rw [h1] at h; cases h
    | some v => exact ⟨v, rfl⟩
  | not c ih =>
    intro t h x hx
    simp only [tst] at h
    simp only [facts] at hx
    cases h1 : tst st s c with
    | none => rw [h1] at h; cases h
    | some r =>
      rw [h1] at h
      simp only [Option.map_some, Option.some.injEq] at h
      subst h
      exact ih r h1 x (by simpa using hx)
  | and a b iha ihb =>
    intro t h x hx
    cases t with
    | false => simp [facts] at hx
    | true =>
      simp only [tst] at h
      simp only [facts] at hx
      cases h1 : tst st s a with
      | none => rw [h1] at h; cases h
      | some r =>
        cases r with
        | false => rw [h1] at h; cases st <;> cases h2 : tst true s b <;> simp [h2] at h
        | true =>
          rw [h1] at h
          exact KOk.append (iha true h1) (ihb true h) x hx
  | or a b iha ihb =>
    intro t h x hx
    cases t with
    | true => simp [facts] at hx
    | false =>
      simp only [tst] at h
      simp only [facts] at hx
      cases h1 : tst st s a with
      | none => rw [h1] at h; cases h
      | some r =>
        cases r with
        | true => rw [h1] at h; cases st <;> cases h2 : tst true s b <;> simp [h2] at h
        | false =>
          rw [h1] at h
          exact KOk.append (iha false h1) (ihb false h) x hx

/-! ## Expressions and conditions -/

theorem exprOk_app {K : List TV} {a b : Expr TV} (h : exprOk K (.add a b) = true) : exprOk K a = true ∧ exprOk K b = true := by
  simp only [exprOk, evars, List.all_append, Bool.and_eq_true] at h
  exact h

theorem exprOk_div {K : List TV} {a b : Expr TV} (h : exprOk K (.div a b) = true) : exprOk K a = true ∧ exprOk K b = true := by
  simp only [exprOk, evars, List.all_append, Bool.and_eq_true] at h
  exact h

theorem tx_sim {O F A σ s K} (h : Rel O F A σ s) (hAF : ∀ x, x ∈ A → x ∈ F) (hK : KOk K s) (e : Expr Var) :
    ∀ ρ, exprOk K (trE O A e) = true → pyExpr σ e = some ρ → ∃ v, ρ = some v ∧ tx s (trE O A e) = some v := by
  induction e with
  | lit n => intro ρ _ h1; exact ⟨n, (Option.some.inj h1).symm, rfl⟩
  | var x =>
    intro ρ hk h1
    simp only [pyExpr] at h1
    simp only [trE, exprOk, evars, List.all_cons, List.all_nil, Bool.and_true] at hk
    simp only [trE, tx]
    rcases tv_cases O A x with ⟨ho, e⟩ | ⟨ho, hA, e⟩ | ⟨ho, hA, e⟩
    · rcases h.plain x ho with h2 | ⟨w, h2, h3⟩
      · rw [h1] at h2; cases h2
      · rw [h1] at h2
        exact ⟨w, Option.some.inj h2, by rw [e]; exact h3⟩
    · rw [e] at hk ⊢
      obtain ⟨v, hv⟩ := hK (.loc x) (by simpa using hk)
      have := h.loc x ρ ho (hAF x hA) h1
      exact ⟨v, by rw [← this, hv], hv⟩
    · rw [e] at hk ⊢
      obtain ⟨v, hv⟩ := hK (.arg x) (by simpa using hk)
      have := h.arg x ho hA
      rw [h1] at this
      exact ⟨v, by rw [Option.some.inj this, hv], hv⟩
  | add a b iha ihb =>
    intro ρ hk h1
    obtain ⟨ka, kb⟩ := exprOk_app hk
    simp only [pyExpr] at h1
    split at h1
    · rename_i x y ea eb
      obtain ⟨u, hu, hu'⟩ := iha _ ka ea
      obtain ⟨v, hv, hv'⟩ := ihb _ kb eb
      cases hu; cases hv
      exact ⟨x + y, (Option.some.inj h1).symm, by simp [trE, tx, hu', hv']⟩
    · cases h1
  | div a b iha ihb =>
    intro ρ hk h1
    obtain ⟨ka, kb⟩ := exprOk_div hk
    simp only [pyExpr] at h1
    split at h1
    · rename_i x y ea eb
      obtain ⟨u, hu, hu'⟩ := iha _ ka ea
      obtain ⟨v, hv, hv'⟩ := ihb _ kb eb
      cases hu; cases hv
      split at h1
      · cases h1
      · rename_i hy
        exact ⟨x.fdiv y, (Option.some.inj h1).symm, by simp [trE, tx, hu', hv', hy]⟩
    · cases h1

theorem guardT_sim {O F A σ s K} (h : Rel O F A σ s) (hAF : ∀ x, x ∈ A → x ∈ F) (hK : KOk K s) (c : Cond Var) (b : Bool)
    (hk : condOk false K (guardT O A c (trCond O A c)) = true) (hp : pyTest σ c = some b)
    (ih : condOk false K (trCond O A c) = true → tst false s (trCond O A c) = some b) :
    tst false s (guardT O A c (trCond O A c)) = some b := by
  unfold guardT at hk ⊢
  split at hk
  · rename_i x
    split at hk
    · rename_i ha
      rw [if_pos ha]
      obtain ⟨ho, hA⟩ := isArg_iff.1 ha
      have h2 := h.arg x ho hA
      have ht : tv O A x = .arg x := by rcases tv_cases O A x with ⟨h3, _⟩ | ⟨_, h3, _⟩ | ⟨_, _, h3⟩
                                        · rw [ho] at h3; cases h3
                                        · exact absurd h3 hA
                                        · exact h3
      simp only [pyTest, pyExpr] at hp
      rw [h2] at hp
      cases h3 : s (.arg x) with
      | none => rw [h3] at hp; simp only [Option.some.injEq] at hp; subst hp; simp [tst, h3]
      | some v =>
        rw [h3] at hp; simp only [Option.some.injEq] at hp; subst hp
        simp [tst, h3, trCond, trE, ht, tx]
    · rename_i ha
      rw [if_neg ha]
      exact ih hk
  · exact ih hk

theorem test_sim {O F A N σ s} (h : Rel O F A σ s) (hAF : ∀ x, x ∈ A → x ∈ F) (hN : Known N σ) (c : Cond Var) :
    ∀ K b, KOk K s → foldOk O A N c = true → condOk false K (trCond O A c) = true → pyTest σ c = some b →
      tst false s (trCond O A c) = some b := by
  induction c with
  | const t => intro K b _ _ _ hp; exact hp
  | lt x y =>
    intro K b hK _ hk hp
    simp only [trCond, condOk, Bool.and_eq_true] at hk
    simp only [pyTest] at hp
    split at hp
    · rename_i u v eu ev
      obtain ⟨u', hu, hu'⟩ := tx_sim h hAF hK x _ hk.1 eu
      obtain ⟨v', hv, hv'⟩ := tx_sim h hAF hK y _ hk.2 ev
      cases hu; cases hv
      simpa [trCond, tst, hu', hv'] using hp
    · cases hp
  | eq x y =>
    intro K b hK _ hk hp
    simp only [trCond, condOk, Bool.and_eq_true] at hk
    simp only [pyTest] at hp
    split at hp
    · rename_i u v eu ev
      obtain ⟨u', hu, hu'⟩ := tx_sim h hAF hK x _ hk.1 eu
      obtain ⟨v', hv, hv'⟩ := tx_sim h hAF hK y _ hk.2 ev
      cases hu; cases hv
      simpa [trCond, tst, hu', hv'] using hp
    · cases hp
  | truth e =>
    intro K b hK _ hk hp
    simp only [trCond, condOk] at hk
    simp only [pyTest] at hp
    split at hp
    · rename_i n en
      obtain ⟨u', hu, hu'⟩ := tx_sim h hAF hK e _ hk en
      cases hu
      simpa [trCond, tst, hu'] using hp
    · rename_i en
      obtain ⟨u', hu, hu'⟩ := tx_sim h hAF hK e _ hk en
      cases hu
    · cases hp
  | isNone x =>
    intro K b hK hf hk hp
    simp only [pyTest] at hp
    simp only [trCond]
    split
    · rename_i ha
      obtain ⟨ho, hA⟩ := isArg_iff.1 ha
      rw [h.arg x ho hA] at hp
      simpa [tst] using hp
    · rename_i ha
      simp only [foldOk, Bool.or_eq_true, Bool.not_eq_true', List.contains_eq_mem, decide_eq_true_eq] at hf
      cases hx : σ x with
      | none => rw [hx] at hp; cases hp
      | some r =>
        have : ∃ v, r = some v := by
          rcases tv_cases O A x with ⟨ho, _⟩ | ⟨ho, hA, _⟩ | ⟨ho, hA, _⟩
          · rcases h.plain x ho with h2 | ⟨w, h2, h3⟩
            · rw [hx] at h2; cases h2
            · rw [hx] at h2; exact ⟨w, Option.some.inj h2⟩
          · rcases hf with hf | hf
            · simp [ho, hA] at hf
            · obtain ⟨v, hv⟩ := hN x hf
              rw [hx] at hv; exact ⟨v, Option.some.inj hv⟩
          · exact absurd (isArg_iff.2 ⟨ho, hA⟩) ha
        obtain ⟨v, rfl⟩ := this
        rw [hx] at hp
        simpa [tst] using hp
  | notNone x =>
    intro K b hK hf hk hp
    simp only [pyTest] at hp
    simp only [trCond]
    split
    · rename_i ha
      obtain ⟨ho, hA⟩ := isArg_iff.1 ha
      rw [h.arg x ho hA] at hp
      simpa [tst] using hp
    · rename_i ha
      simp only [foldOk, Bool.or_eq_true, Bool.not_eq_true', List.contains_eq_mem, decide_eq_true_eq] at hf
      cases hx : σ x with
      | none => rw [hx] at hp; cases hp
      | some r =>
        have : ∃ v, r = some v := by
          rcases tv_cases O A x with ⟨ho, _⟩ | ⟨ho, hA, _⟩ | ⟨ho, hA, _⟩
          · rcases h.plain x ho with h2 | ⟨w, h2, h3⟩
            · rw [hx] at h2; cases h2
            · rw [hx] at h2; exact ⟨w, Option.some.inj h2⟩
          · rcases hf with hf | hf
            · simp [ho, hA] at hf
            · obtain ⟨v, hv⟩ := hN x hf
              rw [hx] at hv; exact ⟨v, Option.some.inj hv⟩
          · exact absurd (isArg_iff.2 ⟨ho, hA⟩) ha
        obtain ⟨v, rfl⟩ := this
        rw [hx] at hp
        simpa [tst] using hp
  | not c ih =>
    intro K b hK hf hk hp
    simp only [pyTest] at hp
    cases h1 : pyTest σ c with
    | none => rw [h1] at hp; cases hp
    | some r =>
      rw [h1] at hp
      simp only [trCond, tst]
      rw [ih K r hK hf hk h1]
      exact hp
  | and a b iha ihb =>
    intro K t hK hf hk hp
    simp only [foldOk, Bool.and_eq_true] at hf
    simp only [trCond, condOk, Bool.and_eq_true, Bool.false_eq_true, if_false] at hk
    simp only [pyTest] at hp
    simp only [trCond, tst]
    cases h1 : pyTest σ a with
    | none => rw [h1] at hp; cases hp
    | some r =>
      have e1 := guardT_sim h hAF hK a r hk.1 h1 (fun hk' => iha K r hK hf.1 hk' h1)
      rw [e1]
      cases r with
      | false => rw [h1] at hp; exact hp
      | true =>
        rw [h1] at hp
        have hK' := hK.append (facts_t false s _ true e1)
        exact guardT_sim h hAF hK' b t hk.2 hp (fun hk' => ihb _ t hK' hf.2 hk' hp)
  | or a b iha ihb =>
    intro K t hK hf hk hp
    simp only [foldOk, Bool.and_eq_true] at hf
    simp only [trCond, condOk, Bool.and_eq_true, Bool.false_eq_true, if_false] at hk
    simp only [pyTest] at hp
    simp only [trCond, tst]
    cases h1 : pyTest σ a with
    | none => rw [h1] at hp; cases hp
    | some r =>
      have e1 := guardT_sim h hAF hK a r hk.1 h1 (fun hk' => iha K r hK hf.1 hk' h1)
      rw [e1]
      cases r with
      | true => rw [h1] at hp; exact hp
      | false =>
        rw [h1] at hp
        have hK' := hK.append (facts_t false s _ false e1)
        exact guardT_sim h hAF hK' b t hk.2 hp (fun hk' => ihb _ t hK' hf.2 hk' hp)

theorem sv_sound (s : St) (c : Cond TV) : ∀ b b', tst false s c = some b → sv c = some b' → b = b' := by
  induction c with
  | const t => intro b b' h1 h2; simp only [tst, sv, Option.some.injEq] at h1 h2; rw [← h1, ← h2]
  | lt x y =>
    intro b b' h1 h2
    cases x <;> cases y <;> simp [sv] at h2
    simp only [tst, tx, Option.some.injEq] at h1
    rw [← h1, ← h2]
  | eq x y =>
    intro b b' h1 h2
    cases x <;> cases y <;> simp [sv] at h2
    simp only [tst, tx, Option.some.injEq] at h1
    rw [← h1, ← h2]
  | truth e => intro b b' _ h2; simp [sv] at h2
  | isNone e => intro b b' _ h2; simp [sv] at h2
  | notNone e => intro b b' _ h2; simp [sv] at h2
  | not c ih =>
    intro b b' h1 h2
    simp only [tst] at h1
    simp only [sv] at h2
    cases e1 : tst false s c with
    | none => rw [e1] at h1; cases h1
    | some r =>
      cases e2 : sv c with
      | none => rw [e2] at h2; cases h2
      | some r' =>
        rw [e1] at h1; rw [e2] at h2
        simp only [Option.map_some, Option.some.injEq] at h1 h2
        rw [← h1, ← h2, ih r r' e1 e2]
  | and a b iha ihb =>
    intro t t' h1 h2
    simp only [tst] at h1
    simp only [sv] at h2
    cases e1 : tst false s a with
    | none => rw [e1] at h1; cases h1
    | some r =>
      rw [e1] at h1
      cases e3 : sv a with
      | none =>
        rw [e3] at h2
        cases e4 : sv b with
        | none => rw [e4] at h2; cases h2
        | some q =>
          rw [e4] at h2
          cases q with
          | true => cases h2
          | false =>
            cases h2
            cases r with
            | false => simpa using h1.symm
            | true => exact ihb t false h1 e4
      | some p =>
        have hp := iha r p e1 e3
        subst hp
        rw [e3] at h2
        cases r with
        | false => simp at h1 h2; rw [h1, h2]
        | true =>
          cases e4 : sv b with
          | none => rw [e4] at h2; cases h2
          | some q =>
            rw [e4] at h2
            have := ihb t q h1 e4
            subst this
            cases t <;> simpa using h2
  | or a b iha ihb =>
    intro t t' h1 h2
    simp only [tst] at h1
    simp only [sv] at h2
    cases e1 : tst false s a with
    | none => rw [e1] at h1; cases h1
    | some r =>
      rw [e1] at h1
      cases e3 : sv a with
      | none =>
        rw [e3] at h2
        cases e4 : sv b with
        | none => rw [e4] at h2; cases h2
        | some q =>
          rw [e4] at h2
          cases q with
          | false => cases h2
          | true =>
            cases h2
            cases r with
            | true => simpa using h1.symm
            | false => exact ihb t true h1 e4
      | some p =>
        have hp := iha r p e1 e3
        subst hp
        rw [e3] at h2
        cases r with
        | true => simp at h1 h2; rw [h1, h2]
        | false =>
          cases e4 : sv b with
          | none => rw [e4] at h2; cases h2
          | some q =>
            rw [e4] at h2
            have := ihb t q h1 e4
            subst this
            cases t <;> simpa using h2

theorem guardT_opaque {O A} {c : Cond Var} (h : opaque_ (trCond O A c) = false) : guardT O A c (trCond O A c) = trCond O A c := by
  unfold guardT
  split
  · simp [trCond, opaque_] at h
  · rfl

/-- The condition of a section, evaluated lazily, has Python's value. -/
theorem sec_sim {O F A N σ s} (h : Rel O F A σ s) (hAF : ∀ x, x ∈ A → x ∈ F) (hN : Known N σ) (c : Cond Var) (b : Bool)
    (hf : foldOk O A N c = true) (hk : condOk false (ks O A N) (guardT O A c (trCond O A c)) = true) (hp : pyTest σ c = some b) :
    tst false s (secCond O A c) = some b := by
  have hK := rel_known h hAF hN
  have e := guardT_sim h hAF hK c b hk hp (fun hk' => test_sim h hAF hN c _ b hK hf hk' hp)
  unfold secCond
  cases ho : opaque_ (trCond O A c) with
  | true => simpa [ho] using e
  | false =>
    rw [guardT_opaque ho] at e
    cases hs : sv (trCond O A c) with
    | none => simp [ho, hs, guardT_opaque ho, e]
    | some r => simp [ho, hs, tst, sv_sound s _ b r e hs]

/-! ## Strict evaluation -/

theorem exprTot_tx {K : List TV} {s : St} (hK : KOk K s) (e : Expr TV) (h : exprTot K e = true) : ∃ v, tx s e = some v := by
  induction e with
  | lit n => exact ⟨n, rfl⟩
  | var t => exact hK t (by simpa [exprTot] using h)
  | add a b iha ihb =>
    simp only [exprTot, Bool.and_eq_true] at h
    obtain ⟨x, hx⟩ := iha h.1
    obtain ⟨y, hy⟩ := ihb h.2
    exact ⟨x + y, by simp [tx, hx, hy]⟩
  | div a b iha _ =>
    simp only [exprTot, Bool.and_eq_true] at h
    obtain ⟨x, hx⟩ := iha h.1
    cases b with
    | lit n => exact ⟨x.fdiv n, by have := h.2; simp at this; simp [tx, hx, this]⟩
    | _ => simp at h

theorem exprTot_ok {K : List TV} (e : Expr TV) (h : exprTot K e = true) : exprOk K e = true := by
  induction e with
  | lit n => rfl
  | var t =>
    simp only [exprTot] at h
    simp only [exprOk, evars, List.all_cons, List.all_nil, Bool.and_true]
    split
    · rfl
    · exact h
  | add a b iha ihb =>
    simp only [exprTot, Bool.and_eq_true] at h
    simpa only [exprOk, evars, List.all_append, Bool.and_eq_true] using ⟨iha h.1, ihb h.2⟩
  | div a b iha _ =>
    simp only [exprTot, Bool.and_eq_true] at h
    cases b with
    | lit n => simpa only [exprOk, evars, List.append_nil] using iha h.1
    | _ => simp at h

theorem condTot_tst {K : List TV} {s : St} (hK : KOk K s) (c : Cond TV) (h : condTot K c = true) :
    ∃ r, ∀ st, tst st s c = some r := by
  induction c with
  | const b => exact ⟨b, fun _ => rfl⟩
  | lt a b =>
    simp only [condTot, Bool.and_eq_true] at h
    obtain ⟨x, hx⟩ := exprTot_tx hK a h.1
    obtain ⟨y, hy⟩ := exprTot_tx hK b h.2
    exact ⟨decide (x < y), fun _ => by simp [tst, hx, hy]⟩
  | eq a b =>
    simp only [condTot, Bool.and_eq_true] at h
    obtain ⟨x, hx⟩ := exprTot_tx hK a h.1
    obtain ⟨y, hy⟩ := exprTot_tx hK b h.2
    exact ⟨decide (x = y), fun _ => by simp [tst, hx, hy]⟩
  | truth e =>
    obtain ⟨x, hx⟩ := exprTot_tx hK e h
    exact ⟨decide (x ≠ 0), fun _ => by simp [tst, hx]⟩
  | isNone t => exact ⟨(s t).isNone, fun _ => rfl⟩
  | notNone t => exact ⟨(s t).isSome, fun _ => rfl⟩
  | not c ih => obtain ⟨r, hr⟩ := ih h; exact ⟨!r, fun st => by simp [tst, hr st]⟩
  | and a b iha ihb =>
    simp only [condTot, Bool.and_eq_true] at h
    obtain ⟨x, hx⟩ := iha h.1
    obtain ⟨y, hy⟩ := ihb h.2
    exact ⟨x && y, fun st => by cases x <;> cases st <;> simp [tst, hx, hy]⟩
  | or a b iha ihb =>
    simp only [condTot, Bool.and_eq_true] at h
    obtain ⟨x, hx⟩ := iha h.1
    obtain ⟨y, hy⟩ := ihb h.2
    exact ⟨x || y, fun st => by cases x <;> cases st <;> simp [tst, hx, hy]⟩

theorem condOk_strict {K : List TV} {s : St} (hK : KOk K s) (c : Cond TV) :
    ∀ b, condOk true K c = true → tst false s c = some b → tst true s c = some b := by
  induction c with
  | const b => intro r _ h; exact h
  | lt a b => intro r _ h; exact h
  | eq a b => intro r _ h; exact h
  | truth e => intro r _ h; exact h
  | isNone t => intro r _ h; exact h
  | notNone t => intro r _ h; exact h
  | not c ih =>
    intro r hk h
    simp only [tst] at h ⊢
    cases e : tst false s c with
    | none => rw [e] at h; cases h
    | some q => rw [ih q hk e]; rw [e] at h; exact h
  | and a b iha ihb =>
    intro r hk h
    simp only [condOk, Bool.and_eq_true, if_true] at hk
    obtain ⟨y, hy⟩ := condTot_tst hK b hk.2
    simp only [tst] at h ⊢
    cases e : tst false s a with
    | none => rw [e] at h; cases h
    | some q =>
      rw [iha q hk.1 e]
      rw [e] at h
      cases q <;> simp [hy] at h ⊢ <;> exact h
  | or a b iha ihb =>
    intro r hk h
    simp only [condOk, Bool.and_eq_true, if_true] at hk
    obtain ⟨y, hy⟩ := condTot_tst hK b hk.2
    simp only [tst] at h ⊢
    cases e : tst false s a with
    | none => rw [e] at h; cases h
    | some q =>
      rw [iha q hk.1 e]
      rw [e] at h
      cases q <;> simp [hy] at h ⊢ <;> exact h

theorem strictOk_tst {st : Bool} {K : List TV} {s : St} (hK : KOk K s) (c : Cond TV) (b : Bool)
    (hk : strictOk st K c = true) (h : tst false s c = some b) : tst st s c = some b := by
  cases st with
  | false => exact h
  | true => exact condOk_strict hK c b (by simpa [strictOk] using hk) h

/-! ## Splitting -/

theorem conj_cons (st : Bool) (s : St) (c : Cond TV) (cs : List (Cond TV)) :
    tst st s (conj (c :: cs)) = tst st s (.and c (conj cs)) := by
  cases cs with
  | nil =>
    simp only [conj, tst]
    cases h : tst st s c with
    | none => rfl
    | some b => cases b <;> cases st <;> rfl
  | cons d ds => rfl

theorem conj_app (st : Bool) (s : St) (cs ds : List (Cond TV)) :
    tst st s (conj (cs ++ ds)) = tst st s (.and (conj cs) (conj ds)) := by
  induction cs with
  | nil => simp [conj, tst]
  | cons c cs ih =>
    rw [List.cons_append, conj_cons]
    simp only [tst] at ih ⊢
    rw [ih, conj_cons]
    simp only [tst]
    cases tst st s c with
    | none => rfl
    | some b =>
      cases b with
      | true => cases tst st s (conj cs) <;> rfl
      | false =>
        cases st with
        | false => rfl
        | true => cases tst true s (conj cs) with
          | none => rfl
          | some q => cases q <;> cases tst true s (conj ds) <;> rfl

theorem conj_conjs (st : Bool) (s : St) (c : Cond TV) : tst st s (conj (conjs c)) = tst st s c := by
  induction c with
  | and a b iha ihb => simp only [conjs]; rw [conj_app]; simp only [tst]; rw [iha, ihb]
  | _ => rfl

theorem pick_spec (all : List (Cond TV)) (cs : List (Cond TV)) : ∀ pre v rem, pick all pre cs = some (some (v, rem)) →
    ∃ l r, cs = l ++ .notNone v :: r ∧ rem = pre ++ l ++ r := by
  induction cs with
  | nil => intro pre v rem h; simp [pick] at h
  | cons c cs ih =>
    intro pre v rem h
    have step : pick all (pre ++ [c]) cs = some (some (v, rem)) → ∃ l r, c :: cs = l ++ .notNone v :: r ∧ rem = pre ++ l ++ r := by
      intro h1
      obtain ⟨l, r, e1, e2⟩ := ih _ _ _ h1
      exact ⟨c :: l, r, by rw [e1]; rfl, by rw [e2]; simp⟩
    unfold pick at h
    split at h
    · rename_i w
      split at h
      · simp only [Option.some.injEq, Prod.mk.injEq] at h
        obtain ⟨rfl, rfl⟩ := h
        exact ⟨[], cs, rfl, by simp⟩
      · exact step h
    · split at h
      · cases h
      · exact step h

theorem split_spec (s : St) (n : Nat) : ∀ cs b vs rem, split n cs = some (vs, rem) → tst false s (conj cs) = some b →
    ((∀ v ∈ vs, ∃ w, s v = some w) → tst false s (conj rem) = some b) ∧ ((∃ v ∈ vs, s v = none) → b = false) := by
  induction n with
  | zero => intro cs b vs rem h; simp [split] at h
  | succ n ih =>
    intro cs b vs rem h ht
    unfold split at h
    split at h
    · cases h
    · simp only [Option.some.injEq, Prod.mk.injEq] at h
      obtain ⟨rfl, rfl⟩ := h
      exact ⟨fun _ => ht, fun ⟨v, hv, _⟩ => absurd hv List.not_mem_nil⟩
    · rename_i v rem1 hp
      split at h
      · cases h
      · rename_i vs1 r1 hs
        simp only [Option.some.injEq, Prod.mk.injEq] at h
        obtain ⟨rfl, rfl⟩ := h
        obtain ⟨l, r, e1, e2⟩ := pick_spec _ _ _ _ _ hp
        simp only [List.nil_append] at e2
        subst e1; subst e2
        rw [conj_app] at ht
        simp only [tst] at ht
        rw [conj_cons] at ht
        simp only [tst] at ht
        cases hv : s v with
        | none =>
          have hb : b = false := by
            cases e : tst false s (conj l) with
            | none => rw [e] at ht; cases ht
            | some q => rw [e, hv] at ht; cases q <;> simpa using ht.symm
          refine ⟨fun hall => ?_, fun _ => hb⟩
          obtain ⟨w, hw⟩ := hall v (by simp)
          rw [hv] at hw; cases hw
        | some w =>
          have ht' : tst false s (conj (l ++ r)) = some b := by
            rw [conj_app]
            simp only [tst]
            rw [hv] at ht
            exact ht
          obtain ⟨i1, i2⟩ := ih _ b _ _ hs ht'
          refine ⟨fun hall => i1 (fun x hx => hall x (List.mem_cons_of_mem _ hx)), fun ⟨x, hx, hn⟩ => ?_⟩
          rcases List.mem_cons.1 hx with rfl | hx
          · rw [hv] at hn; cases hn
          · exact i2 ⟨x, hx, hn⟩

theorem all_or_none (s : St) (vs : List TV) : (∀ v ∈ vs, ∃ w, s v = some w) ∨ ∃ v ∈ vs, s v = none := by
  induction vs with
  | nil => exact .inl (fun v hv => absurd hv List.not_mem_nil)
  | cons v vs ih =>
    cases h : s v with
    | none => exact .inr ⟨v, by simp, h⟩
    | some w =>
      rcases ih with ih | ⟨x, hx, e⟩
      · refine .inl (fun x hx => ?_)
        rcases List.mem_cons.1 hx with rfl | hx
        · exact ⟨w, h⟩
        · exact ih x hx
      · exact .inr ⟨x, List.mem_cons_of_mem _ hx, e⟩

/-! ## Conditions do not read temporaries -/

def NoTmp (l : List TV) : Prop := ∀ t ∈ l, ∀ k, t ≠ .cond k

theorem tx_agree {s s1 : St} (h : Agree s s1) (e : Expr TV) (hn : NoTmp (evars e)) : tx s1 e = tx s e := by
  induction e with
  | lit n => rfl
  | var t => exact h t (hn t (by simp [evars]))
  | add a b iha ihb =>
    simp only [tx, iha (fun t ht => hn t (by simp [evars, ht])), ihb (fun t ht => hn t (by simp [evars, ht]))]
  | div a b iha ihb =>
    simp only [tx, iha (fun t ht => hn t (by simp [evars, ht])), ihb (fun t ht => hn t (by simp [evars, ht]))]

theorem tst_agree {s s1 : St} (st : Bool) (h : Agree s s1) (c : Cond TV) (hn : NoTmp (cvars c)) : tst st s1 c = tst st s c := by
  induction c with
  | const b => rfl
  | lt a b => simp only [tst, tx_agree h a (fun t ht => hn t (by simp [cvars, ht])), tx_agree h b (fun t ht => hn t (by simp [cvars, ht]))]
  | eq a b => simp only [tst, tx_agree h a (fun t ht => hn t (by simp [cvars, ht])), tx_agree h b (fun t ht => hn t (by simp [cvars, ht]))]
  | truth e => simp only [tst, tx_agree h e (fun t ht => hn t (by simp [cvars, ht]))]
  | isNone t => simp only [tst, h t (hn t (by simp [cvars]))]
  | notNone t => simp only [tst, h t (hn t (by simp [cvars]))]
  | not c ih => simp only [tst, ih (fun t ht => hn t (by simp [cvars, ht]))]
  | and a b iha ihb => simp only [tst, iha (fun t ht => hn t (by simp [cvars, ht])), ihb (fun t ht => hn t (by simp [cvars, ht]))]
  | or a b iha ihb => simp only [tst, iha (fun t ht => hn t (by simp [cvars, ht])), ihb (fun t ht => hn t (by simp [cvars, ht]))]

theorem tv_noTmp (O A x) : ∀ k, tv O A x ≠ .cond k := by
  intro k
  rcases tv_cases O A x with ⟨_, e⟩ | ⟨_, _, e⟩ | ⟨_, _, e⟩ <;> rw [e] <;> simp

theorem trE_noTmp (O A) (e : Expr Var) : NoTmp (evars (trE O A e)) := by
  induction e with
  | lit n => intro t ht; exact absurd ht List.not_mem_nil
  | var x => intro t ht; simp only [trE, evars, List.mem_singleton] at ht; subst ht; exact tv_noTmp O A x
  | add a b iha ihb => intro t ht; exact (List.mem_append.1 ht).elim (fun h => iha t h) (fun h => ihb t h)
  | div a b iha ihb => intro t ht; exact (List.mem_append.1 ht).elim (fun h => iha t h) (fun h => ihb t h)

theorem guardT_noTmp (O A) (c : Cond Var) (c' : Cond TV) (h : NoTmp (cvars c')) : NoTmp (cvars (guardT O A c c')) := by
  unfold guardT
  split
  · split
    · intro t ht
      simp only [cvars, List.singleton_append, List.mem_cons] at ht
      rcases ht with rfl | ht
      · simp
      · exact h t ht
    · exact h
  · exact h

theorem trCond_noTmp (O A) (c : Cond Var) : NoTmp (cvars (trCond O A c)) := by
  induction c with
  | const b => intro t ht; exact absurd ht List.not_mem_nil
  | lt a b => intro t ht; exact (List.mem_append.1 ht).elim (fun h => trE_noTmp O A a t h) (fun h => trE_noTmp O A b t h)
  | eq a b => intro t ht; exact (List.mem_append.1 ht).elim (fun h => trE_noTmp O A a t h) (fun h => trE_noTmp O A b t h)
  | truth e => exact trE_noTmp O A e
  | isNone x =>
    intro t ht
    simp only [trCond] at ht
    split at ht <;> simp [cvars] at ht
    subst ht; simp
  | notNone x =>
    intro t ht
    simp only [trCond] at ht
    split at ht <;> simp [cvars] at ht
    subst ht; simp
  | not c ih => exact ih
  | and a b iha ihb =>
    intro t ht; exact (List.mem_append.1 ht).elim (fun h => guardT_noTmp O A a _ iha t h) (fun h => guardT_noTmp O A b _ ihb t h)
  | or a b iha ihb =>
    intro t ht; exact (List.mem_append.1 ht).elim (fun h => guardT_noTmp O A a _ iha t h) (fun h => guardT_noTmp O A b _ ihb t h)

theorem secCond_noTmp (O A) (c : Cond Var) : NoTmp (cvars (secCond O A c)) := by
  unfold secCond
  simp only
  split
  · intro t ht; exact absurd ht List.not_mem_nil
  · exact guardT_noTmp O A c _ (trCond_noTmp O A c)

theorem conj_vars (cs : List (Cond TV)) : ∀ t, t ∈ cvars (conj cs) ↔ t ∈ cs.flatMap cvars := by
  induction cs with
  | nil => intro t; simp [conj, cvars]
  | cons c cs ih =>
    intro t
    cases cs with
    | nil => simp [conj]
    | cons d ds =>
      have := ih t
      simp only [conj, cvars, List.mem_append, List.flatMap_cons] at this ⊢
      rw [this]

theorem conjs_vars (c : Cond TV) : ∀ t, t ∈ (conjs c).flatMap cvars → t ∈ cvars c := by
  induction c with
  | and a b iha ihb =>
    intro t ht
    simp only [conjs, List.flatMap_append, List.mem_append] at ht
    simp only [cvars, List.mem_append]
    exact ht.imp (iha t) (ihb t)
  | _ => intro t ht; simpa [conjs] using ht

theorem split_vars (n : Nat) : ∀ cs vs rem, split n cs = some (vs, rem) → ∀ t, (t ∈ rem.flatMap cvars ∨ t ∈ vs) → t ∈ cs.flatMap cvars := by
  induction n with
  | zero => intro cs vs rem h; simp [split] at h
  | succ n ih =>
    intro cs vs rem h t ht
    unfold split at h
    split at h
    · cases h
    · simp only [Option.some.injEq, Prod.mk.injEq] at h
      obtain ⟨rfl, rfl⟩ := h
      rcases ht with ht | ht
      · exact ht
      · exact absurd ht List.not_mem_nil
    · rename_i v rem1 hp
      split at h
      · cases h
      · rename_i vs1 r1 hs
        simp only [Option.some.injEq, Prod.mk.injEq] at h
        obtain ⟨rfl, rfl⟩ := h
        obtain ⟨l, r, e1, e2⟩ := pick_spec _ _ _ _ _ hp
        simp only [List.nil_append] at e2
        have lift : t ∈ rem1.flatMap cvars → t ∈ cs.flatMap cvars := by
          intro hm
          subst e2; subst e1
          simp only [List.flatMap_append, List.flatMap_cons, List.mem_append] at hm ⊢
          exact hm.imp id (fun h => .inr h)
        rcases ht with ht | ht
        · exact lift (ih _ _ _ hs t (.inl ht))
        · rcases List.mem_cons.1 ht with rfl | ht
          · subst e1
            simp [cvars]
          · exact lift (ih _ _ _ hs t (.inr ht))

theorem split_noTmp {c : Cond TV} (hc : NoTmp (cvars c)) {n vs rem} (h : split n (conjs c) = some (vs, rem)) :
    NoTmp (cvars (conj rem)) ∧ NoTmp vs :=
  ⟨fun t ht => hc t (conjs_vars c t (split_vars n _ _ _ h t (.inl ((conj_vars rem t).1 ht)))),
   fun t ht => hc t (conjs_vars c t (split_vars n _ _ _ h t (.inr ht)))⟩

end Verif.Optional
