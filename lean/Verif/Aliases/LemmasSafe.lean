import Verif.Aliases.Lemmas

/-!
# Arrays shared by several variables: the generated program follows Python
-/

namespace Verif.Aliases.Lemmas
open Spec Model

def Sub (R R' : Rel) : Prop := ∀ p t, R p t → R' p t

theorem Sub.refl (R : Rel) : Sub R R := fun _ _ h => h
theorem Sub.trans {A B C : Rel} (h1 : Sub A B) (h2 : Sub B C) : Sub A C := fun _ _ h => h2 _ _ (h1 _ _ h)

/-- New arrays are only given to variables to which no pointers exist.  The relations: the targets pointers
may have before and after. -/
inductive Safe (K : Var → Option Kind) : Stmt → Code → Rel → Rel → Prop
  | skip {R R'} : Sub R R' → Safe K .skip .skip R R'
  | fresh {R R' x ys f same inPlace} : K x = some .heap → (∀ p, ¬ R p x) → (inPlace = false → x ∉ ys) →
      (inPlace = true → same = true) → Sub R R' → Safe K (.fresh x ys f same) (.fresh x ys f inPlace) R R'
  | bind {R R' p y idx} : K p = some .alias → (K y ≠ some .alias → R' p y) →
      (K y = some .alias → ∀ t, R y t → R' p t) → Sub R R' → Safe K (.bind p y idx) (.bind p y idx) R R'
  | self {R R' p} : Sub R R' → Safe K (.bind p p none) .skip R R'
  | store {R R' x ys f} : Sub R R' → Safe K (.store x ys f) (.store x ys f) R R'
  | print {R R' x} : Sub R R' → Safe K (.print x) (.print x) R R'
  | del {R R' x} : K x = some .heap → (∀ p, ¬ R p x) → Sub R R' → Safe K (.del x) (.del x true) R R'
  | forget {R R' x} : K x = some .alias → Sub R R' → Safe K (.del x) (.del x false) R R'
  | ret {R R'} : Sub R R' → Safe K .ret .ret R R'
  | seq {R R1 R' a a' b b'} : Safe K a a' R R1 → Safe K b b' R1 R' → Safe K (.seq a b) (.seq a' b') R R'
  | ite {R R1 R' ys c a a' b b'} : Safe K a a' R R1 → Safe K b b' R1 R' →
      Safe K (.ite ys c a b) (.ite ys c a' b') R R'
  | loop {R R1 R' ys n b b'} : Sub R R1 → Safe K b b' R1 R1 → Sub R1 R' →
      Safe K (.loop ys n b) (.loop ys n b') R R'

/-- The same for the pointers only. -/
inductive Flow (K : Var → Option Kind) : Stmt → Rel → Rel → Prop
  | other {st R R'} : st.sources = [] → Sub R R' → Flow K st R R'
  | bind {R R' p y idx} : (K y ≠ some .alias → R' p y) →
      (K y = some .alias → ∀ t, R y t → R' p t) → Sub R R' → Flow K (.bind p y idx) R R'
  | seq {R R1 R' a b} : Flow K a R R1 → Flow K b R1 R' → Flow K (.seq a b) R R'
  | ite {R R1 R' ys c a b} : Flow K a R R1 → Flow K b R1 R' → Flow K (.ite ys c a b) R R'
  | loop {R R1 R' ys n b} : Sub R R1 → Flow K b R1 R1 → Sub R1 R' → Flow K (.loop ys n b) R R'

variable {K : Var → Option Kind} {n0 : Nat} {e0 : Var → Option Ref}

theorem Safe.sub {st : Stmt} {co : Code} {R R' : Rel} (h : Safe K st co R R') : Sub R R' := by
  induction h with
  | skip h => exact h
  | fresh _ _ _ _ h => exact h
  | bind _ _ _ h => exact h
  | self h => exact h
  | store h => exact h
  | print h => exact h
  | del _ _ h => exact h
  | forget _ h => exact h
  | ret h => exact h
  | seq _ _ h1 h2 => exact h1.trans h2
  | ite _ _ h1 h2 => exact h1.trans h2
  | loop h1 _ h2 _ => exact h1.trans h2

theorem Safe.mono {st : Stmt} {co : Code} {R R' R'' : Rel} (h : Safe K st co R R') (hs : Sub R' R'') :
    Safe K st co R R'' := by
  induction h with
  | skip h => exact .skip (h.trans hs)
  | fresh h1 h2 h3 h4 h => exact .fresh h1 h2 h3 h4 (h.trans hs)
  | bind h1 h2 h3 h => exact .bind h1 (fun e => hs _ _ (h2 e)) (fun e t ht => hs _ _ (h3 e t ht)) (h.trans hs)
  | self h => exact .self (h.trans hs)
  | store h => exact .store (h.trans hs)
  | print h => exact .print (h.trans hs)
  | del h1 h2 h => exact .del h1 h2 (h.trans hs)
  | forget h1 h => exact .forget h1 (h.trans hs)
  | ret h => exact .ret (h.trans hs)
  | seq h1 _ _ h2 => exact .seq h1 (h2 hs)
  | ite h1 _ _ h2 => exact .ite h1 (h2 hs)
  | loop h1 h2 h3 => exact .loop h1 h2 (h3.trans hs)

theorem Flow.mono {st : Stmt} {R R' R'' : Rel} (h : Flow K st R R') (hs : Sub R' R'') :
    Flow K st R R'' := by
  induction h with
  | other h1 h => exact .other h1 (h.trans hs)
  | bind h2 h3 h => exact .bind (fun e => hs _ _ (h2 e)) (fun e t ht => hs _ _ (h3 e t ht)) (h.trans hs)
  | seq h1 _ _ h2 => exact .seq h1 (h2 hs)
  | ite h1 _ _ h2 => exact .ite h1 (h2 hs)
  | loop h1 h2 h3 => exact .loop h1 h2 (h3.trans hs)

def Both (R P : Rel) : Rel := fun p t => R p t ∧ P p t

theorem Both.sub {R P R' P' : Rel} (h1 : Sub R R') (h2 : Sub P P') : Sub (Both R P) (Both R' P') :=
  fun p t h => ⟨h1 p t h.1, h2 p t h.2⟩

theorem Flow.sub {st : Stmt} {R R' : Rel} (h : Flow K st R R') : Sub R R' := by
  induction h with
  | other _ h => exact h
  | bind _ _ h => exact h
  | seq _ _ h1 h2 => exact h1.trans h2
  | ite _ _ h1 h2 => exact h1.trans h2
  | loop h1 _ h2 _ => exact h1.trans h2

theorem Flow.seq_inv {a b : Stmt} {P P' : Rel} (h : Flow K (.seq a b) P P') :
    ∃ P1, Flow K a P P1 ∧ Flow K b P1 P' := by
  cases h with
  | other h1 h2 =>
    simp only [Stmt.sources, List.append_eq_nil_iff] at h1
    exact ⟨P', .other h1.1 h2, .other h1.2 (Sub.refl _)⟩
  | seq h1 h2 => exact ⟨_, h1, h2⟩

theorem Flow.ite_inv {ys : List Var} {c : List Vals → Bool} {a b : Stmt} {P P' : Rel}
    (h : Flow K (.ite ys c a b) P P') : ∃ P1, Flow K a P P1 ∧ Flow K b P1 P' := by
  cases h with
  | other h1 h2 =>
    simp only [Stmt.sources, List.append_eq_nil_iff] at h1
    exact ⟨P', .other h1.1 h2, .other h1.2 (Sub.refl _)⟩
  | ite h1 h2 => exact ⟨_, h1, h2⟩

theorem Flow.loop_inv {ys : List Var} {n : List Vals → Nat} {b : Stmt} {P P' : Rel}
    (h : Flow K (.loop ys n b) P P') : ∃ P1, Sub P P1 ∧ Flow K b P1 P1 ∧ Sub P1 P' := by
  cases h with
  | other h1 h2 => exact ⟨P', h2, .other h1 (Sub.refl _), Sub.refl _⟩
  | loop h1 h2 h3 => exact ⟨_, h1, h2, h3⟩

theorem Safe.both {st : Stmt} {co : Code} {R R' : Rel} (h : Safe K st co R R') :
    ∀ {P P' : Rel}, Flow K st P P' → Safe K st co (Both R P) (Both R' P') := by
  induction h with
  | skip h => exact fun hf => .skip (Both.sub h hf.sub)
  | fresh h1 h2 h3 h4 h => exact fun hf => .fresh h1 (fun p hp => h2 p hp.1) h3 h4 (Both.sub h hf.sub)
  | bind h1 h2 h3 h =>
    intro P P' hf
    cases hf with
    | other h1 _ => simp [Stmt.sources] at h1
    | bind g2 g3 g =>
      exact .bind h1 (fun e => ⟨h2 e, g2 e⟩) (fun e t ht => ⟨h3 e t ht.1, g3 e t ht.2⟩) (Both.sub h g)
  | self h => exact fun hf => .self (Both.sub h hf.sub)
  | store h => exact fun hf => .store (Both.sub h hf.sub)
  | print h => exact fun hf => .print (Both.sub h hf.sub)
  | del h1 h2 h => exact fun hf => .del h1 (fun p hp => h2 p hp.1) (Both.sub h hf.sub)
  | forget h1 h => exact fun hf => .forget h1 (Both.sub h hf.sub)
  | ret h => exact fun hf => .ret (Both.sub h hf.sub)
  | seq _ _ h1 h2 =>
    intro P P' hf
    obtain ⟨P1, g1, g2⟩ := hf.seq_inv
    exact .seq (h1 g1) (h2 g2)
  | ite _ _ h1 h2 =>
    intro P P' hf
    obtain ⟨P1, g1, g2⟩ := hf.ite_inv
    exact .ite (h1 g1) (h2 g2)
  | loop h1 _ h3 h2 =>
    intro P P' hf
    obtain ⟨P1, g1, g2, g3⟩ := hf.loop_inv
    exact .loop (Both.sub h1 g1) (h2 g2) (Both.sub h3 g3)

theorem mapM_congr {α β : Type} {f g : α → Option β} : ∀ (xs : List α), (∀ x ∈ xs, f x = g x) →
    xs.mapM f = xs.mapM g
  | [], _ => rfl
  | x :: xs, h => by
    simp only [List.mapM_cons]
    rw [h x (List.mem_cons_self ..), mapM_congr xs (fun y hy => h y (List.mem_cons_of_mem _ hy))]

theorem repeat_sim {σ τ : Type} {f : σ → Option (σ × Bool)} {g : τ → Option (τ × Bool)} {I : σ → τ → Prop}
    (hfg : ∀ s c s' fin, I s c → f s = some (s', fin) → ∃ c', g c = some (c', fin) ∧ I s' c') :
    ∀ (n : Nat) (s : σ) (c : τ) (s' : σ) (fin : Bool), I s c → repeatN f n s = some (s', fin) →
      ∃ c', repeatN g n c = some (c', fin) ∧ I s' c'
  | 0, s, c, s', fin, hi, e => by
    simp [repeatN] at e
    exact ⟨c, by simp [repeatN, e.2], by rw [← e.1]; exact hi⟩
  | n + 1, s, c, s', fin, hi, e => by
    simp only [repeatN] at e ⊢
    cases hf : f s with
    | none => simp [hf] at e
    | some r =>
      obtain ⟨s1, f1⟩ := r
      obtain ⟨c1, g1, hi1⟩ := hfg s c s1 f1 hi hf
      simp [hf] at e
      simp [g1]
      cases f1 with
      | true =>
        simp at e
        exact ⟨c1, by simp [e.2], by rw [← e.1]; exact hi1⟩
      | false =>
        simp at e
        simpa using repeat_sim hfg n s1 c1 s' fin hi1 e

theorem Safe.sim (L : Lang) {st : Stmt} {co : Code} {R R' : Rel} (h : Safe K st co R R') :
    ∀ {s : Py} {c : Mach} {s' : Py} {fin : Bool}, Sim K n0 e0 R s c → Py.exec st s = some (s', fin) →
      ∃ c', exec L co c = some (c', fin) ∧ Sim K n0 e0 R' s' c' := by
  induction h with
  | skip h =>
    intro s c s' fin hs e
    simp [Py.exec] at e
    exact ⟨c, by simp [exec, e.2], by rw [← e.1]; exact hs.mono h⟩
  | ret h =>
    intro s c s' fin hs e
    simp [Py.exec] at e
    exact ⟨c, by simp [exec, e.2], by rw [← e.1]; exact hs.mono h⟩
  | @fresh R R' x ys f same inPlace hx hn hys hin h =>
    intro s c s' fin hs e
    simp only [Py.exec] at e
    cases hm : ys.mapM s.read with
    | none => simp [hm] at e
    | some vs =>
      simp [hm] at e
      obtain ⟨hfit, rfl, rfl⟩ := e
      have hc := hs.reads hm
      simp only [exec, hc, Option.bind_eq_bind, Option.bind_some]
      by_cases hk : (inPlace || keeps L c x (f vs)) = true
      · have : ∃ r, s.env x = some r ∧ r.pos.length = (f vs).length := by
          cases hi : inPlace with
          | true =>
            have hsame := hin hi
            cases hr : s.env x with
            | none => simp [Py.fits, hsame, hr] at hfit
            | some r =>
              simp [Py.fits, hsame, hr] at hfit
              exact ⟨r, rfl, hfit⟩
          | false =>
            rw [hi] at hk
            simp only [Bool.false_or, keeps, Bool.and_eq_true] at hk
            cases hb : c.env x with
            | none => simp [hb] at hk
            | some b =>
              simp [hb] at hk
              cases hr : s.env x with
              | none => rw [hs.unbound x (by rw [hx]; simp) hr] at hb; cases hb
              | some r => exact ⟨r, rfl, by rw [← (hs.cenv hr hb).1]; exact hk.2⟩
        obtain ⟨r, hr, hl⟩ := this
        obtain ⟨c', h1, h2⟩ := hs.reuse hx hn hr hl
        rw [if_pos hk]
        exact ⟨c', by simp [h1], h2.mono h⟩
      · rw [if_neg hk]
        have hi : inPlace = false := by
          cases hi : inPlace with
          | true => simp [hi] at hk
          | false => rfl
        obtain ⟨c1, h1, h2⟩ := hs.free hx hn
        have hm' : ys.mapM (Py.read { s with env := setEnv s.env x none }) = some vs := by
          rw [← hm]
          refine mapM_congr ys fun y hy => ?_
          have hyx : y ≠ x := by rintro rfl; exact hys hi hy
          simp [Py.read, setEnv_ne hyx]
        have hc' := h2.reads hm'
        have h3 := h2.alloc hx (setEnv_self _ _ _) (f vs)
        refine ⟨c1.alloc x (f vs), by simp [h1, hc'], ?_⟩
        have : setEnv (setEnv s.env x none) x (some ⟨s.objs.length, List.range (f vs).length⟩) =
            setEnv s.env x (some ⟨s.objs.length, List.range (f vs).length⟩) := by
          funext v
          by_cases hv : v = x
          · rw [hv, setEnv_self, setEnv_self]
          · rw [setEnv_ne hv, setEnv_ne hv, setEnv_ne hv]
        simp only [this] at h3
        exact h3.mono h
  | @bind R R' p y idx hp hy hya h =>
    intro s c s' fin hs e
    simp only [Py.exec] at e
    cases hr : s.env y with
    | none => simp [hr] at e
    | some r =>
      cases hsel : select r.pos idx with
      | none => simp [hr, hsel] at e
      | some pos =>
        simp [hr, hsel] at e
        obtain ⟨rfl, rfl⟩ := e
        obtain ⟨b, h1, h2⟩ := hs.bind (pos := pos) hp hr h hy hya
        exact ⟨_, by simp only [exec, h1, hsel, Option.bind_eq_bind, Option.bind_some]; rfl, h2⟩
  | @self R R' p h =>
    intro s c s' fin hs e
    simp only [Py.exec] at e
    cases hr : s.env p with
    | none => simp [hr] at e
    | some r =>
      simp [hr, select] at e
      obtain ⟨rfl, rfl⟩ := e
      have : setEnv s.env p (some ⟨r.buf, r.pos⟩) = s.env := by
        funext v
        by_cases hv : v = p
        · rw [hv, setEnv_self, hr]
        · exact setEnv_ne hv
      exact ⟨c, rfl, by simp only [this]; exact hs.mono h⟩
  | @store R R' x ys f h =>
    intro s c s' fin hs e
    simp only [Py.exec] at e
    cases hm : ys.mapM s.read with
    | none => simp [hm] at e
    | some vs =>
      cases hr : s.env x with
      | none => simp [hm, hr] at e
      | some r =>
        cases hu : s.objs[r.buf]? with
        | none => simp [hm, hr, hu] at e
        | some u =>
          cases hw : scatter u r.pos (f vs) with
          | none => simp [hm, hr, hu, hw] at e
          | some w =>
            simp [hm, hr, hu, hw] at e
            obtain ⟨rfl, rfl⟩ := e
            obtain ⟨c', h1, h2⟩ := hs.store hr hu hw (scatter_length _ _ _ _ hw)
            exact ⟨c', by simp [exec, hs.reads hm, h1], h2.mono h⟩
  | @print R R' x h =>
    intro s c s' fin hs e
    simp only [Py.exec] at e
    cases hv : s.read x with
    | none => simp [hv] at e
    | some v =>
      simp [hv] at e
      obtain ⟨rfl, rfl⟩ := e
      exact ⟨{ c with out := c.out ++ [v] },
        by simp only [exec, hs.read hv, Option.bind_eq_bind, Option.bind_some]; rfl,
        { hs.mono h with out := by simp [hs.out] }⟩
  | @del R R' x hx hn h =>
    intro s c s' fin hs e
    simp only [Py.exec] at e
    cases hr : s.env x with
    | none => simp [hr] at e
    | some r =>
      simp [hr] at e
      obtain ⟨rfl, rfl⟩ := e
      obtain ⟨c', h1, h2⟩ := hs.free hx hn
      exact ⟨c', by simp [exec, h1], h2.mono h⟩
  | @forget R R' x hx h =>
    intro s c s' fin hs e
    simp only [Py.exec] at e
    cases hr : s.env x with
    | none => simp [hr] at e
    | some r =>
      simp [hr] at e
      obtain ⟨rfl, rfl⟩ := e
      exact ⟨c, by simp [exec], (hs.forget hx).mono h⟩
  | @seq R R1 R' a a' b b' ha hb iha ihb =>
    intro s c s' fin hs e
    simp only [Py.exec] at e
    cases h1 : Py.exec a s with
    | none => simp [h1] at e
    | some q =>
      obtain ⟨s1, f1⟩ := q
      obtain ⟨c1, g1, g2⟩ := iha hs h1
      simp [h1] at e
      cases f1 with
      | true =>
        simp at e
        obtain ⟨rfl, rfl⟩ := e
        exact ⟨c1, by simp [exec, g1], g2.mono hb.sub⟩
      | false =>
        simp at e
        obtain ⟨c2, k1, k2⟩ := ihb g2 e
        exact ⟨c2, by simp [exec, g1, k1], k2⟩
  | @ite R R1 R' ys cnd a a' b b' ha hb iha ihb =>
    intro s c s' fin hs e
    simp only [Py.exec] at e
    cases hm : ys.mapM s.read with
    | none => simp [hm] at e
    | some vs =>
      simp only [hm, Option.bind_eq_bind, Option.bind_some] at e
      simp only [exec, hs.reads hm, Option.bind_eq_bind, Option.bind_some]
      by_cases hc : cnd vs = true
      · rw [if_pos hc] at e ⊢
        obtain ⟨c1, g1, g2⟩ := iha hs e
        exact ⟨c1, g1, g2.mono hb.sub⟩
      · rw [if_neg hc] at e ⊢
        exact ihb (hs.mono ha.sub) e
  | @loop R R1 R' ys n b b' h1 hb h2 ihb =>
    intro s c s' fin hs e
    simp only [Py.exec] at e
    cases hm : ys.mapM s.read with
    | none => simp [hm] at e
    | some vs =>
      simp only [hm, Option.bind_eq_bind, Option.bind_some] at e
      simp only [exec, hs.reads hm, Option.bind_eq_bind, Option.bind_some]
      obtain ⟨c', g1, g2⟩ := repeat_sim (I := Sim K n0 e0 R1) (f := Py.exec b) (g := exec L b')
        (fun s c s' fin hi he => ihb hi he) (n vs) s c s' fin (hs.mono h1) e
      exact ⟨c', g1, g2.mono h2⟩

end Verif.Aliases.Lemmas
