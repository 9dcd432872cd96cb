/-
Lemmas for `Verif.PyOut.Props`: tests on arguments.
-/
import Verif.PyOut.Model

namespace Verif.PyOut.Lemmas

open Spec Model

theorem allTest_spec (f : Val → Option Bool) (P : Val → Prop) (h : ∀ e, ∃ b, f e = some b ∧ (b = true ↔ P e)) (l : List Val) :
    ∃ b, allTest f l = some b ∧ (b = true ↔ ∀ e ∈ l, P e) := by
  induction l with
  | nil => exact ⟨true, rfl, by simp⟩
  | cons a l ih =>
    obtain ⟨b, hb, hP⟩ := h a
    obtain ⟨c, hc, hl⟩ := ih
    cases b with
    | true => exact ⟨c, by simp [allTest, hb, hc], by simp [hl, hP.1 rfl]⟩
    | false =>
      refine ⟨false, by simp [allTest, hb], ?_⟩
      have : ¬ P a := fun hp => by simpa using hP.2 hp
      simp [this]

theorem eval_and (a b : Test) (env : Nat → Val) {x y : Bool} (ha : a.eval env = some x) (hb : x = true → b.eval env = some y) :
    (a.and b).eval env = some (x && y) := by
  cases x with
  | true => simp [Test.eval, ha, hb rfl]
  | false => simp [Test.eval, ha]

theorem checks_eval (t : Ty) : ∀ (tmp x : Nat) (T : Test) (env : Nat → Val), checks tmp x t = some T →
    ∃ b, T.eval env = some b ∧ (b = true ↔ Fits (env x) t) := by
  induction t with
  | num c =>
    intro tmp x T env h
    simp only [checks, Option.some.injEq] at h
    subst h
    cases he : env x with
    | obj d => exact ⟨subclass d c, by simp [Test.eval, he], by simp [Fits]⟩
    | array => exact ⟨false, by simp [Test.eval, he], by simp [Fits]⟩
    | seq => exact ⟨false, by simp [Test.eval, he], by simp [Fits]⟩
  | array dt r o =>
    intro tmp x T env h
    simp only [checks, Option.some.injEq] at h
    subst h
    cases he : env x with
    | obj d => exact ⟨false, by cases o <;> simp [Test.eval, he], by simp [Fits]⟩
    | seq => exact ⟨false, by cases o <;> simp [Test.eval, he], by simp [Fits]⟩
    | array d n c f =>
      cases o with
      | none =>
        refine ⟨d == dt && n == r, ?_, ?_⟩
        · cases h1 : d == dt <;> simp [Test.eval, he, h1]
        · simp only [Bool.and_eq_true, beq_iff_eq, Fits, Val.array.injEq]
          constructor
          · rintro ⟨rfl, rfl⟩; exact ⟨c, f, ⟨rfl, rfl, rfl, rfl⟩, by simp, by simp⟩
          · rintro ⟨_, _, ⟨rfl, rfl, _, _⟩, _⟩; exact ⟨rfl, rfl⟩
      | some o =>
        refine ⟨(d == dt && n == r) && (match o with | .C => c | .F => f), ?_, ?_⟩
        · cases h1 : d == dt <;> cases h2 : n == r <;> cases o <;> simp [Test.eval, he, h1, h2]
        · simp only [Bool.and_eq_true, beq_iff_eq, Fits, Val.array.injEq]
          constructor
          · rintro ⟨⟨rfl, rfl⟩, h⟩
            refine ⟨c, f, ⟨rfl, rfl, rfl, rfl⟩, ?_, ?_⟩ <;> intro ho <;> simp only [Option.some.injEq] at ho <;> subst ho <;> exact h
          · rintro ⟨c', f', ⟨rfl, rfl, rfl, rfl⟩, h1, h2⟩
            refine ⟨⟨rfl, rfl⟩, ?_⟩
            cases o with
            | C => exact h1 rfl
            | F => exact h2 rfl
  | seq k t ih =>
    intro tmp x T env h
    simp only [checks, Option.map_eq_some_iff] at h
    obtain ⟨e, he, rfl⟩ := h
    cases hx : env x with
    | obj d => exact ⟨false, by simp [Test.eval, hx], by simp [Fits]⟩
    | array => exact ⟨false, by simp [Test.eval, hx], by simp [Fits]⟩
    | seq k' es =>
      obtain ⟨b, hb, hi⟩ := allTest_spec (fun v => e.eval (fun z => if z = tmp then v else env z)) (fun v => Fits v t) (fun v => by
        obtain ⟨b, h1, h2⟩ := ih (tmp + 1) tmp e (fun z => if z = tmp then v else env z) he
        exact ⟨b, h1, by simpa using h2⟩) es
      refine ⟨k' == k && b, ?_, ?_⟩
      · cases h1 : k' == k <;> simp [Test.eval, hx, h1, hb]
      · simp only [Bool.and_eq_true, beq_iff_eq, Fits, Val.seq.injEq]
        constructor
        · rintro ⟨rfl, h⟩; exact ⟨es, ⟨rfl, rfl⟩, hi.1 h⟩
        · rintro ⟨es', ⟨rfl, rfl⟩, h⟩; exact ⟨rfl, hi.2 h⟩
  | other c => intro tmp x T env h; cases h

theorem checks_some (t : Ty) : ∀ (tmp x : Nat), Testable t → ∃ T, checks tmp x t = some T := by
  induction t with
  | num c => intro tmp x _; exact ⟨_, rfl⟩
  | array dt r o => intro tmp x _; exact ⟨_, rfl⟩
  | seq k t ih =>
    intro tmp x h
    obtain ⟨T, hT⟩ := ih (tmp + 1) tmp h
    exact ⟨(Test.isSeq x k).and (.all T tmp x), by simp only [checks, hT, Option.map_some]⟩
  | other c => intro tmp x h; exact h.elim

/-- The values from the argument `i` on are accepted. -/
def Acc (env : Nat → Val) (i : Nat) (ts : List Ty) : Prop := ∀ k t, ts[k]? = some t → Fits (env (i + k)) t

theorem acc_cons (env : Nat → Val) (i : Nat) (t : Ty) (ts : List Ty) : Acc env i (t :: ts) ↔ Fits (env i) t ∧ Acc env (i + 1) ts := by
  constructor
  · intro h
    refine ⟨by simpa using h 0 t (by simp), fun k u hu => ?_⟩
    have := h (k + 1) u (by simpa using hu)
    rwa [show i + (k + 1) = i + 1 + k from by omega] at this
  · rintro ⟨h0, h⟩ k u hu
    cases k with
    | zero => simp only [List.getElem?_cons_zero, Option.some.injEq] at hu; subst hu; exact h0
    | succ k =>
      have := h k u (by simpa using hu)
      rwa [show i + 1 + k = i + (k + 1) from by omega] at this

theorem conj_eval (n : Nat) (env : Nat → Val) : ∀ (ts : List Ty) (i : Nat) (r : Option Test), conj n i ts = some r →
    (r = none → ts = []) ∧ (∀ T, r = some T → ∃ b, T.eval env = some b ∧ (b = true ↔ Acc env i ts)) := by
  intro ts
  induction ts with
  | nil => intro i r h; simp only [conj, Option.some.injEq] at h; subst h; exact ⟨fun _ => rfl, fun T hT => by cases hT⟩
  | cons t ts ih =>
    intro i r h
    simp only [conj, Option.bind_eq_some_iff, Option.map_eq_some_iff] at h
    obtain ⟨a, ha, r', hr', rfl⟩ := h
    obtain ⟨h1, h2⟩ := ih (i + 1) r' hr'
    refine ⟨fun h => (by cases h), fun T hT => ?_⟩
    obtain ⟨b, hb, hf⟩ := checks_eval t n i a env ha
    cases r' with
    | none =>
      simp only [Option.some.injEq] at hT
      subst hT
      have := h1 rfl
      subst this
      exact ⟨b, hb, by rw [acc_cons]; simp [hf, Acc]⟩
    | some c =>
      simp only [Option.some.injEq] at hT
      subst hT
      obtain ⟨b', hb', hf'⟩ := h2 c rfl
      exact ⟨b && b', eval_and a c env hb (fun _ => hb'), by rw [acc_cons]; simp [hf, hf']⟩

theorem conj_some (n : Nat) : ∀ (ts : List Ty) (i : Nat), (∀ t ∈ ts, Testable t) → ∃ r, conj n i ts = some r := by
  intro ts
  induction ts with
  | nil => intro i _; exact ⟨_, rfl⟩
  | cons t ts ih =>
    intro i h
    obtain ⟨T, hT⟩ := checks_some t n i (h t (by simp))
    obtain ⟨r, hr⟩ := ih (i + 1) (fun u hu => h u (by simp [hu]))
    exact ⟨_, by simp only [conj, hT, hr, Option.bind_some, Option.map_some]; rfl⟩

theorem disj_eval (env : Nat → Val) : ∀ (ss : List (List Ty)) (r : Option Test), (∀ s ∈ ss, s ≠ []) → disj ss = some r →
    (r = none → ss = []) ∧ (∀ T, r = some T → ∃ b, T.eval env = some b ∧ (b = true ↔ ∃ s ∈ ss, Acc env 0 s)) := by
  intro ss
  induction ss with
  | nil => intro r _ h; simp only [disj, Option.some.injEq] at h; subst h; exact ⟨fun _ => rfl, fun T hT => by cases hT⟩
  | cons s ss ih =>
    intro r hne h
    simp only [disj, Option.bind_eq_some_iff, Option.map_eq_some_iff] at h
    obtain ⟨a, ha, r', hr', rfl⟩ := h
    obtain ⟨h1, h2⟩ := ih r' (fun u hu => hne u (by simp [hu])) hr'
    obtain ⟨h3, h4⟩ := conj_eval s.length env s 0 a ha
    cases a with
    | none => exact absurd (h3 rfl) (hne s (by simp))
    | some a =>
      obtain ⟨b, hb, hf⟩ := h4 a rfl
      cases r' with
      | none =>
        have := h1 rfl
        subst this
        exact ⟨fun h => (by cases h), fun T hT => (by cases hT; exact ⟨b, hb, by simp [hf]⟩)⟩
      | some c =>
        obtain ⟨b', hb', hf'⟩ := h2 c rfl
        refine ⟨fun h => (by cases h), fun T hT => ?_⟩
        cases hT
        refine ⟨b || b', ?_, by simp [hf, hf']⟩
        cases b <;> simp [Test.eval, hb, hb']

theorem disj_some : ∀ (ss : List (List Ty)), (∀ s ∈ ss, ∀ t ∈ s, Testable t) → ∃ r, disj ss = some r := by
  intro ss
  induction ss with
  | nil => intro _; exact ⟨_, rfl⟩
  | cons s ss ih =>
    intro h
    obtain ⟨a, ha⟩ := conj_some s.length s 0 (h s (by simp))
    obtain ⟨r, hr⟩ := ih (fun u hu => h u (by simp [hu]))
    exact ⟨_, by simp only [disj, ha, hr, Option.bind_some, Option.map_some]; rfl⟩

theorem branches_choose (env : Nat → Val) : ∀ (p : List (Nat × List (List Ty))) (l : List (Test × Nat)),
    (∀ e ∈ p, ∀ s ∈ e.2, s ≠ []) → branches p = some l →
    ∃ r, choose env l = some r ∧ (r = none → ∀ e ∈ p, ∀ s ∈ e.2, ¬ Acc env 0 s) ∧
      (∀ b, r = some b → ∃ e ∈ p, e.1 = b ∧ ∃ s ∈ e.2, Acc env 0 s) := by
  intro p
  induction p with
  | nil =>
    intro l _ h
    simp only [branches, Option.some.injEq] at h
    subst h
    exact ⟨none, rfl, by simp, by simp⟩
  | cons e p ih =>
    intro l hne h
    obtain ⟨b, ss⟩ := e
    simp only [branches, Option.bind_eq_some_iff, Option.map_eq_some_iff] at h
    obtain ⟨_, hT', T, rfl, l', hl', rfl⟩ := h
    obtain ⟨v, hv, hf⟩ := (disj_eval env ss (some T) (fun s hs => hne (b, ss) (by simp) s hs) hT').2 T rfl
    obtain ⟨r, hr, h1, h2⟩ := ih l' (fun e he => hne e (by simp [he])) hl'
    cases v with
    | true =>
      refine ⟨some b, by simp [choose, hv], fun h => (by cases h), fun b' hb' => ?_⟩
      cases hb'
      exact ⟨(b, ss), by simp, rfl, hf.1 rfl⟩
    | false =>
      refine ⟨r, by simp [choose, hv, hr], fun hn e he => ?_, fun b' hb' => ?_⟩
      · rcases List.mem_cons.1 he with rfl | he
        · intro s hs ha
          exact absurd (hf.2 ⟨s, hs, ha⟩) (by simp)
        · exact h1 hn e he
      · obtain ⟨e, he, h⟩ := h2 b' hb'
        exact ⟨e, by simp [he], h⟩

theorem branches_some : ∀ (p : List (Nat × List (List Ty))), (∀ e ∈ p, e.2 ≠ []) → (∀ e ∈ p, ∀ s ∈ e.2, s ≠ []) →
    (∀ e ∈ p, ∀ s ∈ e.2, ∀ t ∈ s, Testable t) → ∃ l, branches p = some l := by
  intro p
  induction p with
  | nil => intro _ _ _; exact ⟨_, rfl⟩
  | cons e p ih =>
    intro h0 h1 h2
    obtain ⟨b, ss⟩ := e
    obtain ⟨r, hr⟩ := disj_some ss (fun s hs => h2 (b, ss) (by simp) s hs)
    obtain ⟨l, hl⟩ := ih (fun e he => h0 e (by simp [he])) (fun e he => h1 e (by simp [he])) (fun e he => h2 e (by simp [he]))
    cases r with
    | none =>
      exact absurd ((disj_eval (fun _ => .obj .none) ss none (fun s hs => h1 (b, ss) (by simp) s hs) hr).1 rfl) (h0 (b, ss) (by simp))
    | some T => exact ⟨(T, b) :: l, by simp [branches, hr, hl]⟩

/-! Groups of functions with the same text. -/

abbrev Dict := List ((List Nat × Nat) × List (List Ty))

/-- The entries of a dictionary stand for these functions. -/
structure Groups (fs : List Func) (d : Dict) : Prop where
  sound : ∀ e ∈ d, ∀ s ∈ e.2, ∃ f ∈ fs, (f.imports, f.body) = e.1 ∧ f.types = s
  full : ∀ f ∈ fs, ∃ e ∈ d, e.1 = (f.imports, f.body) ∧ f.types ∈ e.2
  ne : ∀ e ∈ d, e.2 ≠ []
  nodup : (d.map (·.1)).Nodup

theorem setdefault_keys (b : List Nat × Nat) (s : List Ty) : ∀ (d : Dict) (k), k ∈ (setdefault b s d).map (·.1) ↔ k = b ∨ k ∈ d.map (·.1) := by
  intro d
  induction d with
  | nil => intro k; simp [setdefault]
  | cons e d ih =>
    obtain ⟨c, l⟩ := e
    intro k
    by_cases h : c = b
    · subst h; simp [setdefault]
    · simp only [setdefault, if_neg h, List.map_cons, List.mem_cons, ih]
      constructor <;> rintro (h | h | h) <;> simp [h]

theorem setdefault_nodup (b : List Nat × Nat) (s : List Ty) : ∀ (d : Dict), (d.map (·.1)).Nodup → ((setdefault b s d).map (·.1)).Nodup := by
  intro d
  induction d with
  | nil => intro _; simp [setdefault]
  | cons e d ih =>
    obtain ⟨c, l⟩ := e
    intro h
    simp only [List.map_cons, List.nodup_cons] at h
    by_cases hc : c = b
    · simp only [setdefault, if_pos hc, List.map_cons, List.nodup_cons]; exact h
    · simp only [setdefault, if_neg hc, List.map_cons, List.nodup_cons]
      refine ⟨fun hm => ?_, ih h.2⟩
      rcases (setdefault_keys b s d c).1 hm with h' | h'
      · exact hc h'
      · exact h.1 h'

theorem setdefault_mem (b : List Nat × Nat) (s : List Ty) : ∀ (d : Dict) (e), e ∈ setdefault b s d →
    e ∈ d ∨ (e.1 = b ∧ e.2 ≠ [] ∧ ∀ u ∈ e.2, u = s ∨ ∃ e' ∈ d, e'.1 = b ∧ u ∈ e'.2) := by
  intro d
  induction d with
  | nil => intro e h; simp only [setdefault, List.mem_singleton] at h; subst h; simp
  | cons a d ih =>
    obtain ⟨c, l⟩ := a
    intro e h
    by_cases hc : c = b
    · simp only [setdefault, if_pos hc, List.mem_cons] at h
      rcases h with rfl | h
      · right
        refine ⟨hc, by simp, fun u hu => ?_⟩
        simp only [List.mem_append, List.mem_singleton] at hu
        rcases hu with hu | rfl
        · exact Or.inr ⟨(c, l), by simp, hc, hu⟩
        · exact Or.inl rfl
      · exact Or.inl (by simp [h])
    · simp only [setdefault, if_neg hc, List.mem_cons] at h
      rcases h with rfl | h
      · exact Or.inl (by simp)
      · rcases ih e h with h | ⟨h1, h2, h3⟩
        · exact Or.inl (by simp [h])
        · refine Or.inr ⟨h1, h2, fun u hu => ?_⟩
          rcases h3 u hu with h | ⟨e', he', h⟩
          · exact Or.inl h
          · exact Or.inr ⟨e', by simp [he'], h⟩

theorem setdefault_old (b : List Nat × Nat) (s : List Ty) : ∀ (d : Dict) (e), e ∈ d → ∃ e' ∈ setdefault b s d, e'.1 = e.1 ∧ ∀ u ∈ e.2, u ∈ e'.2 := by
  intro d
  induction d with
  | nil => intro e h; cases h
  | cons a d ih =>
    obtain ⟨c, l⟩ := a
    intro e h
    by_cases hc : c = b
    · simp only [setdefault, if_pos hc]
      rcases List.mem_cons.1 h with rfl | h
      · exact ⟨(c, l ++ [s]), by simp, rfl, fun u hu => by simp [hu]⟩
      · exact ⟨e, by simp [h], rfl, fun u hu => hu⟩
    · simp only [setdefault, if_neg hc]
      rcases List.mem_cons.1 h with rfl | h
      · exact ⟨(c, l), by simp, rfl, fun u hu => hu⟩
      · obtain ⟨e', he', h⟩ := ih e h
        exact ⟨e', by simp [he'], h⟩

theorem setdefault_new (b : List Nat × Nat) (s : List Ty) : ∀ (d : Dict), ∃ e ∈ setdefault b s d, e.1 = b ∧ s ∈ e.2 := by
  intro d
  induction d with
  | nil => exact ⟨(b, [s]), by simp [setdefault]⟩
  | cons a d ih =>
    obtain ⟨c, l⟩ := a
    by_cases hc : c = b
    · exact ⟨(c, l ++ [s]), by simp [setdefault, hc]⟩
    · obtain ⟨e, he, h⟩ := ih
      exact ⟨e, by simp [setdefault, hc, he], h⟩

theorem groups_step {fs : List Func} {d : Dict} (g : Groups fs d) (f : Func) :
    Groups (fs ++ [f]) (setdefault (f.imports, f.body) f.types d) := by
  refine ⟨?_, ?_, ?_, setdefault_nodup _ _ _ g.nodup⟩
  · intro e he s hs
    rcases setdefault_mem _ _ d e he with h | ⟨h1, h2, h3⟩
    · obtain ⟨f', hf', h⟩ := g.sound e h s hs
      exact ⟨f', by simp [hf'], h⟩
    · rcases h3 s hs with rfl | ⟨e', he', h4, h5⟩
      · exact ⟨f, by simp, h1.symm, rfl⟩
      · obtain ⟨f', hf', h, ht⟩ := g.sound e' he' s h5
        exact ⟨f', by simp [hf'], by rw [h, h4, h1], ht⟩
  · intro f' hf'
    rcases List.mem_append.1 hf' with hf' | hf'
    · obtain ⟨e, he, h1, h2⟩ := g.full f' hf'
      obtain ⟨e', he', h3, h4⟩ := setdefault_old (f.imports, f.body) f.types d e he
      exact ⟨e', he', by rw [h3, h1], h4 _ h2⟩
    · simp only [List.mem_singleton] at hf'
      subst hf'
      exact setdefault_new _ _ d
  · intro e he
    rcases setdefault_mem _ _ d e he with h | ⟨_, h2, _⟩
    · exact g.ne e h
    · exact h2

theorem groups_fold (gs : List Func) : ∀ (fs : List Func) (d : Dict), Groups fs d →
    Groups (fs ++ gs) (gs.foldl (fun d f => setdefault (f.imports, f.body) f.types d) d) := by
  induction gs with
  | nil => intro fs d g; simpa using g
  | cons f gs ih =>
    intro fs d g
    have := ih (fs ++ [f]) _ (groups_step g f)
    simpa using this

theorem groups_bodies (fs : List Func) : Groups fs (bodies fs) := by
  have := groups_fold fs [] [] ⟨by simp, by simp, by simp, by simp⟩
  simpa [bodies] using this

/-! The dictionary that is printed. -/

abbrev Out := List (Nat × List (List Ty))

theorem assign_mem (b : Nat) (l : List (List Ty)) : ∀ (p : Out) (e), e ∈ assign b l p → e = (b, l) ∨ e ∈ p := by
  intro p
  induction p with
  | nil => intro e h; simp only [assign, List.mem_singleton] at h; exact Or.inl h
  | cons a p ih =>
    obtain ⟨c, m⟩ := a
    intro e h
    by_cases hc : c = b
    · simp only [assign, if_pos hc, List.mem_cons] at h
      rcases h with rfl | h
      · exact Or.inl (by rw [hc])
      · exact Or.inr (by simp [h])
    · simp only [assign, if_neg hc, List.mem_cons] at h
      rcases h with rfl | h
      · exact Or.inr (by simp)
      · rcases ih e h with h | h
        · exact Or.inl h
        · exact Or.inr (by simp [h])

theorem assign_new (b : Nat) (l : List (List Ty)) : ∀ (p : Out), (b, l) ∈ assign b l p := by
  intro p
  induction p with
  | nil => simp [assign]
  | cons a p ih =>
    obtain ⟨c, m⟩ := a
    by_cases hc : c = b
    · simp [assign, hc]
    · simp [assign, hc, ih]

theorem assign_old (b : Nat) (l : List (List Ty)) : ∀ (p : Out) (e), e ∈ p → e.1 ≠ b → e ∈ assign b l p := by
  intro p
  induction p with
  | nil => intro e h; cases h
  | cons a p ih =>
    obtain ⟨c, m⟩ := a
    intro e h hne
    by_cases hc : c = b
    · rcases List.mem_cons.1 h with rfl | h
      · exact absurd hc hne
      · simp [assign, hc, h]
    · rcases List.mem_cons.1 h with rfl | h
      · simp [assign, hc]
      · simp [assign, hc, ih e h hne]

theorem toPrint_sound (d : Dict) : ∀ (p : Out) (e), e ∈ d.foldl (fun p e => assign e.1.2 e.2 p) p →
    e ∈ p ∨ ∃ a ∈ d, a.1.2 = e.1 ∧ a.2 = e.2 := by
  induction d with
  | nil => intro p e h; exact Or.inl h
  | cons a d ih =>
    intro p e h
    rcases ih _ e h with h | ⟨a', ha', h⟩
    · rcases assign_mem _ _ p e h with rfl | h
      · exact Or.inr ⟨a, by simp, rfl, rfl⟩
      · exact Or.inl h
    · exact Or.inr ⟨a', by simp [ha'], h⟩

theorem toPrint_keep (d : Dict) : ∀ (p : Out) (e), e ∈ p → (∀ a ∈ d, a.1.2 ≠ e.1) → e ∈ d.foldl (fun p e => assign e.1.2 e.2 p) p := by
  induction d with
  | nil => intro p e h _; exact h
  | cons a d ih =>
    intro p e h hne
    exact ih _ e (assign_old _ _ p e h (fun h' => hne a (by simp) h'.symm)) (fun a' ha' => hne a' (by simp [ha']))

theorem toPrint_full (d : Dict) : ∀ (p : Out), (d.map (·.1)).Nodup → (∀ a ∈ d, ∀ b ∈ d, a.1.2 = b.1.2 → a.1 = b.1) → ∀ a ∈ d,
    (a.1.2, a.2) ∈ d.foldl (fun p e => assign e.1.2 e.2 p) p := by
  induction d with
  | nil => intro p _ _ a h; cases h
  | cons c d ih =>
    intro p hn hi a h
    simp only [List.map_cons, List.nodup_cons] at hn
    rcases List.mem_cons.1 h with rfl | h
    · refine toPrint_keep d _ _ (assign_new _ _ p) (fun b hb hbc => hn.1 ?_)
      rw [hi a (by simp) b (by simp [hb]) hbc.symm]
      exact List.mem_map.2 ⟨b, hb, rfl⟩
    · exact ih _ hn.2 (fun a ha b hb => hi a (by simp [ha]) b (by simp [hb])) a h

theorem has_fits (t : Ty) : ∀ v, Has v t → Fits v t := by
  induction t with
  | num c => intro v h; exact ⟨c, h, by simp [subclass]⟩
  | array dt r o => intro v h; exact h
  | seq k t ih => rintro v ⟨es, h, he⟩; exact ⟨es, h, fun e hm => ih e (he e hm)⟩
  | other c => intro v h; exact h

theorem apart_not_fits (t u : Ty) (v : Val) (h : Has v t) (ha : Apart t u) : ¬ Fits v u := by
  intro hf
  cases t with
  | num c =>
    cases u with
    | num d => obtain ⟨e, he, hs⟩ := hf; rw [h] at he; cases he; rw [ha] at hs; cases hs
    | array => obtain ⟨_, _, he, _⟩ := hf; rw [h] at he; cases he
    | seq => obtain ⟨_, he, _⟩ := hf; rw [h] at he; cases he
    | other => exact hf
  | array dt r o =>
    obtain ⟨c, f, rfl, _⟩ := h
    cases u with
    | num d => obtain ⟨e, he, hs⟩ := hf; cases he
    | array dt' r' o' =>
      obtain ⟨_, _, he, _⟩ := hf
      cases he
      rcases ha with ha | ha <;> exact ha rfl
    | seq => obtain ⟨_, he, _⟩ := hf; cases he
    | other => exact hf
  | seq k t =>
    obtain ⟨es, rfl, _⟩ := h
    cases u with
    | num d => obtain ⟨e, he, hs⟩ := hf; cases he
    | array => obtain ⟨_, _, he, _⟩ := hf; cases he
    | seq k' => obtain ⟨_, he, _⟩ := hf; cases he; exact ha rfl
    | other => exact hf
  | other c => exact h

theorem acc_iff (env : Nat → Val) (f : Func) : Acc env 0 f.types ↔ Accepted env f := by
  simp [Acc, Accepted]

/-- The printed function, for functions whose types can be tested. -/
theorem interface_spec (fs : List Func) (env : Nat → Val) (hne : fs ≠ []) (h0 : ∀ f ∈ fs, f.types ≠ [])
    (hT : ∀ f ∈ fs, ∀ t ∈ f.types, Testable t) :
    ∃ p, interface fs = some p ∧ (∀ f ∈ fs, ∀ i ∈ f.imports, i ∈ p.imports) ∧ ∃ r, p.run env = some r ∧
      ((∃ b, r = some b ∧ ∀ f ∈ fs, f.body = b) ∨
       ((∀ b, r = some b → ∃ f ∈ fs, f.body = b ∧ Accepted env f) ∧
        (r = none → (∀ f ∈ fs, ∀ g ∈ fs, f.body = g.body → f.imports = g.imports) → ∀ f ∈ fs, ¬ Accepted env f))) := by
  have g := groups_bodies fs
  have chain : ∃ l, branches (toPrint (bodies fs)) = some l ∧ ∃ r, choose env l = some r ∧
      (∀ b, r = some b → ∃ f ∈ fs, f.body = b ∧ Accepted env f) ∧
      (r = none → (∀ f ∈ fs, ∀ g ∈ fs, f.body = g.body → f.imports = g.imports) → ∀ f ∈ fs, ¬ Accepted env f) := by
    have snd : ∀ e ∈ toPrint (bodies fs), ∃ a ∈ bodies fs, a.1.2 = e.1 ∧ a.2 = e.2 := by
      intro e he
      rcases toPrint_sound (bodies fs) [] e he with h | h
      · cases h
      · exact h
    have hf : ∀ e ∈ toPrint (bodies fs), ∀ s ∈ e.2, ∃ f ∈ fs, f.body = e.1 ∧ f.types = s := by
      intro e he s hs
      obtain ⟨a, ha, h1, h2⟩ := snd e he
      obtain ⟨f, hf, h3, h4⟩ := g.sound a ha s (by rw [h2]; exact hs)
      exact ⟨f, hf, by rw [← h1, ← h3], h4⟩
    have hs0 : ∀ e ∈ toPrint (bodies fs), ∀ s ∈ e.2, s ≠ [] := by
      intro e he s hs
      obtain ⟨f, hm, _, rfl⟩ := hf e he s hs
      exact h0 f hm
    obtain ⟨l, hl⟩ := branches_some (toPrint (bodies fs))
      (fun e he => by obtain ⟨a, ha, _, h2⟩ := snd e he; rw [← h2]; exact g.ne a ha) hs0
      (fun e he s hs => by obtain ⟨f, hm, _, rfl⟩ := hf e he s hs; exact hT f hm)
    obtain ⟨r, hr, h1, h2⟩ := branches_choose env _ l hs0 hl
    refine ⟨l, hl, r, hr, fun b hb => ?_, fun hn hi f hfm hacc => ?_⟩
    · obtain ⟨e, he, rfl, s, hs, ha⟩ := h2 b hb
      obtain ⟨f, hm, hb, rfl⟩ := hf e he s hs
      exact ⟨f, hm, hb, (acc_iff env f).1 ha⟩
    · obtain ⟨e, he, h3, h4⟩ := g.full f hfm
      have hin := toPrint_full (bodies fs) [] g.nodup (fun a ha b hb hab => by
        obtain ⟨sa, hsa⟩ := List.exists_mem_of_ne_nil _ (g.ne a ha)
        obtain ⟨sb, hsb⟩ := List.exists_mem_of_ne_nil _ (g.ne b hb)
        obtain ⟨fa, hfa, h5, _⟩ := g.sound a ha sa hsa
        obtain ⟨fb, hfb, h6, _⟩ := g.sound b hb sb hsb
        rw [← h5, ← h6] at hab
        have := hi fa hfa fb hfb hab
        rw [← h5, ← h6, this, show fa.body = fb.body from hab]) e he
      exact h1 hn _ hin f.types h4 ((acc_iff env f).2 hacc)
  obtain ⟨l, hl, r, hr, h1, h2⟩ := chain
  have himp : ∀ f ∈ fs, ∀ i ∈ f.imports, i ∈ (bodies fs).flatMap fun e => e.1.1 := by
    intro f hf i hi
    obtain ⟨e, he, h3, _⟩ := g.full f hf
    exact List.mem_flatMap.2 ⟨e, he, by rw [h3]; exact hi⟩
  cases hd : bodies fs with
  | nil =>
    obtain ⟨f, hf⟩ := List.exists_mem_of_ne_nil _ hne
    obtain ⟨e, he, _⟩ := g.full f hf
    rw [hd] at he; cases he
  | cons a d =>
    cases d with
    | nil =>
      have hall : ∀ f ∈ fs, a.1 = (f.imports, f.body) := by
        intro f hf
        obtain ⟨e, he, h3, _⟩ := g.full f hf
        rw [hd, List.mem_singleton] at he
        rw [← he, h3]
      refine ⟨.plain a.1.1 a.1.2, by simp only [interface, hd], ?_, some a.1.2, rfl, Or.inl ⟨_, rfl, fun f hf => by rw [hall f hf]⟩⟩
      intro f hf i hi
      simp only [Printed.imports, hall f hf]; exact hi
    | cons c d =>
      refine ⟨Printed.chain ((bodies fs).flatMap fun (e : (List Nat × Nat) × List (List Ty)) => e.1.1) l, ?_, fun f hf i hi => himp f hf i hi, r, hr,
        Or.inr ⟨h1, h2⟩⟩
      simp only [interface, hd]
      rw [hd] at hl
      simp only [hl, Option.map_some]

end Verif.PyOut.Lemmas
