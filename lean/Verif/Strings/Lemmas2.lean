import Verif.Strings.Model

/-! The memory of string variables: the invariant of correct executions and what
follows once two variables share a buffer. -/

namespace Verif.Strings

/-- The Python variables after an assignment. -/
def upd (env : Env) (x : Nat) (s : Str) : Env := fun v => if v = x then some s else env v

/-- The variable holds its Python value in the form that its length demands. -/
def CellOk (env : Env) (st : St) (v : Nat) : Prop :=
  match st.cell v with
  | .uninit => env v = none
  | .short s => env v = some s ∧ s.length ≤ cap
  | .long i => ∃ s, env v = some s ∧ cap < s.length ∧ st.heap i = some s

/-- The variables in `P` hold their values, own their buffers, and own all
buffers. -/
structure Inv (P : Nat → Prop) (env : Env) (st : St) : Prop where
  ok : ∀ v, P v → CellOk env st v
  inj : ∀ v w i, P v → P w → st.cell v = .long i → st.cell w = .long i → v = w
  owned : ∀ i, st.heap i ≠ none → ∃ v, P v ∧ st.cell v = .long i
  bound : ∀ i, st.next ≤ i → st.heap i = none

theorem CellOk.read {env : Env} {st : St} {v : Nat} (h : CellOk env st v) :
    st.read v = env v := by
  unfold CellOk at h
  unfold St.read
  split at h <;> rename_i hc <;> simp only [hc]
  · exact h.symm
  · exact h.1.symm
  · obtain ⟨s, h1, _, h3⟩ := h
    rw [h1, h3]

/-- Storing a new string in a variable that owns nothing. -/
theorem make_inv {P : Nat → Prop} {env : Env} {st : St} {x : Nat} (s : Str)
    (h : Inv (fun v => v ≠ x ∧ P v) env st) (hx : P x) :
    Inv P (upd env x s) (st.make x s) := by
  have hb : ∀ v i, (v ≠ x ∧ P v) → st.cell v = .long i → i ≠ st.next := by
    intro v i hv hc e
    have := h.ok v hv
    unfold CellOk at this
    rw [hc] at this
    obtain ⟨s, _, _, h3⟩ := this
    rw [h.bound i (by omega)] at h3
    cases h3
  unfold St.make
  split
  · rename_i hl
    constructor
    · intro v hv
      unfold CellOk
      by_cases e : v = x
      · subst e
        simp [upd, hl]
      · have := h.ok v ⟨e, hv⟩
        unfold CellOk at this
        simpa [e, upd] using this
    · intro v w i hv hw h1 h2
      by_cases e : v = x
      · simp [e] at h1
      · by_cases e' : w = x
        · simp [e'] at h2
        · simp only [e, e', if_false] at h1 h2
          exact h.inj v w i ⟨e, hv⟩ ⟨e', hw⟩ h1 h2
    · intro i hi
      obtain ⟨v, hv, hc⟩ := h.owned i hi
      exact ⟨v, hv.2, by simp [hv.1, hc]⟩
    · exact h.bound
  · rename_i hl
    constructor
    · intro v hv
      unfold CellOk
      by_cases e : v = x
      · subst e
        simp [upd]
        omega
      · have hk := h.ok v ⟨e, hv⟩
        unfold CellOk at hk
        simp only [e, if_false, upd]
        split <;> rename_i hc <;> rw [hc] at hk <;> simp only at hk
        · exact hk
        · exact hk
        · rename_i i
          rw [if_neg (hb v i ⟨e, hv⟩ hc)]
          exact hk
    · intro v w i hv hw h1 h2
      by_cases e : v = x
      · by_cases e' : w = x
        · rw [e, e']
        · simp only [e, if_true, Cell.long.injEq] at h1
          simp only [e', if_false] at h2
          exact absurd h1.symm (hb w i ⟨e', hw⟩ h2)
      · by_cases e' : w = x
        · simp only [e', if_true, Cell.long.injEq] at h2
          simp only [e, if_false] at h1
          exact absurd h2.symm (hb v i ⟨e, hv⟩ h1)
        · simp only [e, e', if_false] at h1 h2
          exact h.inj v w i ⟨e, hv⟩ ⟨e', hw⟩ h1 h2
    · intro i hi
      by_cases e : i = st.next
      · exact ⟨x, hx, by simp [e]⟩
      · simp only [e, if_false] at hi
        obtain ⟨v, hv, hc⟩ := h.owned i hi
        exact ⟨v, hv.2, by simp [hv.1, hc]⟩
    · intro i hi
      simp only at hi ⊢
      rw [if_neg (by omega)]
      exact h.bound i (by omega)

/-- Dropping a variable that has a value. -/
theorem drop_inv {P : Nat → Prop} {env : Env} {st : St} {x : Nat}
    (h : Inv P env st) (hx : P x) (he : env x ≠ none) :
    ∃ st', st.drop x = some st' ∧ st'.cell = st.cell ∧
      Inv (fun v => v ≠ x ∧ P v) env st' ∧
      (∀ s, env x = some s → s.length ≤ cap → st' = st) ∧
      (∀ s, env x = some s → cap < s.length → st'.read x = none) := by
  have hk := h.ok x hx
  unfold CellOk at hk
  unfold St.drop
  split at hk <;> rename_i hc
  · exact absurd hk he
  · rename_i s
    refine ⟨st, by simp [hc], rfl, ?_, fun _ _ _ => rfl, ?_⟩
    · refine ⟨fun v hv => h.ok v hv.2, fun v w i hv hw => h.inj v w i hv.2 hw.2, ?_,
        h.bound⟩
      intro i hi
      obtain ⟨v, hv, hcv⟩ := h.owned i hi
      refine ⟨v, ⟨?_, hv⟩, hcv⟩
      intro e
      rw [e, hc] at hcv
      cases hcv
    · intro s' h1 h2
      rw [hk.1] at h1
      cases h1
      omega
  · rename_i i
    obtain ⟨s, h1, h2, h3⟩ := hk
    refine ⟨{ st with heap := fun j => if j = i then none else st.heap j },
      by simp only [hc, h3], rfl, ?_, ?_, ?_⟩
    · constructor
      · intro v hv
        have hkv := h.ok v hv.2
        unfold CellOk at hkv ⊢
        simp only
        split <;> rename_i hcv <;> rw [hcv] at hkv <;> simp only at hkv
        · exact hkv
        · exact hkv
        · rename_i j
          have : j ≠ i := by
            intro e
            exact hv.1 (h.inj v x i hv.2 hx (e ▸ hcv) hc)
          rw [if_neg this]
          exact hkv
      · intro v w j hv hw
        exact h.inj v w j hv.2 hw.2
      · intro j hj
        simp only at hj
        by_cases e : j = i
        · simp [e] at hj
        · simp only [e, if_false] at hj
          obtain ⟨v, hv, hcv⟩ := h.owned j hj
          refine ⟨v, ⟨?_, hv⟩, hcv⟩
          intro e'
          rw [e', hc] at hcv
          cases hcv
          exact e rfl
      · intro j hj
        simp only
        split
        · rfl
        · exact h.bound j hj
    · intro s' g1 g2
      rw [h1] at g1
      cases g1
      omega
    · intro s' _ _
      simp [St.read, hc]

/-- The assignments that do not go wrong. -/
def Rhs.good (d : Bool) (x : Nat) (env : Env) : Rhs → Prop
  | .copy y => y = x ∨ ∀ s, env y = some s → s.length ≤ cap
  | .fresh uses _ => d = true → x ∈ uses → ∀ s, env x = some s → s.length ≤ cap

/-- The flag of an assignment fits: it is absent only if the variable has no
value yet or is assigned to itself. -/
def Rhs.flag (d : Bool) (x : Nat) (env : Env) (r : Rhs) : Prop :=
  (d = false → env x = none ∨ r = .copy x) ∧ (r = .copy x → d = false)

theorem mapM_congr {α β : Type} {f g : α → Option β} : ∀ {l : List α},
    (∀ x ∈ l, f x = g x) → l.mapM f = l.mapM g
  | [], _ => rfl
  | a :: l, h => by
    rw [List.mapM_cons, List.mapM_cons, h a List.mem_cons_self,
      mapM_congr fun x hx => h x (List.mem_cons_of_mem _ hx)]

theorem mapM_none {α β : Type} {f : α → Option β} : ∀ {l : List α} {x : α},
    x ∈ l → f x = none → l.mapM f = none
  | a :: l, x, hx, h => by
    rw [List.mapM_cons]
    rcases List.mem_cons.1 hx with rfl | hx
    · rw [h]; rfl
    · cases f a with
      | none => rfl
      | some b =>
        rw [mapM_none hx h]
        rfl

/-- A good assignment keeps the invariant. -/
theorem assign_inv {env : Env} {st : St} {d : Bool} {x : Nat} {r : Rhs} {s : Str}
    (h : Inv (fun _ => True) env st) (hw : r.flag d x env)
    (hd : d = true → env x ≠ none) (hg : r.good d x env) (hv : r.val env = some s) :
    ∃ st', st.assign d x r = some st' ∧ Inv (fun _ => True) (upd env x s) st' := by
  by_cases hself : r = .copy x
  · have hd0 := hw.2 hself
    subst hself
    subst hd0
    have hk := (h.ok x trivial)
    have hne : st.cell x ≠ .uninit := by
      intro hc
      unfold CellOk at hk
      rw [hc] at hk
      simp only [Rhs.val] at hv
      rw [hk] at hv
      cases hv
    refine ⟨st, ?_, ?_⟩
    · have e : (fun v => if v = x then st.cell x else st.cell v) = st.cell := by
        funext v
        by_cases e : v = x <;> simp [e]
      unfold St.assign
      simp only [Bool.false_eq_true, if_false, Option.bind_some]
      cases hc : st.cell x with
      | uninit => exact absurd hc hne
      | short t => rw [hc] at e; simp only [e]
      | long i => rw [hc] at e; simp only [e]
    · have e : upd env x s = env := by
        funext v
        simp only [Rhs.val] at hv
        by_cases e : v = x <;> simp [upd, e, hv]
      rw [e]
      exact h
  · -- the state after the drop
    have key : ∃ st', (if d then st.drop x else some st) = some st' ∧
        st'.cell = st.cell ∧ Inv (fun v => v ≠ x ∧ True) env st' ∧
        (d = true → ∀ t, env x = some t → t.length ≤ cap → st' = st) ∧
        (d = false → st' = st) := by
      cases d with
      | true =>
        obtain ⟨st', h1, h2, h3, h4, _⟩ := drop_inv h trivial (hd rfl)
        exact ⟨st', by simpa using h1, h2, h3, fun _ => h4, by simp⟩
      | false =>
        have hx : env x = none := (hw.1 rfl).resolve_right hself
        refine ⟨st, rfl, rfl, ?_, fun _ _ _ _ => rfl, fun _ => rfl⟩
        refine ⟨fun v _ => h.ok v trivial, fun v w i _ _ => h.inj v w i trivial trivial,
          ?_, h.bound⟩
        intro i hi
        obtain ⟨v, _, hc⟩ := h.owned i hi
        refine ⟨v, ⟨?_, trivial⟩, hc⟩
        intro e
        have := h.ok x trivial
        unfold CellOk at this
        rw [← e, hc] at this
        obtain ⟨t, ht, _⟩ := this
        rw [e, hx] at ht
        cases ht
    obtain ⟨st', h1, h2, h3, h4, h5⟩ := key
    unfold St.assign
    rw [h1]
    simp only [Option.bind_some]
    cases r with
    | fresh uses f =>
      have hr : uses.mapM st'.read = uses.mapM env := by
        apply mapM_congr
        intro v hvm
        by_cases e : v = x
        · subst e
          cases hdd : d with
          | false => rw [h5 hdd]; exact (h.ok v trivial).read
          | true =>
            cases hev : env v with
            | none => exact absurd hev (hd hdd)
            | some t =>
              rw [h4 hdd t hev (hg hdd hvm t hev), (h.ok v trivial).read, hev]
        · exact (h3.ok v ⟨e, trivial⟩).read
      simp only [Rhs.val, ← hr] at hv
      simp only
      cases hm : uses.mapM st'.read with
      | none => rw [hm] at hv; cases hv
      | some vs =>
        rw [hm] at hv
        simp only [Option.map_some, Option.some.injEq] at hv
        refine ⟨_, rfl, ?_⟩
        show Inv _ _ (st'.make x (f vs))
        rw [hv]
        exact make_inv s h3 trivial
    | copy y =>
      have hyx : y ≠ x := fun e => hself (by rw [e])
      simp only [Rhs.val] at hv
      have hs := hg.resolve_left hyx s hv
      have hk := h.ok y trivial
      unfold CellOk at hk
      have hc : st'.cell y = .short s := by
        rw [h2]
        cases hc : st.cell y with
        | uninit => rw [hc] at hk; rw [hk] at hv; cases hv
        | short t =>
          rw [hc] at hk
          rw [hk.1] at hv
          rw [Option.some.inj hv]
        | long i =>
          rw [hc] at hk
          obtain ⟨t, g1, g2, _⟩ := hk
          rw [g1] at hv
          cases hv
          omega
      simp only [hc]
      refine ⟨_, rfl, ?_⟩
      have := make_inv s h3 trivial
      unfold St.make at this
      rw [if_pos hs] at this
      exact this

/-! ### Once a buffer is shared -/

/-- Holds in every reachable state, right or wrong. -/
structure Weak (env : Env) (st : St) : Prop where
  def_iff : ∀ v, env v = none ↔ st.cell v = .uninit
  cell_bound : ∀ v i, st.cell v = .long i → i < st.next

/-- Two variables point to the same buffer, or one to a freed buffer. -/
def Bad (st : St) : Prop :=
  (∃ x y i, x ≠ y ∧ st.cell x = .long i ∧ st.cell y = .long i) ∨
  (∃ x i, st.cell x = .long i ∧ st.heap i = none)

theorem drop_cell {st st' : St} {x : Nat} (h : st.drop x = some st') :
    st'.cell = st.cell ∧ st'.next = st.next ∧ (∀ i, st.heap i = none → st'.heap i = none) ∧
    (∀ i, st.cell x = .long i → st.heap i ≠ none ∧ st'.heap i = none) ∧
    st.cell x ≠ .uninit := by
  unfold St.drop at h
  split at h
  · cases h
  · rename_i s hc
    cases h
    refine ⟨rfl, rfl, fun _ h => h, ?_, ?_⟩
    · intro i e; rw [hc] at e; cases e
    · rw [hc]; simp
  · rename_i i hc
    split at h
    · cases h
    · rename_i t ht
      cases h
      refine ⟨rfl, rfl, ?_, ?_, ?_⟩
      · intro j hj; simp only; split
        · rfl
        · exact hj
      · intro j e
        rw [hc] at e
        cases e
        exact ⟨by rw [ht]; simp, by simp⟩
      · rw [hc]; simp

/-- What an assignment does to the variables and the heap, in any state. -/
theorem assign_any {env : Env} {st st' : St} {d : Bool} {x : Nat} {r : Rhs}
    (hwk : Weak env st) (h : st.assign d x r = some st') :
    (∀ v, v ≠ x → st'.cell v = st.cell v) ∧ st'.cell x ≠ .uninit ∧
    (r = .copy x → st'.cell x = st.cell x) ∧
    (∀ i, i < st.next → st.heap i = none → st'.heap i = none) ∧
    (d = true → ∀ i, st.cell x = .long i → st.heap i ≠ none ∧ st'.heap i = none) ∧
    st.next ≤ st'.next ∧ (∀ v i, st'.cell v = .long i → i < st'.next) := by
  unfold St.assign at h
  cases hdrop : (if d then st.drop x else some st) with
  | none => rw [hdrop] at h; cases h
  | some st₁ =>
    rw [hdrop] at h
    simp only [Option.bind_some] at h
    have hd : st₁.cell = st.cell ∧ st₁.next = st.next ∧
        (∀ i, st.heap i = none → st₁.heap i = none) ∧
        (d = true → ∀ i, st.cell x = .long i → st.heap i ≠ none ∧ st₁.heap i = none) := by
      cases d with
      | true =>
        simp only [if_true] at hdrop
        obtain ⟨a, b, c, e, _⟩ := drop_cell hdrop
        exact ⟨a, b, c, fun _ => e⟩
      | false =>
        simp only [Bool.false_eq_true, if_false, Option.some.injEq] at hdrop
        subst hdrop
        exact ⟨rfl, rfl, fun _ h => h, by simp⟩
    obtain ⟨hc, hn, hh, hl⟩ := hd
    cases r with
    | fresh uses f =>
      simp only at h
      cases hm : uses.mapM st₁.read with
      | none => rw [hm] at h; cases h
      | some vs =>
        rw [hm] at h
        simp only [Option.map_some, Option.some.injEq] at h
        subst h
        unfold St.make
        split
        · refine ⟨?_, by simp, by simp, ?_, ?_, by simp [hn], ?_⟩
          · intro v hv; simp [hv, hc]
          · intro i _ hi; exact hh i hi
          · exact hl
          · intro v i hv
            simp only at hv
            split at hv
            · cases hv
            · rw [hc] at hv
              simp only [hn]
              exact hwk.cell_bound v i hv
        · refine ⟨?_, by simp, by simp, ?_, ?_, by simp [hn], ?_⟩
          · intro v hv; simp [hv, hc]
          · intro i hi h0
            simp only
            rw [if_neg (by omega)]
            exact hh i h0
          · intro hd i hi
            have hlt := hwk.cell_bound x i hi
            refine ⟨(hl hd i hi).1, ?_⟩
            simp only
            rw [if_neg (by omega)]
            exact (hl hd i hi).2
          · intro v i hv
            simp only at hv ⊢
            split at hv
            · cases hv; omega
            · rw [hc] at hv
              have := hwk.cell_bound v i hv
              omega
    | copy y =>
      simp only at h
      split at h
      · cases h
      · rename_i c hne
        cases h
        refine ⟨?_, ?_, ?_, fun i _ hi => hh i hi, hl, by simp [hn], ?_⟩
        · intro v hv; simp [hv, hc]
        · simp only [if_true]
          exact hne
        · intro e
          cases e
          simp only [if_true]
          rw [hc]
        · intro v i hv
          simp only at hv ⊢
          rw [hn]
          split at hv
          · rw [hc] at hv
            exact hwk.cell_bound y i hv
          · rw [hc] at hv
            exact hwk.cell_bound v i hv

theorem assign_weak {env : Env} {st st' : St} {d : Bool} {x : Nat} {r : Rhs} {s : Str}
    (hwk : Weak env st) (h : st.assign d x r = some st') : Weak (upd env x s) st' := by
  obtain ⟨h1, h2, _, _, _, _, h7⟩ := assign_any hwk h
  refine ⟨?_, h7⟩
  intro v
  by_cases e : v = x
  · subst e
    simp [upd, h2]
  · simp only [upd, e, if_false, h1 v e]
    exact hwk.def_iff v

/-- A bad state stays bad. -/
theorem assign_bad {env : Env} {st st' : St} {d : Bool} {x : Nat} {r : Rhs}
    (hwk : Weak env st) (hw : r.flag d x env) (hb : Bad st)
    (h : st.assign d x r = some st') : Bad st' := by
  obtain ⟨h1, h2, h3, h4, h5, _, _⟩ := assign_any hwk h
  -- without the flag a variable with a buffer is assigned to itself
  have hflag : ∀ i, st.cell x = .long i → d = true ∨ r = .copy x := by
    intro i hc
    cases d with
    | true => exact Or.inl rfl
    | false =>
      rcases hw.1 rfl with he | he
      · rw [(hwk.def_iff x).1 he] at hc; cases hc
      · exact Or.inr he
  rcases hb with ⟨a, b, i, hab, ha, hbc⟩ | ⟨a, i, ha, hi⟩
  · have hdang : ∀ a b, a ≠ b → st.cell a = .long i → st.cell b = .long i → a = x →
        Bad st' := by
      intro a b hab ha hb e
      subst e
      rcases hflag i ha with hd | hr
      · exact Or.inr ⟨b, i, by rw [h1 b (Ne.symm hab)]; exact hb, (h5 hd i ha).2⟩
      · exact Or.inl ⟨a, b, i, hab, by rw [h3 hr]; exact ha,
          by rw [h1 b (Ne.symm hab)]; exact hb⟩
    by_cases e : a = x
    · exact hdang a b hab ha hbc e
    · by_cases e' : b = x
      · exact hdang b a (Ne.symm hab) hbc ha e'
      · exact Or.inl ⟨a, b, i, hab, by rw [h1 a e]; exact ha, by rw [h1 b e']; exact hbc⟩
  · have hlt := hwk.cell_bound a i ha
    by_cases e : a = x
    · subst e
      rcases hflag i ha with hd | hr
      · exact absurd hi (h5 hd i ha).1
      · exact Or.inr ⟨a, i, by rw [h3 hr]; exact ha, h4 i hlt hi⟩
    · exact Or.inr ⟨a, i, by rw [h1 a e]; exact ha, h4 i hlt hi⟩

/-- The dropped variables: a freed buffer is not dropped again. -/
theorem dropAll_cell : ∀ {vs : List Nat} {st st' : St}, dropAll vs st = some st' →
    st'.cell = st.cell ∧ (∀ i, st.heap i = none → st'.heap i = none) ∧
    ∀ v ∈ vs, st.cell v ≠ .uninit ∧
      ∀ i, st.cell v = .long i → st.heap i ≠ none ∧ st'.heap i = none
  | [], st, st', h => by
    simp only [dropAll, Option.some.injEq] at h
    subst h
    exact ⟨rfl, fun _ h => h, by simp⟩
  | v :: vs, st, st', h => by
    simp only [dropAll] at h
    cases hd : st.drop v with
    | none => rw [hd] at h; cases h
    | some st₁ =>
      rw [hd] at h
      simp only [Option.bind_some] at h
      obtain ⟨a1, a2, a3, a4, a5⟩ := drop_cell hd
      obtain ⟨b1, b2, b3⟩ := dropAll_cell h
      refine ⟨by rw [b1, a1], fun i hi => b2 i (a3 i hi), ?_⟩
      intro w hw
      rcases List.mem_cons.1 hw with rfl | hw
      · exact ⟨a5, fun i hi => ⟨(a4 i hi).1, b2 i (a4 i hi).2⟩⟩
      · obtain ⟨c1, c2⟩ := b3 w hw
        rw [a1] at c1 c2
        exact ⟨c1, fun i hi => ⟨fun e => (c2 i hi).1 (a3 i e), (c2 i hi).2⟩⟩

/-- Two dropped variables do not share a buffer. -/
theorem dropAll_shared : ∀ {vs : List Nat} {st st' : St}, dropAll vs st = some st' →
    ∀ a b i, a ≠ b → a ∈ vs → b ∈ vs → st.cell a = .long i → st.cell b = .long i → False
  | [], _, _, _, _, _, _, _, ha, _, _, _ => by cases ha
  | v :: vs, st, st', h, a, b, i, hab, ha, hb, ca, cb => by
    simp only [dropAll] at h
    cases hd : st.drop v with
    | none => rw [hd] at h; cases h
    | some st₁ =>
      rw [hd] at h
      simp only [Option.bind_some] at h
      obtain ⟨a1, _, _, a4, _⟩ := drop_cell hd
      obtain ⟨_, _, b3⟩ := dropAll_cell h
      rcases List.mem_cons.1 ha with rfl | ha'
      · rcases List.mem_cons.1 hb with rfl | hb'
        · exact hab rfl
        · exact ((b3 b hb').2 i (by rw [a1]; exact cb)).1 (a4 i ca).2
      · rcases List.mem_cons.1 hb with rfl | hb'
        · exact ((b3 a ha').2 i (by rw [a1]; exact ca)).1 (a4 i cb).2
        · exact dropAll_shared h a b i hab ha' hb' (by rw [a1]; exact ca)
            (by rw [a1]; exact cb)

/-- Dropping variables that all have values. -/
theorem dropAll_inv : ∀ {vs : List Nat} {P : Nat → Prop} {env : Env} {st : St},
    vs.Nodup → (∀ v ∈ vs, P v ∧ env v ≠ none) → Inv P env st →
    ∃ st', dropAll vs st = some st' ∧ st'.cell = st.cell ∧
      Inv (fun v => v ∉ vs ∧ P v) env st'
  | [], P, env, st, _, _, h => by
    refine ⟨st, rfl, rfl, ?_⟩
    simpa using h
  | v :: vs, P, env, st, hn, hv, h => by
    obtain ⟨hn1, hn2⟩ := List.nodup_cons.1 hn
    obtain ⟨st₁, a1, a2, a3, _⟩ := drop_inv h (hv v List.mem_cons_self).1
      (hv v List.mem_cons_self).2
    obtain ⟨st', b1, b2, b3⟩ := dropAll_inv (P := fun w => w ≠ v ∧ P w) hn2
      (fun w hw => ⟨⟨fun e => hn1 (e ▸ hw), (hv w (List.mem_cons_of_mem _ hw)).1⟩,
        (hv w (List.mem_cons_of_mem _ hw)).2⟩) a3
    refine ⟨st', by simp [dropAll, a1, b1], by rw [b2, a2], ?_⟩
    have e : (fun w => w ∉ vs ∧ w ≠ v ∧ P w) = (fun w => w ∉ v :: vs ∧ P w) := by
      funext w
      simp only [List.mem_cons, not_or, eq_iff_iff]
      constructor
      · rintro ⟨p1, p2, p3⟩; exact ⟨⟨p2, p1⟩, p3⟩
      · rintro ⟨⟨p1, p2⟩, p3⟩; exact ⟨p2, p1, p3⟩
    rw [← e]
    exact b3

end Verif.Strings
