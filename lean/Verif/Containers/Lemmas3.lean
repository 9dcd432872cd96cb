import Verif.Containers.Lemmas2

/-! # Dictionaries and managed pointers: lemmas -/

namespace Verif.Containers
open Spec Model

/-! ## Dictionaries -/

section
variable {K V : Type} [DecidableEq K]

/-- The keys of a dictionary are different. -/
def Keys (d : List (K × V)) : Prop := (d.map (·.1)).Nodup

theorem Keys.perm {d m : List (K × V)} (h : Keys d) (hp : m.Perm d) : Keys m :=
  (hp.map _).nodup_iff.mpr h

theorem value_eq_some {d : List (K × V)} (hd : Keys d) {k : K} {v : V} :
    value d k = some v ↔ (k, v) ∈ d := by
  induction d with
  | nil => simp [value]
  | cons p d ih =>
    have hd' : Keys d := (List.nodup_cons.mp hd).2
    have hp : p.1 ∉ d.map (·.1) := (List.nodup_cons.mp hd).1
    have ih := ih hd'
    unfold value at ih ⊢
    by_cases hk : p.1 = k
    · rw [List.find?_cons_of_pos (by simpa using hk)]
      constructor
      · intro h
        simp only [Option.map_some, Option.some.injEq] at h
        subst hk h; simp
      · intro h
        rcases List.mem_cons.mp h with h | h
        · subst h; rfl
        · exact absurd (List.mem_map_of_mem (f := (·.1)) h) (by simpa [hk] using hp)
    · rw [List.find?_cons_of_neg (by simpa using hk), ih, List.mem_cons]
      constructor
      · exact .inr
      · rintro (h | h)
        · exact absurd (by rw [← h]) hk
        · exact h

theorem value_perm {d m : List (K × V)} (hd : Keys d) (hp : m.Perm d) (k : K) :
    value m k = value d k := by
  apply Option.ext
  intro v
  rw [value_eq_some (hd.perm hp), value_eq_some hd, hp.mem_iff]

theorem look_eq (m : List (K × V)) (k : K) :
    look m k = match value m k with | some v => .ok v | none => .ub := by
  unfold look value
  cases m.find? (fun p => p.1 = k) <;> rfl

theorem contains_eq (m : List (K × V)) (k : K) : contains m k = (value m k).isSome := by
  unfold contains value
  induction m with
  | nil => rfl
  | cons p m ih =>
    by_cases hk : p.1 = k
    · rw [List.find?_cons_of_pos (by simpa using hk)]; simp [hk]
    · rw [List.find?_cons_of_neg (by simpa using hk)]
      rw [List.any_cons, ih]; simp [hk]

theorem without_none {d : List (K × V)} {k : K} (h : value d k = none) : without d k = d := by
  unfold without
  rw [List.filter_eq_self]
  intro p hp
  unfold value at h
  simp only [Option.map_eq_none_iff, List.find?_eq_none] at h
  simpa using h p hp

theorem Keys.filter {d : List (K × V)} (h : Keys d) (f : K × V → Bool) : Keys (d.filter f) :=
  h.sublist (List.filter_sublist.map _)

theorem Keys.setv {d : List (K × V)} (h : Keys d) (k : K) (v : V) :
    Keys (d.map (fun p => if p.1 = k then (p.1, v) else p)) := by
  unfold Keys
  rw [List.map_map]
  have : ((·.1) ∘ fun p : K × V => if p.1 = k then (p.1, v) else p) = (·.1) := by
    funext p; simp only [Function.comp]; split <;> rfl
  rw [this]; exact h

/-- One operation, except for `popitem` and assignment to a new key. -/
theorem dictStep_ok {d m : List (K × V)} (hd : Keys d) (hp : m.Perm d) {o : DictOp K V}
    {v : Val K V} {d' : List (K × V)} (h : python d o = some (v, d')) (h1 : o ≠ .popitem)
    (h2 : ∀ k w, o = .setItem k w → (value d k).isSome) :
    ∃ m', dictStep m o = .ok (v, m') ∧ m'.Perm d' ∧ Keys d' := by
  have hval := value_perm hd hp
  cases o with
  | item k =>
    simp only [python, Option.map_eq_some_iff] at h
    obtain ⟨w, hw, he⟩ := h
    cases he
    exact ⟨m, by rw [dictStep, look_eq, hval, hw], hp, hd⟩
  | setItem k w =>
    have hs := h2 k w rfl
    obtain ⟨x, hx⟩ := Option.isSome_iff_exists.mp hs
    simp only [python, hs, ↓reduceIte, Option.some.injEq, Prod.mk.injEq] at h
    obtain ⟨rfl, rfl⟩ := h
    exact ⟨_, by rw [dictStep, look_eq, hval, hx], hp.map _, hd.setv k w⟩
  | get k w =>
    simp only [python, Option.some.injEq, Prod.mk.injEq] at h
    obtain ⟨rfl, rfl⟩ := h
    refine ⟨m, ?_, hp, hd⟩
    rw [dictStep, contains_eq, look_eq, hval]
    cases value d k <;> rfl
  | pop k =>
    simp only [python, Option.map_eq_some_iff] at h
    obtain ⟨w, hw, he⟩ := h
    cases he
    exact ⟨erase m k, by rw [dictStep, mapPop, look_eq, hval, hw], hp.filter _, hd.filter _⟩
  | popDefault k w =>
    simp only [python, Option.some.injEq, Prod.mk.injEq] at h
    obtain ⟨rfl, rfl⟩ := h
    rw [dictStep, contains_eq, mapPop, look_eq, hval]
    cases hv : value d k with
    | none => exact ⟨m, rfl, by rw [without_none hv]; exact hp, hd.filter _⟩
    | some x => exact ⟨erase m k, rfl, hp.filter _, hd.filter _⟩
  | popitem => exact absurd rfl h1
  | mem k =>
    simp only [python, Option.some.injEq, Prod.mk.injEq] at h
    obtain ⟨rfl, rfl⟩ := h
    exact ⟨m, by rw [dictStep, contains_eq, hval], hp, hd⟩
  | clear =>
    simp only [python, Option.some.injEq, Prod.mk.injEq] at h
    obtain ⟨rfl, rfl⟩ := h
    exact ⟨[], rfl, .refl _, by simp [Keys]⟩

/-- What Python raises for is undefined in the generated code. -/
theorem dictStep_ub {d m : List (K × V)} (hd : Keys d) (hp : m.Perm d) {o : DictOp K V}
    (h : python d o = none) : dictStep m o = .ub := by
  have hval := value_perm hd hp
  cases o with
  | item k =>
    simp only [python, Option.map_eq_none_iff] at h
    rw [dictStep, look_eq, hval, h]
  | setItem k w => simp [python] at h
  | get k w => simp [python] at h
  | pop k =>
    simp only [python, Option.map_eq_none_iff] at h
    rw [dictStep, mapPop, look_eq, hval, h]
  | popDefault k w => simp [python] at h
  | popitem =>
    simp only [python, Option.map_eq_none_iff, List.getLast?_eq_none_iff] at h
    subst h
    rw [List.perm_nil.mp hp]; rfl
  | mem k => simp [python] at h
  | clear => simp [python] at h

end

/-! ## Managed pointers -/

/-- The heap fits the uses of the handles. -/
structure Fits (u : Nat → Use) (s : Heap) : Prop where
  owner : ∀ g, u g = .owner → ∃ o, s.var g = some ⟨some o, true⟩ ∧ o < s.next ∧ s.freed o = 0
  alias : ∀ g, u g = .alias → ∃ p, s.var g = some ⟨p, false⟩
  one : ∀ g h o, u g = .owner → u h = .owner → s.var g = some ⟨some o, true⟩ →
    s.var h = some ⟨some o, true⟩ → g = h
  freed : ∀ o, o < s.next → s.freed o = 1 ∨
    (s.freed o = 0 ∧ ∃ g, u g = .owner ∧ s.var g = some ⟨some o, true⟩)
  fresh : ∀ o, s.next ≤ o → s.freed o = 0

theorem fits_start : Fits (fun _ => .empty) .start :=
  ⟨fun _ h => (nomatch h), fun _ h => (nomatch h), fun _ _ _ h => (nomatch h), fun _ h => absurd h (Nat.not_lt_zero _),
    fun _ _ => rfl⟩

/-- A variable that owns nothing gets a handle that owns nothing. -/
theorem Fits.put_alias {u : Nat → Use} {s : Heap} (h : Fits u s) {x : Nat} (hx : u x ≠ .owner)
    (p : Option Nat) :
    Fits (fun y => if y = x then .alias else u y) (s.assign x ⟨p, false⟩) := by
  refine ⟨?_, ?_, ?_, ?_, h.fresh⟩
  · intro g hg
    split at hg
    · cases hg
    · rename_i hne
      simpa [Heap.assign, hne] using h.owner g hg
  · intro g hg
    split at hg
    · rename_i he; exact ⟨p, by simp [Heap.assign, he]⟩
    · rename_i hne
      simpa [Heap.assign, hne] using h.alias g hg
  · intro g k o hg hk h1 h2
    split at hg
    · cases hg
    · rename_i hne
      split at hk
      · cases hk
      · rename_i hne'
        simp only [Heap.assign, hne, hne', ↓reduceIte] at h1 h2
        exact h.one g k o hg hk h1 h2
  · intro o ho
    rcases h.freed o ho with h1 | ⟨h1, g, hg, hv⟩
    · exact .inl h1
    · have hne : g ≠ x := by rintro rfl; exact hx hg
      exact .inr ⟨h1, g, by simp [hne, hg], by simp [Heap.assign, hne, hv]⟩

/-- A variable gives up a handle that owns nothing. -/
theorem Fits.give_alias {u : Nat → Use} {s : Heap} (h : Fits u s) {x : Nat} (hx : u x ≠ .owner) :
    Fits (fun y => if y = x then .empty else u y) s := by
  refine ⟨?_, ?_, ?_, ?_, h.fresh⟩
  · intro g hg
    split at hg
    · cases hg
    · exact h.owner g hg
  · intro g hg
    split at hg
    · cases hg
    · exact h.alias g hg
  · intro g k o hg hk
    split at hg
    · cases hg
    · split at hk
      · cases hk
      · exact h.one g k o hg hk
  · intro o ho
    rcases h.freed o ho with h1 | ⟨h1, g, hg, hv⟩
    · exact .inl h1
    · have hne : g ≠ x := by rintro rfl; exact hx hg
      exact .inr ⟨h1, g, by simp [hne, hg], hv⟩

/-- The object of an owner is freed, and the owner given up. -/
theorem Fits.free_owner {u : Nat → Use} {s : Heap} (h : Fits u s) {x o : Nat} (hx : u x = .owner)
    (hv : s.var x = some ⟨some o, true⟩) :
    Fits (fun y => if y = x then .empty else u y) (s.free o) := by
  obtain ⟨o', hv', hlt, hfr⟩ := h.owner x hx
  obtain rfl : o' = o := by rw [hv] at hv'; cases hv'; rfl
  have hother : ∀ g p, g ≠ x → u g = .owner → s.var g = some ⟨some p, true⟩ → p ≠ o' := by
    rintro g p hne hg hp rfl
    exact hne (h.one g x p hg hx hp hv)
  refine ⟨?_, ?_, ?_, ?_, ?_⟩
  · intro g hg
    split at hg
    · cases hg
    · rename_i hne
      obtain ⟨p, hp, hpl, hpf⟩ := h.owner g hg
      exact ⟨p, hp, hpl, by simp [Heap.free, hother g p hne hg hp, hpf]⟩
  · intro g hg
    split at hg
    · cases hg
    · exact h.alias g hg
  · intro g k p hg hk
    split at hg
    · cases hg
    · split at hk
      · cases hk
      · exact h.one g k p hg hk
  · intro p hp
    by_cases hpo : p = o'
    · exact .inl (by simp [Heap.free, hpo, hfr])
    · rcases h.freed p hp with h1 | ⟨h1, g, hg, hgv⟩
      · exact .inl (by simp [Heap.free, hpo, h1])
      · have hne : g ≠ x := by
          rintro rfl
          rw [hv] at hgv; cases hgv; exact hpo rfl
        exact .inr ⟨by simp [Heap.free, hpo, h1], g, by simp [hne, hg], hgv⟩
  · intro p hp
    have : p ≠ o' := by rintro rfl; exact absurd hlt (Nat.not_lt.mpr hp)
    simp only [Heap.free, this, ↓reduceIte]
    exact h.fresh p hp

theorem fits_make {u : Nat → Use} {s : Heap} (h : Fits u s) {x : Nat} (hx : u x ≠ .owner) :
    Fits (fun y => if y = x then .owner else u y)
      ({ s with next := s.next + 1 }.assign x ⟨some s.next, true⟩) := by
  refine ⟨?_, ?_, ?_, ?_, ?_⟩
  · intro g hg
    split at hg
    · rename_i he
      exact ⟨s.next, by simp [Heap.assign, he], Nat.lt_succ_self _, h.fresh _ (Nat.le_refl _)⟩
    · rename_i hne
      obtain ⟨o, ho, hl, hf⟩ := h.owner g hg
      exact ⟨o, by simp [Heap.assign, hne, ho], Nat.lt_succ_of_lt hl, hf⟩
  · intro g hg
    split at hg
    · cases hg
    · rename_i hne
      simpa [Heap.assign, hne] using h.alias g hg
  · intro g k o hg hk h1 h2
    simp only [Heap.assign] at hg hk h1 h2
    by_cases e1 : g = x <;> by_cases e2 : k = x
    · rw [e1, e2]
    · simp only [e1, e2, ↓reduceIte, Option.some.injEq, Handle.mk.injEq, and_true] at h1 h2 hk
      obtain ⟨o', ho', hl, _⟩ := h.owner k hk
      rw [h2] at ho'
      have : o = o' := by cases ho'; rfl
      omega
    · simp only [e1, e2, ↓reduceIte, Option.some.injEq, Handle.mk.injEq, and_true] at h1 h2 hg
      obtain ⟨o', ho', hl, _⟩ := h.owner g hg
      rw [h1] at ho'
      have : o = o' := by cases ho'; rfl
      omega
    · simp only [e1, e2, ↓reduceIte] at h1 h2 hg hk
      exact h.one g k o hg hk h1 h2
  · intro o ho
    by_cases he : o = s.next
    · exact .inr ⟨h.fresh o (by omega), x, by simp, by simp [Heap.assign, he]⟩
    · have ho : o < s.next := by have : o < s.next + 1 := ho; omega
      rcases h.freed o ho with h1 | ⟨h1, g, hg, hv⟩
      · exact .inl h1
      · have hne : g ≠ x := by rintro rfl; exact hx hg
        exact .inr ⟨h1, g, by simp [hne, hg], by simp [Heap.assign, hne, hv]⟩
  · intro o ho
    have ho : s.next + 1 ≤ o := ho
    exact h.fresh o (by omega)

theorem fits_steal_owner {u : Nat → Use} {s : Heap} (h : Fits u s) {x g : Nat} (hne : x ≠ g)
    (hx : u x ≠ .owner) (hg : u g = .owner) {p : Handle} (hp : s.var g = some p) :
    Fits (fun y => if y = x then u g else if y = g then .empty else u y) (s.assign x p) := by
  obtain ⟨o, ho, hl, hf⟩ := h.owner g hg
  rw [hp] at ho
  cases ho
  refine ⟨?_, ?_, ?_, ?_, h.fresh⟩
  · intro k hk
    split at hk
    · rename_i he; exact ⟨o, by simp [Heap.assign, he], hl, hf⟩
    · rename_i hkx
      split at hk
      · cases hk
      · simpa [Heap.assign, hkx] using h.owner k hk
  · intro k hk
    split at hk
    · rw [hg] at hk; cases hk
    · rename_i hkx
      split at hk
      · cases hk
      · simpa [Heap.assign, hkx] using h.alias k hk
  · intro a b q ha hb h1 h2
    simp only [Heap.assign] at ha hb h1 h2
    by_cases e1 : a = x <;> by_cases e2 : b = x
    · rw [e1, e2]
    · simp only [e1, e2, ↓reduceIte, Option.some.injEq, Handle.mk.injEq, and_true] at h1 h2 hb
      split at hb
      · cases hb
      · rename_i hbg
        exact absurd (h.one b g q hb hg h2 (by rw [hp, h1])) hbg
    · simp only [e1, e2, ↓reduceIte, Option.some.injEq, Handle.mk.injEq, and_true] at h1 h2 ha
      split at ha
      · cases ha
      · rename_i hag
        exact absurd (h.one a g q ha hg h1 (by rw [hp, h2])) hag
    · simp only [e1, e2, ↓reduceIte] at h1 h2 ha hb
      split at ha
      · cases ha
      · split at hb
        · cases hb
        · exact h.one a b q ha hb h1 h2
  · intro q hq
    rcases h.freed q hq with h1 | ⟨h1, k, hk, hkv⟩
    · exact .inl h1
    · refine .inr ⟨h1, ?_⟩
      by_cases hkg : k = g
      · subst hkg
        rw [hp] at hkv; cases hkv
        exact ⟨x, by simp [hg], by simp [Heap.assign]⟩
      · have hkx : k ≠ x := by rintro rfl; exact hx hk
        exact ⟨k, by simp [hkx, hkg, hk], by simp [Heap.assign, hkx, hkv]⟩

theorem fits_step {u u' : Nat → Use} {s : Heap} (h : Fits u s) {o : PtrOp} (ho : use u o = some u') :
    ∃ s', s.step o = .ok s' ∧ Fits u' s' := by
  cases o with
  | make x =>
    simp only [use] at ho
    split at ho
    · cases ho
    · rename_i hx; cases ho
      exact ⟨_, rfl, fits_make h hx⟩
  | fromVar x =>
    simp only [use] at ho
    split at ho
    · cases ho
    · rename_i hx; cases ho
      exact ⟨_, rfl, h.put_alias hx none⟩
  | clone x g =>
    simp only [use] at ho
    split at ho
    · cases ho
    · rename_i hx; cases ho
      have hx1 : u x ≠ .owner := fun e => hx (.inl e)
      have hg : ∃ p, s.var g = some p := by
        cases hu : u g with
        | empty => exact absurd (.inr hu) hx
        | owner => obtain ⟨o, ho, _⟩ := h.owner g hu; exact ⟨_, ho⟩
        | alias => obtain ⟨o, ho⟩ := h.alias g hu; exact ⟨_, ho⟩
      obtain ⟨p, hp⟩ := hg
      exact ⟨_, by simp only [Heap.step, hp], h.put_alias hx1 p.get⟩
  | steal x g =>
    simp only [use] at ho
    split at ho
    · cases ho
    · rename_i hx; cases ho
      have hxg : x ≠ g := fun e => hx (.inl e)
      have hx1 : u x ≠ .owner := fun e => hx (.inr (.inl e))
      cases hu : u g with
      | empty => exact absurd (.inr (.inr hu)) hx
      | owner =>
        obtain ⟨o, hv, _⟩ := h.owner g hu
        refine ⟨s.assign x ⟨some o, true⟩, by simp only [Heap.step, hv], ?_⟩
        have := fits_steal_owner h hxg hx1 hu hv
        rwa [hu] at this
      | alias =>
        obtain ⟨o, hv⟩ := h.alias g hu
        refine ⟨s.assign x ⟨o, false⟩, by simp only [Heap.step, hv], ?_⟩
        have h1 := h.give_alias (x := g) (by rw [hu]; exact fun e => nomatch e)
        have h2 := h1.put_alias (x := x) (by simp [hxg, hx1]) o
        exact h2
  | drop g =>
    simp only [use] at ho
    split at ho
    · cases ho
    · rename_i hx; cases ho
      cases hu : u g with
      | empty => exact absurd hu hx
      | owner =>
        obtain ⟨o, hv, _⟩ := h.owner g hu
        exact ⟨s.free o, by simp only [Heap.step, hv], h.free_owner hu hv⟩
      | alias =>
        obtain ⟨o, hv⟩ := h.alias g hu
        exact ⟨s, by simp only [Heap.step, hv], h.give_alias (by rw [hu]; exact fun e => nomatch e)⟩
  | release g =>
    simp only [use] at ho
    split at ho
    · rename_i hu; cases ho
      obtain ⟨o, hv, _⟩ := h.owner g hu
      exact ⟨s.free o, by simp only [Heap.step, hv], h.free_owner hu hv⟩
    · cases ho

theorem fits_run {u u' : Nat → Use} {s : Heap} (h : Fits u s) {os : List PtrOp}
    (ho : uses u os = some u') : ∃ s', s.run os = .ok s' ∧ Fits u' s' := by
  induction os generalizing u s with
  | nil => simp only [uses, Option.some.injEq] at ho; subst ho; exact ⟨s, rfl, h⟩
  | cons o os ih =>
    simp only [uses, Option.bind_eq_some_iff] at ho
    obtain ⟨u1, h1, h2⟩ := ho
    obtain ⟨s1, hs1, hf1⟩ := fits_step h h1
    obtain ⟨s2, hs2, hf2⟩ := ih hf1 h2
    exact ⟨s2, by rw [Heap.run, hs1]; exact hs2, hf2⟩

end Verif.Containers
