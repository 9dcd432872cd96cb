import Verif.Link.Model

namespace Verif.Link
open Spec Model

/-! ## Object files -/

mutual
theorem mem_files (x : Name) : ∀ o : Obj, x ∈ files o ↔ ∃ e, Chain o e ∧ e.name = x
  | .mk n f l ds => by
    have h := mem_filesAll x ds
    simp only [files, h]
    constructor
    · rintro ⟨d, hd, hf, h | ⟨e, he, hx⟩⟩
      · exact ⟨d, .direct hd hf, h⟩
      · exact ⟨e, .indirect hd hf he, hx⟩
    · rintro ⟨e, he, hx⟩
      cases he with
      | direct hd hf => exact ⟨e, hd, hf, .inl hx⟩
      | indirect hd hf h => exact ⟨_, hd, hf, .inr ⟨e, h, hx⟩⟩

theorem mem_filesAll (x : Name) : ∀ ds : List Obj, x ∈ filesAll ds ↔
    ∃ d ∈ ds, d.file = true ∧ (d.name = x ∨ ∃ e, Chain d e ∧ e.name = x)
  | [] => by simp [filesAll]
  | d :: r => by
    have h1 := mem_files x d
    have h2 := mem_filesAll x r
    simp only [filesAll, List.mem_append, h2, List.mem_cons, exists_eq_or_imp]
    refine or_congr ?_ Iff.rfl
    cases hf : d.file
    · simp
    · simp [h1, eq_comm]
end

theorem chain_needs {o e : Obj} (h : Chain o e) : Needs o e ∧ e.file = true := by
  induction h with
  | direct hd hf => exact ⟨.direct hd, hf⟩
  | indirect hd _ _ ih => exact ⟨.indirect hd ih.1, ih.2⟩

theorem needs_chain {o e : Obj} (h : Needs o e) (he : e.file = true)
    (H : ∀ d, Needs o d → d.file = false → ∀ e, Needs d e → e.file = false) : Chain o e := by
  induction h with
  | direct hd => exact .direct hd he
  | @indirect o d e hd h ih =>
    have hf : d.file = true := by
      cases hf : d.file
      · have := H d (.direct hd) hf e h
        simp [this] at he
      · rfl
    exact .indirect hd hf (ih he fun d' h' => H d' (.indirect hd h'))

theorem made_deps {o d : Obj} (h : Made o) (hd : d ∈ o.deps) : Made d := by
  cases h with
  | header h _ => exact h d hd
  | object h => exact h d hd

theorem made_needs {o d : Obj} (hd : Needs o d) : Made o → Made d := by
  induction hd with
  | direct hd => exact fun h => made_deps h hd
  | indirect hd _ ih => exact fun h => ih (made_deps h hd)

theorem header_needs {o d : Obj} (hd : Needs o d) : Made o → o.file = false → d.file = false := by
  have key : ∀ {o d : Obj}, Made o → o.file = false → d ∈ o.deps → d.file = false := by
    intro o d h hf hd
    cases h with
    | header _ h => exact h d hd
    | object _ => simp [Obj.file] at hf
  induction hd with
  | direct hd => exact fun h hf => key h hf hd
  | indirect hd _ ih => exact fun h hf => ih (made_deps h hd) (key h hf hd)

/-! ## Libraries -/

theorem links_of_ordered (w : World) (l : List Name) (W D : Sym → Prop) (hl : Ordered w l)
    (hW : ∀ s, W s → D s ∨ ∃ b ∈ l, s ∈ w.defs b) : Links w l W D := by
  induction l generalizing W D with
  | nil =>
    intro s hs
    rcases hW s hs with h | ⟨b, hb, _⟩
    · exact h
    · cases hb
  | cons a l ih =>
    simp only [Links]
    refine ih _ _ (fun pre b post e => hl (a :: pre) b post (by rw [e]; rfl)) ?_
    intro s hs
    have key : D s ∨ s ∈ w.defs a ∨ (∃ b ∈ l, s ∈ w.defs b) := by
      rcases hs with hs | ⟨t, ht, hu⟩
      · rcases hW s hs with h | ⟨b, hb, hd⟩
        · exact .inl h
        · rcases List.mem_cons.1 hb with rfl | hb
          · exact .inr (.inl hd)
          · exact .inr (.inr ⟨b, hb, hd⟩)
      · have hta : t ∈ w.defs a := by cases ht <;> assumption
        rcases hl [] a l rfl t hta s hu with h | h
        · exact .inr (.inl h)
        · exact .inr (.inr h)
    rcases key with h | h | h
    · exact .inl (.inl h)
    · by_cases hD : D s
      · exact .inl (.inl hD)
      · refine .inl (.inr ?_)
        rcases hs with hs | ⟨t, ht, hu⟩
        · exact .used h hs hD
        · exact .again ht hu h hD
    · exact .inr h

theorem ordered_append (w : World) (l m : List Name) (hl : Ordered w l) (hm : Ordered w m) :
    Ordered w (l ++ m) := by
  intro pre a post e s hs r hr
  rcases List.append_eq_append_iff.1 e with ⟨c, h1, h2⟩ | ⟨c, h1, h2⟩
  · exact hm c a post h2 s hs r hr
  · cases c with
    | nil => exact hm [] a post (by simpa using h2.symm) s hs r hr
    | cons x c =>
      simp only [List.cons_append, List.cons.injEq] at h2
      obtain ⟨rfl, rfl⟩ := h2
      rcases hl pre a c h1 s hs r hr with h | ⟨b, hb, h⟩
      · exact .inl h
      · exact .inr ⟨b, by simp [hb], h⟩

theorem ordered_nil (w : World) : Ordered w [] := by
  intro pre a post e
  simp at e

mutual
theorem ordered_all (w : World) : ∀ o : Obj, Ordered w o.libs →
    (∀ d, Needs o d → Ordered w d.libs) → Ordered w (allLibs o)
  | .mk n f l ds, h, H => by
    rw [allLibs]
    exact ordered_append w _ _ h (ordered_allOf w ds
      (fun d hd => H d (.direct hd)) (fun d hd e he => H e (.indirect hd he)))

theorem ordered_allOf (w : World) : ∀ ds : List Obj, (∀ d ∈ ds, Ordered w d.libs) →
    (∀ d ∈ ds, ∀ e, Needs d e → Ordered w e.libs) → Ordered w (allLibsOf ds)
  | [], _, _ => ordered_nil w
  | d :: r, h, H => by
    rw [allLibsOf]
    exact ordered_append w _ _ (ordered_all w d (h d (by simp)) (H d (by simp)))
      (ordered_allOf w r (fun e he => h e (by simp [he])) (fun e he => H e (by simp [he])))
end

theorem mem_firsts (l : List Name) (x : Name) : x ∈ firsts l ↔ x ∈ l := by
  induction l with
  | nil => simp [firsts]
  | cons y r ih =>
    simp only [firsts, List.mem_cons, List.mem_filter, ih, bne_iff_ne, ne_eq]
    by_cases h : x = y <;> simp [h]

theorem nodup_firsts (l : List Name) : (firsts l).Nodup := by
  induction l with
  | nil => simp [firsts]
  | cons y r ih =>
    simp only [firsts, List.nodup_cons, List.mem_filter, bne_self_eq_false, Bool.false_eq_true, and_false,
      not_false_eq_true, true_and]
    exact ih.filter _

theorem filter_split {p : Name → Bool} {l pre post : List Name} {a : Name}
    (h : l.filter p = pre ++ a :: post) :
    ∃ pre' post', l = pre' ++ a :: post' ∧ post = post'.filter p := by
  induction l generalizing pre with
  | nil => simp at h
  | cons x r ih =>
    by_cases hx : p x = true
    · rw [List.filter_cons_of_pos hx] at h
      cases pre with
      | nil =>
        simp only [List.nil_append, List.cons.injEq] at h
        exact ⟨[], r, by simp [h.1], h.2.symm⟩
      | cons y pre =>
        simp only [List.cons_append, List.cons.injEq] at h
        obtain ⟨p', q', h1, h2⟩ := ih h.2
        exact ⟨x :: p', q', by simp [h1], h2⟩
    · rw [List.filter_cons_of_neg hx] at h
      obtain ⟨p', q', h1, h2⟩ := ih h
      exact ⟨x :: p', q', by simp [h1], h2⟩

theorem ordered_firsts (w : World) (l : List Name) (hl : Ordered w l)
    (H : ∀ a ∈ l, ∀ s ∈ w.defs a, ∀ r ∈ w.uses s, ∀ b ∈ l, r ∈ w.defs b → b = a ∨ l.count b ≤ 1) :
    Ordered w (firsts l) := by
  induction l with
  | nil => exact ordered_nil w
  | cons x l ih =>
    have ih := ih (fun pre b post e => hl (x :: pre) b post (by rw [e]; rfl)) (by
      intro a ha s hs r hr b hb hd
      rcases H a (by simp [ha]) s hs r hr b (by simp [hb]) hd with h | h
      · exact .inl h
      · right
        rw [List.count_cons] at h
        omega)
    intro pre a post e s hs r hr
    cases pre with
    | nil =>
      simp only [firsts, List.nil_append, List.cons.injEq] at e
      obtain ⟨rfl, rfl⟩ := e
      rcases hl [] x l rfl s hs r hr with h | ⟨b, hb, hd⟩
      · exact .inl h
      · by_cases hbx : b = x
        · subst hbx; exact .inl hd
        · exact .inr ⟨b, by simp [mem_firsts, hb, hbx], hd⟩
    | cons y pre =>
      simp only [firsts, List.cons_append, List.cons.injEq] at e
      obtain ⟨rfl, e⟩ := e
      have hax : a ≠ x := by
        have : a ∈ (firsts l).filter (· != x) := by rw [e]; simp
        simpa using (List.mem_filter.1 this).2
      obtain ⟨p', q', h1, h2⟩ := filter_split e
      have hal : a ∈ l := by
        rw [← mem_firsts, h1]; simp
      rcases ih p' a q' h1 s hs r hr with h | ⟨b, hb, hd⟩
      · exact .inl h
      · have hbl : b ∈ l := by
          rw [← mem_firsts, h1]; simp [hb]
        by_cases hbx : b = x
        · subst hbx
          rcases H a (by simp [hal]) s hs r hr b (by simp) hd with h | h
          · exact absurd h.symm hax
          · have : 0 < l.count b := List.count_pos_iff.2 hbl
            simp only [List.count_cons_self] at h
            omega
        · exact .inr ⟨b, by rw [h2]; simp [hb, hbx], hd⟩

/-! ## Options -/

theorem effective_append (a b : List Flag) (g : Nat) :
    effective (a ++ b) g = match effective b g with | some v => some v | none => effective a g := by
  have key : ∀ (b : List Flag) (v : Option Nat),
      b.foldl (fun v f => if f.1 = g then some f.2 else v) v =
        match effective b g with | some v => some v | none => v := by
    intro b
    induction b with
    | nil => intro v; rfl
    | cons f b ih =>
      intro v
      simp only [effective, List.foldl_cons]
      rw [ih, ih]
      cases effective b g <;> simp
      by_cases h : f.1 = g <;> simp [h]
  simp only [effective, List.foldl_append]
  rw [key]
  rfl

theorem effective_none (b : List Flag) (g : Nat) : effective b g = none ↔ ∀ f ∈ b, f.1 ≠ g := by
  induction b with
  | nil => simp [effective]
  | cons f b ih =>
    have := effective_append [f] b g
    simp only [List.singleton_append] at this
    rw [this]
    cases h : effective b g with
    | some v =>
      simp only [h] at ih
      simp
      intro _
      simpa using ih
    | none =>
      simp only [h, true_iff] at ih
      by_cases hf : f.1 = g <;> simp [effective, hf] <;> simpa using ih

/-! ## Folders -/

theorem found_some {has : Name → Bool} {l : List Name} {x : Name} (h : found has l = some x) :
    x ∈ l ∧ has x = true := ⟨List.mem_of_find?_eq_some h, List.find?_some h⟩

theorem found_unique (has : Name → Bool) (l m : List Name) (h : m.Perm l)
    (hu : ∀ a ∈ l, ∀ b ∈ l, has a = true → has b = true → a = b) : found has m = found has l := by
  cases hm : found has m with
  | some x =>
    have hx := found_some hm
    cases hl : found has l with
    | some y =>
      have hy := found_some hl
      rw [hu x (h.mem_iff.1 hx.1) y hy.1 hx.2 hy.2]
    | none =>
      have := List.find?_eq_none.1 hl x (h.mem_iff.1 hx.1)
      exact absurd hx.2 this
  | none =>
    symm
    apply List.find?_eq_none.2
    intro x hx
    exact List.find?_eq_none.1 hm x (h.mem_iff.2 hx)

theorem unique_of_found (has : Name → Bool) (l : List Name)
    (hu : ∀ m : List Name, m.Perm l → found has m = found has l) :
    ∀ a ∈ l, ∀ b ∈ l, has a = true → has b = true → a = b := by
  intro a ha b hb h1 h2
  have key : ∀ c ∈ l, has c = true → found has l = some c := by
    intro c hc h
    obtain ⟨p, q, rfl⟩ := List.append_of_mem hc
    rw [← hu (c :: (p ++ q)) (List.perm_middle.symm)]
    simp [found, h]
  have := (key a ha h1).symm.trans (key b hb h2)
  simpa using this

/-! ## Histories -/

/-- The invariant: an object file that is not older than the source is its compilation, with these
options; no time is in the future. -/
def Inv (o now : Nat) (l : Lib) : Prop :=
  l.time ≤ now ∧ ∀ b, l.built = some b → b.time ≤ now ∧ b.opts = o ∧ (l.time ≤ b.time → b.src = l.src)

theorem run_inv (o now : Nat) (l : Lib) (h : List Event) (hl : Inv o now l) (ht : Ticks now h)
    (ho : SameOpts o h) : ∃ now', Inv o now' (run l h) ∧ now ≤ now' ∧
      ∀ t, Ticks now (h ++ [.use o t]) → now' < t := by
  induction h generalizing now l with
  | nil => exact ⟨now, hl, Nat.le_refl _, fun t h => h.1⟩
  | cons e h ih =>
    cases e with
    | write c t =>
      obtain ⟨n, h1, h2, h3⟩ := ih t (step l (.write c t)) (by
        refine ⟨Nat.le_refl _, fun b hb => ?_⟩
        have := hl.2 b hb
        refine ⟨by have := ht.1; omega, this.2.1, fun hle => ?_⟩
        have := ht.1
        simp only [step] at hle
        omega) ht.2 ho
      exact ⟨n, h1, by have := ht.1; omega, fun t' h' => h3 t' h'.2⟩
    | upgrade c m =>
      obtain ⟨n, h1, h2, h3⟩ := ih now (step l (.upgrade c m)) (by
        refine ⟨ht.1, fun b hb => ?_⟩
        simp [step] at hb) ht.2 ho
      exact ⟨n, h1, h2, fun t' h' => h3 t' h'.2⟩
    | use o' t =>
      obtain ⟨n, h1, h2, h3⟩ := ih t (step l (.use o' t)) (by
        have hlt := ht.1
        have ho' := ho.1
        simp only [step]
        split
        · refine ⟨by have := hl.1; simp; omega, fun b hb => ?_⟩
          simp only [Option.some.injEq] at hb
          subst hb
          exact ⟨Nat.le_refl _, ho', fun _ => rfl⟩
        · refine ⟨by have := hl.1; omega, fun b hb => ?_⟩
          have := hl.2 b hb
          exact ⟨by omega, this.2⟩) ht.2 ho.2
      exact ⟨n, h1, by have := ht.1; omega, fun t' h' => h3 t' h'.2⟩

theorem ticks_left (now : Nat) (h k : List Event) (ht : Ticks now (h ++ k)) : Ticks now h := by
  induction h generalizing now with
  | nil => trivial
  | cons e h ih => cases e <;> exact ⟨ht.1, ih _ ht.2⟩

theorem run_src (l : Lib) (h : List Event) : (run l h).src = source l.src h := by
  induction h generalizing l with
  | nil => rfl
  | cons e h ih =>
    have : run l (e :: h) = run (step l e) h := rfl
    rw [this, ih]
    cases e with
    | write c t => rfl
    | upgrade c m => rfl
    | use o t =>
      simp only [source, step]
      split <;> rfl

theorem use_fresh (o now t : Nat) (l : Lib) (hl : Inv o now l) :
    ∃ b, (step l (.use o t)).built = some b ∧ b.src = l.src ∧ b.opts = o := by
  by_cases h : outdated l = true
  · exact ⟨⟨l.src, o, t⟩, by simp [step, h], rfl, rfl⟩
  · simp only [step, if_neg h]
    unfold outdated at h
    split at h
    · rename_i b hb
      have := hl.2 b hb
      simp only [decide_eq_true_eq, Nat.not_lt] at h
      exact ⟨b, hb, this.2.2 h, this.2.1⟩
    · simp at h

end Verif.Link
