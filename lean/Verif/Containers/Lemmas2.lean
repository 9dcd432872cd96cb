import Verif.Containers.Lemmas

/-! # Sets, dictionaries and managed pointers: lemmas -/

namespace Verif.Containers
open Spec Model

variable {α : Type} [DecidableEq α]

/-! ## Sets -/

theorem mem_insert {s : List α} {x y : α} : y ∈ insertElem s x ↔ y ∈ s ∨ y = x := by
  unfold insertElem
  split
  · constructor
    · exact Or.inl
    · rintro (h | rfl)
      · exact h
      · assumption
  · simp

theorem nodup_insert {s : List α} (h : s.Nodup) (x : α) : (insertElem s x).Nodup := by
  unfold insertElem
  split
  · exact h
  · rename_i hx
    rw [List.nodup_append]
    refine ⟨h, by simp, ?_⟩
    intro a ha b hb he
    simp at hb
    exact hx (hb ▸ he ▸ ha)

theorem mem_insertAll {s t : List α} {y : α} : y ∈ insertAll s t ↔ y ∈ s ∨ y ∈ t := by
  induction t generalizing s with
  | nil => simp [insertAll]
  | cons x t ih => rw [insertAll, ih, mem_insert, List.mem_cons, or_assoc]

theorem nodup_insertAll {s : List α} (h : s.Nodup) (t : List α) : (insertAll s t).Nodup := by
  induction t generalizing s with
  | nil => exact h
  | cons x t ih => exact ih (nodup_insert h x)

theorem mem_unionAll {s : List α} {ts : List (List α)} {y : α} :
    y ∈ unionAll s ts ↔ y ∈ s ∨ ∃ t ∈ ts, y ∈ t := by
  induction ts generalizing s with
  | nil => simp [unionAll]
  | cons t ts ih => rw [unionAll, ih, mem_insertAll]; simp [or_assoc]

theorem nodup_unionAll {s : List α} (h : s.Nodup) (ts : List (List α)) : (unionAll s ts).Nodup := by
  induction ts generalizing s with
  | nil => exact h
  | cons t ts ih => exact ih (nodup_insertAll h t)

/-- No turn leads on for ever. -/
theorem turn_acc (erases : List α → α → Bool) (c : List α × List α) :
    Acc (fun b a => Turn erases a b) c := by
  obtain ⟨seen, todo⟩ := c
  generalize hn : seen.length + todo.length = n
  induction n using Nat.strongRecOn generalizing seen todo with
  | _ n ih =>
    induction todo generalizing seen with
    | nil => exact ⟨_, fun b h => nomatch h⟩
    | cons x todo iht =>
      refine ⟨_, fun b h => ?_⟩
      cases h with
      | next seen x todo h =>
        exact iht (seen ++ [x]) (by simp at hn ⊢; omega)
      | erase seen x todo back seen' todo' h hs ht =>
        have h1 := hs.length_eq
        have h2 := ht.length_eq
        simp at h1 h2 hn
        exact ih (seen'.length + todo'.length) (by omega) _ _ rfl

theorem turns_exist (erases : List α → α → Bool) (c : List α × List α) :
    ∃ r, Turns erases c (r, []) := by
  induction turn_acc erases c with
  | intro c _ ih =>
    obtain ⟨seen, todo⟩ := c
    cases todo with
    | nil => exact ⟨seen, .refl _⟩
    | cons x todo =>
      cases h : erases (seen ++ x :: todo) x with
      | false =>
        have ht : Turn erases (seen, x :: todo) (seen ++ [x], todo) := .next _ _ _ h
        obtain ⟨r, hr⟩ := ih _ ht
        exact ⟨r, .step ht hr⟩
      | true =>
        have ht : Turn erases (seen, x :: todo) (seen, todo) :=
          .erase seen x todo [] seen todo h (by simp) (by simp)
        obtain ⟨r, hr⟩ := ih _ ht
        exact ⟨r, .step ht hr⟩

theorem loop_exists (erases : List α → α → Bool) (s : List α) : ∃ r, Loop erases s r := by
  obtain ⟨r, hr⟩ := turns_exist erases ([], s)
  exact ⟨r, s, .refl _, hr⟩

theorem turn_filter {erases : List α → α → Bool} {e : α → Bool}
    (he : ∀ cur x, x ∈ cur → erases cur x = e x) {a b : List α × List α} (h : Turn erases a b)
    (ha : ∀ x ∈ a.1, e x = false) :
    (∀ x ∈ b.1, e x = false) ∧
      ((b.1 ++ b.2).filter (fun x => !e x)).Perm ((a.1 ++ a.2).filter (fun x => !e x)) := by
  cases h with
  | next seen x todo h =>
    rw [he _ _ (by simp)] at h
    refine ⟨?_, by simp⟩
    intro y hy
    rcases List.mem_append.mp hy with hy | hy
    · exact ha y hy
    · simp at hy; rw [hy]; exact h
  | erase seen x todo back seen' todo' h hs ht =>
    rw [he _ _ (by simp)] at h
    refine ⟨fun y hy => ha y (hs.mem_iff.mpr (by simp [hy])), ?_⟩
    have : (seen ++ x :: todo).filter (fun x => !e x) = (seen ++ todo).filter (fun x => !e x) := by
      simp [h]
    rw [this]
    apply List.Perm.filter
    calc (seen' ++ todo').Perm (seen' ++ (todo ++ back)) := ht.append_left _
      _ |>.Perm (seen' ++ (back ++ todo)) := List.perm_append_comm.append_left _
      _ |>.Perm (seen ++ todo) := by
        rw [← List.append_assoc]; exact hs.symm.append_right _

theorem turns_filter {erases : List α → α → Bool} {e : α → Bool}
    (he : ∀ cur x, x ∈ cur → erases cur x = e x) {a b : List α × List α} (h : Turns erases a b)
    (ha : ∀ x ∈ a.1, e x = false) :
    (∀ x ∈ b.1, e x = false) ∧
      ((b.1 ++ b.2).filter (fun x => !e x)).Perm ((a.1 ++ a.2).filter (fun x => !e x)) := by
  induction h with
  | refl c => exact ⟨ha, .refl _⟩
  | step h _ ih =>
    have h1 := turn_filter he h ha
    have h2 := ih h1.1
    exact ⟨h2.1, h2.2.trans h1.2⟩

theorem loop_perm {erases : List α → α → Bool} {e : α → Bool}
    (he : ∀ cur x, x ∈ cur → erases cur x = e x) {s r : List α} (h : Loop erases s r) :
    r.Perm (s.filter (fun x => !e x)) := by
  obtain ⟨o, ho, ht⟩ := h
  have h2 := turns_filter he ht (by simp)
  simp only [List.append_nil, List.nil_append] at h2
  have h3 : r.filter (fun x => !e x) = r := by
    rw [List.filter_eq_self]
    intro x hx; simp [h2.1 x hx]
  rw [h3] at h2
  exact h2.2.trans (ho.filter _)

theorem update1_spec {op : SetOp} {env : Nat → List α} {d t : Nat} {r : List α}
    (hd : (env d).Nodup) (h : Update1 op env d t r) :
    r.Nodup ∧ ∀ x, x ∈ r ↔ op.mem x (env d) [env t] := by
  cases op with
  | union =>
    have h : r.Perm _ := h
    refine ⟨h.nodup_iff.mpr (nodup_insertAll hd _), fun x => ?_⟩
    rw [h.mem_iff, mem_insertAll]; simp [SetOp.mem]
  | inter =>
    have h : Loop _ _ _ := h
    by_cases htd : t = d
    · subst htd
      have hp := loop_perm (e := fun _ => false) (by
        intro cur x hx
        simp [other, hx]) h
      rw [List.filter_eq_self.mpr (by simp)] at hp
      refine ⟨hp.nodup_iff.mpr hd, fun x => ?_⟩
      rw [hp.mem_iff]; simp [SetOp.mem]
    · have hp := loop_perm (e := fun x => !(env t).contains x) (by
        intro cur x hx
        simp only [other, if_neg htd]) h
      refine ⟨hp.nodup_iff.mpr (hd.filter _), fun x => ?_⟩
      rw [hp.mem_iff]; simp [SetOp.mem]
  | diff =>
    have h : Loop _ _ _ := h
    by_cases htd : t = d
    · subst htd
      have hp := loop_perm (e := fun _ => true) (by
        intro cur x hx
        simp [other, hx]) h
      rw [List.filter_eq_nil_iff.mpr (by simp)] at hp
      refine ⟨hp.nodup_iff.mpr (by simp), fun x => ?_⟩
      rw [hp.mem_iff]; simp [SetOp.mem]
    · have hp := loop_perm (e := fun x => (env t).contains x) (by
        intro cur x hx
        simp only [other, if_neg htd]) h
      refine ⟨hp.nodup_iff.mpr (hd.filter _), fun x => ?_⟩
      rw [hp.mem_iff]; simp [SetOp.mem]

theorem update1_exists (op : SetOp) (env : Nat → List α) (d t : Nat) : ∃ r, Update1 op env d t r := by
  cases op with
  | union => exact ⟨_, .refl _⟩
  | inter => exact loop_exists _ _
  | diff => exact loop_exists _ _

theorem updates_exist (op : SetOp) (env : Nat → List α) (d : Nat) (ts : List Nat) :
    ∃ env', Updates op d env ts env' := by
  induction ts generalizing env with
  | nil => exact ⟨env, .nil _⟩
  | cons t ts ih =>
    obtain ⟨r, hr⟩ := update1_exists op env d t
    obtain ⟨env', h⟩ := ih (put env d r)
    exact ⟨env', .cons hr h⟩

theorem put_same (env : Nat → List α) (d : Nat) (r : List α) : put env d r d = r := if_pos rfl

theorem put_other {env : Nat → List α} {d v : Nat} {r : List α} (h : v ≠ d) :
    put env d r v = env v := if_neg h

theorem updates_spec {op : SetOp} {env env' : Nat → List α} {d : Nat} {ts : List Nat}
    (hd : (env d).Nodup) (h : Updates op d env ts env') :
    (∀ v, v ≠ d → env' v = env v) ∧ (env' d).Nodup ∧
      ∀ x, x ∈ env' d ↔ op.mem x (env d) (ts.map env) := by
  induction h with
  | nil env =>
    refine ⟨fun _ _ => rfl, hd, fun x => ?_⟩
    cases op <;> simp [SetOp.mem]
  | @cons env env' t ts r h hs ih =>
    obtain ⟨hn, hm⟩ := update1_spec hd h
    obtain ⟨h1, h2, h3⟩ := ih (by rw [put_same]; exact hn)
    refine ⟨fun v hv => by rw [h1 v hv, put_other hv], h2, fun x => ?_⟩
    rw [h3, put_same]
    have key : ∀ t', x ∈ put env d r t' ↔ (if t' = d then x ∈ r else x ∈ env t') := by
      intro t'; unfold put; split <;> simp
    cases op with
    | union =>
      have ex : ∀ f : Nat → List α, (∃ t ∈ ts.map f, x ∈ t) ↔ ∃ t ∈ ts, x ∈ f t := by
        intro f
        constructor
        · rintro ⟨t, ht, hx⟩
          obtain ⟨a, ha, rfl⟩ := List.mem_map.mp ht
          exact ⟨a, ha, hx⟩
        · rintro ⟨a, ha, hx⟩
          exact ⟨_, List.mem_map_of_mem ha, hx⟩
      simp only [SetOp.mem, ex, key, hm, List.map_cons,
        List.mem_cons, List.not_mem_nil, or_false, exists_eq_left, exists_eq_or_imp]
      constructor
      · rintro ((h | h) | ⟨a, ha, h⟩)
        · exact .inl h
        · exact .inr (.inl h)
        · split at h
          · rcases h with h | h
            · exact .inl h
            · exact .inr (.inl h)
          · exact .inr (.inr ⟨a, ha, h⟩)
      · rintro (h | h | ⟨a, ha, h⟩)
        · exact .inl (.inl h)
        · exact .inl (.inr h)
        · refine .inr ⟨a, ha, ?_⟩
          split
          · rename_i e; rw [e] at h; exact .inl h
          · exact h
    | inter =>
      simp only [SetOp.mem, List.mem_map, forall_exists_index, and_imp, forall_apply_eq_imp_iff₂,
        key, hm, List.map_cons, List.mem_cons, List.not_mem_nil, or_false, forall_eq,
        forall_eq_or_imp]
      constructor
      · rintro ⟨⟨h, h'⟩, hh⟩
        refine ⟨h, h', fun a ha => ?_⟩
        have := hh a ha
        split at this
        · rename_i e; subst e; exact h
        · exact this
      · rintro ⟨h, h', hh⟩
        refine ⟨⟨h, h'⟩, fun a ha => ?_⟩
        split
        · exact ⟨h, h'⟩
        · exact hh a ha
    | diff =>
      simp only [SetOp.mem, List.mem_map, forall_exists_index, and_imp, forall_apply_eq_imp_iff₂,
        key, hm, List.map_cons, List.mem_cons, List.not_mem_nil, or_false, forall_eq,
        forall_eq_or_imp]
      constructor
      · rintro ⟨⟨h, h'⟩, hh⟩
        refine ⟨h, h', fun a ha => ?_⟩
        have := hh a ha
        split at this
        · exact absurd ⟨h, h'⟩ this
        · exact this
      · rintro ⟨h, h', hh⟩
        refine ⟨⟨h, h'⟩, fun a ha => ?_⟩
        split
        · rename_i e; subst e; exact absurd h (hh _ ha)
        · exact hh a ha

theorem mem_congr {op : SetOp} {x : α} {s s' : List α} (h : x ∈ s ↔ x ∈ s') (ts : List (List α)) :
    op.mem x s ts ↔ op.mem x s' ts := by
  cases op <;> simp [SetOp.mem, h]

theorem noneIn_iff {l s : List α} : noneIn l s = true ↔ ∀ x ∈ s, x ∉ l := by
  induction s with
  | nil => simp [noneIn]
  | cons x s ih =>
    rw [noneIn]
    by_cases hx : x ∈ l
    · simp [hx]
    · simp [hx, ih]

end Verif.Containers
