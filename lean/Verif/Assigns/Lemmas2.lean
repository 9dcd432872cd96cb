import Verif.Assigns.Lemmas

namespace Verif.Assigns.Lemmas
open Spec Model

mutual
/-- Another expression opposite every target. -/
def mapA (f : Ex → Ex) : Asg → Asg
  | .leaf l r => .leaf l (f r)
  | .node as => .node (mapAs f as)
def mapAs (f : Ex → Ex) : Asgs → Asgs
  | .nil => .nil
  | .cons a as => .cons (mapA f a) (mapAs f as)
end

mutual
theorem leaves_mapA (f : Ex → Ex) : ∀ a : Asg,
    (mapA f a).leaves = a.leaves.map fun x => (x.1, f x.2)
  | .leaf _ _ => rfl
  | .node as => leaves_mapAs f as
theorem leaves_mapAs (f : Ex → Ex) : ∀ as : Asgs,
    (mapAs f as).leaves = as.leaves.map fun x => (x.1, f x.2)
  | .nil => rfl
  | .cons a as => by
    simp only [mapAs, Asgs.leaves, leaves_mapA f a, leaves_mapAs f as, List.map_append]
end

mutual
theorem mapA_mapA (f g : Ex → Ex) : ∀ a : Asg, mapA f (mapA g a) = mapA (fun e => f (g e)) a
  | .leaf _ _ => rfl
  | .node as => by simp only [mapA, mapAs_mapAs f g as]
theorem mapAs_mapAs (f g : Ex → Ex) : ∀ as : Asgs, mapAs f (mapAs g as) = mapAs (fun e => f (g e)) as
  | .nil => rfl
  | .cons a as => by simp only [mapAs, mapA_mapA f g a, mapAs_mapAs f g as]
end

mutual
theorem mapA_id : ∀ a : Asg, mapA (fun e => e) a = a
  | .leaf _ _ => rfl
  | .node as => by simp only [mapA, mapAs_id as]
theorem mapAs_id : ∀ as : Asgs, mapAs (fun e => e) as = as
  | .nil => rfl
  | .cons a as => by simp only [mapAs, mapA_id a, mapAs_id as]
end

/-- What is known about the step from one state to the next, where `f` is the substitution: `L` are the
targets that were assigned, `R` are the expressions behind. -/
structure Step (N : Nat) (L : List Target) (f : Ex → Ex) (R : Ex → Prop) (s t : St) : Prop where
  length : ∀ a, (t.a a).length = (s.a a).length
  stable : ∀ e : Ex, e.under N → Stable L e → eval t e = eval s e
  fixed : ∀ e : Ex, e.under N → Stable L e → f e = e
  uses : ∀ x r, x < N → R r → (f r).uses x → r.uses x
  shows : ∀ x r, x < N → R r → r.shows x → (f r).shows x ∨ ∀ r', R r' → ¬ (f r').uses x
  reads : ∀ a i r, R r → Reads a i (f r) → ∃ i₀, Reads a i₀ r ∧ i = f i₀ ∧ eval t i = eval s i₀
  displays : ∀ a ix r, R r → Stable L ix → ix.plain → Displays a ix r →
    Displays a ix (f r) ∨ ∀ r', R r' → ¬ Reads a ix (f r')

variable {N : Nat} {L : List Target} {f : Ex → Ex} {R : Ex → Prop} {s t : St}

theorem Step.locate (h : Step N L f R s t) {a : Name} {i j : Ex} (hi : eval t i = eval s j) :
    Spec.locate t a i = Spec.locate s a j := by
  simp only [Spec.locate, hi, h.length]

theorem Step.safe (h : Step N L f R s t) {done : List Target} (hL : ∀ l ∈ L, l ∈ done) {rs : List Ex}
    (hr : ∀ r ∈ rs, R r) {l : Target} (hl : l.under N) (hs : Safe s done rs l) :
    Safe t done (rs.map f) l := by
  cases l with
  | var x =>
    rintro ⟨r', hr', hu⟩
    obtain ⟨r, h1, rfl⟩ := List.mem_map.1 hr'
    obtain ⟨q, h2, h3⟩ := hs ⟨r, h1, h.uses x r hl (hr r h1) hu⟩
    rcases h.shows x q hl (hr q h2) h3 with h4 | h4
    · exact ⟨f q, List.mem_map.2 ⟨q, h2, rfl⟩, h4⟩
    · exact absurd hu (h4 r (hr r h1))
  | el a ix =>
    intro r' hr' i hi
    obtain ⟨r, h1, rfl⟩ := List.mem_map.1 hr'
    obtain ⟨i₀, h2, h3, h4⟩ := h.reads a i r (hr r h1) hi
    obtain ⟨h5, h6⟩ := hs r h1 i₀ h2
    have h7 : Stable L ix := fun l hl => h5 l (hL l hl)
    refine ⟨h5, ?_⟩
    rcases h6 with ⟨rfl, hp, q, h8, h9⟩ | h6
    · have h10 : i = i₀ := by rw [h3, h.fixed i₀ hl.2 h7]
      subst h10
      rcases h.displays a i q (hr q h8) h7 hp h9 with h11 | h11
      · exact .inl ⟨rfl, hp, f q, List.mem_map.2 ⟨q, h8, rfl⟩, h11⟩
      · exact absurd hi (h11 r (hr r h1))
    · refine .inr fun p q hp hq => h6 p q ?_ ?_
      · rw [← h.locate (h.stable ix hl.2 h7)]; exact hp
      · rw [← h.locate h4]; exact hq

theorem Step.apart (h : Step N L f R s t) {rs : List Ex} (hr : ∀ r ∈ rs, R r) {ls : List Target}
    (hl : ∀ l ∈ ls, l.under N) (hs : Apart rs ls) : Apart (rs.map f) ls := by
  intro r' hr' l hm hd
  obtain ⟨r, h1, rfl⟩ := List.mem_map.1 hr'
  refine hs r h1 l hm ?_
  have hu := hl l hm
  cases l with
  | var x => exact h.uses x r hu (hr r h1) hd
  | el a ix =>
    obtain ⟨i, hi⟩ := hd
    obtain ⟨i₀, h2, _⟩ := h.reads a i r (hr r h1) hi
    exact ⟨i₀, h2⟩

theorem snd_map (f : Ex → Ex) (xs : List (Target × Ex)) :
    (xs.map fun x => (x.1, f x.2)).map (·.2) = (xs.map (·.2)).map f := by simp [Function.comp_def]

theorem fst_map (f : Ex → Ex) (xs : List (Target × Ex)) :
    (xs.map fun x => (x.1, f x.2)).map (·.1) = xs.map (·.1) := by simp [Function.comp_def]

mutual
theorem Step.goodA (h : Step N L f R s t) : ∀ (a : Asg) (done : List Target) (rs : List Ex),
    (∀ l ∈ L, l ∈ done) → (∀ r ∈ rs, R r) → (∀ x ∈ a.leaves, x.1.under N ∧ R x.2) →
    a.Good s done rs → (mapA f a).Good t done (rs.map f)
  | .leaf l r, done, rs, hL, hr, hx, hs => h.safe hL hr (hx (l, r) (by simp [Asg.leaves])).1 hs
  | .node as, done, rs, hL, hr, hx, hs => by
    simp only [Asg.leaves] at hx
    simp only [mapA, Asg.Good, leaves_mapAs, fst_map] at hs ⊢
    refine ⟨h.apart hr ?_ hs.1, h.goodAs as done hL hx hs.2⟩
    intro l hl
    obtain ⟨x, h1, rfl⟩ := List.mem_map.1 hl
    exact (hx x h1).1
theorem Step.goodAs (h : Step N L f R s t) : ∀ (as : Asgs) (done : List Target),
    (∀ l ∈ L, l ∈ done) → (∀ x ∈ as.leaves, x.1.under N ∧ R x.2) →
    as.Good s done → (mapAs f as).Good t done
  | .nil, _, _, _, _ => trivial
  | .cons a as, done, hL, hx, hs => by
    simp only [Asgs.leaves, List.mem_append] at hx
    simp only [mapAs, Asgs.Good, leaves_mapAs, leaves_mapA, fst_map, snd_map] at hs ⊢
    refine ⟨h.goodA a done _ hL ?_ (fun x hm => hx x (.inl hm)) hs.1,
      h.goodAs as _ (fun l hl => by simp [hL l hl]) (fun x hm => hx x (.inr hm)) hs.2⟩
    intro r hr
    obtain ⟨x, h1, rfl⟩ := List.mem_map.1 hr
    exact (hx x (.inr h1)).2
end

/-! ## The steps -/

/-- A target that was not saved. -/
theorem step_unsaved {rs : List Ex} {done : List Target} {l : Target} {z : Int}
    (hs : Safe s done rs l) (hu : unsaved l rs = false) (ha : assign s l z = some t) :
    (∀ r ∈ rs, eval t r = eval s r) ∧ Step N [l] (fun e => e) (· ∈ rs) s t := by
  have sub : ∀ r ∈ rs, Misses s l r := by
    intro r hr
    cases l with
    | var x =>
      intro h
      rw [unsaved_var (hs ⟨r, hr, h⟩)] at hu
      cases hu
    | el a ix =>
      intro i hi
      obtain ⟨_, ⟨rfl, hp, h⟩ | h⟩ := hs r hr i hi
      · rw [unsaved_el hp h] at hu; cases hu
      · exact h
  have inner : ∀ a i r, r ∈ rs → Reads a i r → Misses s l i := by
    intro a i r hr hi
    have := sub r hr
    have trans_u : ∀ x (r : Ex), Reads a i r → i.uses x → r.uses x := by
      intro x r
      induction r with
      | lit y => intro h; cases h
      | var y => intro h; cases h
      | el b j ih =>
        intro h hx
        rcases h with ⟨_, rfl⟩ | h
        · exact hx
        · exact ih h hx
      | un f e ih => exact ih
      | bin f c d ihc ihd => exact fun h hx => h.imp (ihc · hx) (ihd · hx)
    have trans_r : ∀ b j (r : Ex), Reads a i r → Reads b j i → Reads b j r := by
      intro b j r
      induction r with
      | lit y => intro h; cases h
      | var y => intro h; cases h
      | el c k ih =>
        intro h hx
        rcases h with ⟨_, rfl⟩ | h
        · exact .inr hx
        · exact .inr (ih h hx)
      | un f e ih => exact ih
      | bin f c d ihc ihd => exact fun h hx => h.imp (ihc · hx) (ihd · hx)
    cases l with
    | var x => exact fun h => this (trans_u x r hi h)
    | el b ix => exact fun j hj => this j (trans_r b j r hi hj)
  refine ⟨fun r hr => assign_eval ha (sub r hr), ?_⟩
  exact {
    length := assign_length ha
    stable := fun e _ h => assign_eval ha (misses_of_stable (by simp) h)
    fixed := fun _ _ _ => rfl
    uses := fun _ _ _ _ h => h
    shows := fun _ _ _ _ h => .inl h
    reads := fun a i r hr h => ⟨i, h, rfl, assign_eval ha (inner a i r hr h)⟩
    displays := fun _ _ _ _ _ _ h => .inl h }

theorem reads_uses {a : Name} {i : Ex} {x : Name} {r : Ex} (h : Reads a i r) (hx : i.uses x) :
    r.uses x := by
  induction r with
  | lit y => cases h
  | var y => cases h
  | el b j ih =>
    rcases h with ⟨_, rfl⟩ | h
    · exact hx
    · exact ih h
  | un f e ih => exact ih h
  | bin f c d ihc ihd => exact h.imp ihc ihd

theorem reads_reads {a b : Name} {i j r : Ex} (h : Reads a i r) (hx : Reads b j i) : Reads b j r := by
  induction r with
  | lit y => cases h
  | var y => cases h
  | el c k ih =>
    rcases h with ⟨_, rfl⟩ | h
    · exact .inr hx
    · exact .inr (ih h)
  | un f e ih => exact ih h
  | bin f c d ihc ihd => exact h.imp ihc ihd

theorem reads_under {a : Name} {i r : Ex} {n : Nat} (h : Reads a i r) (hr : r.under n) :
    a < n ∧ i.under n := by
  induction r with
  | lit y => cases h
  | var y => cases h
  | el c k ih =>
    rcases h with ⟨rfl, rfl⟩ | h
    · exact hr
    · exact ih h hr.2
  | un f e ih => exact ih h hr
  | bin f c d ihc ihd => exact h.elim (ihc · hr.1) (ihd · hr.2)

theorem not_uses {e : Ex} {n : Nat} (h : e.under N) (hn : N ≤ n) : ¬ e.uses n := by
  induction e with
  | lit y => exact fun h => h
  | var y => exact fun hy => absurd (show n < N from hy ▸ h) (Nat.not_lt.2 hn)
  | el c k ih => exact ih h.2
  | un f e ih => exact ih h
  | bin f c d ihc ihd => exact fun hx => hx.elim (ihc h.1) (ihd h.2)

/-- Nothing was replaced if the temporary does not occur. -/
theorem subst_clean {l : Target} {n : Nat} {e : Ex} (h : ¬ (subst l n e).uses n) : subst l n e = e := by
  have hs : same (expr l) e = false := by
    cases hs : same (expr l) e with
    | false => rfl
    | true => rw [subst_hit hs] at h; exact absurd rfl h
  induction e with
  | lit y => unfold subst; rw [hs]; rfl
  | var y => unfold subst; rw [hs]; rfl
  | el c k ih =>
    unfold subst at h ⊢
    rw [hs] at h ⊢
    have h : ¬ (subst l n k).uses n := h
    have : same (expr l) k = false := by
      cases hk : same (expr l) k with
      | false => rfl
      | true => rw [subst_hit hk] at h; exact absurd rfl h
    show Ex.el c (subst l n k) = _
    rw [ih h this]
  | un f k ih =>
    unfold subst at h ⊢
    rw [hs] at h ⊢
    have h : ¬ (subst l n k).uses n := h
    have : same (expr l) k = false := by
      cases hk : same (expr l) k with
      | false => rfl
      | true => rw [subst_hit hk] at h; exact absurd rfl h
    show Ex.un f (subst l n k) = _
    rw [ih h this]
  | bin f c d ihc ihd =>
    unfold subst at h ⊢
    rw [hs] at h ⊢
    have h : ¬ ((subst l n c).uses n ∨ (subst l n d).uses n) := h
    have h1 : same (expr l) c = false := by
      cases hk : same (expr l) c with
      | false => rfl
      | true => rw [subst_hit hk] at h; exact absurd (.inl rfl) h
    have h2 : same (expr l) d = false := by
      cases hk : same (expr l) d with
      | false => rfl
      | true => rw [subst_hit hk] at h; exact absurd (.inr rfl) h
    show Ex.bin f (subst l n c) (subst l n d) = _
    rw [ihc (fun hc => h (.inl hc)) h1, ihd (fun hd => h (.inr hd)) h2]

/-- A target that was saved. -/
theorem step_saved {rs : List Ex} {done : List Target} {l : Target} {z z₀ : Int} {n : Nat}
    (hN : N ≤ n) (hl : l.under N) (hr : ∀ r ∈ rs, r.under n)
    (hs : Safe s done rs l) (h0 : eval s (expr l) = some z₀)
    (ha : assign (save s n z₀) l z = some t) :
    (∀ r ∈ rs, eval t (subst l n r) = eval s r) ∧ Step N [l] (subst l n) (· ∈ rs) s t := by
  have hag := (save_agree s n z₀).symm
  -- the elements that are still read are others
  have miss : ∀ e : Ex, (∀ a i, Reads a i e → ∃ r ∈ rs, Reads a i r) → e.under n →
      Misses (save s n z₀) l (subst l n e) := by
    intro e he hu
    cases l with
    | var x =>
      intro h
      have hl : x < N := hl
      have hn : x ≠ n := Nat.ne_of_lt (Nat.lt_of_lt_of_le hl hN)
      exact (subst_uses hn h).2 rfl
    | el a ix =>
      intro i hi p q hp hq
      obtain ⟨i₀, h1, h2, h3⟩ := subst_reads hi
      obtain ⟨r, hr, h4⟩ := he a i₀ h1
      obtain ⟨_, ⟨rfl, h5, _⟩ | h5⟩ := hs r hr i₀ h4
      · simp [expr, same, same_refl h5] at h3
      · refine h5 p q ?_ ?_
        · rw [← locate_agree hag (show a < n from Nat.lt_of_lt_of_le hl.1 hN) (under_mono hN hl.2)]
          exact hp
        · subst h2
          simp only [locate, subst_eval h0 (reads_under h1 hu).2] at hq ⊢
          exact hq
  have ev : ∀ e : Ex, (∀ a i, Reads a i e → ∃ r ∈ rs, Reads a i r) → e.under n →
      eval t (subst l n e) = eval s e := by
    intro e he hu
    rw [assign_eval ha (miss e he hu), subst_eval h0 hu]
  refine ⟨fun r hm => ev r (fun a i h => ⟨r, hm, h⟩) (hr r hm), ?_⟩
  exact {
    length := fun a => (assign_length ha a).trans rfl
    stable := fun e hu h => by
      rw [assign_eval ha (misses_of_stable (by simp) h)]
      exact eval_agree hag (under_mono hN hu)
    fixed := fun e _ h => subst_stable (h l (by simp))
    uses := fun x r hx _ h => (subst_uses (show x ≠ n by omega) h).1
    shows := fun x r hx _ h => by
      by_cases hlx : l = .var x
      · exact .inr fun r' _ h' => (subst_uses (show x ≠ n by omega) h').2 hlx
      · exact .inl (subst_shows h hlx)
    reads := fun a i r hm h => by
      obtain ⟨i₀, h1, h2, _⟩ := subst_reads h
      exact ⟨i₀, h1, h2, by
        rw [h2]
        exact ev i₀ (fun b j hj => ⟨r, hm, reads_reads h1 hj⟩) (reads_under h1 (hr r hm)).2⟩
    displays := fun a ix r hm hst hp h => by
      have hst := hst l (by simp)
      by_cases hlx : l = .el a ix
      · refine .inr fun r' hr' h' => ?_
        obtain ⟨i₀, h1, h2, h3⟩ := subst_reads h'
        subst hlx
        obtain ⟨_, ⟨h4, h5, _⟩ | h5⟩ := hs r' hr' i₀ h1
        · subst h4
          simp [expr, same, same_refl h5] at h3
        · -- `a[ix]` would be read after a substitution of something inside the index
          have h6 : i₀ = ix := by
            rw [h2, subst_clean]
            rw [← h2]
            exact not_uses hl.2 hN
          subst h6
          simp [expr, same, same_refl hp] at h3
      · exact .inl (subst_displays h hst hlx) }

end Verif.Assigns.Lemmas
