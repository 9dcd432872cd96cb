import Verif.Assigns.Lemmas2

namespace Verif.Assigns.Lemmas
open Spec Model

theorem eval_frame {s t : St} {e : Ex} (hv : ∀ x, e.uses x → t.v x = s.v x)
    (ha : ∀ a, e.array a → t.a a = s.a a) : eval t e = eval s e := by
  induction e with
  | lit z => rfl
  | var x => simp only [eval, hv x rfl]
  | el a ix ih =>
    simp only [eval, ih hv (fun b ⟨i, hi⟩ => ha b ⟨i, .inr hi⟩), ha a ⟨ix, .inl ⟨rfl, rfl⟩⟩]
  | un f e ih => simp only [eval, ih hv ha]
  | bin f a b iha ihb =>
    simp only [eval, iha (fun x h => hv x (.inl h)) (fun b ⟨i, hi⟩ => ha b ⟨i, .inl hi⟩),
      ihb (fun x h => hv x (.inr h)) (fun b ⟨i, hi⟩ => ha b ⟨i, .inr hi⟩)]

theorem assign_frame {s t : St} {l : Target} {z : Int} (h : assign s l z = some t) :
    (∀ x, l ≠ .var x → t.v x = s.v x) ∧ ∀ a, (∀ ix, l ≠ .el a ix) → t.a a = s.a a := by
  cases l with
  | var y =>
    simp only [assign, Option.some.injEq] at h
    subst h
    refine ⟨fun x hx => ?_, fun _ _ => rfl⟩
    simp only
    rw [if_neg (fun h => hx (by rw [h]))]
  | el b ix =>
    simp only [assign] at h
    cases hp : locate s b ix with
    | none => rw [hp] at h; cases h
    | some p =>
      rw [hp] at h
      simp only [Option.bind_eq_bind, Option.bind_some, Option.pure_def, Option.some.injEq] at h
      subst h
      refine ⟨fun _ _ => rfl, fun a ha => ?_⟩
      simp only
      rw [if_neg (fun h => ha ix (by rw [h]))]

theorem assigns_frame {ls : List (Target × Int)} {s t : St} (h : assigns s ls = some t) :
    (∀ x, (∀ l ∈ ls, l.1 ≠ .var x) → t.v x = s.v x) ∧
    (∀ a, (∀ l ∈ ls, ∀ ix, l.1 ≠ .el a ix) → t.a a = s.a a) ∧
    ∀ a, (t.a a).length = (s.a a).length := by
  induction ls generalizing s with
  | nil => cases h; exact ⟨fun _ _ => rfl, fun _ _ => rfl, fun _ => rfl⟩
  | cons x ls ih =>
    simp only [assigns] at h
    cases h1 : assign s x.1 x.2 with
    | none => rw [h1] at h; cases h
    | some u =>
      rw [h1] at h
      obtain ⟨i1, i2, i3⟩ := ih h
      obtain ⟨j1, j2⟩ := assign_frame h1
      exact ⟨fun y hy => (i1 y (fun l hl => hy l (by simp [hl]))).trans (j1 y (hy x (by simp))),
        fun a ha => (i2 a (fun l hl => ha l (by simp [hl]))).trans (j2 a (ha x (by simp))),
        fun a => (i3 a).trans (assign_length h1 a)⟩

/-- What the generated code leaves alone. -/
def Keeps (N n : Nat) (s t : St) : Prop :=
  (∀ x, N ≤ x → x < n → t.v x = s.v x) ∧ ∀ x, N ≤ x → t.a x = s.a x

theorem Keeps.trans {N n m : Nat} {s t u : St} (h : Keeps N n s t) (h' : Keeps N m t u) (hm : n ≤ m) :
    Keeps N n s u :=
  ⟨fun x h1 h2 => (h'.1 x h1 (by omega)).trans (h.1 x h1 h2), fun x h1 => (h'.2 x h1).trans (h.2 x h1)⟩

theorem fst_zip {ls : List Target} {zs : List Int} {x : Target × Int} (h : x ∈ ls.zip zs) : x.1 ∈ ls := by
  obtain ⟨a, b⟩ := x
  exact (List.of_mem_zip h).1

/-- The targets of a group in parentheses. -/
theorem step_group {N n : Nat} {s t p : St} {ls : List Target} {zs : List Int} {rs : List Ex}
    (hN : N ≤ n) (hp : assigns s (ls.zip zs) = some p) (ht : Agree N t p) (hk : Keeps N n s t)
    (hr : ∀ r ∈ rs, r.under n) (ha : Apart rs ls) :
    (∀ r ∈ rs, eval t r = eval s r) ∧ Step N ls (fun e => e) (· ∈ rs) s t := by
  obtain ⟨f1, f2, f3⟩ := assigns_frame hp
  have ev : ∀ e : Ex, e.under n → Stable ls e → eval t e = eval s e := by
    intro e hu hst
    refine eval_frame (fun x hx => ?_) (fun a hx => ?_)
    · by_cases hxN : x < N
      · rw [ht.1 x hxN]
        refine f1 x fun l hl h => hst l.1 (fst_zip hl) ?_
        rw [h]; exact hx
      · refine hk.1 x (Nat.le_of_not_lt hxN) ?_
        have : ∀ e : Ex, e.under n → e.uses x → x < n := by
          intro e
          induction e with
          | lit y => exact fun _ h => by cases h
          | var y => exact fun h1 h2 => h2 ▸ h1
          | el c k ih => exact fun h1 h2 => ih h1.2 h2
          | un f e ih => exact ih
          | bin f c d ihc ihd => exact fun h1 h2 => h2.elim (ihc h1.1) (ihd h1.2)
        exact this e hu hx
    · by_cases hxN : a < N
      · rw [ht.2 a hxN]
        refine f2 a fun l hl ix h => hst l.1 (fst_zip hl) ?_
        rw [h]; exact hx
      · exact hk.2 a (Nat.le_of_not_lt hxN)
  have sub : ∀ (r : Ex) a i, Reads a i r → Stable ls r → Stable ls i := by
    intro r a i hi h l hl hd
    refine h l hl ?_
    cases l with
    | var x => exact reads_uses hi hd
    | el b ix => obtain ⟨j, hj⟩ := hd; exact ⟨j, reads_reads hi hj⟩
  refine ⟨fun r h => ev r (hr r h) (ha r h), ?_⟩
  exact {
    length := fun a => by
      by_cases hxN : a < N
      · rw [ht.2 a hxN]; exact f3 a
      · rw [hk.2 a (Nat.le_of_not_lt hxN)]
    stable := fun e hu h => ev e (under_mono hN hu) h
    fixed := fun _ _ _ => rfl
    uses := fun _ _ _ _ h => h
    shows := fun _ _ _ _ h => .inl h
    reads := fun a i r hm h =>
      ⟨i, h, rfl, ev i (reads_under h (hr r hm)).2 (sub r a i h (ha r hm))⟩
    displays := fun _ _ _ _ _ _ h => .inl h }

theorem run_append {s : St} {cs ds : List Line} : run s (cs ++ ds) = (run s cs).bind (run · ds) := by
  induction cs generalizing s with
  | nil => rfl
  | cons c cs ih =>
    simp only [List.cons_append, run]
    cases eval s c.rhs with
    | none => rfl
    | some z =>
      simp only [Option.bind_eq_bind, Option.bind_some]
      cases assign s c.lhs z with
      | none => rfl
      | some u => simp only [Option.bind_some, ih]

theorem mapM_append' {α β : Type} {f : α → Option β} {xs ys : List α} {zs : List β}
    (h : (xs ++ ys).mapM f = some zs) :
    ∃ us vs, zs = us ++ vs ∧ xs.mapM f = some us ∧ ys.mapM f = some vs ∧ us.length = xs.length := by
  induction xs generalizing zs with
  | nil => exact ⟨[], zs, rfl, rfl, h, rfl⟩
  | cons x xs ih =>
    simp only [List.cons_append, List.mapM_cons, Option.bind_eq_bind, Option.pure_def] at h ⊢
    cases hx : f x with
    | none => rw [hx] at h; cases h
    | some z =>
      rw [hx] at h
      simp only [Option.bind_some] at h
      cases hy : (xs ++ ys).mapM f with
      | none => rw [hy] at h; cases h
      | some w =>
        rw [hy] at h
        simp only [Option.bind_some, Option.some.injEq] at h
        obtain ⟨us, vs, rfl, h1, h2, h3⟩ := ih hy
        exact ⟨z :: us, vs, by rw [← h]; rfl, by rw [h1]; rfl, h2, by simp [h3]⟩

theorem mapM_congr {α β : Type} {f g : α → Option β} {xs : List α} (h : ∀ x ∈ xs, f x = g x) :
    xs.mapM f = xs.mapM g := by
  induction xs with
  | nil => rfl
  | cons x xs ih =>
    simp only [List.mapM_cons, h x (by simp), ih (fun y hy => h y (by simp [hy]))]

theorem mapM_isSome {α β : Type} {f : α → Option β} {xs : List α} {zs : List β}
    (h : xs.mapM f = some zs) : ∀ x ∈ xs, (f x).isSome := by
  induction xs generalizing zs with
  | nil => intro x hx; cases hx
  | cons x xs ih =>
    simp only [List.mapM_cons, Option.bind_eq_bind, Option.pure_def] at h
    cases hx : f x with
    | none => rw [hx] at h; cases h
    | some z =>
      rw [hx] at h
      simp only [Option.bind_some] at h
      cases hy : xs.mapM f with
      | none => rw [hy] at h; cases h
      | some w =>
        intro y hm
        rcases List.mem_cons.1 hm with rfl | hm
        · rw [hx]; rfl
        · exact ih hy y hm

theorem assigns_append {s : St} {xs ys : List (Target × Int)} :
    assigns s (xs ++ ys) = (assigns s xs).bind (assigns · ys) := by
  induction xs generalizing s with
  | nil => rfl
  | cons x xs ih =>
    simp only [List.cons_append, assigns]
    cases assign s x.1 x.2 with
    | none => rfl
    | some u => simp only [Option.bind_some, ih]

theorem mem_snd {as : Asgs} {σ : List (Target × Name)} {r : Ex}
    (h : r ∈ (as.leaves.map (·.2)).map (substs σ)) : ∃ x ∈ as.leaves, r = substs σ x.2 := by
  simp only [List.map_map, List.mem_map, Function.comp_apply] at h
  obtain ⟨x, h1, rfl⟩ := h
  exact ⟨x, h1, rfl⟩

/-- The generated code does what Python does. -/
theorem main {N : Nat} : ∀ (as : Asgs) (σ : List (Target × Name)) (n : Nat) (s p : St)
    (done : List Target) (zs : List Int) (cs : List Line) (n' : Nat), N ≤ n →
    (∀ x ∈ as.leaves, x.1.under N ∧ (substs σ x.2).under n) →
    (mapAs (substs σ) as).Good s done →
    as.leaves.mapM (fun x => eval s (substs σ x.2)) = some zs →
    assigns s ((as.leaves.map (·.1)).zip zs) = some p →
    lowerAs n σ as = some (cs, n') →
    n ≤ n' ∧ ∃ t, run s cs = some t ∧ Agree N t p ∧ Keeps N n s t
  | .nil, σ, n, s, p, done, zs, cs, n', hN, hU, hG, hE, hP, hL => by
    simp only [lowerAs, Option.some.injEq, Prod.mk.injEq] at hL
    obtain ⟨rfl, rfl⟩ := hL
    simp only [Asgs.leaves, List.map_nil, List.zip_nil_left, assigns, Option.some.injEq] at hP
    subst hP
    exact ⟨Nat.le_refl _, s, rfl, Agree.refl _ _, fun _ _ _ => rfl, fun _ _ => rfl⟩
  | .cons (.leaf l r) as, σ, n, s, p, done, zs, cs, n', hN, hU, hG, hE, hP, hL => by
    -- what Python does
    simp only [Asgs.leaves, Asg.leaves, List.singleton_append, List.mapM_cons, Option.bind_eq_bind,
      Option.pure_def, List.map_cons] at hE hP hU
    cases hz : eval s (substs σ r) with
    | none => rw [hz] at hE; cases hE
    | some z =>
    rw [hz] at hE
    simp only [Option.bind_some] at hE
    cases hw : as.leaves.mapM (fun x => eval s (substs σ x.2)) with
    | none => rw [hw] at hE; cases hE
    | some w =>
    rw [hw] at hE
    simp only [Option.bind_some, Option.some.injEq] at hE
    subst hE
    simp only [List.zip_cons_cons, assigns] at hP
    cases hu : assign s l z with
    | none => rw [hu] at hP; cases hP
    | some u =>
    rw [hu] at hP
    simp only [Option.bind_some] at hP
    -- what is known about the targets
    obtain ⟨hl, hru⟩ := hU (l, r) (by simp)
    have hUa : ∀ x ∈ as.leaves, x.1.under N ∧ (substs σ x.2).under n := fun x hx => hU x (by simp [hx])
    simp only [mapAs, mapA, Asgs.Good, Asg.Good, leaves_mapAs, snd_map, Asg.leaves, List.map_cons,
      List.map_nil] at hG
    obtain ⟨hS, hG⟩ := hG
    have hrs : ∀ r ∈ (as.leaves.map (·.2)).map (substs σ), r.under n := by
      intro r hr
      obtain ⟨x, h1, rfl⟩ := mem_snd hr
      exact (hUa x h1).2
    have hmem : ∀ x ∈ as.leaves, substs σ x.2 ∈ (as.leaves.map (·.2)).map (substs σ) := by
      intro x hx
      simp only [List.map_map, List.mem_map, Function.comp_apply]
      exact ⟨x, hx, rfl⟩
    have hR : ∀ x ∈ (mapAs (substs σ) as).leaves,
        x.1.under N ∧ x.2 ∈ (as.leaves.map (·.2)).map (substs σ) := by
      intro x hx
      rw [leaves_mapAs] at hx
      obtain ⟨y, h1, rfl⟩ := List.mem_map.1 hx
      exact ⟨(hUa y h1).1, hmem y h1⟩
    have hlz : ∀ x ∈ (as.leaves.map (·.1)).zip w, x.1.under N := by
      intro x hx
      obtain ⟨y, h1, h2⟩ := List.mem_map.1 (fst_zip hx)
      rw [← h2]
      exact (hUa y h1).1
    -- the generated code
    simp only [lowerAs, lowerA, Option.bind_eq_bind, Option.bind_some, Option.pure_def] at hL
    cases hun : unsaved l ((as.leaves.map (·.2)).map (substs σ)) with
    | false =>
      simp only [lowerLeaf, hun, Bool.false_eq_true, ↓reduceIte] at hL
      cases hy : lowerAs n σ as with
      | none => rw [hy] at hL; cases hL
      | some y =>
      rw [hy] at hL
      simp only [Option.bind_some, Option.some.injEq, Prod.mk.injEq] at hL
      obtain ⟨rfl, rfl⟩ := hL
      obtain ⟨h1, h2⟩ := step_unsaved (N := N) hS hun hu
      have h3 := h2.goodAs _ (done ++ [l]) (by simp) hR hG
      rw [mapAs_id] at h3
      obtain ⟨h4, t, h5, h6, h7⟩ := main as σ n u p (done ++ [l]) w y.1 y.2 hN hUa h3
        (by rw [← hw]; exact mapM_congr fun x hx => h1 _ (hmem x hx)) hP hy
      refine ⟨h4, t, ?_, h6, ?_⟩
      · simp only [List.singleton_append, run, hz, Option.bind_eq_bind, Option.bind_some, hu, h5]
      · have := assign_frame hu
        refine Keeps.trans (n := n) ⟨fun x h _ => this.1 x ?_, fun x h => this.2 x ?_⟩ h7 (Nat.le_refl _)
        · rintro rfl
          exact absurd (show x < N from hl) (by omega)
        · rintro ix rfl
          exact absurd (show x < N from hl.1) (by omega)
    | true =>
      simp only [lowerLeaf, hun, ↓reduceIte] at hL
      cases hy : lowerAs (n + 1) ((l, n) :: σ) as with
      | none => rw [hy] at hL; cases hL
      | some y =>
      rw [hy] at hL
      simp only [Option.bind_some, Option.some.injEq, Prod.mk.injEq] at hL
      obtain ⟨rfl, rfl⟩ := hL
      obtain ⟨z₀, h0⟩ := unsaved_eval (s := s) hun (by
        intro r hr
        obtain ⟨x, h1, rfl⟩ := mem_snd hr
        exact mapM_isSome hw x h1)
      obtain ⟨u', hu', hag⟩ := assign_agree ((save_agree s n z₀).mono hN) hl hu
      obtain ⟨p', hP', hag'⟩ := assigns_agree hlz hag hP
      obtain ⟨h1, h2⟩ := step_saved hN hl hrs hS h0 hu'
      have h3 := h2.goodAs _ (done ++ [l]) (by simp) hR hG
      rw [mapAs_mapAs] at h3
      obtain ⟨h4, t, h5, h6, h7⟩ := main as ((l, n) :: σ) (n + 1) u' p' (done ++ [l]) w y.1 y.2
        (by omega) (fun x hx => ⟨(hUa x hx).1, subst_under (hUa x hx).2⟩) h3
        (by rw [← hw]; exact mapM_congr fun x hx => h1 _ (hmem x hx)) hP' hy
      refine ⟨by omega, t, ?_, h6.trans hag'.symm, ?_⟩
      · simp only [List.cons_append, List.nil_append, run, h0, Option.bind_eq_bind, Option.bind_some,
          assign]
        show (eval (save s n z₀) (subst l n (substs σ r))).bind _ = _
        rw [subst_eval h0 hru, hz]
        simp only [Option.bind_some]
        show (assign (save s n z₀) l z).bind _ = _
        rw [hu']
        simp only [Option.bind_some, h5]
      · have := assign_frame hu'
        refine Keeps.trans (n := n) ⟨fun x h hx => (this.1 x ?_).trans ?_,
          fun x h => (this.2 x ?_).trans rfl⟩ h7 (by omega)
        · rintro rfl
          exact absurd (show x < N from hl) (by omega)
        · simp [save, Nat.ne_of_lt hx]
        · rintro ix rfl
          exact absurd (show x < N from hl.1) (by omega)
  | .cons (.node sub) as, σ, n, s, p, done, zs, cs, n', hN, hU, hG, hE, hP, hL => by
    simp only [Asgs.leaves, Asg.leaves, List.map_append, List.mem_append] at hE hP hU
    obtain ⟨us, w, rfl, hus, hw, hlen⟩ := mapM_append' hE
    rw [List.zip_append (by simp [hlen]), assigns_append] at hP
    cases hu : assigns s ((sub.leaves.map (·.1)).zip us) with
    | none => rw [hu] at hP; cases hP
    | some u =>
    rw [hu] at hP
    simp only [Option.bind_some] at hP
    have hUa : ∀ x ∈ as.leaves, x.1.under N ∧ (substs σ x.2).under n := fun x hx => hU x (.inr hx)
    simp only [mapAs, mapA, Asgs.Good, Asg.Good, leaves_mapAs, snd_map, fst_map, Asg.leaves] at hG
    obtain ⟨⟨hA, hGs⟩, hG⟩ := hG
    have hmem : ∀ x ∈ as.leaves, substs σ x.2 ∈ (as.leaves.map (·.2)).map (substs σ) := by
      intro x hx
      simp only [List.map_map, List.mem_map, Function.comp_apply]
      exact ⟨x, hx, rfl⟩
    have hR : ∀ x ∈ (mapAs (substs σ) as).leaves,
        x.1.under N ∧ x.2 ∈ (as.leaves.map (·.2)).map (substs σ) := by
      intro x hx
      rw [leaves_mapAs] at hx
      obtain ⟨y, h1, rfl⟩ := List.mem_map.1 hx
      exact ⟨(hUa y h1).1, hmem y h1⟩
    have hlz : ∀ x ∈ (as.leaves.map (·.1)).zip w, x.1.under N := by
      intro x hx
      obtain ⟨y, h1, h2⟩ := List.mem_map.1 (fst_zip hx)
      rw [← h2]
      exact (hUa y h1).1
    simp only [lowerAs, lowerA] at hL
    split at hL
    · cases hL
    · cases hx : lowerAs n σ sub with
      | none => rw [hx] at hL; cases hL
      | some x =>
      rw [hx] at hL
      simp only [Option.map_some, Option.bind_eq_bind, Option.bind_some, Option.pure_def] at hL
      cases hy : lowerAs x.2 σ as with
      | none => rw [hy] at hL; cases hL
      | some y =>
      rw [hy] at hL
      simp only [Option.bind_some, Option.some.injEq, Prod.mk.injEq] at hL
      obtain ⟨rfl, rfl⟩ := hL
      obtain ⟨g1, t₁, g2, g3, g4⟩ := main sub σ n s u done us x.1 x.2 hN
        (fun x hx => hU x (.inl hx)) hGs hus hu hx
      obtain ⟨h1, h2⟩ := step_group (rs := (as.leaves.map (·.2)).map (substs σ)) hN hu g3 g4
        (by
          intro r hr
          obtain ⟨x, h1, rfl⟩ := mem_snd hr
          exact (hUa x h1).2) hA
      obtain ⟨p', hP', hag'⟩ := assigns_agree hlz g3.symm hP
      have h3 := h2.goodAs _ (done ++ sub.leaves.map (·.1))
        (fun l hl => List.mem_append.2 (.inr hl)) hR hG
      rw [mapAs_id] at h3
      obtain ⟨h4, t, h5, h6, h7⟩ := main as σ x.2 t₁ p' (done ++ sub.leaves.map (·.1)) w y.1 y.2
        (by omega) (fun y hy => ⟨(hUa y hy).1, under_mono g1 (hUa y hy).2⟩) h3
        (by rw [← hw]; exact mapM_congr fun x hx => h1 _ (hmem x hx)) hP' hy
      refine ⟨by omega, t, ?_, h6.trans hag'.symm, g4.trans h7 g1⟩
      rw [run_append, g2]
      exact h5
  termination_by as => sizeOf as

end Verif.Assigns.Lemmas
