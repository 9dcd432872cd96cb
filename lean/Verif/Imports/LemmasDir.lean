import Verif.Imports.Model

/-! # Programs of several files: order of files, names of targets -/

namespace Verif.Imports.Model
open Spec

/-! ## Files and directories in order -/

theorem pick_some {placed : List Key} : ∀ {ts : List Target} {u : Target} {us : List Target},
    pick placed ts = some (u, us) → ts.Perm (u :: us) ∧ ∀ k ∈ u.deps, k ∈ placed
  | [], _, _, H => by cases H
  | t :: ts, u, us, H => by
    unfold pick at H
    split at H
    · rename_i h
      cases H
      refine ⟨List.Perm.refl _, fun k hk => ?_⟩
      have := List.all_eq_true.mp h k hk
      simpa using this
    · cases hp : pick placed ts with
      | none => rw [hp] at H; cases H
      | some q =>
        obtain ⟨v, vs⟩ := q
        rw [hp] at H
        cases H
        obtain ⟨h1, h2⟩ := pick_some hp
        exact ⟨(h1.cons t).trans (List.Perm.swap _ _ _), h2⟩

theorem pick_none {placed : List Key} : ∀ {ts : List Target}, pick placed ts = none →
    ∀ t ∈ ts, ∃ k ∈ t.deps, k ∉ placed
  | [], _, _, h => by cases h
  | t :: ts, H, u, hu => by
    unfold pick at H
    split at H
    · cases H
    · rename_i h
      cases hp : pick placed ts with
      | some q => rw [hp] at H; cases H
      | none =>
        rcases List.mem_cons.mp hu with rfl | hu
        · apply Classical.byContradiction
          intro hn
          apply h
          rw [List.all_eq_true]
          intro k hk
          have : k ∈ placed := Classical.byContradiction fun hc => hn ⟨k, hk, hc⟩
          simpa using this
        · exact pick_none hp u hu

theorem place_some : ∀ {n : Nat} {placed : List Key} {ts r : List Target}, place n placed ts = some r →
    r.Perm ts ∧ ∀ pre u post, r = pre ++ u :: post → ∀ k ∈ u.deps, k ∈ placed ∨ ∃ t ∈ pre, t.key = k
  | 0, _, [], r, H => by
    unfold place at H
    cases H
    exact ⟨List.Perm.refl _, fun pre u post h => by cases pre <;> cases h⟩
  | n + 1, _, [], r, H => by
    unfold place at H
    cases H
    exact ⟨List.Perm.refl _, fun pre u post h => by cases pre <;> cases h⟩
  | 0, _, _ :: _, _, H => by unfold place at H; cases H
  | n + 1, placed, t :: ts, r, H => by
    unfold place at H
    cases hp : pick placed (t :: ts) with
    | none => rw [hp] at H; cases H
    | some q =>
      obtain ⟨u, us⟩ := q
      rw [hp] at H
      dsimp only at H
      cases hr : place n (placed ++ [u.key]) us with
      | none => rw [hr] at H; cases H
      | some r' =>
        rw [hr] at H
        cases H
        obtain ⟨h1, h2⟩ := pick_some hp
        obtain ⟨h3, h4⟩ := place_some hr
        refine ⟨(h3.cons u).trans h1.symm, fun pre v post h k hk => ?_⟩
        cases pre with
        | nil =>
          cases h
          exact Or.inl (h2 k hk)
        | cons p pre =>
          rw [List.cons_append] at h
          cases h
          rcases h4 pre v post rfl k hk with h5 | ⟨t', h5, h6⟩
          · rcases List.mem_append.mp h5 with h5 | h5
            · exact Or.inl h5
            · exact Or.inr ⟨u, List.mem_cons_self, (List.mem_singleton.mp h5).symm⟩
          · exact Or.inr ⟨t', List.mem_cons_of_mem _ h5, h6⟩

/-- If the order cannot be completed, some targets all need something that was not placed. -/
theorem place_none : ∀ {n : Nat} {placed : List Key} {ts : List Target}, ts.length ≤ n → place n placed ts = none →
    ∃ (R : List Target) (placed' : List Key), R ≠ [] ∧ (∀ t ∈ R, t ∈ ts ∧ ∃ k ∈ t.deps, k ∉ placed') ∧ (∀ k ∈ placed, k ∈ placed') ∧
      ∀ t ∈ ts, t ∈ R ∨ t.key ∈ placed'
  | 0, _, [], _, H => by unfold place at H; cases H
  | n + 1, _, [], _, H => by unfold place at H; cases H
  | 0, _, _ :: _, h, _ => by simp at h
  | n + 1, placed, t :: ts, h, H => by
    unfold place at H
    cases hp : pick placed (t :: ts) with
    | none =>
      exact ⟨t :: ts, placed, by simp, fun u hu => ⟨hu, pick_none hp u hu⟩, fun _ h => h, fun u hu => Or.inl hu⟩
    | some q =>
      obtain ⟨u, us⟩ := q
      rw [hp] at H
      dsimp only at H
      cases hr : place n (placed ++ [u.key]) us with
      | some r' => rw [hr] at H; cases H
      | none =>
        obtain ⟨h1, _⟩ := pick_some hp
        have hl := h1.length_eq
        rw [List.length_cons] at hl h
        rw [List.length_cons] at hl
        obtain ⟨R, placed', h2, h3, h4, h5⟩ := place_none (by omega) hr
        refine ⟨R, placed', h2, fun v hv => ⟨h1.mem_iff.mpr (List.mem_cons_of_mem _ (h3 v hv).1), (h3 v hv).2⟩,
          fun k hk => h4 k (List.mem_append_left _ hk), fun v hv => ?_⟩
        rcases List.mem_cons.mp (h1.mem_iff.mp hv) with rfl | hv
        · exact Or.inr (h4 _ (List.mem_append_right _ List.mem_cons_self))
        · exact h5 v hv

/-! ## Groups -/

theorem filter_or {α : Type} {p q : α → Bool} (h : ∀ x, ¬ (p x = true ∧ q x = true)) : ∀ (l : List α),
    (l.filter fun x => p x || q x).Perm (l.filter p ++ l.filter q)
  | [] => List.Perm.refl _
  | x :: l => by
    have ih := filter_or h l
    cases hp : p x with
    | true =>
      have hq : q x = false := by
        cases hq : q x with
        | false => rfl
        | true => exact absurd ⟨hp, hq⟩ (h x)
      simp only [List.filter_cons, hp, hq, Bool.true_or, if_true, List.cons_append]
      exact ih.cons x
    | false =>
      cases hq : q x with
      | false =>
        simp only [List.filter_cons, hp, hq, Bool.or_self]
        exact ih
      | true =>
        simp only [List.filter_cons, hp, hq, Bool.or_true, if_true]
        exact (ih.cons x).trans List.perm_middle.symm

theorem nodup_eraseDups {β : Type} [BEq β] [LawfulBEq β] (l : List β) : l.eraseDups.Nodup := by
  generalize hn : l.length = n
  induction n using Nat.strongRecOn generalizing l with
  | ind n ih =>
    cases l with
    | nil => exact List.nodup_nil
    | cons a l =>
      rw [List.eraseDups_cons, List.nodup_cons]
      refine ⟨fun h => ?_, ih _ ?_ _ rfl⟩
      · have := (List.mem_filter.mp (List.mem_eraseDups.mp h)).2
        simp at this
      · have := List.length_filter_le (fun b => !b == a) l
        rw [List.length_cons] at hn
        omega

theorem groups_perm {β : Type} [DecidableEq β] [BEq β] [LawfulBEq β] (key : Src → β) (l : List Src) : ∀ {gs : List β}, gs.Nodup →
    (gs.flatMap fun g => l.filter fun s => key s = g).Perm (l.filter fun s => gs.contains (key s))
  | [], _ => by simp
  | g :: gs, h => by
    rw [List.nodup_cons] at h
    rw [List.flatMap_cons]
    refine ((groups_perm key l h.2).append_left _).trans ?_
    refine List.Perm.trans (filter_or ?_ l).symm ?_
    · rintro x ⟨h1, h2⟩
      have h1 : key x = g := by simpa using h1
      rw [h1] at h2
      exact h.1 (by simpa using h2)
    · have : (fun x => decide (key x = g) || gs.contains (key x)) = fun s => (g :: gs).contains (key s) := by
        funext x
        rw [List.contains_cons]
        congr 1
        by_cases h : key x = g
        · rw [h]; simp
        · rw [decide_eq_false h, beq_eq_false_iff_ne.mpr h]
      rw [this]

variable {folder : List Nat} {sub : List Nat → List Src → Option (List Src)} {l : List Src}

/-- A file of `l` that is in the directory itself, or a subdirectory with its files in order. -/
def IsTarget (folder : List Nat) (sub : List Nat → List Src → Option (List Src)) (l : List Src) (t : Target) : Prop :=
  (∃ s ∈ l, subdir folder s = none ∧ t = fileTarget folder s) ∨
    ∃ d fs, sub (folder ++ [d]) (l.filter fun s => subdir folder s = some d) = some fs ∧ t = dirTarget folder d fs

theorem targets_is : ∀ {gs : List (Option Nat)} {ts : List Target}, targets folder sub l gs = some ts →
    ∀ t ∈ ts, IsTarget folder sub l t
  | [], ts, H, t, ht => by unfold targets at H; cases H; cases ht
  | none :: gs, ts, H, t, ht => by
    unfold targets at H
    cases hr : targets folder sub l gs with
    | none => rw [hr] at H; cases H
    | some r =>
      rw [hr] at H
      cases H
      rcases List.mem_append.mp ht with ht | ht
      · obtain ⟨s, hs, rfl⟩ := List.mem_map.mp ht
        obtain ⟨h1, h2⟩ := List.mem_filter.mp hs
        exact Or.inl ⟨s, h1, by simpa using h2, rfl⟩
      · exact targets_is hr t ht
  | some d :: gs, ts, H, t, ht => by
    unfold targets at H
    cases hs : sub (folder ++ [d]) (l.filter fun s => subdir folder s = some d) with
    | none => rw [hs] at H; cases H
    | some fs =>
      rw [hs] at H
      dsimp only at H
      cases hr : targets folder sub l gs with
      | none => rw [hr] at H; cases H
      | some r =>
        rw [hr] at H
        cases H
        rcases List.mem_cons.mp ht with rfl | ht
        · exact Or.inr ⟨d, fs, hs, rfl⟩
        · exact targets_is hr t ht

theorem targets_perm (hsub : ∀ d fs, sub (folder ++ [d]) (l.filter fun s => subdir folder s = some d) = some fs →
    fs.Perm (l.filter fun s => subdir folder s = some d)) : ∀ {gs : List (Option Nat)} {ts : List Target},
    targets folder sub l gs = some ts →
    (ts.flatMap (·.files)).Perm (gs.flatMap fun g => l.filter fun s => subdir folder s = g)
  | [], ts, H => by unfold targets at H; cases H; exact List.Perm.refl _
  | none :: gs, ts, H => by
    unfold targets at H
    cases hr : targets folder sub l gs with
    | none => rw [hr] at H; cases H
    | some r =>
      rw [hr] at H
      cases H
      rw [List.flatMap_append, List.flatMap_cons]
      have : ((l.filter fun s => subdir folder s = none).map (fileTarget folder)).flatMap (·.files) =
          l.filter fun s => subdir folder s = none := by
        generalize l.filter (fun s => subdir folder s = none) = l'
        induction l' with
        | nil => rfl
        | cons s l' ih => rw [List.map_cons, List.flatMap_cons, ih]; rfl
      rw [this]
      exact (targets_perm hsub hr).append_left _
  | some d :: gs, ts, H => by
    unfold targets at H
    cases hs : sub (folder ++ [d]) (l.filter fun s => subdir folder s = some d) with
    | none => rw [hs] at H; cases H
    | some fs =>
      rw [hs] at H
      dsimp only at H
      cases hr : targets folder sub l gs with
      | none => rw [hr] at H; cases H
      | some r =>
        rw [hr] at H
        cases H
        rw [List.flatMap_cons, List.flatMap_cons]
        exact (hsub d fs hs).append (targets_perm hsub hr)

/-- If the targets cannot be made, the order in some subdirectory cannot. -/
theorem targets_none : ∀ {gs : List (Option Nat)}, targets folder sub l gs = none →
    ∃ d, some d ∈ gs ∧ sub (folder ++ [d]) (l.filter fun s => subdir folder s = some d) = none
  | [], H => by unfold targets at H; cases H
  | none :: gs, H => by
    unfold targets at H
    cases hr : targets folder sub l gs with
    | some r => rw [hr] at H; cases H
    | none =>
      obtain ⟨d, h1, h2⟩ := targets_none hr
      exact ⟨d, List.mem_cons_of_mem _ h1, h2⟩
  | some d :: gs, H => by
    unfold targets at H
    cases hs : sub (folder ++ [d]) (l.filter fun s => subdir folder s = some d) with
    | none => exact ⟨d, List.mem_cons_self, hs⟩
    | some fs =>
      rw [hs] at H
      dsimp only at H
      cases hr : targets folder sub l gs with
      | some r => rw [hr] at H; cases H
      | none =>
        obtain ⟨d, h1, h2⟩ := targets_none hr
        exact ⟨d, List.mem_cons_of_mem _ h1, h2⟩

theorem flatMap_split {α β : Type} {f : α → List β} : ∀ {l : List α} {pre post : List β} {s : β},
    l.flatMap f = pre ++ s :: post →
    ∃ A u B p1 p2, l = A ++ u :: B ∧ f u = p1 ++ s :: p2 ∧ pre = A.flatMap f ++ p1
  | [], pre, post, s, H => by cases pre <;> cases H
  | x :: l, pre, post, s, H => by
    rw [List.flatMap_cons] at H
    rcases List.append_eq_append_iff.mp H with ⟨q, h1, h2⟩ | ⟨q, h1, h2⟩
    · obtain ⟨A, u, B, p1, p2, h3, h4, h5⟩ := flatMap_split h2
      refine ⟨x :: A, u, B, p1, p2, by rw [h3]; rfl, h4, ?_⟩
      rw [h1, h5, List.flatMap_cons, List.append_assoc]
    · cases q with
      | nil =>
        rw [List.append_nil] at h1
        rw [List.nil_append] at h2
        obtain ⟨A, u, B, p1, p2, h3, h4, h5⟩ := flatMap_split (pre := []) h2.symm
        refine ⟨x :: A, u, B, p1, p2, by rw [h3]; rfl, h4, ?_⟩
        rw [List.flatMap_cons, List.append_assoc, ← h5, List.append_nil, h1]
      | cons y q =>
        rw [List.cons_append] at h2
        cases h2
        exact ⟨[], x, l, pre, q, rfl, h1, rfl⟩

theorem get_prefix {folder d : List Nat} {c : Nat} (h : folder <+: d) : d[folder.length]? = some c ↔ folder ++ [c] <+: d := by
  obtain ⟨t, rfl⟩ := h
  rw [List.getElem?_append_right (Nat.le_refl _), Nat.sub_self]
  cases t with
  | nil =>
    simp only [List.getElem?_nil, List.append_nil]
    constructor
    · intro h; cases h
    · intro h
      have := h.length_le
      rw [List.length_append] at this
      simp at this
      omega
  | cons x t =>
    rw [List.getElem?_cons_zero]
    constructor
    · intro h
      cases h
      exact ⟨t, by simp⟩
    · rintro ⟨t', h⟩
      rw [List.append_assoc, List.append_cancel_left_eq] at h
      cases h
      rfl

theorem get_none {folder d : List Nat} (h : folder <+: d) : d[folder.length]? = none ↔ d = folder := by
  obtain ⟨t, rfl⟩ := h
  rw [List.getElem?_append_right (Nat.le_refl _), Nat.sub_self]
  cases t with
  | nil => simp
  | cons x t => simp

theorem keyOf_file {folder : List Nat} {p q : List Nat × Nat} (h : keyOf folder p = some (.file q)) : p = q := by
  unfold keyOf at h
  split at h
  · cases h; rfl
  · split at h
    · cases hg : p.1[folder.length]? with
      | none => rw [hg] at h; cases h
      | some c => rw [hg] at h; cases h
    · cases h

theorem keyOf_dir {folder : List Nat} {p : List Nat × Nat} {c : Nat} (h : keyOf folder p = some (.dir c)) :
    folder ++ [c] <+: p.1 := by
  unfold keyOf at h
  split at h
  · cases h
  · split at h
    · rename_i hp
      cases hg : p.1[folder.length]? with
      | none => rw [hg] at h; cases h
      | some c' =>
        rw [hg] at h
        cases h
        exact (get_prefix hp).mp hg
    · cases h

theorem keyOf_prefix {folder : List Nat} {p : List Nat × Nat} (h : folder <+: p.1) : ∃ k, keyOf folder p = some k := by
  unfold keyOf
  by_cases hne : p.1 = folder
  · rw [if_pos hne]; exact ⟨_, rfl⟩
  · rw [if_neg hne, if_pos h]
    cases hg : p.1[folder.length]? with
    | none => exact absurd ((get_none h).mp hg) hne
    | some c => exact ⟨_, rfl⟩

theorem dirOrder_some : ∀ {n : Nat} {folder : List Nat} {l r : List Src}, dirOrder n folder l = some r →
    (∀ s ∈ l, folder <+: s.dirs) →
    r.Perm l ∧ ∀ pre s post, r = pre ++ s :: post → ∀ d ∈ s.deps, folder <+: d.1 → (∃ t ∈ l, t.path = d) →
      ∃ t ∈ pre, t.path = d
  | 0, _, _, _, H, _ => by unfold dirOrder at H; cases H
  | n + 1, folder, l, r, H, hf => by
    unfold dirOrder at H
    cases ht : targets folder (dirOrder n) l (l.map (subdir folder)).eraseDups with
    | none => rw [ht] at H; cases H
    | some ts =>
      rw [ht] at H
      dsimp only at H
      cases hp : place ts.length [] ts with
      | none => rw [hp] at H; cases H
      | some rs =>
        rw [hp] at H
        cases H
        have hgf : ∀ d, ∀ s ∈ l.filter (fun s => subdir folder s = some d), folder ++ [d] <+: s.dirs := by
          intro d s hs
          obtain ⟨h1, h2⟩ := List.mem_filter.mp hs
          exact (get_prefix (hf s h1)).mp (of_decide_eq_true h2)
        have hsub : ∀ d fs, dirOrder n (folder ++ [d]) (l.filter fun s => subdir folder s = some d) = some fs →
            fs.Perm (l.filter fun s => subdir folder s = some d) := fun d fs h => (dirOrder_some h (hgf d)).1
        obtain ⟨h1, h2⟩ := place_some hp
        refine ⟨?_, ?_⟩
        · refine (List.Perm.flatMap_right _ h1).trans ((targets_perm hsub ht).trans ?_)
          refine (groups_perm (subdir folder) l (nodup_eraseDups _)).trans ?_
          rw [List.filter_eq_self.mpr fun s hs => by
            simpa using ⟨s, hs, rfl⟩]
        · intro pre s post h d hd hpre htl
          obtain ⟨A, u, B, p1, p2, h3, h4, h5⟩ := flatMap_split h
          have hearlier : ∀ k ∈ u.deps, keyOf folder d = some k → ∃ t ∈ pre, t.path = d := by
            intro k hk hkd
            rcases h2 A u B h3 k hk with h6 | ⟨u', h6, h7⟩
            · cases h6
            · have hu' : u' ∈ ts := h1.mem_iff.mp (by rw [h3]; exact List.mem_append_left _ h6)
              have : ∃ t ∈ u'.files, t.path = d := by
                rcases targets_is ht u' hu' with ⟨s', _, _, rfl⟩ | ⟨c, fs, h8, rfl⟩
                · have h7 : Key.file s'.path = k := h7
                  rw [← h7] at hkd
                  exact ⟨s', List.mem_cons_self, (keyOf_file hkd).symm⟩
                · have h7 : Key.dir c = k := h7
                  rw [← h7] at hkd
                  obtain ⟨t, h9, h10⟩ := htl
                  refine ⟨t, (hsub c fs h8).mem_iff.mpr (List.mem_filter.mpr ⟨h9, ?_⟩), h10⟩
                  have := keyOf_dir hkd
                  rw [← h10] at this
                  exact decide_eq_true ((get_prefix (hf t h9)).mpr this)
              obtain ⟨t, h9, h10⟩ := this
              refine ⟨t, ?_, h10⟩
              rw [h5]
              exact List.mem_append_left _ (List.mem_flatMap.mpr ⟨u', h6, h9⟩)
          obtain ⟨k, hk⟩ := keyOf_prefix hpre
          have hu : u ∈ ts := h1.mem_iff.mp (by rw [h3]; exact List.mem_append_right _ List.mem_cons_self)
          rcases targets_is ht u hu with ⟨s', _, _, rfl⟩ | ⟨c, fs, h8, rfl⟩
          · have hs : s = s' := by
              have h4 : [s'] = p1 ++ s :: p2 := h4
              cases p1 with
              | nil => cases h4; rfl
              | cons a b => cases b <;> cases h4
            subst hs
            exact hearlier k (List.mem_filterMap.mpr ⟨d, hd, hk⟩) hk
          · have h4 : fs = p1 ++ s :: p2 := h4
            by_cases hin : folder ++ [c] <+: d.1
            · obtain ⟨t, h9, h10⟩ := htl
              obtain ⟨t', h11, h12⟩ := (dirOrder_some h8 (hgf c)).2 p1 s p2 h4 d hd hin ⟨t, List.mem_filter.mpr ⟨h9, by
                rw [← h10] at hin
                exact decide_eq_true ((get_prefix (hf t h9)).mpr hin)⟩, h10⟩
              exact ⟨t', by rw [h5]; exact List.mem_append_right _ h11, h12⟩
            · refine hearlier k (List.mem_filterMap.mpr ⟨d, List.mem_filter.mpr ⟨List.mem_flatMap.mpr ⟨s, ?_, hd⟩, ?_⟩, hk⟩) hk
              · rw [h4]; exact List.mem_append_right _ List.mem_cons_self
              · cases hb : (folder ++ [c]).isPrefixOf d.1 with
                | false => rfl
                | true => exact absurd (List.isPrefixOf_iff_prefix.mp hb) hin

/-! ## Failure -/

theorem prefix_cons {folder d : List Nat} {c : Nat} (h : folder ++ [c] <+: d) : ∃ rest, d = folder ++ c :: rest := by
  obtain ⟨t, rfl⟩ := h
  exact ⟨t, by simp⟩

theorem in_prefix {folder : List Nat} {k : Key} {p : List Nat × Nat} (h : Spec.In folder k p) : folder <+: p.1 := by
  cases k with
  | file q => rw [h.2]; exact List.prefix_refl _
  | dir c =>
    obtain ⟨t, h⟩ := h
    rw [h]
    exact List.prefix_append _ _

theorem keyOf_iff {folder : List Nat} {k : Key} {p : List Nat × Nat} : keyOf folder p = some k ↔ Spec.In folder k p := by
  constructor
  · intro h
    cases k with
    | file q =>
      refine ⟨keyOf_file h, ?_⟩
      unfold keyOf at h
      split at h
      · assumption
      · split at h
        · cases hg : p.1[folder.length]? <;> rw [hg] at h <;> cases h
        · cases h
    | dir c => exact prefix_cons (keyOf_dir h)
  · intro h
    obtain ⟨k', hk'⟩ := keyOf_prefix (in_prefix h)
    rw [hk']
    congr 1
    cases k with
    | file q =>
      obtain ⟨h1, h2⟩ := h
      unfold keyOf at hk'
      rw [if_pos h2] at hk'
      cases hk'
      rw [h1]
    | dir c =>
      obtain ⟨t, h⟩ := h
      unfold keyOf at hk'
      rw [h, if_neg (by
          intro hc
          have := congrArg List.length hc
          simp at this),
        if_pos (List.prefix_append _ _), List.getElem?_append_right (Nat.le_refl _), Nat.sub_self] at hk'
      cases hk'
      rfl

theorem dirOrder_none : ∀ {n : Nat} {folder : List Nat} {l : List Src}, dirOrder n folder l = none →
    (∀ s ∈ l, folder <+: s.dirs) → (∀ s ∈ l, s.dirs.length < folder.length + n) → (l ≠ [] ∨ 0 < n) →
    (∀ s ∈ l, ∀ d ∈ s.deps, folder <+: d.1 → ∃ t ∈ l, t.path = d) →
    ∃ folder' R, R ≠ [] ∧ ∀ k ∈ R, ∃ k' ∈ R, Needs l folder' k k'
  | 0, folder, l, _, hf, hd, hne, _ => by
    rcases hne with hne | hne
    · cases l with
      | nil => exact absurd rfl hne
      | cons s l =>
        have h1 := (hf s List.mem_cons_self).length_le
        have h2 := hd s List.mem_cons_self
        omega
    · omega
  | n + 1, folder, l, H, hf, hd, _, hc => by
    unfold dirOrder at H
    have hgf : ∀ d, ∀ s ∈ l.filter (fun s => subdir folder s = some d), folder ++ [d] <+: s.dirs := by
      intro d s hs
      obtain ⟨h1, h2⟩ := List.mem_filter.mp hs
      exact (get_prefix (hf s h1)).mp (of_decide_eq_true h2)
    cases ht : targets folder (dirOrder n) l (l.map (subdir folder)).eraseDups with
    | none =>
      obtain ⟨d, h1, h2⟩ := targets_none ht
      obtain ⟨s, h3, h4⟩ := List.mem_map.mp (List.mem_eraseDups.mp h1)
      obtain ⟨f', R, h5, h6⟩ := dirOrder_none h2 (hgf d)
        (fun s hs => by
          have := hd s (List.mem_filter.mp hs).1
          rw [List.length_append, List.length_singleton]
          omega)
        (Or.inl (List.ne_nil_of_mem (List.mem_filter.mpr ⟨h3, decide_eq_true h4⟩)))
        (fun s hs e he hp => by
          obtain ⟨t, h7, h8⟩ := hc s (List.mem_filter.mp hs).1 e he (List.IsPrefix.trans (List.prefix_append _ _) hp)
          refine ⟨t, List.mem_filter.mpr ⟨h7, decide_eq_true ?_⟩, h8⟩
          rw [← h8] at hp
          exact (get_prefix (hf t h7)).mpr hp)
      refine ⟨f', R, h5, fun k hk => ?_⟩
      obtain ⟨k', h7, s', h8, h9⟩ := h6 k hk
      exact ⟨k', h7, s', (List.mem_filter.mp h8).1, h9⟩
    | some ts =>
      rw [ht] at H
      dsimp only at H
      cases hp : place ts.length [] ts with
      | some rs => rw [hp] at H; cases H
      | none =>
        obtain ⟨R, placed, h1, h2, _, h4⟩ := place_none (Nat.le_refl _) hp
        have hsub : ∀ d fs, dirOrder n (folder ++ [d]) (l.filter fun s => subdir folder s = some d) = some fs →
            fs.Perm (l.filter fun s => subdir folder s = some d) := fun d fs h => (dirOrder_some h (hgf d)).1
        have hall : (ts.flatMap (·.files)).Perm l := by
          refine (targets_perm hsub ht).trans ((groups_perm (subdir folder) l (nodup_eraseDups _)).trans ?_)
          rw [List.filter_eq_self.mpr fun s hs => by simpa using ⟨s, hs, rfl⟩]
        have hkey : ∀ t ∈ ts, ∀ s ∈ t.files, keyOf folder s.path = some t.key := by
          intro t htt s hs
          rcases targets_is ht t htt with ⟨s', h5, h6, rfl⟩ | ⟨c, fs, h8, rfl⟩
          · cases List.mem_singleton.mp hs
            have := (get_none (hf s h5)).mp h6
            unfold keyOf
            rw [if_pos (show s.path.1 = folder from this)]
            rfl
          · have h9 := (hsub c fs h8).mem_iff.mp hs
            have h10 := hgf c s h9
            exact keyOf_iff.mpr (prefix_cons h10)
        have hsucc : ∀ t ∈ ts, ∀ s ∈ t.files, ∀ d ∈ s.deps, ∀ k, keyOf folder d = some k → k ∉ placed →
            ∃ u ∈ R, u.key = k := by
          intro t htt s hs d hd' k hk hkp
          have hsl : s ∈ l := hall.mem_iff.mp (List.mem_flatMap.mpr ⟨t, htt, hs⟩)
          obtain ⟨v, h5, h6⟩ := hc s hsl d hd' (in_prefix (keyOf_iff.mp hk))
          obtain ⟨u, h7, h8⟩ := List.mem_flatMap.mp (hall.mem_iff.mpr h5)
          have h9 := hkey u h7 v h8
          rw [h6, hk] at h9
          cases h9
          rcases h4 u h7 with h10 | h10
          · exact ⟨u, h10, rfl⟩
          · exact absurd h10 hkp
        refine ⟨folder, R.map (·.key), by simpa using h1, ?_⟩
        intro k hk
        obtain ⟨t, h5, rfl⟩ := List.mem_map.mp hk
        obtain ⟨h6, k', h7, h8⟩ := h2 t h5
        rcases targets_is ht t h6 with ⟨s, h9, _, rfl⟩ | ⟨c, fs, h9, rfl⟩
        · obtain ⟨d, h10, h11⟩ := List.mem_filterMap.mp h7
          obtain ⟨u, h12, h13⟩ := hsucc _ h6 s List.mem_cons_self d h10 k' h11 h8
          refine ⟨k', List.mem_map.mpr ⟨u, h12, h13⟩, s, h9, d, h10, keyOf_iff.mp (hkey _ h6 s List.mem_cons_self), keyOf_iff.mp h11, ?_⟩
          intro c h
          cases h
        · obtain ⟨d, h10, h11⟩ := List.mem_filterMap.mp h7
          obtain ⟨h12, h13⟩ := List.mem_filter.mp h10
          obtain ⟨s, h14, h15⟩ := List.mem_flatMap.mp h12
          obtain ⟨u, h16, h17⟩ := hsucc _ h6 s h14 d h15 k' h11 h8
          refine ⟨k', List.mem_map.mpr ⟨u, h16, h17⟩, s, hall.mem_iff.mp (List.mem_flatMap.mpr ⟨_, h6, h14⟩), d, h15,
            keyOf_iff.mp (hkey _ h6 s h14), keyOf_iff.mp h11, ?_⟩
          intro c' h h18
          cases h
          rw [h18] at h11
          have := List.isPrefixOf_iff_prefix.mpr (keyOf_dir h11)
          rw [this] at h13
          cases h13

/-! ## Names -/

theorem cut : ∀ {c e r q : List Char}, Spec.Clean c → Spec.Clean e →
    c ++ '_' :: '_' :: r = e ++ '_' :: '_' :: q → c = e ∧ r = q
  | [], [], _, _, _, _, h => by cases h; exact ⟨rfl, rfl⟩
  | [], [x], _, _, _, he, h => by
    cases h
    exact absurd rfl (he.2 [])
  | [], x :: y :: e, _, _, _, he, h => by
    cases h
    exact absurd rfl (he.1 [] e)
  | [x], [], _, _, hc, _, h => by
    cases h
    exact absurd rfl (hc.2 [])
  | x :: y :: c, [], _, _, hc, _, h => by
    cases h
    exact absurd rfl (hc.1 [] c)
  | x :: c, y :: e, r, q, hc, he, h => by
    rw [List.cons_append, List.cons_append, List.cons.injEq] at h
    obtain ⟨rfl, h⟩ := h
    obtain ⟨rfl, h2⟩ := cut (clean_tail hc) (clean_tail he) h
    exact ⟨rfl, h2⟩
where
  clean_tail {x : Char} {c : List Char} (h : Spec.Clean (x :: c)) : Spec.Clean c :=
    ⟨fun a b hh => h.1 (x :: a) b (by rw [hh]; rfl), fun a hh => h.2 (x :: a) (by rw [hh]; rfl)⟩

theorem join_inj : ∀ {a b : List (List Char)}, a ≠ [] → b ≠ [] → (∀ c ∈ a, Spec.Clean c) → (∀ c ∈ b, Spec.Clean c) →
    ['_', '_'].intercalate a = ['_', '_'].intercalate b → a = b
  | [], _, h, _, _, _, _ => absurd rfl h
  | _ :: _, [], _, h, _, _, _ => absurd rfl h
  | [x], [y], _, _, _, _, h => by
    simp only [List.intercalate, List.intersperse, List.flatten_cons, List.flatten_nil, List.append_nil] at h
    rw [h]
  | [x], y :: z :: b, _, _, ha, _, h => by
    rw [join_single, join_cons] at h
    exact absurd h ((ha x List.mem_cons_self).1 _ _)
  | x :: z :: a, [y], _, _, _, hb, h => by
    rw [join_single, join_cons] at h
    exact absurd h.symm ((hb y List.mem_cons_self).1 _ _)
  | x :: z :: a, y :: w :: b, _, _, ha, hb, h => by
    rw [join_cons, join_cons] at h
    obtain ⟨rfl, h2⟩ := cut (ha x List.mem_cons_self) (hb y List.mem_cons_self) h
    rw [join_inj (by simp) (by simp) (fun c hc => ha c (List.mem_cons_of_mem _ hc))
      (fun c hc => hb c (List.mem_cons_of_mem _ hc)) h2]
where
  join_single (x : List Char) : ['_', '_'].intercalate [x] = x := by
    simp [List.intercalate, List.intersperse]
  join_cons (x z : List Char) (a : List (List Char)) :
      ['_', '_'].intercalate (x :: z :: a) = x ++ '_' :: '_' :: ['_', '_'].intercalate (z :: a) := by
    simp [List.intercalate, List.intersperse]

theorem eraseDups_sublist {β : Type} [BEq β] [LawfulBEq β] (l : List β) : l.eraseDups.Sublist l := by
  generalize hn : l.length = n
  induction n using Nat.strongRecOn generalizing l with
  | ind n ih =>
    cases l with
    | nil => exact List.Sublist.refl _
    | cons a l =>
      rw [List.eraseDups_cons]
      refine List.Sublist.cons_cons a ((ih _ ?_ _ rfl).trans List.filter_sublist)
      have := List.length_filter_le (fun b => !b == a) l
      rw [List.length_cons] at hn
      omega

theorem nodup_of_length {β : Type} [BEq β] [LawfulBEq β] {l : List β} (h : l.eraseDups.length = l.length) : l.Nodup := by
  have := (eraseDups_sublist l).eq_of_length h
  rw [← this]
  exact nodup_eraseDups l

theorem nodup_map_inj {α β : Type} {f : α → β} : ∀ {l : List α}, l.Nodup →
    (∀ x ∈ l, ∀ y ∈ l, f x = f y → x = y) → (l.map f).Nodup
  | [], _, _ => List.nodup_nil
  | a :: l, h, hi => by
    rw [List.nodup_cons] at h
    rw [List.map_cons, List.nodup_cons]
    refine ⟨fun hm => ?_, nodup_map_inj h.2 fun x hx y hy => hi x (List.mem_cons_of_mem _ hx) y (List.mem_cons_of_mem _ hy)⟩
    obtain ⟨b, hb, hab⟩ := List.mem_map.mp hm
    have := hi b (List.mem_cons_of_mem _ hb) a List.mem_cons_self hab
    exact h.1 (this ▸ hb)

end Verif.Imports.Model
