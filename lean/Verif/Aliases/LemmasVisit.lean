import Verif.Aliases.LemmasSafe

/-!
# Arrays shared by several variables: what the analysis knows
-/

namespace Verif.Aliases.Lemmas
open Spec Model

/-! ## The pointers -/

/-- `t` is among the targets of `p`. -/
def Has (tg : List (Var × List Var)) (p t : Var) : Prop := ∃ ts, (tg.find? (·.1 = p)).map (·.2) = some ts ∧ t ∈ ts

theorem has_pointed {an : An} {p t : Var} (h : Has an.tg p t) : an.pointed t = true := by
  obtain ⟨ts, h1, h2⟩ := h
  cases hf : an.tg.find? (·.1 = p) with
  | none => simp [hf] at h1
  | some e =>
    simp [hf] at h1
    subst h1
    simp only [An.pointed, List.any_eq_true]
    exact ⟨e, List.mem_of_find?_eq_some hf, by simpa using h2⟩

theorem has_extend_new : ∀ (tg : List (Var × List Var)) (p : Var) (ts : List Var) (t : Var), t ∈ ts →
    Has (extend tg p ts) p t
  | [], p, ts, t, h => ⟨ts, by simp [extend], h⟩
  | e :: es, p, ts, t, h => by
    by_cases he : e.1 = p
    · exact ⟨e.2 ++ ts, by simp [extend, he], by simp [h]⟩
    · obtain ⟨us, h1, h2⟩ := has_extend_new es p ts t h
      refine ⟨us, ?_, h2⟩
      rw [extend, if_neg he, List.find?_cons_of_neg (by simpa using he)]
      exact h1

theorem has_extend : ∀ (tg : List (Var × List Var)) (p : Var) (ts : List Var) (q t : Var), Has tg q t →
    Has (extend tg p ts) q t
  | [], p, ts, q, t, h => by obtain ⟨us, h1, _⟩ := h; simp at h1
  | e :: es, p, ts, q, t, h => by
    obtain ⟨us, h1, h2⟩ := h
    by_cases he : e.1 = p
    · rw [extend, if_pos he]
      by_cases hq : e.1 = q
      · rw [List.find?_cons_of_pos (by simpa using hq)] at h1
        simp at h1
        subst h1
        exact ⟨e.2 ++ ts, by rw [List.find?_cons_of_pos (by simpa [← hq] using he.symm)]; rfl, by simp [h2]⟩
      · rw [List.find?_cons_of_neg (by simpa using hq)] at h1
        exact ⟨us, by rw [List.find?_cons_of_neg (by simpa [← he] using hq)]; exact h1, h2⟩
    · rw [extend, if_neg he]
      by_cases hq : e.1 = q
      · rw [List.find?_cons_of_pos (by simpa using hq)] at h1
        exact ⟨us, by rw [List.find?_cons_of_pos (by simpa using hq)]; exact h1, h2⟩
      · rw [List.find?_cons_of_neg (by simpa using hq)] at h1
        obtain ⟨vs, h3, h4⟩ := has_extend es p ts q t ⟨us, h1, h2⟩
        exact ⟨vs, by rw [List.find?_cons_of_neg (by simpa using hq)]; exact h3, h4⟩

theorem pointed_extend : ∀ (tg : List (Var × List Var)) (p : Var) (ts : List Var) (t : Var),
    (tg.any fun e => e.2.contains t) = true → ((extend tg p ts).any fun e => e.2.contains t) = true
  | [], p, ts, t, h => by simp at h
  | e :: es, p, ts, t, h => by
    simp only [List.any_cons, Bool.or_eq_true] at h
    by_cases he : e.1 = p
    · rw [extend, if_pos he]
      simp only [List.any_cons, Bool.or_eq_true]
      rcases h with h | h
      · left; simp at h ⊢; exact Or.inl h
      · exact Or.inr h
    · rw [extend, if_neg he]
      simp only [List.any_cons, Bool.or_eq_true]
      rcases h with h | h
      · exact Or.inl h
      · exact Or.inr (pointed_extend es p ts t h)

theorem find_filter (res : Var) : ∀ (tg : List (Var × List Var)),
    (tg.filter fun e => some e.1 = some res).find? (·.1 = res) = tg.find? (·.1 = res)
  | [] => rfl
  | e :: es => by
    by_cases he : e.1 = res
    · rw [List.filter_cons_of_pos (by simp [he]), List.find?_cons_of_pos (by simpa using he),
        List.find?_cons_of_pos (by simpa using he)]
    · rw [List.filter_cons_of_neg (by simpa using he), List.find?_cons_of_neg (by simpa using he),
        find_filter res es]

theorem checkTargets_eq {res : Option Var} {an an' : An} (h : checkTargets res an = some an') :
    an' = { an with tg := an.tg.filter fun e => some e.1 = res } := by
  unfold checkTargets at h
  simp only at h
  split at h
  · exact (Option.some.inj h).symm
  · cases h

theorem checkTargets_has {r : Var} {an an' : An} (h : checkTargets (some r) an = some an') {t : Var} :
    Has an'.tg r t ↔ Has an.tg r t := by
  rw [checkTargets_eq h]
  unfold Has
  simp only [find_filter]

/-- What `p = y` changes. -/
theorem indicate_cases {an an' : An} {p y : Var} (h : indicate an p y = some an') :
    an'.kind = an.kind ∧ ((p = y ∧ an' = an) ∨
      (an.kind y = some .alias ∧ an'.tgt = an.tgt ∧
        ((∀ t, ¬ Has an.tg y t) ∧ an' = an ∨ ∃ ts, an.targets y = some ts ∧ an'.tg = extend an.tg p ts)) ∨
      (an.kind y ≠ some .alias ∧ an.kind y ≠ none ∧ an'.tgt = y :: an.tgt ∧ an'.tg = extend an.tg p [y])) := by
  unfold indicate at h
  by_cases hpy : p = y
  · rw [if_pos hpy] at h
    cases h
    exact ⟨rfl, Or.inl ⟨hpy, rfl⟩⟩
  · rw [if_neg hpy] at h
    cases hk : an.kind y with
    | none => simp [hk] at h
    | some k =>
      cases k with
      | alias =>
        simp only [hk] at h
        cases ht : an.targets y with
        | none => simp [ht] at h
        | some ts =>
          cases ts with
          | nil =>
            simp only [ht] at h
            cases h
            refine ⟨rfl, Or.inr (Or.inl ⟨rfl, rfl, Or.inl ⟨?_, rfl⟩⟩)⟩
            intro t ⟨us, h1, h2⟩
            have : an.targets y = some us := h1
            rw [ht] at this
            cases this
            cases h2
          | cons a as =>
            simp only [ht] at h
            cases h
            exact ⟨rfl, Or.inr (Or.inl ⟨rfl, rfl, Or.inr ⟨_, rfl, rfl⟩⟩)⟩
      | heap =>
        simp only [hk] at h
        cases h
        exact ⟨rfl, Or.inr (Or.inr ⟨by simp, by simp, rfl, rfl⟩)⟩
      | arg =>
        simp only [hk] at h
        cases h
        exact ⟨rfl, Or.inr (Or.inr ⟨by simp, by simp, rfl, rfl⟩)⟩

/-! ## Growth -/

/-- The variables stay, and the targets do. -/
structure Grows (keep : Bool) (an an' : An) : Prop where
  kind : ∀ v k, an.kind v = some k → an'.kind v = some k
  tgt : ∀ t, t ∈ an.tgt → t ∈ an'.tgt
  pointed : keep = true → ∀ t, an.pointed t = true → an'.pointed t = true

theorem Grows.refl (b : Bool) (an : An) : Grows b an an := ⟨fun _ _ h => h, fun _ h => h, fun _ _ h => h⟩

theorem Grows.trans {a b : Bool} {x y z : An} (h1 : Grows a x y) (h2 : Grows b y z) : Grows (a && b) x z :=
  ⟨fun v k h => h2.kind v k (h1.kind v k h), fun t h => h2.tgt t (h1.tgt t h), fun hk t h => by
    simp only [Bool.and_eq_true] at hk
    exact h2.pointed hk.2 t (h1.pointed hk.1 t h)⟩

theorem Grows.weaken {a b : Bool} {x y : An} (h : Grows a x y) (hb : b = true → a = true) : Grows b x y :=
  ⟨h.kind, h.tgt, fun hk => h.pointed (hb hk)⟩

theorem indicate_grows {an an' : An} {p y : Var} (h : indicate an p y = some an') : Grows true an an' := by
  obtain ⟨hk, h⟩ := indicate_cases h
  refine ⟨fun v k hv => by rw [hk]; exact hv, ?_, ?_⟩
  · intro t ht
    rcases h with ⟨_, rfl⟩ | ⟨_, h, _⟩ | ⟨_, _, h, _⟩
    · exact ht
    · rw [h]; exact ht
    · rw [h]; exact List.mem_cons_of_mem _ ht
  · intro _ t ht
    rcases h with ⟨_, rfl⟩ | ⟨_, _, ⟨_, rfl⟩ | ⟨ts, _, h⟩⟩ | ⟨_, _, _, h⟩
    · exact ht
    · exact ht
    · unfold An.pointed; rw [h]; exact pointed_extend _ _ _ _ ht
    · unfold An.pointed; rw [h]; exact pointed_extend _ _ _ _ ht

theorem setKind_grows {an : An} {x : Var} {k : Kind} (h : an.kind x = none) :
    Grows true an { an with kind := setEnv an.kind x (some k) } :=
  ⟨fun v k' hv => by
    have : v ≠ x := by rintro rfl; rw [h] at hv; cases hv
    show setEnv an.kind x (some k) v = _
    rw [setEnv_ne this, hv], fun _ h => h, fun _ _ h => h⟩

/-- `visitBind`: which case it was. -/
theorem visitBind_cases {an an' : An} {p y : Var} {idx : Option (List Nat)} {co : Code}
    (h : visitBind an p y idx = some (co, an')) :
    (an.kind p = none ∧ co = .bind p y idx ∧
      indicate { an with kind := setEnv an.kind p (some .alias) } p y = some an') ∨
    (an.kind p = some .alias ∧ co = (if p = y ∧ idx = none then .skip else .bind p y idx) ∧
      indicate an p y = some an') ∨
    (an.kind p ≠ none ∧ an.kind p ≠ some .alias ∧ p ∈ an.tgt ∧ an.pointed p = false ∧ an' = an) := by
  unfold visitBind at h
  split at h
  · cases hk : an.kind p with
    | none =>
      simp only [hk] at h
      cases hi : indicate { an with kind := setEnv an.kind p (some .alias) } p y with
      | none => simp [hi] at h
      | some a =>
        simp [hi] at h
        exact Or.inl ⟨rfl, h.1.symm, by rw [← h.2]⟩
    | some k =>
      have other : ∀ (hne : k ≠ .alias), visitCopy an p y idx = some (co, an') →
          p ∈ an.tgt ∧ an.pointed p = false ∧ an' = an := by
        intro _ h
        unfold visitCopy at h
        split at h
        · rename_i hc
          cases h
          simp at hc
          exact ⟨hc.1, hc.2, rfl⟩
        · cases h
      cases k with
      | alias =>
        simp only [hk] at h
        cases hi : indicate an p y with
        | none => simp [hi] at h
        | some a =>
          simp [hi] at h
          exact Or.inr (Or.inl ⟨rfl, h.1.symm, by rw [← h.2]⟩)
      | heap =>
        simp only [hk] at h
        exact Or.inr (Or.inr ⟨by simp, by simp, other (by simp) h⟩)
      | arg =>
        simp only [hk] at h
        exact Or.inr (Or.inr ⟨by simp, by simp, other (by simp) h⟩)
  · cases h

/-- `visitFresh`: which case it was. -/
theorem visitFresh_cases {an an' : An} {x : Var} {ys : List Var} {f : List Vals → Vals} {same : Bool} {co : Code}
    (h : visitFresh an x ys f same = some (co, an')) :
    (an.kind x = none ∧ x ∉ ys ∧ co = .fresh x ys f false ∧
      an' = { an with kind := setEnv an.kind x (some .heap) }) ∨
    (an.kind x = some .heap ∧ co = .fresh x ys f same ∧ (x ∈ an.tgt → an.pointed x = false) ∧ an' = an) ∨
    (an.kind x = some .arg ∧ an' = an) := by
  unfold visitFresh at h
  split at h
  · rename_i hkn
    cases hk : an.kind x with
    | none =>
      simp [hk] at h
      refine Or.inl ⟨rfl, fun hx => ?_, h.1.symm, h.2.symm⟩
      simp only [An.known, List.all_eq_true] at hkn
      simpa [hk] using hkn x hx
    | some k =>
      cases k with
      | alias => simp [hk] at h
      | heap =>
        simp only [hk] at h
        split at h
        · cases h
        · rename_i hc
          cases h
          refine Or.inr (Or.inl ⟨rfl, rfl, fun ht => ?_, rfl⟩)
          simpa [ht] using hc
      | arg =>
        simp only [hk] at h
        split at h
        · cases h
        · split at h
          · cases h; exact Or.inr (Or.inr ⟨rfl, rfl⟩)
          · cases h
  · cases h

theorem visitBind_grows {an an' : An} {p y : Var} {idx : Option (List Nat)} {co : Code}
    (h : visitBind an p y idx = some (co, an')) : Grows true an an' := by
  rcases visitBind_cases h with ⟨h1, _, h2⟩ | ⟨_, _, h2⟩ | ⟨_, _, _, _, rfl⟩
  · exact (setKind_grows h1).trans (indicate_grows h2)
  · exact indicate_grows h2
  · exact Grows.refl _ _

theorem visitFresh_grows {an an' : An} {x : Var} {ys : List Var} {f : List Vals → Vals} {same : Bool} {co : Code}
    (h : visitFresh an x ys f same = some (co, an')) : Grows true an an' := by
  rcases visitFresh_cases h with ⟨h1, _, _, rfl⟩ | ⟨_, _, _, rfl⟩ | ⟨_, rfl⟩
  · exact setKind_grows h1
  · exact Grows.refl _ _
  · exact Grows.refl _ _

theorem visit_seq {res : Option Var} {a b : Stmt} {an an' : An} {co : Code}
    (h : visit res (.seq a b) an = some (co, an')) : ∃ a' an1 b', visit res a an = some (a', an1) ∧
      visit res b an1 = some (b', an') ∧ co = .seq a' b' := by
  simp only [visit] at h
  cases h1 : visit res a an with
  | none => simp [h1] at h
  | some q =>
    cases h2 : visit res b q.2 with
    | none => simp [h1, h2] at h
    | some q2 =>
      simp [h1, h2] at h
      exact ⟨q.1, q.2, q2.1, rfl, by rw [h2, ← h.2], h.1.symm⟩

theorem visit_ite {res : Option Var} {ys : List Var} {c : List Vals → Bool} {a b : Stmt} {an an' : An} {co : Code}
    (h : visit res (.ite ys c a b) an = some (co, an')) : ∃ a' an1 b', visit res a an = some (a', an1) ∧
      visit res b an1 = some (b', an') ∧ co = .ite ys c a' b' := by
  simp only [visit] at h
  split at h
  · cases h1 : visit res a an with
    | none => simp [h1] at h
    | some q =>
      cases h2 : visit res b q.2 with
      | none => simp [h1, h2] at h
      | some q2 =>
        simp [h1, h2] at h
        exact ⟨q.1, q.2, q2.1, rfl, by rw [h2, ← h.2], h.1.symm⟩
  · cases h

theorem visit_loop {res : Option Var} {ys : List Var} {n : List Vals → Nat} {b : Stmt} {an an' : An} {co : Code}
    (h : visit res (.loop ys n b) an = some (co, an')) : ∃ b', visit res b an = some (b', an') ∧
      co = .loop ys n b' := by
  simp only [visit] at h
  split at h
  · cases h1 : visit res b an with
    | none => simp [h1] at h
    | some q =>
      simp [h1] at h
      exact ⟨q.1, by rw [← h.2], h.1.symm⟩
  · cases h

theorem visit_ret {res : Option Var} {an an' : An} {co : Code}
    (h : visit res .ret an = some (co, an')) : checkTargets res an = some an' ∧ co = .ret := by
  simp only [visit] at h
  cases h1 : checkTargets res an with
  | none => simp [h1] at h
  | some a =>
    simp [h1] at h
    exact ⟨by rw [← h.2], h.1.symm⟩

theorem visit_grows (res : Option Var) : ∀ (st : Stmt) {an an' : An} {co : Code},
    visit res st an = some (co, an') → Grows (!st.returns) an an'
  | .skip, an, an', co, h => by simp [visit] at h; rw [← h.2]; exact Grows.refl _ _
  | .fresh .., an, an', co, h => (visitFresh_grows h).weaken fun _ => rfl
  | .bind .., an, an', co, h => (visitBind_grows h).weaken fun _ => rfl
  | .store .., an, an', co, h => by
    simp only [visit] at h
    split at h
    · cases h; exact Grows.refl _ _
    · cases h
  | .print .., an, an', co, h => by
    simp only [visit] at h
    split at h
    · cases h; exact Grows.refl _ _
    · cases h
  | .del .., an, an', co, h => by
    simp only [visit] at h
    split at h
    · cases h; exact Grows.refl _ _
    · cases h
  | .ret, an, an', co, h => by
    rw [checkTargets_eq (visit_ret h).1]
    exact ⟨fun _ _ h => h, fun _ h => h, fun h => by simp [Stmt.returns] at h⟩
  | .seq a b, an, an', co, h => by
    obtain ⟨a', an1, b', h1, h2, _⟩ := visit_seq h
    exact ((visit_grows res a h1).trans (visit_grows res b h2)).weaken (by simp [Stmt.returns])
  | .ite ys c a b, an, an', co, h => by
    obtain ⟨a', an1, b', h1, h2, _⟩ := visit_ite h
    exact ((visit_grows res a h1).trans (visit_grows res b h2)).weaken (by simp [Stmt.returns])
  | .loop ys n b, an, an', co, h => by
    obtain ⟨b', h1, _⟩ := visit_loop h
    exact visit_grows res b h1

/-! ## What holds of the analysis -/

/-- `S`: the shared variables, `fr`: those that get arrays. -/
structure WA (args S fr : List Var) (after : Bool) (an : An) : Prop where
  tgt : ∀ t, t ∈ an.tgt → t ∈ S ∧ an.kind t ≠ none ∧ (after = false → an.pointed t = true)
  heap : ∀ v, an.kind v = some .heap → v ∈ fr
  arg : ∀ v, an.kind v = some .arg ↔ v ∈ args

variable {args S fr : List Var} {K : Var → Option Kind}

theorem indicate_wa {an an' : An} {p y : Var} {after : Bool} (h : indicate an p y = some an') (hy : y ∈ S)
    (w : WA args S fr after an) : WA args S fr after an' := by
  have hg := indicate_grows h
  obtain ⟨hk, h⟩ := indicate_cases h
  refine ⟨?_, by rw [hk]; exact w.heap, by rw [hk]; exact w.arg⟩
  intro t ht
  have old : t ∈ an.tgt → t ∈ S ∧ an'.kind t ≠ none ∧ (after = false → an'.pointed t = true) := fun ht =>
    ⟨(w.tgt t ht).1, by rw [hk]; exact (w.tgt t ht).2.1, fun ha => hg.pointed rfl t ((w.tgt t ht).2.2 ha)⟩
  rcases h with ⟨_, rfl⟩ | ⟨_, h, _⟩ | ⟨_, h2, h, h3⟩
  · exact old ht
  · rw [h] at ht; exact old ht
  · rw [h] at ht
    rcases List.mem_cons.1 ht with rfl | ht
    · exact ⟨hy, by rw [hk]; exact h2, fun _ => has_pointed (p := p) (by
        rw [h3]; exact has_extend_new _ _ _ _ (List.mem_cons_self ..))⟩
    · exact old ht

theorem setKind_wa {an : An} {x : Var} {k : Kind} {after : Bool} (hx : an.kind x = none) (hk : k ≠ .arg)
    (hf : k = .heap → x ∈ fr) (w : WA args S fr after an) :
    WA args S fr after { an with kind := setEnv an.kind x (some k) } := by
  refine ⟨fun t ht => ?_, fun v hv => ?_, fun v => ?_⟩
  · obtain ⟨h1, h2, h3⟩ := w.tgt t ht
    exact ⟨h1, by
      show setEnv an.kind x (some k) t ≠ none
      have : t ≠ x := by rintro rfl; exact h2 hx
      rw [setEnv_ne this]; exact h2, h3⟩
  · have hv' : setEnv an.kind x (some k) v = some .heap := hv
    by_cases e : v = x
    · rw [e, setEnv_self] at hv'
      cases hv'
      rw [e]; exact hf rfl
    · rw [setEnv_ne e] at hv'; exact w.heap v hv'
  · show setEnv an.kind x (some k) v = some .arg ↔ _
    by_cases e : v = x
    · rw [e, setEnv_self]
      have h1 : x ∉ args := fun ha => by rw [(w.arg x).2 ha] at hx; cases hx
      constructor
      · intro h; cases h; exact (hk rfl).elim
      · intro h; exact (h1 h).elim
    · rw [setEnv_ne e]; exact w.arg v

theorem WA.mono {an : An} {a b : Bool} (w : WA args S fr a an) (h : b = false → a = false) :
    WA args S fr b an :=
  ⟨fun t ht => ⟨(w.tgt t ht).1, (w.tgt t ht).2.1, fun hb => (w.tgt t ht).2.2 (h hb)⟩, w.heap, w.arg⟩

theorem visit_wa (res : Option Var) : ∀ (st : Stmt) {an an' : An} {co : Code} {after : Bool},
    visit res st an = some (co, an') → (∀ y ∈ st.sources, y ∈ S) → (∀ x ∈ st.owners, x ∈ fr) →
    WA args S fr after an → WA args S fr (after || st.returns) an'
  | .skip, an, an', co, after, h, _, _, w => by simp [visit] at h; rw [← h.2]; simpa [Stmt.returns] using w
  | .fresh x ys f same, an, an', co, after, h, _, ho, w => by
    simp only [Stmt.returns, Bool.or_false]
    rcases visitFresh_cases h with ⟨h1, _, _, rfl⟩ | ⟨_, _, _, rfl⟩ | ⟨_, rfl⟩
    · exact setKind_wa h1 (by simp) (fun _ => ho x (by simp [Stmt.owners])) w
    · exact w
    · exact w
  | .bind p y idx, an, an', co, after, h, hs, _, w => by
    simp only [Stmt.returns, Bool.or_false]
    have hy : y ∈ S := hs y (by simp [Stmt.sources])
    rcases visitBind_cases h with ⟨h1, _, h2⟩ | ⟨_, _, h2⟩ | ⟨_, _, _, _, rfl⟩
    · exact indicate_wa h2 hy (setKind_wa h1 (by simp) (fun h => by cases h) w)
    · exact indicate_wa h2 hy w
    · exact w
  | .store .., an, an', co, after, h, _, _, w => by
    simp only [visit] at h
    split at h
    · cases h; simpa [Stmt.returns] using w
    · cases h
  | .print .., an, an', co, after, h, _, _, w => by
    simp only [visit] at h
    split at h
    · cases h; simpa [Stmt.returns] using w
    · cases h
  | .del .., an, an', co, after, h, _, _, w => by
    simp only [visit] at h
    split at h
    · cases h; simpa [Stmt.returns] using w
    · cases h
  | .ret, an, an', co, after, h, _, _, w => by
    rw [checkTargets_eq (visit_ret h).1]
    exact ⟨fun t ht => ⟨(w.tgt t ht).1, (w.tgt t ht).2.1, fun h => by simp [Stmt.returns] at h⟩, w.heap, w.arg⟩
  | .seq a b, an, an', co, after, h, hs, ho, w => by
    obtain ⟨a', an1, b', h1, h2, _⟩ := visit_seq h
    simp only [Stmt.sources, Stmt.owners, List.mem_append] at hs ho
    have := visit_wa res b h2 (fun y hy => hs y (Or.inr hy)) (fun y hy => ho y (Or.inr hy))
      (visit_wa res a h1 (fun y hy => hs y (Or.inl hy)) (fun y hy => ho y (Or.inl hy)) w)
    simpa [Stmt.returns, Bool.or_assoc] using this
  | .ite ys c a b, an, an', co, after, h, hs, ho, w => by
    obtain ⟨a', an1, b', h1, h2, _⟩ := visit_ite h
    simp only [Stmt.sources, Stmt.owners, List.mem_append] at hs ho
    have := visit_wa res b h2 (fun y hy => hs y (Or.inr hy)) (fun y hy => ho y (Or.inr hy))
      (visit_wa res a h1 (fun y hy => hs y (Or.inl hy)) (fun y hy => ho y (Or.inl hy)) w)
    simpa [Stmt.returns, Bool.or_assoc] using this
  | .loop ys n b, an, an', co, after, h, hs, ho, w => by
    obtain ⟨b', h1, _⟩ := visit_loop h
    exact visit_wa res b h1 hs ho w

/-- In accepted programs without the excluded cases, assigned variables are not turned into copies. -/
theorem not_copy {an : An} {p y : Var} {idx : Option (List Nat)} {after : Bool}
    (hc : Clean args S fr after (.bind p y idx)) (w : WA args S fr after an)
    (h : an.kind p ≠ none ∧ an.kind p ≠ some .alias ∧ p ∈ an.tgt ∧ an.pointed p = false) : False := by
  obtain ⟨h1, h2, h3, h4⟩ := h
  obtain ⟨g1, _, g3⟩ := w.tgt p h3
  cases ha : after with
  | false => rw [g3 ha] at h4; cases h4
  | true =>
    refine hc ha ⟨g1, ?_⟩
    cases hk : an.kind p with
    | none => exact (h1 hk).elim
    | some k =>
      cases k with
      | alias => exact (h2 hk).elim
      | heap => exact Or.inl (w.heap p hk)
      | arg => exact Or.inr ((w.arg p).1 hk)

/-- Sources are recorded. -/
theorem visit_sources (res : Option Var) : ∀ (st : Stmt) {an an' : An} {co : Code} {after : Bool},
    visit res st an = some (co, an') → (∀ y ∈ st.sources, y ∈ S) → (∀ x ∈ st.owners, x ∈ fr) →
    Clean args S fr after st → WA args S fr after an → (∀ v k, an'.kind v = some k → K v = some k) →
    ∀ y ∈ st.sources, K y ≠ some .alias → y ∈ an'.tgt
  | .skip, _, _, _, _, _, _, _, _, _, _, y, hy, _ => by simp [Stmt.sources] at hy
  | .fresh .., _, _, _, _, _, _, _, _, _, _, y, hy, _ => by simp [Stmt.sources] at hy
  | .store .., _, _, _, _, _, _, _, _, _, _, y, hy, _ => by simp [Stmt.sources] at hy
  | .print .., _, _, _, _, _, _, _, _, _, _, y, hy, _ => by simp [Stmt.sources] at hy
  | .del .., _, _, _, _, _, _, _, _, _, _, y, hy, _ => by simp [Stmt.sources] at hy
  | .ret, _, _, _, _, _, _, _, _, _, _, y, hy, _ => by simp [Stmt.sources] at hy
  | .bind p y idx, an, an', co, after, h, hs, ho, hc, w, hK, z, hz, hza => by
    simp only [Stmt.sources, List.mem_singleton] at hz
    subst hz
    have main : ∀ {an1 : An}, an1.kind p = some .alias → indicate an1 p z = some an' → z ∈ an'.tgt := by
      intro an1 hp hi
      obtain ⟨hk, hi⟩ := indicate_cases hi
      rcases hi with ⟨rfl, _⟩ | ⟨h1, _⟩ | ⟨_, _, h1, _⟩
      · exact (hza (hK _ _ (by rw [hk]; exact hp))).elim
      · exact (hza (hK _ _ (by rw [hk]; exact h1))).elim
      · rw [h1]; exact List.mem_cons_self ..
    rcases visitBind_cases h with ⟨_, _, h2⟩ | ⟨hp, _, h2⟩ | ⟨h1, h2, h3, h4, _⟩
    · exact main (setEnv_self _ _ _) h2
    · exact main hp h2
    · exact (not_copy hc w ⟨h1, h2, h3, h4⟩).elim
  | .seq a b, an, an', co, after, h, hs, ho, hc, w, hK, z, hz, hza => by
    obtain ⟨a', an1, b', h1, h2, _⟩ := visit_seq h
    simp only [Stmt.sources, Stmt.owners, List.mem_append] at hs ho hz
    have g2 := visit_grows res b h2
    have w1 := visit_wa (S := S) (fr := fr) res a h1 (fun y hy => hs y (Or.inl hy))
      (fun y hy => ho y (Or.inl hy)) w
    rcases hz with hz | hz
    · exact g2.tgt z (visit_sources res a h1 (fun y hy => hs y (Or.inl hy)) (fun y hy => ho y (Or.inl hy))
        hc.1 w (fun v k hv => hK v k (g2.kind v k hv)) z hz hza)
    · exact visit_sources res b h2 (fun y hy => hs y (Or.inr hy)) (fun y hy => ho y (Or.inr hy))
        hc.2 w1 hK z hz hza
  | .ite ys c a b, an, an', co, after, h, hs, ho, hc, w, hK, z, hz, hza => by
    obtain ⟨a', an1, b', h1, h2, _⟩ := visit_ite h
    simp only [Stmt.sources, Stmt.owners, List.mem_append] at hs ho hz
    have g2 := visit_grows res b h2
    have w1 := visit_wa (S := S) (fr := fr) res a h1 (fun y hy => hs y (Or.inl hy))
      (fun y hy => ho y (Or.inl hy)) w
    rcases hz with hz | hz
    · exact g2.tgt z (visit_sources res a h1 (fun y hy => hs y (Or.inl hy)) (fun y hy => ho y (Or.inl hy))
        hc.1 w (fun v k hv => hK v k (g2.kind v k hv)) z hz hza)
    · exact visit_sources res b h2 (fun y hy => hs y (Or.inr hy)) (fun y hy => ho y (Or.inr hy))
        hc.2 w1 hK z hz hza
  | .loop ys n b, an, an', co, after, h, hs, ho, hc, w, hK, z, hz, hza => by
    obtain ⟨b', h1, _⟩ := visit_loop h
    exact visit_sources res b h1 hs ho hc.1 w hK z hz hza

/-! ## Accepted programs are safe -/

/-- The relation is known to the analysis, except for `B`. -/
def Cov (S : List Var) (after : Bool) (B : Var → Prop) (an : An) (R : Rel) : Prop :=
  ∀ p t, R p t → t ∈ S ∧ (B t ∨ (t ∈ an.tgt ∧ (after = false → an.pointed t = true)))

theorem Cov.grows {after r : Bool} {B : Var → Prop} {an an' : An} {R : Rel} (h : Cov S after B an R)
    (g : Grows (!r) an an') : Cov S (after || r) B an' R := fun p t hr => by
  obtain ⟨h1, h2⟩ := h p t hr
  refine ⟨h1, h2.imp id fun h2 => ⟨g.tgt t h2.1, fun ha => ?_⟩⟩
  simp only [Bool.or_eq_false_iff] at ha
  exact g.pointed (by simp [ha.2]) t (h2.2 ha.1)

/-- The new relation for `p = y`. -/
def addBind (K : Var → Option Kind) (R : Rel) (p y : Var) : Rel := fun q t =>
  R q t ∨ (q = p ∧ ((K y ≠ some .alias ∧ t = y) ∨ (K y = some .alias ∧ R y t)))

theorem visit_safe (res : Option Var) : ∀ (st : Stmt) {an an' : An} {co : Code} {after : Bool}
    {B : Var → Prop} {R : Rel},
    visit res st an = some (co, an') → (∀ y ∈ st.sources, y ∈ S) → (∀ x ∈ st.owners, x ∈ fr) →
    Clean args S fr after st → WA args S fr after an → (∀ v k, an'.kind v = some k → K v = some k) →
    (∀ x ∈ st.owners, ¬ B x) → Cov S after B an R →
    ∃ R', Safe K st co R R' ∧ Cov S (after || st.returns) B an' R' ∧
      ∀ p t, R' p t → (∃ q, R q t) ∨ (t ∈ st.sources ∧ K t ≠ some .alias)
  | .skip, an, an', co, after, B, R, h, _, _, _, _, _, _, hv => by
    have hg := visit_grows res _ h
    simp [visit] at h
    rw [← h.1]
    exact ⟨R, .skip (Sub.refl R), hv.grows hg, fun p t h => Or.inl ⟨p, h⟩⟩
  | .fresh x ys f same, an, an', co, after, B, R, h, _, ho, hc, w, hK, hB, hv => by
    have hg := visit_grows res _ h
    obtain ⟨c1, c2, c3⟩ := hc
    have hBx : ¬ B x := hB x (by simp [Stmt.owners])
    have hv' := hv.grows hg
    rcases visitFresh_cases h with ⟨h1, hxy, rfl, rfl⟩ | ⟨h1, rfl, h3, rfl⟩ | ⟨h1, _⟩
    · refine ⟨R, .fresh (hK _ _ (setEnv_self _ _ _)) (fun p hp => ?_) (fun _ => hxy) (fun h => by cases h)
        (Sub.refl R), hv', fun p t h => Or.inl ⟨p, h⟩⟩
      rcases (hv p x hp).2 with hb | ⟨ht, _⟩
      · exact hBx hb
      · exact (w.tgt x ht).2.1 h1
    · refine ⟨R, .fresh (hK _ _ h1) (fun p hp => ?_) c2 (fun h => h)
        (Sub.refl R), hv', fun p t h => Or.inl ⟨p, h⟩⟩
      rcases (hv p x hp).2 with hb | ⟨ht, hpt⟩
      · exact hBx hb
      · cases ha : after with
        | true => exact c3 ha (w.tgt x ht).1
        | false => rw [h3 ht] at hpt; cases hpt ha
    · exact (c1 ((w.arg x).1 h1)).elim
  | .bind p y idx, an, an', co, after, B, R, h, hs, ho, hc, w, hK, hB, hv => by
    have hg := visitBind_grows h
    have hy : y ∈ S := hs y (by simp [Stmt.sources])
    have htgt : K y ≠ some .alias → y ∈ an'.tgt := fun hya =>
      visit_sources (args := args) (S := S) (fr := fr) res (.bind p y idx) h hs ho hc w hK y
        (by simp [Stmt.sources]) hya
    have w' := visit_wa (S := S) (fr := fr) res (.bind p y idx) h hs ho w
    have main : K p = some .alias → ∃ R', Safe K (.bind p y idx) (.bind p y idx) R R' ∧
        Cov S (after || (Stmt.bind p y idx).returns) B an' R' ∧
        ∀ q t, R' q t → (∃ q, R q t) ∨ (t ∈ (Stmt.bind p y idx).sources ∧ K t ≠ some .alias) := by
      intro hp
      refine ⟨addBind K R p y, .bind hp (fun h => Or.inr ⟨rfl, Or.inl ⟨h, rfl⟩⟩)
        (fun h t ht => Or.inr ⟨rfl, Or.inr ⟨h, ht⟩⟩) (fun q t h => Or.inl h), ?_, ?_⟩
      · intro q t hr
        have hv' := hv.grows (r := false) hg
        rcases hr with hr | ⟨rfl, ⟨h1, rfl⟩ | ⟨h1, hr⟩⟩
        · exact hv' q t hr
        · exact ⟨hy, Or.inr ⟨htgt h1, (w'.tgt t (htgt h1)).2.2⟩⟩
        · exact hv' y t hr
      · intro q t hr
        rcases hr with hr | ⟨rfl, ⟨h1, rfl⟩ | ⟨h1, hr⟩⟩
        · exact Or.inl ⟨q, hr⟩
        · exact Or.inr ⟨by simp [Stmt.sources], h1⟩
        · exact Or.inl ⟨y, hr⟩
    rcases visitBind_cases h with ⟨h1, rfl, h2⟩ | ⟨h1, rfl, h2⟩ | ⟨h1, h2, h3, h4, _⟩
    · exact main (hK _ _ ((indicate_grows h2).kind _ _ (setEnv_self _ _ _)))
    · by_cases hpy : p = y ∧ idx = none
      · rw [if_pos hpy]
        obtain ⟨rfl, rfl⟩ := hpy
        exact ⟨R, .self (Sub.refl R), hv.grows (r := false) hg, fun q t h => Or.inl ⟨q, h⟩⟩
      · rw [if_neg hpy]
        exact main (hK _ _ (hg.kind _ _ h1))
    · exact (not_copy hc w ⟨h1, h2, h3, h4⟩).elim
  | .store x ys f, an, an', co, after, B, R, h, _, _, _, _, _, _, hv => by
    have hg := visit_grows res _ h
    simp only [visit] at h
    split at h
    · cases h
      exact ⟨R, .store (Sub.refl R), hv.grows hg, fun p t h => Or.inl ⟨p, h⟩⟩
    · cases h
  | .print x, an, an', co, after, B, R, h, _, _, _, _, _, _, hv => by
    have hg := visit_grows res _ h
    simp only [visit] at h
    split at h
    · cases h
      exact ⟨R, .print (Sub.refl R), hv.grows hg, fun p t h => Or.inl ⟨p, h⟩⟩
    · cases h
  | .del x, an, an', co, after, B, R, h, _, _, hc, w, hK, _, hv => by
    have hg := visit_grows res _ h
    simp only [visit] at h
    split at h
    · rename_i hkn
      cases h
      refine ⟨R, ?_, hv.grows hg, fun p t h => Or.inl ⟨p, h⟩⟩
      cases hk : an.kind x with
      | none => simp [An.known, hk] at hkn
      | some k =>
        cases k with
        | arg => exact (hc.1 ((w.arg x).1 hk)).elim
        | alias => exact .forget (hK _ _ hk) (Sub.refl R)
        | heap => exact .del (hK _ _ hk) (fun p hp => hc.2 (w.heap x hk) (hv p x hp).1) (Sub.refl R)
    · cases h
  | .ret, an, an', co, after, B, R, h, _, _, _, _, _, _, hv => by
    have hg := visit_grows res _ h
    rw [(visit_ret h).2]
    exact ⟨R, .ret (Sub.refl R), hv.grows hg, fun p t h => Or.inl ⟨p, h⟩⟩
  | .seq a b, an, an', co, after, B, R, h, hs, ho, hc, w, hK, hB, hv => by
    obtain ⟨a', an1, b', h1, h2, rfl⟩ := visit_seq h
    simp only [Stmt.sources, Stmt.owners, List.mem_append] at hs ho hB
    have g2 := visit_grows res b h2
    have w1 := visit_wa (S := S) (fr := fr) res a h1 (fun y hy => hs y (Or.inl hy))
      (fun y hy => ho y (Or.inl hy)) w
    obtain ⟨R1, s1, v1, t1⟩ := visit_safe res a h1 (fun y hy => hs y (Or.inl hy)) (fun y hy => ho y (Or.inl hy))
      hc.1 w (fun v k hv => hK v k (g2.kind v k hv)) (fun y hy => hB y (Or.inl hy)) hv
    obtain ⟨R2, s2, v2, t2⟩ := visit_safe res b h2 (fun y hy => hs y (Or.inr hy)) (fun y hy => ho y (Or.inr hy))
      hc.2 w1 hK (fun y hy => hB y (Or.inr hy)) v1
    refine ⟨R2, .seq s1 s2, by simpa [Stmt.returns, Bool.or_assoc] using v2, fun p t h => ?_⟩
    simp only [Stmt.sources, List.mem_append]
    rcases t2 p t h with ⟨q, h⟩ | ⟨h, h'⟩
    · rcases t1 q t h with h | ⟨h, h'⟩
      · exact Or.inl h
      · exact Or.inr ⟨Or.inl h, h'⟩
    · exact Or.inr ⟨Or.inr h, h'⟩
  | .ite ys c a b, an, an', co, after, B, R, h, hs, ho, hc, w, hK, hB, hv => by
    obtain ⟨a', an1, b', h1, h2, rfl⟩ := visit_ite h
    simp only [Stmt.sources, Stmt.owners, List.mem_append] at hs ho hB
    have g2 := visit_grows res b h2
    have w1 := visit_wa (S := S) (fr := fr) res a h1 (fun y hy => hs y (Or.inl hy))
      (fun y hy => ho y (Or.inl hy)) w
    obtain ⟨R1, s1, v1, t1⟩ := visit_safe res a h1 (fun y hy => hs y (Or.inl hy)) (fun y hy => ho y (Or.inl hy))
      hc.1 w (fun v k hv => hK v k (g2.kind v k hv)) (fun y hy => hB y (Or.inl hy)) hv
    obtain ⟨R2, s2, v2, t2⟩ := visit_safe res b h2 (fun y hy => hs y (Or.inr hy)) (fun y hy => ho y (Or.inr hy))
      hc.2 w1 hK (fun y hy => hB y (Or.inr hy)) v1
    refine ⟨R2, .ite s1 s2, by simpa [Stmt.returns, Bool.or_assoc] using v2, fun p t h => ?_⟩
    simp only [Stmt.sources, List.mem_append]
    rcases t2 p t h with ⟨q, h⟩ | ⟨h, h'⟩
    · rcases t1 q t h with h | ⟨h, h'⟩
      · exact Or.inl h
      · exact Or.inr ⟨Or.inl h, h'⟩
    · exact Or.inr ⟨Or.inr h, h'⟩
  | .loop ys n b, an, an', co, after, B, R, h, hs, ho, hc, w, hK, hB, hv => by
    obtain ⟨b', h1, rfl⟩ := visit_loop h
    have g := visit_grows res b h1
    have w' := visit_wa (S := S) (fr := fr) res b h1 hs ho w
    obtain ⟨R1', s1, v1, t1⟩ := visit_safe (B := fun t => B t ∨ (t ∈ b.sources ∧ K t ≠ some .alias))
      (R := fun _ t => (∃ q, R q t) ∨ (t ∈ b.sources ∧ K t ≠ some .alias)) res b h1 hs ho hc.1 w hK
      (fun x hx hb => hb.elim (hB x hx) (fun hb => hc.2 x hx hb.1))
      (fun p t hr => by
        rcases hr with ⟨q, hr⟩ | hr
        · obtain ⟨h1, h2⟩ := hv q t hr
          exact ⟨h1, h2.imp Or.inl id⟩
        · exact ⟨hs t hr.1, Or.inl (Or.inr hr)⟩)
    refine ⟨_, .loop (fun p t h => Or.inl ⟨p, h⟩) (s1.mono fun p t h => ?_) (Sub.refl _), ?_, fun p t h => h⟩
    · rcases t1 p t h with ⟨_, h⟩ | h
      · exact h
      · exact Or.inr h
    · intro p t hr
      rcases hr with ⟨q, hr⟩ | hr
      · exact hv.grows g q t hr
      · have ht := visit_sources (args := args) (S := S) (fr := fr) res b h1 hs ho hc.1 w hK t hr.1 hr.2
        exact ⟨hs t hr.1, Or.inr ⟨ht, (w'.tgt t ht).2.2⟩⟩

end Verif.Aliases.Lemmas
