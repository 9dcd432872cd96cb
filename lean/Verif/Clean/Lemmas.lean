import Verif.Clean.Model

namespace Verif.Clean

open Verif.Clean.Spec

/-! ## Trees -/

theorem same_refl : ∀ n : Node, Same n n
  | .file _ _ => ⟨rfl, rfl⟩
  | .other => trivial
  | .link _ => rfl
  | .dir _ => List.Sublist.refl _

theorem same_trans {a b c : Node} (h : Same a b) (g : Same b c) : Same a c := by
  cases a <;> cases b <;> cases c <;> simp only [Same] at * <;> try contradiction
  · exact ⟨h.1.trans g.1, h.2.trans g.2⟩
  · exact h.trans g
  · exact h.trans g

theorem look_append : ∀ (p q : Path) (r : Node),
    look r (p ++ q) = (look r p).bind fun n => look n q
  | [], q, r => by simp [look]
  | c :: cs, q, .dir es => by
    simp only [List.cons_append, look]
    cases entry es c with
    | none => rfl
    | some n => exact look_append cs q n
  | c :: cs, q, .file _ _ => rfl
  | c :: cs, q, .other => rfl
  | c :: cs, q, .link _ => rfl

theorem entry_filter_ne (es : List (Name × Node)) (f g : Name) (h : g ≠ f) :
    entry (es.filter fun e => !decide (e.1 = f)) g = entry es g := by
  induction es with
  | nil => rfl
  | cons e es ih =>
    obtain ⟨k, n⟩ := e
    by_cases hk : k = f
    · subst hk
      simp only [List.filter_cons, decide_true, Bool.not_true, Bool.false_eq_true, if_false, ih, entry]
      rw [if_neg (fun hh => h hh.symm)]
    · simp only [List.filter_cons, hk, decide_false, Bool.not_false, if_true, entry, ih]

theorem entry_filter_eq (es : List (Name × Node)) (f : Name) :
    entry (es.filter fun e => !decide (e.1 = f)) f = none := by
  induction es with
  | nil => rfl
  | cons e es ih =>
    obtain ⟨k, n⟩ := e
    by_cases hk : k = f
    · simp only [List.filter_cons, hk, decide_true, Bool.not_true, Bool.false_eq_true, if_false, ih]
    · simp only [List.filter_cons, hk, decide_false, Bool.not_false, if_true, entry, ih, if_false]

theorem entry_map (es : List (Name × Node)) (c g : Name) (u : Node → Node) :
    entry (es.map fun e => if e.1 = c then (e.1, u e.2) else e) g =
      if g = c then (entry es g).map u else entry es g := by
  induction es with
  | nil => simp [entry]
  | cons e es ih =>
    obtain ⟨k, n⟩ := e
    simp only [List.map_cons]
    by_cases hk : k = c <;> by_cases hg : k = g
    · subst hk; subst hg; simp [entry]
    · subst hk
      have : g ≠ k := fun h => hg h.symm
      simp only [if_true, entry, hg, if_false, ih, this]
    · subst hg; simp [hk, entry]
    · simp only [hk, if_false, entry, hg, ih]

theorem map_names (es : List (Name × Node)) (c : Name) (u : Node → Node) :
    (es.map fun e => if e.1 = c then (e.1, u e.2) else e).map Prod.fst = es.map Prod.fst := by
  induction es with
  | nil => rfl
  | cons e es ih =>
    simp only [List.map_cons, ih]
    congr 1
    by_cases h : e.1 = c <;> simp [h]

/-- What was there is there or is below the erased entry. -/
theorem look_erase_keep : ∀ (d : Path) (f : Name) (r : Node) (q : Path) (n : Node),
    look r q = some n → ¬(d ++ [f]) <+: q → ∃ n', look (erase r d f) q = some n' ∧ Same n' n
  | d, f, .file x y, q, n, h, _ => by
    cases d <;> exact ⟨n, by simpa [erase] using h, same_refl n⟩
  | d, f, .other, q, n, h, _ => by
    cases d <;> exact ⟨n, by simpa [erase] using h, same_refl n⟩
  | d, f, .link t, q, n, h, _ => by
    cases d <;> exact ⟨n, by simpa [erase] using h, same_refl n⟩
  | [], f, .dir es, q, n, h, hp => by
    cases q with
    | nil =>
      simp only [look, Option.some.injEq] at h
      subst h
      exact ⟨_, rfl, (List.filter_sublist.map _)⟩
    | cons g q =>
      have hg : g ≠ f := by
        intro hh; subst hh
        exact hp ⟨q, rfl⟩
      refine ⟨n, ?_, same_refl n⟩
      simp only [erase, look, entry_filter_ne es f g hg]
      simpa only [look] using h
  | c :: d, f, .dir es, q, n, h, hp => by
    cases q with
    | nil =>
      simp only [look, Option.some.injEq] at h
      subst h
      exact ⟨_, rfl, by
        show List.Sublist _ _
        rw [map_names es c (fun m => erase m d f)]
        exact List.Sublist.refl _⟩
    | cons g q =>
      simp only [look] at h
      simp only [erase, look]
      rw [entry_map es c g (fun m => erase m d f)]
      by_cases hg : g = c
      · subst hg
        simp only [if_true]
        cases he : entry es g with
        | none => simp [he] at h
        | some m =>
          simp only [he] at h
          have hp' : ¬(d ++ [f]) <+: q := by
            rintro ⟨t, ht⟩
            exact hp ⟨t, by simp [← ht]⟩
          exact look_erase_keep d f m q n h hp'
      · simp only [hg, if_false]
        exact ⟨n, h, same_refl n⟩

/-- Nothing is at or below the erased entry. -/
theorem look_erase_gone : ∀ (d : Path) (f : Name) (r : Node) (q : Path),
    look (erase r d f) (d ++ f :: q) = none
  | [], f, .file _ _, q => rfl
  | _ :: _, f, .file _ _, q => rfl
  | [], f, .other, q => rfl
  | _ :: _, f, .other, q => rfl
  | [], f, .link _, q => rfl
  | _ :: _, f, .link _, q => rfl
  | [], f, .dir es, q => by simp only [List.nil_append, erase, look, entry_filter_eq]
  | c :: d, f, .dir es, q => by
    simp only [List.cons_append, erase, look]
    rw [entry_map es c c (fun m => erase m d f), if_pos rfl]
    cases entry es c with
    | none => rfl
    | some m => exact look_erase_gone d f m q

/-- Nothing appears. -/
theorem look_erase_old : ∀ (d : Path) (f : Name) (r : Node) (q : Path) (n' : Node),
    look (erase r d f) q = some n' → ∃ n, look r q = some n ∧ Same n' n
  | d, f, .file x y, q, n, h => by
    cases d <;> exact ⟨n, by simpa [erase] using h, same_refl n⟩
  | d, f, .other, q, n, h => by
    cases d <;> exact ⟨n, by simpa [erase] using h, same_refl n⟩
  | d, f, .link t, q, n, h => by
    cases d <;> exact ⟨n, by simpa [erase] using h, same_refl n⟩
  | [], f, .dir es, q, n', h => by
    cases q with
    | nil =>
      simp only [look, erase, Option.some.injEq] at h
      subst h
      exact ⟨_, rfl, (List.filter_sublist.map _)⟩
    | cons g q =>
      by_cases hg : g = f
      · subst hg
        simp only [erase, look, entry_filter_eq] at h
        contradiction
      · simp only [erase, look, entry_filter_ne es f g hg] at h
        exact ⟨n', by simpa only [look] using h, same_refl n'⟩
  | c :: d, f, .dir es, q, n', h => by
    cases q with
    | nil =>
      simp only [look, erase, Option.some.injEq] at h
      subst h
      exact ⟨_, rfl, by
        show List.Sublist _ _
        rw [map_names es c (fun m => erase m d f)]
        exact List.Sublist.refl _⟩
    | cons g q =>
      simp only [erase, look] at h
      rw [entry_map es c g (fun m => erase m d f)] at h
      by_cases hg : g = c
      · subst hg
        simp only [if_true] at h
        cases he : entry es g with
        | none => simp [he] at h
        | some m =>
          simp only [he, Option.map_some] at h
          obtain ⟨n, h1, h2⟩ := look_erase_old d f m q n' h
          exact ⟨n, by simp only [look, he]; exact h1, h2⟩
      · simp only [hg, if_false] at h
        exact ⟨n', by simpa only [look] using h, same_refl n'⟩

/-! ## Shrinking -/

/-- `r'` has lost entries of `r`. -/
def Shrink (r' r : Node) : Prop :=
  ∀ q n', look r' q = some n' → ∃ n, look r q = some n ∧ Same n' n

theorem shrink_refl (r : Node) : Shrink r r := fun _ n h => ⟨n, h, same_refl n⟩

theorem shrink_trans {a b c : Node} (h : Shrink a b) (g : Shrink b c) : Shrink a c := by
  intro q n hn
  obtain ⟨m, hm, s⟩ := h q n hn
  obtain ⟨k, hk, s'⟩ := g q m hm
  exact ⟨k, hk, same_trans s s'⟩

theorem shrink_erase (r : Node) (d : Path) (f : Name) : Shrink (erase r d f) r :=
  fun q n h => look_erase_old d f r q n h

theorem step_shrink {r' r : Node} (h : Shrink r' r) (m' m : Path → Option Path)
    (hm : ∀ p d, m' p = some d → m p = some d) :
    ∀ (todo done d : Path), step r' m' done todo = some d → step r m done todo = some d
  | [], done, d, hs => by simpa only [step] using hs
  | c :: cs, done, d, hs => by
    simp only [step] at hs ⊢
    cases hl : look r' (done ++ [c]) with
    | none => simp [hl] at hs
    | some n' =>
      obtain ⟨n, hn, s⟩ := h _ _ hl
      rw [hn]
      cases n' <;> cases n <;> simp only [Same] at s <;> simp only [hl] at hs ⊢ <;>
        first | exact step_shrink h m' m hm cs _ d hs | skip
      subst s
      exact hm _ _ hs

theorem walk_shrink {r' r : Node} (h : Shrink r' r) :
    ∀ (b : Nat) (p d : Path), walk r' b p = some d → walk r b p = some d
  | 0, p, d, hw => by simp [walk] at hw
  | b + 1, p, d, hw => by
    simp only [walk] at hw ⊢
    exact step_shrink h _ _ (walk_shrink h b) p [] d hw

theorem follow_shrink {r' r : Node} (h : Shrink r' r) (p : Path) (n' : Node)
    (hf : follow r' p = some n') : ∃ n, follow r p = some n ∧ Same n' n := by
  unfold follow at hf ⊢
  cases hw : walk r' limit p with
  | none => simp [hw] at hf
  | some d =>
    simp only [hw] at hf
    rw [walk_shrink h _ _ _ hw]
    exact h d n' hf

/-! ## Paths -/

/-- A path all of whose prefixes are no links. -/
theorem step_real (r : Node) (m : Path → Option Path) :
    ∀ (x done : Path), (∀ y, y <+: x → y ≠ [] → ∃ n, look r (done ++ y) = some n ∧ ∀ t, n ≠ .link t) →
      ∀ rest, step r m done (x ++ rest) = step r m (done ++ x) rest
  | [], done, _, rest => by simp
  | c :: cs, done, h, rest => by
    obtain ⟨n, hn, hl⟩ := h [c] ⟨cs, rfl⟩ (by simp)
    simp only [List.cons_append, step, hn]
    have := step_real r m cs (done ++ [c]) (fun y hy hne => by
      obtain ⟨n', h1, h2⟩ := h (c :: y) (by obtain ⟨t, ht⟩ := hy; exact ⟨t, by simp [ht]⟩) (by simp)
      exact ⟨n', by simpa using h1, h2⟩) rest
    cases n with
    | link t => exact absurd rfl (hl t)
    | file _ _ => simpa using this
    | other => simpa using this
    | dir _ => simpa using this

/-- The path and its prefixes are no links. -/
def Real (r : Node) (d : Path) : Prop :=
  ∀ y, y <+: d → y ≠ [] → ∃ n, look r y = some n ∧ ∀ t, n ≠ .link t

theorem step_isReal (r : Node) (m : Path → Option Path) (hm : ∀ p d, m p = some d → Real r d) :
    ∀ (x done d : Path), Real r done → step r m done x = some d → Real r d
  | [], done, d, hr, h => by simp only [step, Option.some.injEq] at h; exact h ▸ hr
  | c :: cs, done, d, hr, h => by
    simp only [step] at h
    have ext : ∀ n, look r (done ++ [c]) = some n → (∀ t, n ≠ .link t) → Real r (done ++ [c]) := by
      intro n hn hl y hy hne
      rcases List.prefix_concat_iff.1 hy with e | e
      · exact ⟨n, e ▸ hn, hl⟩
      · exact hr y e hne
    cases hl : look r (done ++ [c]) with
    | none => simp [hl] at h
    | some n =>
      cases n with
      | link t => simp only [hl] at h; exact hm _ _ h
      | file _ _ => simp only [hl] at h; exact step_isReal r m hm cs _ d (ext _ hl (by simp)) h
      | other => simp only [hl] at h; exact step_isReal r m hm cs _ d (ext _ hl (by simp)) h
      | dir _ => simp only [hl] at h; exact step_isReal r m hm cs _ d (ext _ hl (by simp)) h

theorem real_nil (r : Node) : Real r [] := by
  intro y hy hne
  exact absurd (List.prefix_nil.1 hy) hne

theorem walk_isReal (r : Node) : ∀ (b : Nat) (p d : Path), walk r b p = some d → Real r d
  | 0, _, _, h => by simp [walk] at h
  | b + 1, p, d, h => by
    simp only [walk] at h
    exact step_isReal r _ (walk_isReal r b) p [] d (real_nil r) h

theorem walk_real (r : Node) (b : Nat) (d rest : Path) (h : Real r d) :
    walk r (b + 1) (d ++ rest) = step r (walk r b) d rest := by
  have := step_real r (walk r b) d [] (fun y hy hne => by simpa using h y hy hne) rest
  simpa [walk] using this

/-- A path that can be walked to its end, one name more. -/
theorem step_snoc (r : Node) (m : Path → Option Path) (f : Name)
    (hm : ∀ p d n, m p = some d → look r (d ++ [f]) = some n → (∀ t, n ≠ .link t) →
      m (p ++ [f]) = some (d ++ [f])) :
    ∀ (x done d : Path) (n : Node), step r m done x = some d → look r (d ++ [f]) = some n →
      (∀ t, n ≠ .link t) → step r m done (x ++ [f]) = some (d ++ [f])
  | [], done, d, n, h, hn, hl => by
    simp only [step, Option.some.injEq] at h
    subst h
    simp only [List.nil_append, step, hn]
  | c :: cs, done, d, n, h, hn, hl => by
    simp only [List.cons_append, step] at h ⊢
    cases hk : look r (done ++ [c]) with
    | none => simp [hk] at h
    | some k =>
      cases k with
      | link t =>
        simp only [hk] at h ⊢
        have := hm _ _ n h hn hl
        simpa using this
      | file _ _ => simp only [hk] at h ⊢; exact step_snoc r m f hm cs _ d n h hn hl
      | other => simp only [hk] at h ⊢; exact step_snoc r m f hm cs _ d n h hn hl
      | dir _ => simp only [hk] at h ⊢; exact step_snoc r m f hm cs _ d n h hn hl

theorem walk_snoc (r : Node) (f : Name) : ∀ (b : Nat) (p d : Path) (n : Node), walk r b p = some d →
    look r (d ++ [f]) = some n → (∀ t, n ≠ .link t) → walk r b (p ++ [f]) = some (d ++ [f])
  | 0, _, _, _, h, _, _ => by simp [walk] at h
  | b + 1, p, d, n, h, hn, hl => by
    simp only [walk] at h ⊢
    exact step_snoc r _ f (walk_snoc r f b) p [] d n h hn hl

theorem step_mono (r : Node) (m m' : Path → Option Path) (hm : ∀ p d, m p = some d → m' p = some d) :
    ∀ (x done d : Path), step r m done x = some d → step r m' done x = some d
  | [], _, _, h => h
  | c :: cs, done, d, h => by
    simp only [step] at h ⊢
    cases hk : look r (done ++ [c]) with
    | none => simp [hk] at h
    | some k =>
      cases k <;> simp only [hk] at h ⊢ <;> first | exact step_mono r m m' hm cs _ d h | exact hm _ _ h

theorem walk_mono (r : Node) : ∀ (b : Nat) (p d : Path), walk r b p = some d → walk r (b + 1) p = some d
  | 0, _, _, h => by simp [walk] at h
  | b + 1, p, d, h => by
    simp only [walk] at h ⊢
    exact step_mono r _ _ (walk_mono r b) p [] d h

/-- The last name of a path is looked up in the folder that the rest stands for. -/
theorem step_last (r : Node) (m : Path → Option Path) (B : Nat) (f : Name)
    (hm' : ∀ p e, m p = some e → walk r B p = some e)
    (hm : ∀ p d e, m p = some d → m (p ++ [f]) = some e → walk r (B + 1) (d ++ [f]) = some e) :
    ∀ (x done d e : Path), Real r done → step r m done x = some d → step r m done (x ++ [f]) = some e →
      walk r (B + 1) (d ++ [f]) = some e
  | [], done, d, e, hr, h, he => by
    simp only [step, Option.some.injEq] at h
    subst h
    rw [walk_real r B done [f] hr]
    exact step_mono r m _ hm' _ _ _ he
  | c :: cs, done, d, e, hr, h, he => by
    simp only [List.cons_append, step] at h he
    have ext : ∀ n, look r (done ++ [c]) = some n → (∀ t, n ≠ .link t) → Real r (done ++ [c]) := by
      intro n hn hl y hy hne
      rcases List.prefix_concat_iff.1 hy with e | e
      · exact ⟨n, e ▸ hn, hl⟩
      · exact hr y e hne
    cases hk : look r (done ++ [c]) with
    | none => simp [hk] at h
    | some k =>
      cases k with
      | link t =>
        simp only [hk] at h he
        exact hm _ _ _ h (by simpa using he)
      | file _ _ =>
        simp only [hk] at h he
        exact step_last r m B f hm' hm cs _ d e (ext _ hk (by simp)) h he
      | other =>
        simp only [hk] at h he
        exact step_last r m B f hm' hm cs _ d e (ext _ hk (by simp)) h he
      | dir _ =>
        simp only [hk] at h he
        exact step_last r m B f hm' hm cs _ d e (ext _ hk (by simp)) h he

theorem walk_last (r : Node) (f : Name) : ∀ (b : Nat) (p d e : Path), walk r b p = some d →
    walk r b (p ++ [f]) = some e → walk r b (d ++ [f]) = some e
  | 0, _, _, _, h, _ => by simp [walk] at h
  | b + 1, p, d, e, h, he => by
    have h' := h
    have he' := he
    simp only [walk] at h' he'
    exact step_last r (walk r b) b f (fun _ _ hh => hh)
      (fun p d e h1 h2 => walk_mono r b _ _ (walk_last r f b p d e h1 h2)) p [] d e (real_nil r) h' he'

theorem follow_last (r : Node) (f : Name) (p d : Path) (n : Node) (h : walk r limit p = some d)
    (hf : follow r (p ++ [f]) = some n) : follow r (d ++ [f]) = some n := by
  unfold follow at hf ⊢
  cases hw : walk r limit (p ++ [f]) with
  | none => simp [hw] at hf
  | some e =>
    simp only [hw] at hf
    rw [walk_last r f limit p d e h hw]
    exact hf

/-! ## What a call does -/

theorem generated_iff (f : Name) : generated f = true ↔ Generated f := by
  simp [generated, Generated]

/-- A relation between file systems that every removal made by the call satisfies. -/
theorem loop_rel (R : Node → Node → Prop) (hr : ∀ r, R r r) (ht : ∀ a b c, R a b → R b c → R a c)
    (rec : Node → Path → Res) (o : Opts) (p : Path)
    (h : ∀ f r r', (one rec o p f r).after = some r' → R r r') :
    ∀ (fs : List Name) (r r' : Node), (loop rec o p fs r).after = some r' → R r r'
  | [], r, r', e => by
    simp only [loop, Res.after, Option.some.injEq] at e
    exact e ▸ hr r
  | f :: fs, r, r', e => by
    simp only [loop] at e
    have h1 := h f r
    cases ho : one rec o p f r with
    | ok r1 =>
      rw [ho] at e h1
      exact ht _ _ _ (h1 r1 rfl) (loop_rel R hr ht rec o p h fs r1 r' e)
    | fail r1 =>
      rw [ho] at e h1
      exact h1 r' e
    | fuel => simp [ho, Res.after] at e

/-- The same for the whole call: it is enough to look at the entries that are erased. -/
theorem clean_rel (R : Node → Node → Prop) (hr : ∀ r, R r r) (ht : ∀ a b c, R a b → R b c → R a c)
    (o : Opts)
    (h : ∀ (r : Node) (p d : Path) (f : Name) (n : Node), walk r limit p = some d →
      look r (d ++ [f]) = some n →
      (Generated f ∧ (∃ es, n = .dir es) ∨ ¬Generated f ∧ (∀ es, n ≠ .dir es) ∧
        (o.recursive = true → isfile r (p ++ [f]) = true) ∧ (dotPyccel <:+ f ∨ o.libs = true ∧ o.ext <:+ f ∨
          o.programs = true ∧ access r (p ++ [f]) = true)) → R r (erase r d f)) :
    ∀ (k : Nat) (r : Node) (p : Path) (r' : Node), (clean o k r p).after = some r' → R r r'
  | 0, r, p, r', e => by simp [clean, Res.after] at e
  | k + 1, r, p, r', e => by
    have hrem : ∀ f r r', ¬Generated f → (o.recursive = true → isfile r (p ++ [f]) = true) → (dotPyccel <:+ f ∨ o.libs = true ∧ o.ext <:+ f ∨
          o.programs = true ∧ access r (p ++ [f]) = true) → (remove r p f).after = some r' →
        R r r' := by
      intro f r r' hg hi hc e
      unfold remove at e
      cases hw : walk r limit p with
      | none => simp only [hw, Res.after, Option.some.injEq] at e; exact e ▸ hr r
      | some d =>
        simp only [hw] at e
        cases hl : look r (d ++ [f]) with
        | none => simp only [hl, Res.after, Option.some.injEq] at e; exact e ▸ hr r
        | some n =>
          have := h r p d f n hw hl
          cases n with
          | dir es => simp only [hl, Res.after, Option.some.injEq] at e; exact e ▸ hr r
          | file x y =>
            simp only [hl, Res.after, Option.some.injEq] at e
            exact e ▸ this (Or.inr ⟨hg, by simp, hi, hc⟩)
          | other =>
            simp only [hl, Res.after, Option.some.injEq] at e
            exact e ▸ this (Or.inr ⟨hg, by simp, hi, hc⟩)
          | link t =>
            simp only [hl, Res.after, Option.some.injEq] at e
            exact e ▸ this (Or.inr ⟨hg, by simp, hi, hc⟩)
    have hone : ∀ f r r', (one (clean o k) o p f r).after = some r' → R r r' := by
      intro f r r' e
      unfold one at e
      by_cases hg : generated f = true
      · rw [if_pos hg] at e
        simp only [Res.after, Option.some.injEq] at e
        subst e
        unfold rmtree
        cases hw : walk r limit p with
        | none => exact hr r
        | some d =>
          simp only
          cases hl : look r (d ++ [f]) with
          | none => exact hr r
          | some n =>
            have := h r p d f n hw hl
            cases n with
            | dir es => exact this (Or.inl ⟨(generated_iff f).1 hg, es, rfl⟩)
            | file x y => exact hr r
            | other => exact hr r
            | link t => exact hr r
      · have hG : ¬Generated f := fun hh => hg ((generated_iff f).2 hh)
        rw [if_neg hg] at e
        split at e
        · exact clean_rel R hr ht o h k r (p ++ [f]) r' e
        · rename_i hi
          have hi : o.recursive = true → isfile r (p ++ [f]) = true := by
            intro h1
            simpa [h1] using hi
          split at e
          · rename_i hs
            exact hrem f r r' hG hi (Or.inl (List.isSuffixOf_iff_suffix.1 hs)) e
          · split at e
            · rename_i hs
              simp only [Bool.and_eq_true] at hs
              exact hrem f r r' hG hi (Or.inr (Or.inl ⟨hs.1, List.isSuffixOf_iff_suffix.1 hs.2⟩)) e
            · split at e
              · rename_i hs
                simp only [Bool.and_eq_true] at hs
                exact hrem f r r' hG hi (Or.inr (Or.inr hs)) e
              · simp only [Res.after, Option.some.injEq] at e
                exact e ▸ hr r
    simp only [clean] at e
    cases hf : follow r p with
    | none => simp only [hf, Res.after, Option.some.injEq] at e; exact e ▸ hr r
    | some n =>
      cases n with
      | dir es =>
        simp only [hf] at e
        exact loop_rel R hr ht (clean o k) o p hone _ r r' e
      | file x y => simp only [hf, Res.after, Option.some.injEq] at e; exact e ▸ hr r
      | other => simp only [hf, Res.after, Option.some.injEq] at e; exact e ▸ hr r
      | link t => simp only [hf, Res.after, Option.some.injEq] at e; exact e ▸ hr r

theorem clean_shrink (o : Opts) (k : Nat) (r : Node) (p : Path) (r' : Node)
    (e : (clean o k r p).after = some r') : Shrink r' r :=
  clean_rel (fun a b => Shrink b a) shrink_refl (fun _ _ _ h g => shrink_trans g h) o
    (fun r _ d f _ _ _ _ => shrink_erase r d f) k r p r' e

theorem clean_one_shrink (o : Opts) (k : Nat) (r : Node) (p : Path) (f : Name) (r' : Node)
    (e : (one (clean o k) o p f r).after = some r') : Shrink r' r := by
  have hrem : (remove r p f).after = some r' → Shrink r' r := by
    intro e
    unfold remove at e
    split at e
    · simp only [Res.after, Option.some.injEq] at e; exact e ▸ shrink_refl r
    · split at e <;> simp only [Res.after, Option.some.injEq] at e <;> subst e <;>
        first | exact shrink_refl _ | exact shrink_erase _ _ _
  unfold one at e
  split at e
  · simp only [Res.after, Option.some.injEq] at e
    subst e
    unfold rmtree
    split
    · exact shrink_refl r
    · split <;> first | exact shrink_refl _ | exact shrink_erase _ _ _
  · split at e
    · exact clean_shrink o k r _ r' e
    · split at e
      · exact hrem e
      · split at e
        · exact hrem e
        · split at e
          · exact hrem e
          · simp only [Res.after, Option.some.injEq] at e
            exact e ▸ shrink_refl r

/-- What is asked for later was asked for at the start. -/
theorem asked_shrink {o : Opts} {r' r : Node} (h : Shrink r' r) {q : Path} (ha : Asked o r' q) :
    Asked o r q := by
  rcases ha with ha | ⟨d, f, hq, ha | ha | ⟨hp, data, hf⟩⟩
  · exact Or.inl ha
  · exact Or.inr ⟨d, f, hq, Or.inl ha⟩
  · exact Or.inr ⟨d, f, hq, Or.inr (Or.inl ha)⟩
  · obtain ⟨n, h1, h2⟩ := follow_shrink h q _ hf
    cases n <;> simp only [Same] at h2
    obtain ⟨rfl, rfl⟩ := h2
    exact Or.inr ⟨d, f, hq, Or.inr (Or.inr ⟨hp, data, h1⟩)⟩

/-- What is at a path is lost only if the user asked for it. -/
def Kept (o : Opts) (r r' : Node) : Prop :=
  Shrink r' r ∧ ∀ q n, look r q = some n → ¬Asked o r q → ∃ n', look r' q = some n' ∧ Same n' n

theorem kept_refl (o : Opts) (r : Node) : Kept o r r :=
  ⟨shrink_refl r, fun _ n h _ => ⟨n, h, same_refl n⟩⟩

theorem kept_trans {o : Opts} {a b c : Node} (h : Kept o a b) (g : Kept o b c) : Kept o a c := by
  refine ⟨shrink_trans g.1 h.1, fun q n hq ha => ?_⟩
  obtain ⟨n1, h1, s1⟩ := h.2 q n hq ha
  obtain ⟨n2, h2, s2⟩ := g.2 q n1 h1 (fun hh => ha (asked_shrink h.1 hh))
  exact ⟨n2, h2, same_trans s2 s1⟩

theorem prefix_leaf {r : Node} {x q : Path} {n m : Node} (hx : look r x = some n)
    (hn : ∀ es, n ≠ .dir es) (hq : look r q = some m) (h : x <+: q) : q = x := by
  obtain ⟨t, rfl⟩ := h
  rw [look_append, hx] at hq
  cases t with
  | nil => simp
  | cons c cs =>
    cases n with
    | dir es => exact absurd rfl (hn es)
    | file _ _ => simp [look] at hq
    | other => simp [look] at hq
    | link _ => simp [look] at hq

theorem erase_kept (o : Opts) (ho : o.recursive = true ∨ o.programs = false) (r : Node) (p d : Path) (f : Name) (n : Node)
    (hw : walk r limit p = some d) (hl : look r (d ++ [f]) = some n)
    (hc : Generated f ∧ (∃ es, n = .dir es) ∨ ¬Generated f ∧ (∀ es, n ≠ .dir es) ∧
        (o.recursive = true → isfile r (p ++ [f]) = true) ∧ (dotPyccel <:+ f ∨ o.libs = true ∧ o.ext <:+ f ∨
          o.programs = true ∧ access r (p ++ [f]) = true)) : Kept o r (erase r d f) := by
  refine ⟨shrink_erase r d f, fun q m hq ha => look_erase_keep d f r q m hq fun hp => ha ?_⟩
  rcases hc with ⟨hg, _⟩ | ⟨_, hn, hi, hc⟩
  · obtain ⟨t, rfl⟩ := hp
    exact Or.inl ⟨f, by simp, hg⟩
  · obtain rfl := prefix_leaf hl hn hq hp
    refine Or.inr ⟨d, f, rfl, ?_⟩
    rcases hc with hc | hc | ⟨hc, hx⟩
    · exact Or.inl hc
    · exact Or.inr (Or.inl hc)
    · refine Or.inr (Or.inr ⟨hc, ?_⟩)
      unfold access at hx
      cases hf : follow r (p ++ [f]) with
      | none => simp [hf] at hx
      | some k =>
        have hk := follow_last r f p d k hw hf
        cases k with
        | file x y =>
          simp only [hf] at hx
          subst hx
          exact ⟨y, hk⟩
        | dir es =>
          rcases ho with ho | ho
          · simp [isfile, hf] at hi
            simp [hi] at ho
          · simp [ho] at hc
        | other => simp [hf] at hx
        | link t => simp [hf] at hx

end Verif.Clean
