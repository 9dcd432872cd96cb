import Verif.Clean.Lemmas

namespace Verif.Clean

open Verif.Clean.Spec

/-! ## Folders without links -/

theorem noLinks_shrink {r' r : Node} (h : Shrink r' r) {d : Path} (hn : NoLinks r d) : NoLinks r' d := by
  intro q t e
  obtain ⟨n, h1, h2⟩ := h _ _ e
  cases n <;> simp only [Same] at h2
  subst h2
  exact hn q _ h1

theorem noLinks_child {r : Node} {d : Path} (hn : NoLinks r d) (f : Name) : NoLinks r (d ++ [f]) := by
  intro q t e
  exact hn (f :: q) t (by simpa using e)

theorem child (r : Node) (p d e : Path) (f : Name) (hn : NoLinks r d) (hp : walk r limit p = some d)
    (he : walk r limit (p ++ [f]) = some e) : e = d ++ [f] := by
  have h := walk_last r f limit p d e hp he
  rw [show limit = 40 + 1 from rfl, walk_real r 40 d [f] (walk_isReal r _ _ _ hp)] at h
  simp only [step] at h
  cases hl : look r (d ++ [f]) with
  | none => simp [hl] at h
  | some n =>
    cases n with
    | link t => exact absurd hl (hn [f] t)
    | file _ _ => simpa [hl] using h.symm
    | other => simpa [hl] using h.symm
    | dir _ => simpa [hl] using h.symm

theorem step_below (r : Node) (m : Path → Option Path) (d : Path) (hn : NoLinks r d) :
    ∀ (x done e : Path), d <+: done → step r m done x = some e → done <+: e
  | [], done, e, _, h => by
    simp only [step, Option.some.injEq] at h
    exact h ▸ List.prefix_refl _
  | c :: cs, done, e, hd, h => by
    simp only [step] at h
    have go : step r m (done ++ [c]) cs = some e → done <+: e := fun hh =>
      (List.prefix_append done [c]).trans
        (step_below r m d hn cs (done ++ [c]) e (hd.trans (List.prefix_append done [c])) hh)
    cases hl : look r (done ++ [c]) with
    | none => simp [hl] at h
    | some n =>
      cases n with
      | link t =>
        obtain ⟨y, rfl⟩ := hd
        rw [List.append_assoc] at hl
        exact absurd hl (hn _ t)
      | file _ _ => simp only [hl] at h; exact go h
      | other => simp only [hl] at h; exact go h
      | dir _ => simp only [hl] at h; exact go h

/-- Only what is below the entry `f` of the folder `d` has changed. -/
def OutOf (d : Path) (f : Name) (r r' : Node) : Prop :=
  ∀ q n, look r q = some n → ¬(d ++ [f]) <+: q → ∃ n', look r' q = some n' ∧ Same n' n

/-- Only what is below the folder `d` has changed. -/
def Out (d : Path) (r r' : Node) : Prop :=
  ∀ q n, look r q = some n → (∀ f, ¬(d ++ [f]) <+: q) → ∃ n', look r' q = some n' ∧ Same n' n

theorem out_refl (d : Path) (r : Node) : Out d r r := fun _ n h _ => ⟨n, h, same_refl n⟩

theorem outOf_refl (d : Path) (f : Name) (r : Node) : OutOf d f r r := fun _ n h _ => ⟨n, h, same_refl n⟩

theorem out_trans {d : Path} {a b c : Node} (h : Out d a b) (g : Out d b c) : Out d a c := by
  intro q n hq hf
  obtain ⟨n1, h1, s1⟩ := h q n hq hf
  obtain ⟨n2, h2, s2⟩ := g q n1 h1 hf
  exact ⟨n2, h2, same_trans s2 s1⟩

theorem outOf_out {d : Path} {f : Name} {a b : Node} (h : OutOf d f a b) : Out d a b :=
  fun q n hq hf => h q n hq (hf f)

theorem out_outOf {d : Path} {f : Name} {a b : Node} (h : Out (d ++ [f]) a b) : OutOf d f a b := by
  intro q n hq hf
  refine h q n hq fun g hg => hf ?_
  exact (List.prefix_append (d ++ [f]) [g]).trans hg

theorem step_out {d : Path} {r r' : Node} (h : Out d r r') (hn : NoLinks r d)
    (m m' : Path → Option Path) (hm : ∀ p, m p = some d → m' p = some d) :
    ∀ (x done : Path), step r m done x = some d → step r' m' done x = some d
  | [], done, hs => by simpa only [step] using hs
  | c :: cs, done, hs => by
    simp only [step] at hs ⊢
    cases hl : look r (done ++ [c]) with
    | none => simp [hl] at hs
    | some n =>
      by_cases hb : ∃ g, (d ++ [g]) <+: (done ++ [c])
      · exfalso
        obtain ⟨g, hg⟩ := hb
        have hd : d <+: done ++ [c] := (List.prefix_append d [g]).trans hg
        have go : ¬step r m (done ++ [c]) cs = some d := by
          intro hh
          have h1 := step_below r m d hn cs (done ++ [c]) d hd hh
          have h2 := (hg.trans h1).length_le
          simp at h2
          omega
        cases n with
        | link t =>
          obtain ⟨y, hy⟩ := hd
          rw [← hy] at hl
          exact hn _ t hl
        | file _ _ => simp only [hl] at hs; exact go hs
        | other => simp only [hl] at hs; exact go hs
        | dir _ => simp only [hl] at hs; exact go hs
      · obtain ⟨n', h1, s⟩ := h _ _ hl (fun f hf => hb ⟨f, hf⟩)
        rw [h1]
        cases n' <;> cases n <;> simp only [Same] at s <;> simp only [hl] at hs ⊢ <;>
          first | exact step_out h hn m m' hm cs _ hs | skip
        subst s
        exact hm _ hs

theorem walk_out {d : Path} {r r' : Node} (h : Out d r r') (hn : NoLinks r d) :
    ∀ (b : Nat) (p : Path), walk r b p = some d → walk r' b p = some d
  | 0, p, hw => by simp [walk] at hw
  | b + 1, p, hw => by
    simp only [walk] at hw ⊢
    exact step_out h hn _ _ (walk_out h hn b) p [] hw

theorem clean_lost (o : Opts) (k : Nat) (r : Node) (p : Path) (r' : Node) (h : walk r limit p = none)
    (e : (clean o k r p).after = some r') : r' = r := by
  cases k with
  | zero => simp [clean, Res.after] at e
  | succ k =>
    simp only [clean, follow, h, Res.after, Option.some.injEq] at e
    exact e.symm

theorem one_outOf (o : Opts) (k : Nat)
    (H : ∀ (r : Node) (p d : Path) (r' : Node), walk r limit p = some d → NoLinks r d →
      (clean o k r p).after = some r' → Out d r r')
    (r : Node) (p d : Path) (f : Name) (r' : Node)
    (hp : walk r limit p = some d) (hn : NoLinks r d)
    (e : (one (clean o k) o p f r).after = some r') : OutOf d f r r' := by
  have hrem : (remove r p f).after = some r' → OutOf d f r r' := by
    intro e
    simp only [remove, hp] at e
    cases hl : look r (d ++ [f]) with
    | none => simp only [hl, Res.after, Option.some.injEq] at e; exact e ▸ outOf_refl d f r
    | some n =>
      cases n <;> simp only [hl, Res.after, Option.some.injEq] at e <;> subst e <;>
        first
          | exact outOf_refl d f _
          | exact fun q n hq hf => look_erase_keep d f _ q n hq hf
  unfold one at e
  split at e
  · simp only [Res.after, Option.some.injEq] at e
    subst e
    simp only [rmtree, hp]
    cases hl : look r (d ++ [f]) with
    | none => exact outOf_refl d f r
    | some n =>
      cases n <;> first
        | exact outOf_refl d f _
        | exact fun q n hq hf => look_erase_keep d f _ q n hq hf
  · split at e
    · cases hw : walk r limit (p ++ [f]) with
      | none => exact clean_lost o k r _ r' hw e ▸ outOf_refl d f r
      | some x =>
        obtain rfl := child r p d x f hn hp hw
        exact out_outOf (H r (p ++ [f]) (d ++ [f]) r' hw (noLinks_child hn f) e)
    · split at e
      · exact hrem e
      · split at e
        · exact hrem e
        · split at e
          · exact hrem e
          · simp only [Res.after, Option.some.injEq] at e
            exact e ▸ outOf_refl d f r

theorem loop_out (o : Opts) (k : Nat)
    (H : ∀ (r : Node) (p d : Path) (r' : Node), walk r limit p = some d → NoLinks r d →
      (clean o k r p).after = some r' → Out d r r')
    (p d : Path) (fs : List Name) (r r' : Node)
    (hp : walk r limit p = some d) (hn : NoLinks r d)
    (e : (loop (clean o k) o p fs r).after = some r') : Out d r r' := by
  induction fs generalizing r with
  | nil =>
    simp only [loop, Res.after, Option.some.injEq] at e
    exact e ▸ out_refl d r
  | cons f fs ih =>
    simp only [loop] at e
    have h1 := one_outOf o k H r p d f
    cases ho : one (clean o k) o p f r with
    | ok r1 =>
      rw [ho] at e h1
      have g := h1 r1 hp hn rfl
      have hs : Shrink r1 r := by
        have := clean_one_shrink o k r p f r1 (by rw [ho]; rfl)
        exact this
      exact out_trans (outOf_out g) (ih r1 (walk_out (outOf_out g) hn _ _ hp)
        (noLinks_shrink hs hn) e)
    | fail r1 =>
      rw [ho] at e h1
      exact outOf_out (h1 r' hp hn e)
    | fuel => simp [ho, Res.after] at e

theorem clean_out (o : Opts) (k : Nat) (r : Node) (p d : Path) (r' : Node)
    (hp : walk r limit p = some d) (hn : NoLinks r d)
    (e : (clean o k r p).after = some r') : Out d r r' := by
  induction k generalizing r p d r' with
  | zero => simp [clean, Res.after] at e
  | succ k H =>
    simp only [clean] at e
    cases hf : follow r p with
    | none => simp only [hf, Res.after, Option.some.injEq] at e; exact e ▸ out_refl d r
    | some n =>
      cases n with
      | dir es => simp only [hf] at e; exact loop_out o k H p d _ r r' hp hn e
      | file x y => simp only [hf, Res.after, Option.some.injEq] at e; exact e ▸ out_refl d r
      | other => simp only [hf, Res.after, Option.some.injEq] at e; exact e ▸ out_refl d r
      | link t => simp only [hf, Res.after, Option.some.injEq] at e; exact e ▸ out_refl d r

end Verif.Clean
