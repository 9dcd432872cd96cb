import Verif.Clean.Lemmas2

namespace Verif.Clean

open Verif.Clean.Spec

/-! ## Nothing is left -/

/-- Something at the path should be gone. -/
def Bad (o : Opts) (r : Node) (x : Path) : Prop :=
  ∃ y f n, x = y ++ [f] ∧ look r x = some n ∧ Junk o f n

theorem bad_shrink {o : Opts} {r' r : Node} (h : Shrink r' r) {x : Path} (hb : Bad o r' x) : Bad o r x := by
  obtain ⟨y, f, n', hx, hl, hj⟩ := hb
  obtain ⟨n, h1, s⟩ := h _ _ hl
  refine ⟨y, f, n, hx, h1, ?_⟩
  cases n' <;> cases n <;> simp only [Same] at s <;> simp only [Junk] at hj ⊢
  · obtain ⟨rfl, rfl⟩ := s
    exact hj
  · exact hj

theorem leaf_bad {o : Opts} {r : Node} {d : Path} {f : Name} {n : Node} (hl : look r (d ++ [f]) = some n)
    (hn : ∀ es, n ≠ .dir es) (hj : ¬Junk o f n) (x : Path) (hx : (d ++ [f]) <+: x) : ¬Bad o r x := by
  rintro ⟨y, g, m, rfl, hm, hj'⟩
  have he := prefix_leaf hl hn hm hx
  obtain ⟨rfl, hg⟩ := List.append_inj' he rfl
  simp only [List.cons.injEq, and_true] at hg
  subst hg
  rw [hl] at hm
  exact hj (Option.some.inj hm ▸ hj')

theorem gone_bad {o : Opts} {r : Node} {d : Path} {f : Name} (hl : look r (d ++ [f]) = none) (x : Path)
    (hx : (d ++ [f]) <+: x) : ¬Bad o r x := by
  rintro ⟨y, g, m, _, hm, _⟩
  obtain ⟨t, rfl⟩ := hx
  rw [look_append, hl] at hm
  simp at hm

theorem follow_child {r : Node} {p d : Path} {f : Name} {n : Node} (hp : walk r limit p = some d)
    (hl : look r (d ++ [f]) = some n) (hn : ∀ t, n ≠ .link t) : follow r (p ++ [f]) = some n := by
  unfold follow
  rw [walk_snoc r f limit p d n hp hl hn]
  exact hl

theorem one_clean (o : Opts) (ho : o.recursive = true) (k : Nat)
    (H : ∀ (r : Node) (p d : Path) (r' : Node), walk r limit p = some d → NoLinks r d →
      clean o k r p = .ok r' → ∀ f x, (d ++ [f]) <+: x → ¬Bad o r' x)
    (r : Node) (p d : Path) (f : Name) (r' : Node)
    (hp : walk r limit p = some d) (hn : NoLinks r d) (e : one (clean o k) o p f r = .ok r') (x : Path)
    (hx : (d ++ [f]) <+: x) : ¬Bad o r' x := by
  have hrem : remove r p f = .ok r' → ¬Bad o r' x := by
    intro e
    simp only [remove, hp] at e
    have gone : ¬Bad o (erase r d f) x := gone_bad (by simpa using look_erase_gone d f r []) x hx
    cases hl : look r (d ++ [f]) with
    | none => simp [hl] at e
    | some n =>
      cases n <;> simp only [hl, Res.ok.injEq, reduceCtorEq] at e <;> exact e ▸ gone
  have gone : ¬Bad o (erase r d f) x := gone_bad (by simpa using look_erase_gone d f r []) x hx
  unfold one at e
  by_cases hg : generated f = true
  · rw [if_pos hg] at e
    simp only [Res.ok.injEq, rmtree, hp] at e
    cases hl : look r (d ++ [f]) with
    | none =>
      simp only [hl] at e
      exact e ▸ gone_bad hl x hx
    | some n =>
      cases n with
      | dir es => simp only [hl] at e; exact e ▸ gone
      | file a b =>
        simp only [hl] at e
        exact e ▸ leaf_bad hl (by simp) (fun hj => hj.1 ((generated_iff f).1 hg)) x hx
      | other => simp only [hl] at e; exact e ▸ leaf_bad hl (by simp) (fun hj => hj) x hx
      | link t => simp only [hl] at e; exact e ▸ leaf_bad hl (by simp) (fun hj => hj) x hx
  · have hG : ¬Generated f := fun hh => hg ((generated_iff f).2 hh)
    rw [if_neg hg] at e
    split at e
    · cases hw : walk r limit (p ++ [f]) with
      | none =>
        cases k with
        | zero => simp [clean] at e
        | succ k => simp [clean, follow, hw] at e
      | some y =>
        obtain rfl := child r p d y f hn hp hw
        have h1 := H r (p ++ [f]) (d ++ [f]) r' hw (noLinks_child hn f) e
        obtain ⟨t, rfl⟩ := hx
        cases t with
        | cons g t => exact h1 g _ ⟨t, by simp⟩
        | nil =>
          rintro ⟨y, g, m, hy, hm, hj⟩
          rw [List.append_nil] at hy
          obtain ⟨rfl, hgf⟩ := List.append_inj' hy rfl
          simp only [List.cons.injEq, and_true] at hgf
          subst hgf
          have hs := clean_shrink o k r _ r' (by rw [e]; rfl)
          obtain ⟨m0, hm0, s⟩ := hs _ _ hm
          cases k with
          | zero => simp [clean] at e
          | succ k =>
            simp only [clean, follow, hw] at e
            rw [List.append_nil] at hm0
            rw [hm0] at e
            cases m0 with
            | dir es =>
              cases m <;> simp only [Same] at s
              exact hG hj
            | file a b => simp at e
            | other => simp at e
            | link t => simp at e
    · rename_i hi
      simp only [ho, Bool.and_true, Bool.not_eq_true', Bool.not_eq_false] at hi
      split at e
      · exact hrem e
      · rename_i h1
        split at e
        · exact hrem e
        · rename_i h2
          split at e
          · exact hrem e
          · rename_i h3
            simp only [Res.ok.injEq] at e
            subst e
            cases hl : look r (d ++ [f]) with
            | none => exact gone_bad hl x hx
            | some n =>
              cases n with
              | link t => exact absurd hl (hn [f] t)
              | other => exact leaf_bad hl (by simp) (fun hj => hj) x hx
              | dir es => simp [isfile, follow_child hp hl (by simp)] at hi
              | file a b =>
                refine leaf_bad hl (by simp) ?_ x hx
                rintro ⟨_, hj | hj | hj⟩
                · exact h1 (List.isSuffixOf_iff_suffix.2 hj)
                · exact h2 (by simp [hj.1, List.isSuffixOf_iff_suffix.2 hj.2])
                · exact h3 (by simp [hj.1, access, follow_child hp hl (by simp), hj.2])

theorem one_next (o : Opts) (k : Nat) (r : Node) (p d : Path) (f : Name) (r' : Node)
    (hp : walk r limit p = some d) (hn : NoLinks r d) (e : one (clean o k) o p f r = .ok r') :
    Shrink r' r ∧ OutOf d f r r' ∧ walk r' limit p = some d ∧ NoLinks r' d := by
  have hs := clean_one_shrink o k r p f r' (by rw [e]; rfl)
  have ho := one_outOf o k (fun r p d r' h1 h2 h3 => clean_out o k r p d r' h1 h2 h3) r p d f r' hp hn
    (by rw [e]; rfl)
  exact ⟨hs, ho, walk_out (outOf_out ho) hn _ _ hp, noLinks_shrink hs hn⟩

theorem loop_shrink (o : Opts) (k : Nat) (p : Path) (fs : List Name) (r r' : Node)
    (e : loop (clean o k) o p fs r = .ok r') : Shrink r' r :=
  loop_rel (fun a b => Shrink b a) shrink_refl (fun _ _ _ h g => shrink_trans g h) (clean o k) o p
    (fun f r r' h => clean_one_shrink o k r p f r' h) fs r r' (by rw [e]; rfl)

theorem loop_clean (o : Opts) (ho : o.recursive = true) (k : Nat)
    (H : ∀ (r : Node) (p d : Path) (r' : Node), walk r limit p = some d → NoLinks r d →
      clean o k r p = .ok r' → ∀ f x, (d ++ [f]) <+: x → ¬Bad o r' x) (p d : Path) :
    ∀ (fs : List Name) (r r' : Node), walk r limit p = some d → NoLinks r d →
      loop (clean o k) o p fs r = .ok r' → ∀ f ∈ fs, ∀ x, (d ++ [f]) <+: x → ¬Bad o r' x
  | [], r, r', _, _, _, f, hf, _, _ => by simp at hf
  | g :: fs, r, r', hp, hn, e, f, hf, x, hx => by
    simp only [loop] at e
    cases h1 : one (clean o k) o p g r with
    | ok r1 =>
      simp only [h1] at e
      obtain ⟨hs, _, hp1, hn1⟩ := one_next o k r p d g r1 hp hn h1
      rcases List.mem_cons.1 hf with rfl | hf
      · exact fun hb => one_clean o ho k H r p d f r1 hp hn h1 x hx
          (bad_shrink (loop_shrink o k p fs r1 r' e) hb)
      · exact loop_clean o ho k H p d fs r1 r' hp1 hn1 e f hf x hx
    | fail r1 => simp [h1] at e
    | fuel => simp [h1] at e

theorem entry_mem {es : List (Name × Node)} {f : Name} {n : Node} (h : entry es f = some n) :
    (f, n) ∈ es := by
  induction es with
  | nil => simp [entry] at h
  | cons e es ih =>
    obtain ⟨k, m⟩ := e
    simp only [entry] at h
    split at h
    · rename_i hk
      simp only [Option.some.injEq] at h
      subst hk; subst h
      simp
    · exact List.mem_cons_of_mem _ (ih h)

theorem entry_of_mem {es : List (Name × Node)} {f : Name} (h : f ∈ es.map Prod.fst) :
    ∃ n, entry es f = some n := by
  induction es with
  | nil => simp at h
  | cons e es ih =>
    obtain ⟨k, m⟩ := e
    simp only [entry]
    by_cases hk : k = f
    · exact ⟨m, by simp [hk]⟩
    · simp only [hk, if_false]
      simp only [List.map_cons, List.mem_cons] at h
      exact ih (h.resolve_left (fun hh => hk hh.symm))

theorem look_child {r : Node} {d : Path} {es : List (Name × Node)} (h : look r d = some (.dir es)) (f : Name) :
    look r (d ++ [f]) = entry es f := by
  rw [look_append, h]
  simp only [Option.bind_some, look]
  cases entry es f <;> rfl

theorem clean_clean (o : Opts) (ho : o.recursive = true) (k : Nat) (r : Node) (p d : Path) (r' : Node)
    (hp : walk r limit p = some d) (hn : NoLinks r d) (e : clean o k r p = .ok r') (f : Name) (x : Path)
    (hx : (d ++ [f]) <+: x) : ¬Bad o r' x := by
  induction k generalizing r p d r' f x with
  | zero => simp [clean] at e
  | succ k H =>
    have hs := clean_shrink o (k + 1) r p r' (by rw [e]; rfl)
    simp only [clean, follow, hp] at e
    cases hl : look r d with
    | none => simp [hl] at e
    | some n =>
      cases n with
      | dir es =>
        simp only [hl] at e
        by_cases hf : f ∈ es.map Prod.fst
        · exact loop_clean o ho k (fun r p d r' h1 h2 h3 f x h4 => H r p d r' h1 h2 h3 f x h4) p d _ r r' hp
            hn e f hf x hx
        · intro hb
          refine gone_bad (r := r) (d := d) (f := f) ?_ x hx (bad_shrink hs hb)
          rw [look_child hl]
          cases he : entry es f with
          | none => rfl
          | some m => exact absurd (List.mem_map.2 ⟨_, entry_mem he, rfl⟩) hf
      | file a b => simp [hl] at e
      | other => simp [hl] at e
      | link t => simp [hl] at e

/-! ## No exception -/

theorem plain_noLinks {r : Node} {d : Path} (h : Plain r d) : NoLinks r d := by
  intro q t e
  exact h q _ e

theorem plain_shrink {r' r : Node} (hs : Shrink r' r) {d : Path} (h : Plain r d) : Plain r' d := by
  intro q n' e
  obtain ⟨n, h1, s⟩ := hs _ _ e
  have := h q n h1
  cases n' <;> cases n <;> simp only [Same] at s <;> simp only at this ⊢
  exact this.sublist s

theorem plain_child {r : Node} {d : Path} (h : Plain r d) (f : Name) : Plain r (d ++ [f]) := by
  intro q n e
  exact h (f :: q) n (by simpa using e)

theorem plain_file (a : Bool) (b : Nat) : Plain (.file a b) [] := by
  intro q n h
  cases q with
  | nil => simp only [List.append_nil, look, Option.some.injEq] at h; subst h; trivial
  | cons c q => simp [look] at h

theorem plain_dir (es : List (Name × Node)) (hd : (es.map Prod.fst).Nodup)
    (h : ∀ e ∈ es, Plain e.2 []) : Plain (.dir es) [] := by
  intro q n hq
  cases q with
  | nil => simp only [List.append_nil, look, Option.some.injEq] at hq; subst hq; exact hd
  | cons c q =>
    simp only [List.nil_append, look] at hq
    cases he : entry es c with
    | none => simp [he] at hq
    | some m => exact h _ (entry_mem he) q n (by simpa [he] using hq)

theorem plain_at {r m : Node} {d : Path} (hl : look r d = some m) (h : Plain m []) : Plain r d := by
  intro q n hq
  rw [look_append, hl] at hq
  exact h q n hq

/-- A folder that is listed but that pyccel does not make, and that the options tell to remove as if it
were a file. -/
def Refuses (o : Opts) (f : Name) : Prop :=
  o.recursive = false ∧ ¬Generated f ∧
    (dotPyccel <:+ f ∨ o.libs = true ∧ o.ext <:+ f ∨ o.programs = true)

theorem one_ok (o : Opts) (k : Nat) (r : Node) (p d : Path) (f : Name) (n : Node)
    (hp : walk r limit p = some d) (hl : look r (d ++ [f]) = some n)
    (hn : match n with
      | .file _ _ => True
      | .dir _ => ¬Refuses o f ∧ (o.recursive = true → ∃ r', clean o k r (p ++ [f]) = .ok r')
      | _ => False) : ∃ r', one (clean o k) o p f r = .ok r' := by
  unfold one
  cases n with
  | other => exact hn.elim
  | link t => exact hn.elim
  | file a b =>
    have hr : remove r p f = .ok (erase r d f) := by simp only [remove, hp, hl]
    have hi : isfile r (p ++ [f]) = true := by simp [isfile, follow_child hp hl (by simp)]
    simp only [hi, Bool.not_true, Bool.false_and, Bool.false_eq_true, if_false, hr]
    split
    · exact ⟨_, rfl⟩
    · split
      · exact ⟨_, rfl⟩
      · split
        · exact ⟨_, rfl⟩
        · split
          · exact ⟨_, rfl⟩
          · exact ⟨_, rfl⟩
  | dir es =>
    obtain ⟨hn1, hn2⟩ := hn
    have hi : isfile r (p ++ [f]) = false := by simp [isfile, follow_child hp hl (by simp)]
    split
    · exact ⟨_, rfl⟩
    · rename_i hg
      have hG : ¬Generated f := fun hh => hg ((generated_iff f).2 hh)
      simp only [hi, Bool.not_false, Bool.true_and]
      split
      · rename_i h
        exact hn2 h
      · rename_i h
        simp only [Bool.not_eq_true] at h
        split
        · rename_i h1
          exact absurd ⟨h, hG, Or.inl (List.isSuffixOf_iff_suffix.1 h1)⟩ hn1
        · split
          · rename_i h1
            simp only [Bool.and_eq_true] at h1
            exact absurd ⟨h, hG, Or.inr (Or.inl ⟨h1.1, List.isSuffixOf_iff_suffix.1 h1.2⟩)⟩ hn1
          · split
            · rename_i h1
              simp only [Bool.and_eq_true] at h1
              exact absurd ⟨h, hG, Or.inr (Or.inr h1.1)⟩ hn1
            · exact ⟨_, rfl⟩

theorem one_refuses (o : Opts) (k : Nat) (r : Node) (p d : Path) (f : Name) (es : List (Name × Node))
    (hp : walk r limit p = some d) (hl : look r (d ++ [f]) = some (.dir es)) (h : Refuses o f) (r' : Node) :
    one (clean o k) o p f r ≠ .ok r' := by
  obtain ⟨hr, hG, h⟩ := h
  have hg : ¬generated f = true := fun hh => hG ((generated_iff f).1 hh)
  have he : remove r p f = .fail r := by simp only [remove, hp, hl]
  have ha : access r (p ++ [f]) = true := by simp [access, follow_child hp hl (by simp)]
  unfold one
  simp only [hg, if_false, hr, Bool.and_false, Bool.false_eq_true, he, ha, Bool.and_true]
  split
  · simp
  · rename_i h1
    split
    · simp
    · rename_i h2
      split
      · simp
      · rename_i h3
        exfalso
        rcases h with h | h | h
        · exact h1 (List.isSuffixOf_iff_suffix.2 h)
        · exact h2 (by simp [h.1, List.isSuffixOf_iff_suffix.2 h.2])
        · exact h3 h

/-- Another entry of the folder is still there. -/
theorem sibling {r r' : Node} {d : Path} {f g : Name} (h : OutOf d f r r') (hfg : g ≠ f) {n : Node}
    (hl : look r (d ++ [g]) = some n) : ∃ n', look r' (d ++ [g]) = some n' ∧ Same n' n := by
  refine h _ n hl ?_
  rintro ⟨t, ht⟩
  rw [List.append_assoc] at ht
  have := List.append_cancel_left ht
  simp only [List.cons_append, List.nil_append, List.cons.injEq] at this
  exact hfg this.1.symm

theorem loop_ok (o : Opts) (k : Nat)
    (H : ∀ (r : Node) (p d : Path) (es : List (Name × Node)), o.recursive = true →
      walk r limit p = some d → look r d = some (.dir es) → Plain r d →
      (∀ q n, look r (d ++ q) = some n → q.length < k) → ∃ r', clean o k r p = .ok r') (p d : Path) :
    ∀ (fs : List Name) (r : Node), walk r limit p = some d → Plain r d → fs.Nodup →
      (∀ q n, look r (d ++ q) = some n → q.length < k + 1) →
      (∀ f ∈ fs, ∃ n, look r (d ++ [f]) = some n ∧ ∀ es, n = .dir es → ¬Refuses o f) →
      ∃ r', loop (clean o k) o p fs r = .ok r'
  | [], r, _, _, _, _, _ => ⟨r, rfl⟩
  | f :: fs, r, hp, hP, hd, hk, hf => by
    obtain ⟨n, hl, hn⟩ := hf f (by simp)
    have h1 : ∃ r1, one (clean o k) o p f r = .ok r1 := by
      refine one_ok o k r p d f n hp hl ?_
      have := hP [f] n hl
      cases n with
      | other => exact this
      | link t => exact this
      | file a b => trivial
      | dir es =>
        refine ⟨hn es rfl, fun ho => H r _ (d ++ [f]) es ho (walk_snoc r f limit p d _ hp hl (by simp)) hl
          (plain_child hP f) ?_⟩
        intro q m hm
        have := hk (f :: q) m (by simpa using hm)
        simp only [List.length_cons] at this
        omega
    obtain ⟨r1, h1⟩ := h1
    obtain ⟨hs, hO, hp1, hn1⟩ := one_next o k r p d f r1 hp (plain_noLinks hP) h1
    simp only [loop, h1]
    refine loop_ok o k H p d fs r1 hp1 (plain_shrink hs hP) (List.nodup_cons.1 hd).2 ?_ ?_
    · intro q n' e
      obtain ⟨m, hm, _⟩ := hs _ _ e
      exact hk q m hm
    · intro g hg
      obtain ⟨n, hl, hn⟩ := hf g (List.mem_cons_of_mem _ hg)
      have hgf : g ≠ f := fun hh => (List.nodup_cons.1 hd).1 (hh ▸ hg)
      obtain ⟨n', hl', s⟩ := sibling hO hgf hl
      refine ⟨n', hl', fun es he => ?_⟩
      subst he
      cases n <;> simp only [Same] at s
      exact hn _ rfl

theorem clean_ok (o : Opts) (k : Nat) (r : Node) (p d : Path) (es : List (Name × Node))
    (hp : walk r limit p = some d) (hl : look r d = some (.dir es)) (hP : Plain r d)
    (hk : ∀ q n, look r (d ++ q) = some n → q.length < k)
    (hf : ∀ f es', entry es f = some (.dir es') → ¬Refuses o f) : ∃ r', clean o k r p = .ok r' := by
  induction k generalizing r p d es with
  | zero => exact absurd (hk [] _ (by simpa using hl)) (by simp)
  | succ k H =>
    simp only [clean, follow, hp, hl]
    refine loop_ok o k (fun r p d es ho h1 h2 h3 h4 => H r p d es h1 h2 h3 h4
      (fun f es' _ hr => by simp [Refuses, ho] at hr)) p d _ r hp hP (hP [] _ (by simpa using hl)) hk ?_
    intro f hm
    obtain ⟨n, hn⟩ := entry_of_mem hm
    exact ⟨n, by rw [look_child hl]; exact hn, fun es' he => hf f es' (he ▸ hn)⟩

theorem loop_refuses (o : Opts) (k : Nat) (p d : Path) (g : Name) (hg : Refuses o g) :
    ∀ (fs : List Name) (r : Node), walk r limit p = some d → Plain r d → fs.Nodup → g ∈ fs →
      ∀ es, look r (d ++ [g]) = some (.dir es) → ∀ r', loop (clean o k) o p fs r ≠ .ok r'
  | [], r, _, _, _, hm, _, _, _ => by simp at hm
  | f :: fs, r, hp, hP, hd, hm, es, hl, r' => by
    simp only [loop]
    cases h1 : one (clean o k) o p f r with
    | ok r1 =>
      simp only
      by_cases hgf : g = f
      · subst hgf
        exact absurd h1 (one_refuses o k r p d g es hp hl hg r1)
      · obtain ⟨hs, hO, hp1, hn1⟩ := one_next o k r p d f r1 hp (plain_noLinks hP) h1
        obtain ⟨n', hl', s⟩ := sibling hO hgf hl
        have hd' := List.nodup_cons.1 hd
        have hm' : g ∈ fs := (List.mem_cons.1 hm).resolve_left hgf
        cases n' with
        | dir es' => exact loop_refuses o k p d g hg fs r1 hp1 (plain_shrink hs hP) hd'.2 hm' es' hl' r'
        | file a b => simp [Same] at s
        | other => simp [Same] at s
        | link t => simp [Same] at s
    | fail r1 => simp
    | fuel => simp

/-- Paths are no longer than the file system is large. -/
theorem look_size : ∀ (q : Path) (r n : Node), look r q = some n → q.length < sizeOf r
  | [], r, n, _ => by cases r <;> simp <;> omega
  | c :: cs, .dir es, n, h => by
    simp only [look] at h
    cases he : entry es c with
    | none => simp [he] at h
    | some m =>
      simp only [he] at h
      have h1 := look_size cs m n h
      have h2 := List.sizeOf_lt_of_mem (entry_mem he)
      simp only [List.length_cons, Node.dir.sizeOf_spec]
      simp only [Prod.mk.sizeOf_spec] at h2
      omega
  | c :: cs, .file _ _, n, h => by simp [look] at h
  | c :: cs, .other, n, h => by simp [look] at h
  | c :: cs, .link _, n, h => by simp [look] at h

end Verif.Clean
