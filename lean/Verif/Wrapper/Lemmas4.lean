import Verif.Wrapper.Lemmas3

/-!
# Calls of compiled functions from Python: results and changed arguments
-/

namespace Verif.Wrapper.Lemmas
open Spec Model

/-- Only object `i` is changed. -/
def Fr (i : Id) (h h' : Heap) : Prop :=
  h.length ≤ h'.length ∧ ∀ j, j < h.length → j ≠ i → h'.obj j = h.obj j

theorem Fr.refl (i : Id) (h : Heap) : Fr i h h := ⟨Nat.le_refl _, fun _ _ _ => rfl⟩

theorem Fr.trans {i : Id} {h h' h'' : Heap} (a : Fr i h h') (b : Fr i h' h'') : Fr i h h'' :=
  ⟨Nat.le_trans a.1 b.1, fun j hj hn => by
    rw [b.2 j (Nat.lt_of_lt_of_le hj a.1) hn, a.2 j hj hn]⟩

theorem fr_setObj (h : Heap) (i : Id) (o : Obj) : Fr i h (setObj h i o) := by
  refine ⟨by rw [length_setObj]; exact Nat.le_refl _, fun j _ hn => ?_⟩
  rw [obj_setObj, if_neg]
  rintro ⟨e, _⟩; exact hn e.symm

theorem fr_incref (h : Heap) (i x : Id) : Fr i h (incref h x) :=
  ⟨by rw [length_incref]; exact Nat.le_refl _, fun j _ _ => obj_incref h x j⟩

theorem fr_decrefs (h : Heap) (i : Id) (xs : List Id) : Fr i h (xs.foldl decref h) :=
  ⟨by rw [length_foldl_decref]; exact Nat.le_refl _, fun j _ _ => obj_foldl_decref xs h j⟩

theorem fr_toObj {h : Heap} {i : Id} {t : Ty} {c : CAtom} {h' : Heap} {x : Id}
    (e : toObj h t c = some (h', x)) : Fr i h h' := by
  unfold toObj at e
  cases hu : uncast t c with
  | none => simp [hu] at e
  | some a =>
    simp only [hu, Option.map_some, Option.some.injEq] at e
    have e' : h' = (alloc h (.atom a)).1 := by rw [e]
    rw [e']
    exact ⟨by rw [length_alloc]; omega, fun j hj _ => obj_alloc_lt hj⟩

theorem fr_setItem {h : Heap} {i x : Id} {h' : Heap} (e : setItem h i x = some h') : Fr i h h' := by
  unfold setItem at e
  split at e
  case h_3 => cases e
  all_goals
    simp only [Option.some.injEq] at e
    rw [← e]; exact fr_setObj _ _ _

theorem fr_listAppend {h : Heap} {i x : Id} {h' : Heap} (e : listAppend h i x = some h') : Fr i h h' := by
  unfold listAppend at e
  split at e
  case h_2 => cases e
  simp only [Option.some.injEq] at e
  rw [← e]; exact (fr_incref h i x).trans (fr_setObj _ _ _)

theorem fr_setAdd {h : Heap} {i x : Id} {h' : Heap} (e : setAdd h i x = some h') : Fr i h h' := by
  unfold setAdd at e
  split at e
  case h_2 => cases e
  split at e
  · cases e; exact Fr.refl _ _
  · simp only [Option.some.injEq] at e
    rw [← e]; exact (fr_incref h i x).trans (fr_setObj _ _ _)

theorem fr_dictSet {h : Heap} {i k v : Id} {h' : Heap} (e : dictSet h i k v = some h') : Fr i h h' := by
  unfold dictSet at e
  split at e
  case h_2 => cases e
  split at e
  · cases e
  · simp only [Option.some.injEq] at e
    rw [← e]; exact ((fr_incref h i k).trans (fr_incref _ i v)).trans (fr_setObj _ _ _)

theorem fr_clear {h : Heap} {i : Id} {h' : Heap} (e : clear h i = some h') : Fr i h h' := by
  unfold clear at e
  split at e
  case h_3 => cases e
  all_goals
    simp only [Option.some.injEq] at e
    rw [← e]; exact (fr_decrefs h i _).trans (fr_setObj _ _ _)

/-! ## Loops -/

/-- The loops that fill a container. -/
def fill (put : Heap → Id → Id → Option Heap) (t : Ty) (i : Id) : Heap → List CAtom → Option Heap
  | h, [] => some h
  | h, c :: cs => do
    let (h, x) ← toObj h t c
    fill put t i (← put h i x) cs

theorem fillSeq_eq (t : Ty) (i : Id) (cs : List CAtom) (h : Heap) : fillSeq t i h cs = fill setItem t i h cs := by
  induction cs generalizing h with
  | nil => rfl
  | cons c cs ih => simp only [fillSeq, fill, ih]

theorem fillSet_eq (t : Ty) (i : Id) (cs : List CAtom) (h : Heap) : fillSet t i h cs = fill setAdd t i h cs := by
  induction cs generalizing h with
  | nil => rfl
  | cons c cs ih => simp only [fillSet, fill, ih]

theorem fillList_eq (t : Ty) (i : Id) (cs : List CAtom) (h : Heap) :
    fillList t i h cs = fill listAppend t i h cs := by
  induction cs generalizing h with
  | nil => rfl
  | cons c cs ih => simp only [fillList, fill, ih]

theorem fill_cons {put : Heap → Id → Id → Option Heap} {t : Ty} {i : Id} {h h' : Heap} {c : CAtom}
    {cs : List CAtom} (e : fill put t i h (c :: cs) = some h') :
    ∃ h1 x h2, toObj h t c = some (h1, x) ∧ put h1 i x = some h2 ∧ fill put t i h2 cs = some h' := by
  simp only [fill, Option.bind_eq_bind] at e
  cases h1 : toObj h t c with
  | none => simp [h1] at e
  | some p =>
    obtain ⟨h1', x⟩ := p
    cases h2 : put h1' i x with
    | none => simp [h1, h2] at e
    | some q => exact ⟨h1', x, q, rfl, h2, by simpa [h1, h2] using e⟩

theorem fr_fill {put : Heap → Id → Id → Option Heap} {t : Ty} {i : Id} {cs : List CAtom} {h h' : Heap}
    (hp : ∀ h x h', put h i x = some h' → Fr i h h') (e : fill put t i h cs = some h') : Fr i h h' := by
  induction cs generalizing h with
  | nil => cases e; exact Fr.refl _ _
  | cons c cs ih =>
    obtain ⟨h1, x, h2, e1, e2, e3⟩ := fill_cons e
    exact ((fr_toObj e1).trans (hp _ _ _ e2)).trans (ih e3)

/-- Loops that lose one reference for each element. -/
theorem step_fill {put : Heap → Id → Id → Option Heap} {t : Ty} {i : Id} {cs : List CAtom} {h h' : Heap}
    (hp : ∀ h x h', x < h.length → put h i x = some h' → Step h h' []) (n : NN h)
    (e : fill put t i h cs = some h') : ∃ l, l.length = cs.length ∧ Step h h' l := by
  induction cs generalizing h with
  | nil => cases e; exact ⟨[], rfl, Step.refl _⟩
  | cons c cs ih =>
    obtain ⟨h1, x, h2, e1, e2, e3⟩ := fill_cons e
    have s1 := step_toObj e1
    have s2 := hp _ _ _ (s1.lt_of_mem n List.mem_cons_self) e2
    have s12 := s1.trans s2
    obtain ⟨l, hl, s3⟩ := ih (s12.nn n) e3
    exact ⟨x :: l, by simp [hl], s12.trans s3⟩

theorem step_fillSeq {t : Ty} {i : Id} {cs : List CAtom} {h h' : Heap}
    (e : fill setItem t i h cs = some h') : Step h h' [] := by
  induction cs generalizing h with
  | nil => cases e; exact Step.refl _
  | cons c cs ih =>
    obtain ⟨h1, x, h2, e1, e2, e3⟩ := fill_cons e
    have s1 := step_toObj e1
    have s2 : Step h h2 [] := fun j => by
      rw [net_setItem e2, s1 j]; simp only [List.count_nil]; omega
    exact s2.trans (ih e3)

theorem fillDict_cons {k v : Ty} {i : Id} {h h' : Heap} {c : CAtom × CAtom}
    {cs : List (CAtom × CAtom)} (e : fillDict k v i h (c :: cs) = some h') :
    ∃ h1 x h2 y h3, toObj h k c.1 = some (h1, x) ∧ toObj h1 v c.2 = some (h2, y) ∧
      dictSet h2 i x y = some h3 ∧ fillDict k v i h3 cs = some h' := by
  simp only [fillDict, Option.bind_eq_bind] at e
  cases h1 : toObj h k c.1 with
  | none => simp [h1] at e
  | some p =>
    obtain ⟨h1', x⟩ := p
    cases h2 : toObj h1' v c.2 with
    | none => simp [h1, h2] at e
    | some q =>
      obtain ⟨h2', y⟩ := q
      cases h3 : dictSet h2' i x y with
      | none => simp [h1, h2, h3] at e
      | some r => exact ⟨h1', x, h2', y, r, rfl, h2, h3, by simpa [h1, h2, h3] using e⟩

theorem fr_fillDict {k v : Ty} {i : Id} {cs : List (CAtom × CAtom)} {h h' : Heap}
    (e : fillDict k v i h cs = some h') : Fr i h h' := by
  induction cs generalizing h with
  | nil => cases e; exact Fr.refl _ _
  | cons c cs ih =>
    obtain ⟨h1, x, h2, y, h3, e1, e2, e3, e4⟩ := fillDict_cons e
    exact (((fr_toObj e1).trans (fr_toObj e2)).trans (fr_dictSet e3)).trans (ih e4)

theorem step_fillDict {k v : Ty} {i : Id} {cs : List (CAtom × CAtom)} {h h' : Heap} (n : NN h)
    (e : fillDict k v i h cs = some h') : ∃ l, l.length = 2 * cs.length ∧ Step h h' l := by
  induction cs generalizing h with
  | nil => cases e; exact ⟨[], rfl, Step.refl _⟩
  | cons c cs ih =>
    obtain ⟨h1, x, h2, y, h3, e1, e2, e3, e4⟩ := fillDict_cons e
    have s1 := step_toObj e1
    have s2 := step_toObj e2
    have s12 := s1.trans s2
    have s3 := step_dictSet (s12.lt_of_mem n (by simp)) (s12.lt_of_mem n (by simp)) e3
    have s123 := s12.trans s3
    obtain ⟨l, hl, s4⟩ := ih (s123.nn n) e4
    exact ⟨x :: y :: l, by simp [hl]; omega, s123.trans s4⟩

/-! ## Results -/

mutual
/-- The references lost in the conversion of a result. -/
def resLeak : ResTy → CRes → Nat
  | .set _, .seq cs => cs.length
  | .dict _ _, .dict kvs => 2 * kvs.length
  | .pack ts, .pack cs => ressLeak ts cs
  | _, _ => 0
def ressLeak : ResTys → CRess → Nat
  | .cons t ts, .cons c cs => resLeak t c + ressLeak ts cs
  | _, _ => 0
end

theorem keep_of_fr {h h1 h' : Heap} (k : Keep h.length h h1) (hl : h.length < h1.length)
    (f : Fr h.length h1 h') : Keep h.length h h' :=
  ⟨Nat.le_trans k.1 f.1, fun i hi => by
    rw [f.2 i (Nat.lt_trans hi hl) (Nat.ne_of_lt hi), k.2 i hi]⟩

theorem keep_alloc (h : Heap) (o : Obj) : Keep h.length h (alloc h o).1 :=
  ⟨by rw [length_alloc]; omega, fun _ hj => obj_alloc_lt hj⟩

theorem nn_alloc {h : Heap} {o : Obj} (ho : o.refs = []) (n : NN h) : NN (alloc h o).1 :=
  (step_alloc h o ho).nn n

theorem step_fresh {h h' : Heap} {o : Obj} {l : List Id} (ho : o.refs = []) (s : Step (alloc h o).1 h' l) :
    Step h h' (h.length :: l) := (step_alloc h o ho).trans s

mutual
theorem step_result (t : ResTy) (c : CRes) {h h' : Heap} {r : Id} (n : NN h)
    (e : result t c h = some (h', r)) :
    Keep h.length h h' ∧ ∃ l, l.length = resLeak t c ∧ Step h h' (r :: l) := by
  match t, c with
  | .atom t, .atom c =>
    simp only [result] at e
    refine ⟨?_, [], rfl, step_toObj e⟩
    have f := fr_toObj (i := h.length) e
    exact ⟨f.1, fun i hi => f.2 i hi (Nat.ne_of_lt hi)⟩
  | .list t, .seq cs =>
    simp only [result, Option.bind_eq_bind, Option.pure_def, fillSeq_eq] at e
    cases hf : fill setItem t (alloc h (.list [])).2 (alloc h (.list [])).1 cs with
    | none => simp [hf] at e
    | some h1 =>
      simp only [hf, Option.bind_some, Option.some.injEq, Prod.mk.injEq] at e
      obtain ⟨rfl, rfl⟩ := e
      refine ⟨keep_of_fr (keep_alloc h _) (by rw [length_alloc]; exact Nat.lt_succ_self _)
        (fr_fill (fun _ _ _ => fr_setItem) hf), [], rfl, step_fresh rfl (step_fillSeq hf)⟩
  | .tuple t, .seq cs =>
    simp only [result, Option.bind_eq_bind, Option.pure_def, fillSeq_eq] at e
    cases hf : fill setItem t (alloc h (.tuple [])).2 (alloc h (.tuple [])).1 cs with
    | none => simp [hf] at e
    | some h1 =>
      simp only [hf, Option.bind_some, Option.some.injEq, Prod.mk.injEq] at e
      obtain ⟨rfl, rfl⟩ := e
      refine ⟨keep_of_fr (keep_alloc h _) (by rw [length_alloc]; exact Nat.lt_succ_self _)
        (fr_fill (fun _ _ _ => fr_setItem) hf), [], rfl, step_fresh rfl (step_fillSeq hf)⟩
  | .set t, .seq cs =>
    simp only [result, Option.bind_eq_bind, Option.pure_def, fillSet_eq] at e
    cases hf : fill setAdd t (alloc h (.set [])).2 (alloc h (.set [])).1 cs with
    | none => simp [hf] at e
    | some h1 =>
      simp only [hf, Option.bind_some, Option.some.injEq, Prod.mk.injEq] at e
      obtain ⟨rfl, rfl⟩ := e
      obtain ⟨l, hl, s⟩ := step_fill (fun _ _ _ => step_setAdd) (nn_alloc rfl n) hf
      exact ⟨keep_of_fr (keep_alloc h _) (by rw [length_alloc]; exact Nat.lt_succ_self _)
        (fr_fill (fun _ _ _ => fr_setAdd) hf), l, hl, step_fresh rfl s⟩
  | .dict k v, .dict cs =>
    simp only [result, Option.bind_eq_bind, Option.pure_def] at e
    cases hf : fillDict k v (alloc h (.dict [])).2 (alloc h (.dict [])).1 cs with
    | none => simp [hf] at e
    | some h1 =>
      simp only [hf, Option.bind_some, Option.some.injEq, Prod.mk.injEq] at e
      obtain ⟨rfl, rfl⟩ := e
      obtain ⟨l, hl, s⟩ := step_fillDict (nn_alloc rfl n) hf
      exact ⟨keep_of_fr (keep_alloc h _) (by rw [length_alloc]; exact Nat.lt_succ_self _)
        (fr_fillDict hf), l, hl, step_fresh rfl s⟩
  | .pack ts, .pack cs =>
    simp only [result, Option.bind_eq_bind, Option.pure_def] at e
    cases hf : results ts cs h with
    | none => simp [hf] at e
    | some p =>
      obtain ⟨h1, xs⟩ := p
      simp only [hf, Option.bind_some, Option.some.injEq, Prod.mk.injEq] at e
      obtain ⟨rfl, rfl⟩ := e
      obtain ⟨k, l, hl, s⟩ := step_results ts cs n hf
      have hx : ∀ x ∈ xs, x < h1.length := fun x hx => s.lt_of_mem n (by simp [hx])
      refine ⟨⟨?_, fun i hi => ?_⟩, l, hl, fun j => ?_⟩
      · rw [length_foldl_decref, length_alloc, length_foldl_incref]; have := k.1; omega
      · rw [obj_foldl_decref, obj_alloc_lt (by rw [length_foldl_incref]; exact Nat.lt_of_lt_of_le hi k.1),
          obj_foldl_incref, k.2 i hi]
      · rw [net_foldl_decref (fun x h => by
            rw [length_alloc, length_foldl_incref]; exact Nat.lt_succ_of_lt (hx x h)), net_alloc,
          net_foldl_incref hx, s j, alloc_fst]
        simp only [Obj.refs, List.count_cons, List.count_append, List.count_nil]; omega
theorem step_results (ts : ResTys) (cs : CRess) {h h' : Heap} {xs : List Id} (n : NN h)
    (e : results ts cs h = some (h', xs)) :
    Keep h.length h h' ∧ ∃ l, l.length = ressLeak ts cs ∧ Step h h' (xs ++ l) := by
  match ts, cs with
  | .nil, .nil =>
    simp only [results, Option.some.injEq, Prod.mk.injEq] at e
    obtain ⟨rfl, rfl⟩ := e
    exact ⟨Keep.refl _ _, [], rfl, Step.refl _⟩
  | .cons t ts, .cons c cs =>
    simp only [results, Option.bind_eq_bind, Option.pure_def] at e
    cases hf : result t c h with
    | none => simp [hf] at e
    | some p =>
      obtain ⟨h1, x⟩ := p
      obtain ⟨k1, l1, hl1, s1⟩ := step_result t c n hf
      simp only [hf, Option.bind_some] at e
      cases hg : results ts cs h1 with
      | none => simp [hg] at e
      | some q =>
        obtain ⟨h2, ys⟩ := q
        obtain ⟨k2, l2, hl2, s2⟩ := step_results ts cs (s1.nn n) hg
        simp only [hg, Option.bind_some, Option.some.injEq, Prod.mk.injEq] at e
        obtain ⟨rfl, rfl⟩ := e
        refine ⟨k1.trans k2 k1.1, l1 ++ l2, by simp [ressLeak, hl1, hl2], (s1.trans s2).perm fun j => ?_⟩
        simp only [List.count_append, List.count_cons]; omega
end

/-! ## Changed arguments -/

/-- The references lost when the contents of an argument are replaced. -/
def backLeak (L : Lang) : List Arg → List CVal → Nat
  | k :: ks, c :: cs =>
    (match L, k, c with
      | .c, .list _ false, .seq cs => cs.length
      | .c, .set _ false, .seq cs => cs.length
      | _, _, _ => 0) + backLeak L ks cs
  | _, _ => 0

theorem step_writeBack {L : Lang} {h h' : Heap} {k : Arg} {i : Id} {c : CVal} (n : NN h)
    (e : writeBack L h k i c = some h') :
    (∃ l, l.length = backLeak L [k] [c] ∧ Step h h' l) ∧ h.length ≤ h'.length ∧
      ∀ j, j < h.length → (L = .c → k.shared → j ≠ i) → h'.obj j = h.obj j := by
  unfold writeBack at e
  simp only [Option.bind_eq_bind] at e
  split at e
  · rename_i t cs
    cases hc : clear h i with
    | none => simp [hc] at e
    | some h1 =>
      simp only [hc, Option.bind_some, fillList_eq] at e
      have s1 := step_clear n hc
      obtain ⟨l, hl, s2⟩ := step_fill (fun _ _ _ => step_listAppend) (s1.nn n) e
      have f := (fr_clear hc).trans (fr_fill (fun _ _ _ => fr_listAppend) e)
      exact ⟨⟨l, by simp [backLeak, hl], s1.trans s2⟩, f.1, fun j hj hn => f.2 j hj (hn rfl rfl)⟩
  · rename_i t cs
    cases hc : clear h i with
    | none => simp [hc] at e
    | some h1 =>
      simp only [hc, Option.bind_some, fillSet_eq] at e
      have s1 := step_clear n hc
      obtain ⟨l, hl, s2⟩ := step_fill (fun _ _ _ => step_setAdd) (s1.nn n) e
      have f := (fr_clear hc).trans (fr_fill (fun _ _ _ => fr_setAdd) e)
      exact ⟨⟨l, by simp [backLeak, hl], s1.trans s2⟩, f.1, fun j hj hn => f.2 j hj (hn rfl rfl)⟩
  · rename_i h1 h2
    cases e
    refine ⟨⟨[], ?_, Step.refl _⟩, Nat.le_refl _, fun _ _ _ => rfl⟩
    simp only [backLeak, List.length_nil, Nat.add_zero]

theorem backLeak_cons (L : Lang) (k : Arg) (ks : List Arg) (c : CVal) (cs : List CVal) :
    backLeak L (k :: ks) (c :: cs) = backLeak L [k] [c] + backLeak L ks cs := by
  simp only [backLeak, Nat.add_zero]

theorem step_writeBacks {L : Lang} {h h' : Heap} {ks : List Arg} {is : List Id} {cs : List CVal} (n : NN h)
    (hl : is.length = ks.length) (e : writeBacks L h ks is cs = some h') :
    (∃ l, l.length = backLeak L ks cs ∧ Step h h' l) ∧ h.length ≤ h'.length ∧
      ∀ j, j < h.length → (L = .c → ∀ p ∈ ks.zip is, p.1.shared → j ≠ p.2) → h'.obj j = h.obj j := by
  induction ks generalizing is cs h with
  | nil =>
    simp only [writeBacks, Option.some.injEq] at e
    subst e
    exact ⟨⟨[], rfl, Step.refl _⟩, Nat.le_refl _, fun _ _ _ => rfl⟩
  | cons k ks ih =>
    cases is with
    | nil => simp at hl
    | cons i is =>
      cases cs with
      | nil =>
        simp only [writeBacks, Option.some.injEq] at e
        subst e
        exact ⟨⟨[], rfl, Step.refl _⟩, Nat.le_refl _, fun _ _ _ => rfl⟩
      | cons c cs =>
        simp only [writeBacks, Option.bind_eq_bind] at e
        cases hw : writeBack L h k i c with
        | none => simp [hw] at e
        | some h1 =>
          simp only [hw, Option.bind_some] at e
          obtain ⟨⟨l1, hl1, s1⟩, g1, f1⟩ := step_writeBack n hw
          obtain ⟨⟨l2, hl2, s2⟩, g2, f2⟩ := ih (s1.nn n) (by simpa using hl) e
          refine ⟨⟨l1 ++ l2, by rw [backLeak_cons, List.length_append, hl1, hl2], s1.trans s2⟩,
            Nat.le_trans g1 g2, fun j hj hn => ?_⟩
          rw [f2 j (Nat.lt_of_lt_of_le hj g1) (fun hL p hp => hn hL p (by simp [hp])),
            f1 j hj (fun hL => hn hL (k, i) (by simp))]

end Verif.Wrapper.Lemmas
