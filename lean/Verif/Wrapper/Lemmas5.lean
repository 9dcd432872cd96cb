import Verif.Wrapper.Lemmas4

/-!
# Calls of compiled functions from Python: the values of results and changed arguments
-/

namespace Verif.Wrapper.Lemmas
open Spec Model

theorem _root_.Verif.Wrapper.Spec.Each.mono {α β : Type} {R S : α → β → Prop} {as : List α} {bs : List β} (h : Each R as bs)
    (i : ∀ a ∈ as, ∀ b, R a b → S a b) : Each S as bs := by
  induction as generalizing bs with
  | nil => cases bs with
    | nil => trivial
    | cons b bs => exact h.elim
  | cons a as ih => cases bs with
    | nil => exact h.elim
    | cons b bs =>
      exact ⟨i a List.mem_cons_self b h.1, ih h.2 (fun x hx => i x (List.mem_cons_of_mem _ hx))⟩

theorem _root_.Verif.Wrapper.Spec.Each.append {α β : Type} {R : α → β → Prop} {as as' : List α} {bs bs' : List β} (h : Each R as bs)
    (h' : Each R as' bs') : Each R (as ++ as') (bs ++ bs') := by
  induction as generalizing bs with
  | nil => cases bs with
    | nil => exact h'
    | cons b bs => exact h.elim
  | cons a as ih => cases bs with
    | nil => exact h.elim
    | cons b bs => exact ⟨h.1, ih h.2⟩

theorem _root_.Verif.Wrapper.Spec.Each.exists {α β : Type} {R : α → β → Prop} {as : List α} {bs : List β} (h : Each R as bs) {a : α}
    (ha : a ∈ as) : ∃ b ∈ bs, R a b := by
  induction as generalizing bs with
  | nil => cases ha
  | cons x as ih => cases bs with
    | nil => exact h.elim
    | cons b bs =>
      rcases List.mem_cons.1 ha with rfl | ha
      · exact ⟨b, List.mem_cons_self, h.1⟩
      · obtain ⟨b', hb, hr⟩ := ih h.2 ha
        exact ⟨b', List.mem_cons_of_mem _ hb, hr⟩

theorem _root_.Verif.Wrapper.Spec.Each.length {α β : Type} {R : α → β → Prop} {as : List α} {bs : List β} (h : Each R as bs) :
    as.length = bs.length := by
  induction as generalizing bs with
  | nil => cases bs with
    | nil => rfl
    | cons b bs => exact h.elim
  | cons x as ih => cases bs with
    | nil => exact h.elim
    | cons b bs => simp [ih h.2]

theorem typed_congr {h h' : Heap} {t : Ty} {x : Id} {c : CAtom} (e : h'.obj x = h.obj x)
    (ht : h.typed t x c) : h'.typed t x c := by
  unfold Heap.typed at *; rw [e]; exact ht

theorem typed_is {h : Heap} {t : Ty} {x : Id} {c : CAtom} (ht : h.typed t x c) : h.is x c := by
  obtain ⟨a, h1, _, h3⟩ := ht; exact ⟨a, h1, h3⟩

theorem toObj_spec {t : Ty} {c : CAtom} (s : Sendable t c) (h : Heap) :
    ∃ h1, toObj h t c = some (h1, h.length) ∧ h1.length = h.length + 1 ∧
      (∀ j, j < h.length → h1.obj j = h.obj j) ∧ h1.typed t h.length c := by
  obtain ⟨a, hu, ha, hs⟩ := uncast_sendable s
  refine ⟨(alloc h (.atom a)).1, by simp [toObj, hu, alloc], length_alloc _ _, fun j hj => obj_alloc_lt hj,
    a, obj_alloc_new _ _, ha, hs⟩

/-- An element is added to the container `mk xs`. -/
def Puts (put : Heap → Id → Id → Option Heap) (mk : List Id → Obj) (nd : Bool) : Prop :=
  ∀ h i x xs, h.obj i = some (mk xs) → (nd = true → ∀ y ∈ xs, h.obj y ≠ h.obj x) →
    ∃ h', put h i x = some h' ∧ h'.length = h.length ∧ h'.obj i = some (mk (xs ++ [x])) ∧
      ∀ j, j ≠ i → h'.obj j = h.obj j

theorem setObj_self {h : Heap} {i : Id} {o : Obj} (o' : Obj) (e : h.obj i = some o) :
    (setObj h i o').obj i = some o' := by
  rw [obj_setObj, if_pos ⟨rfl, lt_of_obj e⟩]

theorem setObj_other {h : Heap} {i j : Id} {o' : Obj} (hj : j ≠ i) : (setObj h i o').obj j = h.obj j := by
  rw [obj_setObj, if_neg]
  rintro ⟨e, _⟩; exact hj e.symm

theorem puts_list : Puts setItem .list false := fun h i x xs e _ =>
  ⟨_, by simp [setItem, e], length_setObj _ _ _, setObj_self _ e, fun _ hj => setObj_other hj⟩

theorem puts_tuple : Puts setItem .tuple false := fun h i x xs e _ =>
  ⟨_, by simp [setItem, e], length_setObj _ _ _, setObj_self _ e, fun _ hj => setObj_other hj⟩

theorem puts_append : Puts listAppend .list false := fun h i x xs e _ =>
  ⟨setObj (incref h x) i (.list (xs ++ [x])), by simp [listAppend, e],
    by rw [length_setObj, length_incref],
    setObj_self (o := .list xs) _ (by rw [obj_incref]; exact e),
    fun _ hj => by rw [setObj_other hj, obj_incref]⟩

theorem puts_add : Puts setAdd .set true := fun h i x xs e nd =>
  ⟨setObj (incref h x) i (.set (xs ++ [x])), by
      unfold setAdd
      simp only [e]
      rw [if_neg]
      simp only [List.any_eq_true, decide_eq_true_eq, not_exists, not_and]
      exact nd rfl,
    by rw [length_setObj, length_incref],
    setObj_self (o := .set xs) _ (by rw [obj_incref]; exact e),
    fun _ hj => by rw [setObj_other hj, obj_incref]⟩

theorem fill_spec {put : Heap → Id → Id → Option Heap} {mk : List Id → Obj} {nd : Bool} (hp : Puts put mk nd)
    (hmk : ∀ xs a, mk xs ≠ .atom a) (t : Ty) (i : Id) (cs cs0 : List CAtom) (xs : List Id) (h : Heap)
    (hi : h.obj i = some (mk xs)) (h0 : Each (h.typed t) xs cs0)
    (hnd : nd = true → (cs0 ++ cs).Nodup) (hs : ∀ c ∈ cs, Sendable t c) :
    ∃ h' ys, fill put t i h cs = some h' ∧ h'.obj i = some (mk ys) ∧ Each (h'.typed t) ys (cs0 ++ cs) ∧
      ∀ y ∈ ys, y ∈ xs ∨ h.length ≤ y := by
  induction cs generalizing cs0 xs h with
  | nil =>
    refine ⟨h, xs, rfl, hi, ?_, fun y hy => Or.inl hy⟩
    rw [List.append_nil]; exact h0
  | cons c cs ih =>
    obtain ⟨h1, e1, l1, o1, t1⟩ := toObj_spec (hs c List.mem_cons_self) h
    have il := lt_of_obj hi
    have xl : ∀ x ∈ xs, x < h.length := fun x hx => by
      obtain ⟨b, _, a, ha, _⟩ := h0.exists hx
      exact lt_of_obj ha
    have xi : ∀ x ∈ xs, x ≠ i := fun x hx he => by
      obtain ⟨b, _, a, ha, _⟩ := h0.exists hx
      rw [he, hi] at ha
      exact hmk _ _ (Option.some.inj ha)
    obtain ⟨h2, e2, l2, i2, o2⟩ := hp h1 i h.length xs (by rw [o1 i il]; exact hi) (fun hn y hy he => by
      obtain ⟨b, hb, a, ha, _, hsa⟩ := h0.exists hy
      obtain ⟨a', ha', _, hsa'⟩ := t1
      rw [o1 y (xl y hy), ha, ha'] at he
      simp only [Option.some.injEq, Obj.atom.injEq] at he
      subst he
      have := Same_unique hsa hsa'
      subst this
      have nd := hnd hn
      rw [List.nodup_append] at nd
      exact nd.2.2 b hb b List.mem_cons_self rfl)
    have h02 : Each (h2.typed t) (xs ++ [h.length]) (cs0 ++ [c]) := by
      refine Each.append (h0.mono fun x hx b hb => ?_) ⟨?_, trivial⟩
      · exact typed_congr (by rw [o2 x (xi x hx), o1 x (xl x hx)]) hb
      · exact typed_congr (by rw [o2 _ (fun e => Nat.ne_of_lt il e.symm)]) t1
    obtain ⟨h3, ys, e3, i3, t3, f3⟩ := ih (cs0 ++ [c]) (xs ++ [h.length]) h2 i2 h02
      (fun hn => by rw [List.append_assoc]; exact hnd hn) (fun d hd => hs d (List.mem_cons_of_mem _ hd))
    refine ⟨h3, ys, by simp [fill, e1, e2, e3], i3, by rw [List.append_assoc] at t3; exact t3, ?_⟩
    intro y hy
    rcases f3 y hy with h | h
    · rcases List.mem_append.1 h with h | h
      · exact Or.inl h
      · exact Or.inr (by rw [List.mem_singleton] at h; rw [h]; exact Nat.le_refl _)
    · exact Or.inr (by rw [l2, l1] at h; exact Nat.le_of_succ_le h)

/-- Keys and values. -/
def pairTyped (h : Heap) (k v : Ty) (x : Id × Id) (c : CAtom × CAtom) : Prop :=
  h.typed k x.1 c.1 ∧ h.typed v x.2 c.2

theorem fillDict_spec (k v : Ty) (i : Id) (cs cs0 : List (CAtom × CAtom)) (xs : List (Id × Id)) (h : Heap)
    (hi : h.obj i = some (.dict xs)) (h0 : Each (pairTyped h k v) xs cs0)
    (hnd : ((cs0 ++ cs).map (·.1)).Nodup) (hs : ∀ c ∈ cs, Sendable k c.1 ∧ Sendable v c.2) :
    ∃ h' ys, fillDict k v i h cs = some h' ∧ h'.obj i = some (.dict ys) ∧
      Each (pairTyped h' k v) ys (cs0 ++ cs) ∧
      ∀ y ∈ ys, y ∈ xs ∨ h.length ≤ y.1 ∧ h.length ≤ y.2 := by
  induction cs generalizing cs0 xs h with
  | nil =>
    refine ⟨h, xs, rfl, hi, ?_, fun y hy => Or.inl hy⟩
    rw [List.append_nil]; exact h0
  | cons c cs ih =>
    obtain ⟨h1, e1, l1, o1, t1⟩ := toObj_spec (hs c List.mem_cons_self).1 h
    obtain ⟨h2, e2, l2, o2, t2⟩ := toObj_spec (hs c List.mem_cons_self).2 h1
    rw [l1] at e2 l2 o2 t2
    have o12 : ∀ j, j < h.length → h2.obj j = h.obj j := fun j hj => by
      rw [o2 j (Nat.lt_succ_of_lt hj), o1 j hj]
    have t1' : h2.typed k h.length c.1 := typed_congr (o2 _ (Nat.lt_succ_self _)) t1
    have il := lt_of_obj hi
    have xl : ∀ x ∈ xs, x.1 < h.length ∧ x.2 < h.length := fun x hx => by
      obtain ⟨b, _, ⟨a, ha, _⟩, ⟨a', ha', _⟩⟩ := h0.exists hx
      exact ⟨lt_of_obj ha, lt_of_obj ha'⟩
    have xi : ∀ x ∈ xs, x.1 ≠ i ∧ x.2 ≠ i := fun x hx => by
      obtain ⟨b, _, ⟨a, ha, _⟩, ⟨a', ha', _⟩⟩ := h0.exists hx
      constructor
      · intro he; rw [he, hi] at ha; cases ha
      · intro he; rw [he, hi] at ha'; cases ha'
    have hd : h2.obj i = some (.dict xs) := by rw [o12 i il]; exact hi
    have hany : ¬ (xs.any (fun y => h2.obj y.1 = h2.obj h.length) = true) := by
      simp only [List.any_eq_true, decide_eq_true_eq, not_exists, not_and]
      intro y hy he
      obtain ⟨b, hb, ⟨a, ha, _, hsa⟩, _⟩ := h0.exists hy
      obtain ⟨a', ha', _, hsa'⟩ := t1'
      rw [o12 _ (xl y hy).1, ha, ha'] at he
      simp only [Option.some.injEq, Obj.atom.injEq] at he
      subst he
      have := Same_unique hsa hsa'
      rw [List.map_append, List.nodup_append] at hnd
      exact hnd.2.2 b.1 (List.mem_map_of_mem hb) c.1 (by simp) this
    let h3 := setObj (incref (incref h2 h.length) (h.length + 1)) i (.dict (xs ++ [(h.length, h.length + 1)]))
    have e3 : dictSet h2 i h.length (h.length + 1) = some h3 := by
      unfold dictSet
      simp only [hd]
      rw [if_neg hany]
    have l3 : h3.length = h.length + 2 := by
      simp only [h3, length_setObj, length_incref, l2]
    have i3 : h3.obj i = some (.dict (xs ++ [(h.length, h.length + 1)])) :=
      setObj_self (o := .dict xs) _ (by rw [obj_incref, obj_incref]; exact hd)
    have o3 : ∀ j, j ≠ i → h3.obj j = h2.obj j := fun j hj => by
      simp only [h3]; rw [setObj_other hj, obj_incref, obj_incref]
    have h03 : Each (pairTyped h3 k v) (xs ++ [(h.length, h.length + 1)]) (cs0 ++ [c]) := by
      refine Each.append (h0.mono fun x hx b hb => ⟨?_, ?_⟩) ⟨⟨?_, ?_⟩, trivial⟩
      · exact typed_congr (by rw [o3 _ (xi x hx).1, o12 _ (xl x hx).1]) hb.1
      · exact typed_congr (by rw [o3 _ (xi x hx).2, o12 _ (xl x hx).2]) hb.2
      · exact typed_congr (by rw [o3 _ (fun e => Nat.ne_of_lt il e.symm)]) t1'
      · exact typed_congr (by rw [o3 _ (fun e => Nat.ne_of_lt (Nat.lt_succ_of_lt il) e.symm)]) t2
    obtain ⟨h4, ys, e4, i4, t4, f4⟩ := ih (cs0 ++ [c]) (xs ++ [(h.length, h.length + 1)]) h3 i3 h03
      (by rw [List.append_assoc]; exact hnd) (fun d hd => hs d (List.mem_cons_of_mem _ hd))
    refine ⟨h4, ys, ?_, i4, by rw [List.append_assoc] at t4; exact t4, ?_⟩
    · simp only [fillDict, e1, e2, e3, Option.bind_eq_bind, Option.bind_some]; exact e4
    intro y hy
    rcases f4 y hy with h | h
    · rcases List.mem_append.1 h with h | h
      · exact Or.inl h
      · refine Or.inr ?_
        rw [List.mem_singleton] at h; rw [h]; exact ⟨Nat.le_refl _, Nat.le_succ _⟩
    · rw [l3] at h
      exact Or.inr ⟨Nat.le_trans (Nat.le_add_right _ 2) h.1, Nat.le_trans (Nat.le_add_right _ 2) h.2⟩

/-- `h''` agrees with `h'` on the objects made after `h`. -/
def Agree (h h' h'' : Heap) : Prop := ∀ j, h.length ≤ j → j < h'.length → h''.obj j = h'.obj j

theorem seq_agree {h h' h'' : Heap} {t : Ty} {ys : List Id} {cs : List CAtom} (ag : Agree h h' h'')
    (f : ∀ y ∈ ys, h.length ≤ y) (e : Each (h'.typed t) ys cs) : Each (h''.typed t) ys cs :=
  e.mono fun y hy b hb => by
    have hl : y < h'.length := by obtain ⟨a, ha, _⟩ := hb; exact lt_of_obj ha
    exact typed_congr (ag y (f y hy) hl) hb

theorem fresh_seq {put : Heap → Id → Id → Option Heap} {mk : List Id → Obj} {nd : Bool} (hp : Puts put mk nd)
    (hmk : ∀ xs a, mk xs ≠ .atom a) (t : Ty) (cs : List CAtom) (h : Heap)
    (hnd : nd = true → cs.Nodup) (hs : ∀ c ∈ cs, Sendable t c) :
    ∃ h', fill put t (alloc h (mk [])).2 (alloc h (mk [])).1 cs = some h' ∧
      ∀ h'', Agree h h' h'' → ∃ ys, h''.obj h.length = some (mk ys) ∧ Each (h''.typed t) ys cs := by
  obtain ⟨h', ys, e, i', t', f'⟩ := fill_spec hp hmk t h.length cs [] [] (alloc h (mk [])).1
    (obj_alloc_new _ _) trivial hnd hs
  refine ⟨h', e, fun h'' ag => ⟨ys, ?_, ?_⟩⟩
  · rw [ag _ (Nat.le_refl _) (lt_of_obj i'), i']
  · refine seq_agree ag (fun y hy => ?_) t'
    rcases f' y hy with h | h
    · cases h
    · rw [length_alloc] at h; exact Nat.le_of_succ_le h

mutual
theorem result_spec (t : ResTy) (c : CRes) (ok : CRes.ok t c) (h : Heap) (n : NN h) :
    ∃ h' r, result t c h = some (h', r) ∧ ∀ h'', Agree h h' h'' → h''.res t c r := by
  match t, c with
  | .atom t, .atom c =>
    obtain ⟨h1, e1, l1, o1, t1⟩ := toObj_spec ok h
    refine ⟨h1, h.length, e1, fun h'' ag => ?_⟩
    exact typed_congr (ag _ (Nat.le_refl _) (by rw [l1]; exact Nat.lt_succ_self _)) t1
  | .list t, .seq cs =>
    obtain ⟨h', e, f⟩ := fresh_seq puts_list (by simp) t cs h (by simp) ok
    refine ⟨h', h.length, ?_, f⟩
    simp only [result, fillSeq_eq, Option.bind_eq_bind]
    rw [e]; rfl
  | .tuple t, .seq cs =>
    obtain ⟨h', e, f⟩ := fresh_seq puts_tuple (by simp) t cs h (by simp) ok
    refine ⟨h', h.length, ?_, f⟩
    simp only [result, fillSeq_eq, Option.bind_eq_bind]
    rw [e]; rfl
  | .set t, .seq cs =>
    obtain ⟨h', e, f⟩ := fresh_seq puts_add (by simp) t cs h (fun _ => ok.1) ok.2
    refine ⟨h', h.length, ?_, f⟩
    simp only [result, fillSet_eq, Option.bind_eq_bind]
    rw [e]; rfl
  | .dict k v, .dict cs =>
    obtain ⟨h', ys, e, i', t', f'⟩ := fillDict_spec k v h.length cs [] [] (alloc h (.dict [])).1
      (obj_alloc_new _ _) trivial ok.1 ok.2
    refine ⟨h', h.length, ?_, fun h'' ag => ⟨ys, ?_, ?_⟩⟩
    · simp only [result, Option.bind_eq_bind]
      rw [show (alloc h (.dict [])).2 = h.length from rfl, e]; rfl
    · rw [ag _ (Nat.le_refl _) (lt_of_obj i'), i']
    · refine Each.mono t' fun y hy b hb => ?_
      have hy' : h.length ≤ y.1 ∧ h.length ≤ y.2 := by
        rcases f' y hy with h | h
        · cases h
        · rw [length_alloc] at h; exact ⟨Nat.le_of_succ_le h.1, Nat.le_of_succ_le h.2⟩
      obtain ⟨⟨a, ha, ha'⟩, ⟨a2, ha2, ha2'⟩⟩ := hb
      exact ⟨typed_congr (ag _ hy'.1 (lt_of_obj ha)) ⟨a, ha, ha'⟩,
        typed_congr (ag _ hy'.2 (lt_of_obj ha2)) ⟨a2, ha2, ha2'⟩⟩
  | .pack ts, .pack cs =>
    obtain ⟨h1, xs, e1, f1⟩ := results_spec ts cs ok h n
    obtain ⟨k1, _, _, _⟩ := step_results ts cs n e1
    refine ⟨xs.foldl decref (alloc (xs.foldl incref h1) (.tuple xs)).1, h1.length, ?_, fun h'' ag => ?_⟩
    · simp only [result, e1, Option.bind_eq_bind, Option.bind_some]
      rw [alloc_fst, length_foldl_incref]; rfl
    · refine ⟨xs, ?_, f1 h'' fun j hj hj' => ?_⟩
      · rw [ag _ k1.1 (by rw [length_foldl_decref, length_alloc, length_foldl_incref]; exact Nat.lt_succ_self _),
          obj_foldl_decref, ← length_foldl_incref xs h1, obj_alloc_new]
      · rw [ag j hj (by
          rw [length_foldl_decref, length_alloc, length_foldl_incref]; exact Nat.lt_succ_of_lt hj'),
          obj_foldl_decref, obj_alloc_lt (by rw [length_foldl_incref]; exact hj'), obj_foldl_incref]
  | .atom _, .seq _ | .atom _, .dict _ | .atom _, .pack _ => exact ok.elim
  | .list _, .atom _ | .list _, .dict _ | .list _, .pack _ => exact ok.elim
  | .tuple _, .atom _ | .tuple _, .dict _ | .tuple _, .pack _ => exact ok.elim
  | .set _, .atom _ | .set _, .dict _ | .set _, .pack _ => exact ok.elim
  | .dict _ _, .atom _ | .dict _ _, .seq _ | .dict _ _, .pack _ => exact ok.elim
  | .pack _, .atom _ | .pack _, .seq _ | .pack _, .dict _ => exact ok.elim
theorem results_spec (ts : ResTys) (cs : CRess) (ok : CRess.ok ts cs) (h : Heap) (n : NN h) :
    ∃ h' xs, results ts cs h = some (h', xs) ∧ ∀ h'', Agree h h' h'' → h''.ress ts cs xs := by
  match ts, cs with
  | .nil, .nil => exact ⟨h, [], rfl, fun _ _ => trivial⟩
  | .cons t ts, .cons c cs =>
    obtain ⟨h1, x, e1, f1⟩ := result_spec t c ok.1 h n
    obtain ⟨k1, _, _, s1⟩ := step_result t c n e1
    obtain ⟨h2, xs, e2, f2⟩ := results_spec ts cs ok.2 h1 (s1.nn n)
    obtain ⟨k2, _, _, _⟩ := step_results ts cs (s1.nn n) e2
    refine ⟨h2, x :: xs, by simp [results, e1, e2], fun h'' ag => ⟨f1 h'' fun j hj hj' => ?_,
      f2 h'' fun j hj hj' => ag j (Nat.le_trans k1.1 hj) hj'⟩⟩
    rw [ag j hj (Nat.lt_of_lt_of_le hj' k2.1), k2.2 j hj']
  | .nil, .cons _ _ => exact ok.elim
  | .cons _ _, .nil => exact ok.elim
end

/-! ## Changed arguments -/

theorem clear_list {h : Heap} {i : Id} {xs : List Id} (e : h.obj i = some (.list xs)) :
    ∃ h', clear h i = some h' ∧ h'.obj i = some (.list []) := by
  refine ⟨setObj (xs.foldl decref h) i (.list []), by unfold clear; rw [e], ?_⟩
  exact setObj_self (o := .list xs) _ (by rw [obj_foldl_decref]; exact e)

theorem clear_set {h : Heap} {i : Id} {xs : List Id} (e : h.obj i = some (.set xs)) :
    ∃ h', clear h i = some h' ∧ h'.obj i = some (.set []) := by
  refine ⟨setObj (xs.foldl decref h) i (.set []), by unfold clear; rw [e], ?_⟩
  exact setObj_self (o := .set xs) _ (by rw [obj_foldl_decref]; exact e)

/-- The argument is still a container of its kind. -/
def sameKind (h : Heap) (i : Id) : Arg → Prop
  | .list _ _ => ∃ xs, h.obj i = some (.list xs)
  | .set _ _ => ∃ xs, h.obj i = some (.set xs)
  | _ => True

theorem writeBack_spec {h : Heap} {k : Arg} {i : Id} {c : CVal} (hk : sameKind h i k) (ok : CVal.ok k c) (L : Lang) :
    ∃ h', writeBack L h k i c = some h' ∧
      (L = .c → k.shared → ∀ h'' : Heap, (∀ j, j = i ∨ h.length ≤ j → j < h'.length → h''.obj j = h'.obj j) →
        h''.arg i k c) := by
  have triv : writeBack L h k i c = some h → (L = .c → k.shared → False) → ∃ h', writeBack L h k i c = some h' ∧
      (L = .c → k.shared → ∀ h'' : Heap, (∀ j, j = i ∨ h.length ≤ j → j < h'.length → h''.obj j = h'.obj j) →
        h''.arg i k c) := fun e f => ⟨h, e, fun hL hs => (f hL hs).elim⟩
  have use : ∀ {put : Heap → Id → Id → Option Heap} {mk : List Id → Obj} {nd : Bool} (_ : Puts put mk nd)
      (_ : ∀ xs a, mk xs ≠ .atom a) (t : Ty) (cs : List CAtom) (_ : nd = true → cs.Nodup)
      (_ : ∀ c ∈ cs, Sendable t c) (h1 : Heap) (_ : clear h i = some h1) (_ : h1.obj i = some (mk [])),
      ∃ h', fill put t i h1 cs = some h' ∧ ∀ h'' : Heap, (∀ j, j = i ∨ h.length ≤ j → j < h'.length →
        h''.obj j = h'.obj j) → ∃ ys, h''.obj i = some (mk ys) ∧ Each h''.is ys cs := by
    intro put mk nd hp hmk t cs hnd hs h1 e1 i1
    obtain ⟨h', ys, e, i', t', f'⟩ := fill_spec hp hmk t i cs [] [] h1 i1 trivial hnd hs
    refine ⟨h', e, fun h'' ag => ⟨ys, by rw [ag i (Or.inl rfl) (lt_of_obj i'), i'], ?_⟩⟩
    refine Each.mono t' fun y hy b hb => ?_
    have hy' : h.length ≤ y := by
      rcases f' y hy with h | h
      · cases h
      · exact Nat.le_trans (fr_clear e1).1 h
    obtain ⟨a, ha, ha'⟩ := hb
    exact typed_is (typed_congr (ag y (Or.inr hy') (lt_of_obj ha)) ⟨a, ha, ha'⟩)
  cases k with
  | atom t => exact triv (by cases L <;> rfl) (fun _ hs => by simp [Arg.shared] at hs)
  | tuple t => exact triv (by cases L <;> rfl) (fun _ hs => by simp [Arg.shared] at hs)
  | list t f =>
    cases L with
    | fortran => exact triv rfl (fun h => by cases h)
    | c =>
      cases f with
      | true => exact triv rfl (fun _ hs => by simp [Arg.shared] at hs)
      | false =>
        cases c with
        | atom c => exact ok.elim
        | seq cs =>
          obtain ⟨xs, hx⟩ := hk
          obtain ⟨h1, e1, i1⟩ := clear_list hx
          obtain ⟨h', e, f⟩ := use puts_append (by simp) t cs (by simp) ok h1 e1 i1
          refine ⟨h', ?_, fun _ _ => f⟩
          simp [writeBack, e1, fillList_eq, e]
  | set t f =>
    cases L with
    | fortran => exact triv rfl (fun h => by cases h)
    | c =>
      cases f with
      | true => exact triv rfl (fun _ hs => by simp [Arg.shared] at hs)
      | false =>
        cases c with
        | atom c => exact ok.elim
        | seq cs =>
          obtain ⟨xs, hx⟩ := hk
          obtain ⟨h1, e1, i1⟩ := clear_set hx
          obtain ⟨h', e, f⟩ := use puts_add (by simp) t cs (fun _ => ok.1) ok.2 h1 e1 i1
          refine ⟨h', ?_, fun _ _ => f⟩
          simp [writeBack, e1, fillSet_eq, e]

theorem writeBack_kind {L : Lang} {h h' : Heap} {k : Arg} {i : Id} {c : CVal} (n : NN h)
    (hk : sameKind h i k) (ok : CVal.ok k c)
    (e : writeBack L h k i c = some h') : sameKind h' i k := by
  by_cases hs : L = .c ∧ k.shared = true
  · obtain ⟨h1, e1, f⟩ := writeBack_spec hk ok L
    rw [e] at e1
    cases e1
    have := f hs.1 hs.2 h' (fun _ _ _ => rfl)
    cases k with
    | list t f =>
      cases c with
      | atom _ => exact this.elim
      | seq _ => obtain ⟨xs, hx, _⟩ := this; exact ⟨xs, hx⟩
    | set t f =>
      cases c with
      | atom _ => exact this.elim
      | seq _ => obtain ⟨xs, hx, _⟩ := this; exact ⟨xs, hx⟩
    | _ => trivial
  · have f := (step_writeBack n e).2.2
    cases k with
    | list t fin =>
      obtain ⟨xs, hx⟩ := hk
      exact ⟨xs, by rw [f i (lt_of_obj hx) (fun a b => (hs ⟨a, b⟩).elim), hx]⟩
    | set t fin =>
      obtain ⟨xs, hx⟩ := hk
      exact ⟨xs, by rw [f i (lt_of_obj hx) (fun a b => (hs ⟨a, b⟩).elim), hx]⟩
    | _ => trivial

end Verif.Wrapper.Lemmas
