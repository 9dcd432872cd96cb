import Verif.Wrapper.Lemmas5

/-!
# Calls of compiled functions from Python: whole calls
-/

namespace Verif.Wrapper.Lemmas
open Spec Model

theorem kind_of_type {h : Heap} {k : Arg} {i : Id} (ht : h.hasType i k) : sameKind h i k := by
  cases k with
  | atom t => trivial
  | tuple t => trivial
  | list t f => obtain ⟨xs, hx, _⟩ := ht; exact ⟨xs, hx⟩
  | set t f => obtain ⟨xs, hx, _⟩ := ht; exact ⟨xs, hx⟩

theorem kind_congr {h h' : Heap} {k : Arg} {i : Id} (hk : sameKind h i k) (e : h'.obj i = h.obj i) :
    sameKind h' i k := by
  cases k with
  | atom t => trivial
  | tuple t => trivial
  | list t f => obtain ⟨xs, hx⟩ := hk; exact ⟨xs, by rw [e, hx]⟩
  | set t f => obtain ⟨xs, hx⟩ := hk; exact ⟨xs, by rw [e, hx]⟩

theorem kind_lt {h : Heap} {k : Arg} {i : Id} (hk : sameKind h i k) (hs : k.shared) : i < h.length := by
  cases k with
  | atom t => simp [Arg.shared] at hs
  | tuple t => simp [Arg.shared] at hs
  | list t f => obtain ⟨xs, hx⟩ := hk; exact lt_of_obj hx
  | set t f => obtain ⟨xs, hx⟩ := hk; exact lt_of_obj hx

theorem writeBack_kind' {L : Lang} {h h' : Heap} {k k' : Arg} {i i' : Id} {c : CVal} (n : NN h)
    (hk : sameKind h i k) (ok : CVal.ok k c) (e : writeBack L h k i c = some h') (hk' : sameKind h i' k') :
    sameKind h' i' k' := by
  have f := (step_writeBack n e).2.2
  by_cases hs : L = .c ∧ k.shared = true ∧ i' = i
  · obtain ⟨_, hs, rfl⟩ := hs
    have hk1 := writeBack_kind n hk ok e
    cases k with
    | atom t => simp [Arg.shared] at hs
    | tuple t => simp [Arg.shared] at hs
    | list t f =>
      cases k' with
      | atom t => trivial
      | tuple t => trivial
      | list t f => exact hk1
      | set t f =>
        obtain ⟨xs, hx⟩ := hk; obtain ⟨ys, hy⟩ := hk'; rw [hx] at hy; cases hy
    | set t f =>
      cases k' with
      | atom t => trivial
      | tuple t => trivial
      | set t f => exact hk1
      | list t f =>
        obtain ⟨xs, hx⟩ := hk; obtain ⟨ys, hy⟩ := hk'; rw [hx] at hy; cases hy
  · by_cases hi : i' < h.length
    · exact kind_congr hk' (f i' hi (fun a b c => hs ⟨a, b, c⟩))
    · cases k' with
      | atom t => trivial
      | tuple t => trivial
      | list t f => obtain ⟨ys, hy⟩ := hk'; exact (hi (lt_of_obj hy)).elim
      | set t f => obtain ⟨ys, hy⟩ := hk'; exact (hi (lt_of_obj hy)).elim

/-- All arguments are still containers of their kinds. -/
def Kinds (h : Heap) (ks : List Arg) (is : List Id) : Prop := Each (fun i k => sameKind h i k) is ks

theorem Kinds.zip {h : Heap} {ks : List Arg} {is : List Id} (a : Kinds h ks is) :
    ∀ p ∈ ks.zip is, sameKind h p.2 p.1 := by
  induction ks generalizing is with
  | nil => simp
  | cons k ks ih =>
    cases is with
    | nil => simp
    | cons i is =>
      intro p hp
      rcases List.mem_cons.1 hp with rfl | hp
      · exact a.1
      · exact ih a.2 p hp

theorem mem_sharedIds {ks : List Arg} {is : List Id} {i : Id} :
    i ∈ sharedIds ks is ↔ ∃ k, (k, i) ∈ ks.zip is ∧ k.shared = true := by
  simp only [sharedIds, List.mem_map, List.mem_filter]
  constructor
  · rintro ⟨p, ⟨h1, h2⟩, rfl⟩; exact ⟨p.1, h1, h2⟩
  · rintro ⟨k, h1, h2⟩; exact ⟨(k, i), ⟨h1, h2⟩, rfl⟩

theorem writeBacks_spec {L : Lang} {h : Heap} {ks : List Arg} {is : List Id} {cs : List CVal} (n : NN h)
    (hk : Kinds h ks is) (ok : Each CVal.ok ks cs) :
    ∃ h', writeBacks L h ks is cs = some h' ∧ (L = .c → (sharedIds ks is).Nodup →
      ∀ p ∈ (ks.zip is).zip cs, p.1.1.shared → h'.arg p.1.2 p.1.1 p.2) := by
  induction ks generalizing is cs h with
  | nil => exact ⟨h, by simp [writeBacks], by simp⟩
  | cons k ks ih =>
    cases is with
    | nil => exact hk.elim
    | cons i is =>
      cases cs with
      | nil => exact ok.elim
      | cons c cs =>
        obtain ⟨h1, e1, f1⟩ := writeBack_spec hk.1 ok.1 L
        obtain ⟨⟨_, _, s1⟩, g1, r1⟩ := step_writeBack n e1
        have hk1 : Kinds h1 ks is := Each.mono hk.2 fun i' _ k' hk' => writeBack_kind' n hk.1 ok.1 e1 hk'
        obtain ⟨h2, e2, f2⟩ := ih (s1.nn n) hk1 ok.2
        obtain ⟨_, g2, r2⟩ := step_writeBacks (s1.nn n) (Each.length hk.2) e2
        refine ⟨h2, by simp [writeBacks, e1, e2], fun hL hn p hp hs => ?_⟩
        simp only [List.zip_cons_cons, List.mem_cons] at hp
        rcases hp with rfl | hp
        · simp only [sharedIds, List.zip_cons_cons] at hn
          simp only at hs
          rw [List.filter_cons_of_pos (by exact hs), List.map_cons, List.nodup_cons] at hn
          refine f1 hL hs h2 fun j hj hj' => r2 j hj' fun _ p hp hps hjp => ?_
          rcases hj with rfl | hj
          · exact hn.1 (mem_sharedIds.2 ⟨p.1, by rw [hjp]; exact hp, hps⟩)
          · have := kind_lt (Kinds.zip hk.2 p hp) hps
            rw [← hjp] at this
            exact Nat.lt_irrefl _ (Nat.lt_of_lt_of_le this hj)
        · refine f2 hL ?_ p hp hs
          simp only [sharedIds, List.zip_cons_cons] at hn
          by_cases hks : k.shared = true
          · rw [List.filter_cons_of_pos (by exact hks), List.map_cons, List.nodup_cons] at hn
            exact hn.2
          · rw [List.filter_cons_of_neg (by exact hks)] at hn
            exact hn

theorem arg_congr {h h' : Heap} {i : Id} {k : Arg} {c : CVal} (e : ∀ j, h'.obj j = h.obj j)
    (ha : h.arg i k c) : h'.arg i k c := by
  have e1 : h'.obj = h.obj := funext e
  have e2 : h'.is = h.is := by funext j c; unfold Heap.is; rw [e1]
  unfold Heap.arg at *
  rw [e1, e2]; exact ha

/-! ## Calls -/

theorem raise_spec (h : Heap) : ∃ l, l.length = 2 ∧
    Step h (raiseTypeError h).1 ((raiseTypeError h).2 :: l) ∧ Keep h.length h (raiseTypeError h).1 := by
  unfold raiseTypeError
  dsimp only
  refine ⟨[h.length, h.length + 1], rfl, ?_, ?_, ?_⟩
  · intro j
    rw [net_incref (by rw [length_alloc, alloc_fst, length_alloc]; exact Nat.lt_succ_self _), net_alloc, net_alloc]
    rw [alloc_fst, length_alloc]
    simp only [Obj.refs, List.count_cons, List.count_nil]; omega
  · rw [length_incref, length_alloc, length_alloc]; omega
  · intro j hj
    rw [obj_incref, obj_alloc_lt (by rw [length_alloc]; exact Nat.lt_succ_of_lt hj), obj_alloc_lt hj]

/-- The references lost in the conversion of the result. -/
def outLeak : Option ResTy → CRes → Nat
  | none, _ => 0
  | some t, c => resLeak t c

section
variable {L : Lang} {sig : List Arg} {res : Option ResTy} {g : List CVal → List CVal × CRes}
  {h h' : Heap} {is : List Id}

theorem castVals_lengths {r : Option (List CVal × Bool)} (e : castVals L h sig is = some r) :
    r.isSome → is.length = sig.length := by
  intro hr
  cases r with
  | none => simp at hr
  | some x => exact Each.length (castVals_length e).1

theorem call_inv {o : Outcome} (n : NN h) (h0 : 0 < h.length) (hi : ∀ i ∈ is, i < h.length)
    (e : call L sig res g h is = some (h', o)) :
    (castVals L h sig is = some none ∧ ∃ m l, o = .typeError m ∧ Keep h.length h h' ∧ Step h h' (m :: l) ∧
      l.length = failLeak h sig is + 2) ∨
    ∃ cs b r l, castVals L h sig is = some (some (cs, b)) ∧ o = (if b then .systemError r else .ok r) ∧
      Step h h' (r :: l) ∧
      l.length = argsLeak h sig is + outLeak res (g cs).2 + backLeak L sig (g cs).1 ∧
      h.length ≤ h'.length ∧ ∀ j, j < h.length → (L = .c → j ∉ sharedIds sig is) → h'.obj j = h.obj j := by
  obtain ⟨h1, e1, k1, s1⟩ := castArgs_spec (L := L) (ks := sig) (is := is) n hi
  unfold call at e
  simp only [e1, Option.bind_eq_bind, Option.pure_def] at e
  cases hv : castVals L h sig is with
  | none => simp [hv] at e
  | some v =>
    obtain ⟨l1, s1, hl1⟩ := s1 v hv
    simp only [hv, Option.map_some, Option.bind_some] at e
    cases v with
    | none =>
      simp only [Option.some.injEq, Prod.mk.injEq] at e
      obtain ⟨rfl, rfl⟩ := e
      obtain ⟨l2, hl2, s2, k2⟩ := raise_spec h1
      refine Or.inl ⟨rfl, _, l1 ++ l2, rfl, k1.trans k2 k1.1, (s1.trans s2).perm fun j => ?_, ?_⟩
      · simp only [List.count_append, List.count_cons]; omega
      · simp only [Option.isSome_none, Bool.false_eq_true, if_false] at hl1
        simp [hl1, hl2]
    | some x =>
      obtain ⟨cs, b⟩ := x
      have hlen := castVals_lengths hv rfl
      simp only [Option.isSome_some, if_true] at hl1
      simp only at e
      have n1 := s1.nn n
      cases res with
      | none =>
        simp only [Option.bind_some] at e
        cases hw : writeBacks L h1 sig is (g cs).1 with
        | none => simp [hw] at e
        | some h2 =>
          simp only [hw, Option.bind_some, Option.some.injEq, Prod.mk.injEq, Option.isNone_none, if_true] at e
          obtain ⟨rfl, rfl⟩ := e
          obtain ⟨⟨l2, hl2, s2⟩, g2, r2⟩ := step_writeBacks n1 hlen hw
          have l0 : 0 < h2.length := Nat.lt_of_lt_of_le h0 (Nat.le_trans k1.1 g2)
          refine Or.inr ⟨cs, b, 0, l1 ++ l2, rfl, rfl, fun j => ?_, ?_, ?_, fun j hj hn => ?_⟩
          · rw [net_incref l0, (s1.trans s2) j]
            simp only [List.count_append, List.count_cons, List.count_nil]; omega
          · simp [hl1, hl2, outLeak]
          · rw [length_incref]; exact Nat.le_trans k1.1 g2
          · rw [obj_incref, r2 j (Nat.lt_of_lt_of_le hj k1.1), k1.2 j hj]
            intro hL p hp hs hjp
            exact hn hL (mem_sharedIds.2 ⟨p.1, by rw [hjp]; exact hp, hs⟩)
      | some t =>
        cases hr : result t (g cs).2 h1 with
        | none => simp [hr] at e
        | some q =>
          obtain ⟨h2, r⟩ := q
          obtain ⟨k2, l2, hl2, s2⟩ := step_result t (g cs).2 n1 hr
          have s12 := s1.trans s2
          have n2 := s12.nn n
          simp only [hr, Option.bind_some] at e
          cases hw : writeBacks L h2 sig is (g cs).1 with
          | none => simp [hw] at e
          | some h3 =>
            simp only [hw, Option.bind_some, Option.some.injEq, Prod.mk.injEq, Option.isNone_some,
              Bool.false_eq_true, if_false] at e
            obtain ⟨rfl, rfl⟩ := e
            obtain ⟨⟨l3, hl3, s3⟩, g3, r3⟩ := step_writeBacks n2 hlen hw
            have k12 := k1.trans k2 k1.1
            refine Or.inr ⟨cs, b, r, (l1 ++ l2) ++ l3, rfl, rfl, (s12.trans s3).perm fun j => ?_, ?_, ?_,
              fun j hj hn => ?_⟩
            · simp only [List.count_append, List.count_cons]; omega
            · simp [hl1, hl2, hl3, outLeak]; omega
            · exact Nat.le_trans k12.1 g3
            · rw [r3 j (Nat.lt_of_lt_of_le hj k12.1), k12.2 j hj]
              intro hL p hp hs hjp
              exact hn hL (mem_sharedIds.2 ⟨p.1, by rw [hjp]; exact hp, hs⟩)

theorem shared_kind {k : Arg} {i : Id} (hk : sameKind h i k) (hs : k.shared) {a : Atom} :
    h.obj i ≠ some (.atom a) := by
  intro e
  cases k with
  | atom t => simp [Arg.shared] at hs
  | tuple t => simp [Arg.shared] at hs
  | list t f => obtain ⟨xs, hx⟩ := hk; rw [hx] at e; cases e
  | set t f => obtain ⟨xs, hx⟩ := hk; rw [hx] at e; cases e

theorem call_ok {cs : List CVal} {b : Bool} (n : NN h) (h0 : h.obj 0 = some (.atom .none))
    (hi : ∀ i ∈ is, i < h.length) (hv : castVals L h sig is = some (some (cs, b)))
    (ok : WellTyped sig res (g cs)) :
    ∃ h' r, call L sig res g h is = some (h', if b then .systemError r else .ok r) ∧
      h'.returned r (g cs).2 res ∧ (L = .c → (sharedIds sig is).Nodup →
        ∀ p ∈ (sig.zip is).zip (g cs).1, p.1.1.shared → h'.arg p.1.2 p.1.1 p.2) := by
  obtain ⟨h1, e1, k1, s1⟩ := castArgs_spec (L := L) (ks := sig) (is := is) n hi
  obtain ⟨l1, s1, -⟩ := s1 _ hv
  have n1 := s1.nn n
  have ht := (castVals_length hv).1
  have hlen := Each.length ht
  have hk1 : Kinds h1 sig is := Each.mono ht fun i him k hik =>
    kind_congr (kind_of_type hik) (k1.2 i (hi i him))
  have hnone : ∀ p ∈ sig.zip is, p.1.shared → (0 : Id) ≠ p.2 := fun p hp hs h02 => by
    refine shared_kind (Kinds.zip hk1 p hp) hs (a := .none) ?_
    rw [← h02, k1.2 0 (lt_of_obj h0), h0]
  unfold call
  simp only [e1, hv, Option.map_some, Option.bind_eq_bind, Option.bind_some, Option.pure_def]
  cases res with
  | none =>
    obtain ⟨h2, e2, f2⟩ := writeBacks_spec (L := L) n1 hk1 ok.1
    obtain ⟨_, g2, r2⟩ := step_writeBacks n1 hlen e2
    refine ⟨incref h2 0, 0, by simp [e2], ?_, fun hL hn p hp hs => ?_⟩
    · show (incref h2 0).obj 0 = some (.atom .none)
      rw [obj_incref, r2 0 (Nat.lt_of_lt_of_le (lt_of_obj h0) k1.1) (fun _ => hnone),
        k1.2 0 (lt_of_obj h0), h0]
    · have := f2 hL hn p hp hs
      exact arg_congr (fun j => (obj_incref h2 0 j)) this
  | some t =>
    obtain ⟨h2, r, e2, f2⟩ := result_spec t (g cs).2 (ok.2 t rfl) h1 n1
    obtain ⟨k2, l2, hl2, s2⟩ := step_result t (g cs).2 n1 e2
    have n2 := s2.nn n1
    have hk2 : Kinds h2 sig is := Each.mono ht fun i him k hik =>
      kind_congr (kind_of_type hik) (by
        rw [k2.2 i (Nat.lt_of_lt_of_le (hi i him) k1.1), k1.2 i (hi i him)])
    obtain ⟨h3, e3, f3⟩ := writeBacks_spec (L := L) n2 hk2 ok.1
    obtain ⟨_, g3, r3⟩ := step_writeBacks n2 hlen e3
    refine ⟨h3, r, by simp [e2, e3], f2 h3 fun j hj hj' => r3 j hj' fun _ p hp hs hjp => ?_, f3⟩
    have := kind_lt (Kinds.zip hk1 p hp) hs
    rw [← hjp] at this
    exact Nat.lt_irrefl _ (Nat.lt_of_lt_of_le this hj)
end

end Verif.Wrapper.Lemmas
