import Verif.Wrapper.Lemmas2

/-!
# Calls of compiled functions from Python: scalars
-/

namespace Verif.Wrapper.Lemmas
open Spec Model

/-! ## Text -/

theorem decode_one {a : Nat} (ha : a < 0x80) (bs : List Nat) : decode (a :: bs) = (decode bs).map (a :: ·) := by
  rw [decode.eq_def]; simp [ha]

theorem decode_two {a : Nat} (b : Nat) (ha : ¬ a < 0x80) (ha' : a < 0xE0) (bs : List Nat) :
    decode (a :: b :: bs) = (decode bs).map (((a - 0xC0) * 64 + (b - 0x80)) :: ·) := by
  rw [decode.eq_def]; simp [ha, ha']

theorem decode_three {a : Nat} (b c : Nat) (ha : ¬ a < 0xE0) (ha' : a < 0xF0) (bs : List Nat) :
    decode (a :: b :: c :: bs) =
      (decode bs).map (((a - 0xE0) * 4096 + (b - 0x80) * 64 + (c - 0x80)) :: ·) := by
  rw [decode.eq_def]; simp [ha, ha', show ¬ a < 0x80 by omega]

theorem decode_four {a : Nat} (b c d : Nat) (ha : ¬ a < 0xF0) (bs : List Nat) :
    decode (a :: b :: c :: d :: bs) = (decode bs).map
      (((a - 0xF0) * 262144 + (b - 0x80) * 4096 + (c - 0x80) * 64 + (d - 0x80)) :: ·) := by
  rw [decode.eq_def]; simp [ha, show ¬ a < 0x80 by omega, show ¬ a < 0xE0 by omega]

theorem decode_utf8 {c : Nat} {u : List Nat} (e : utf8 c = some u) (bs : List Nat) :
    decode (u ++ bs) = (decode bs).map (c :: ·) := by
  unfold utf8 at e
  split at e
  · cases e; exact decode_one (by assumption) bs
  · split at e
    · cases e
      simp only [List.cons_append, List.nil_append]
      rw [decode_two _ (by omega) (by omega)]
      rw [show (192 + c / 64 - 192) * 64 + (128 + c % 64 - 128) = c by omega]
    · split at e
      · cases e
      · split at e
        · cases e
          simp only [List.cons_append, List.nil_append]
          rw [decode_three _ _ (by omega) (by omega), show (224 + c / 4096 - 224) * 4096 +
            (128 + c / 64 % 64 - 128) * 64 + (128 + c % 64 - 128) = c by omega]
        · split at e
          · cases e
            simp only [List.cons_append, List.nil_append]
            rw [decode_four _ _ _ (by omega), show (240 + c / 262144 - 240) * 262144 +
              (128 + c / 4096 % 64 - 128) * 4096 + (128 + c / 64 % 64 - 128) * 64 + (128 + c % 64 - 128) = c
              by omega]
          · cases e

theorem encode_cons {c : Nat} {cs bs : List Nat} (e : encode (c :: cs) = some bs) :
    ∃ u v, utf8 c = some u ∧ encode cs = some v ∧ bs = u ++ v := by
  simp only [encode, Option.bind_eq_bind, Option.pure_def] at e
  cases h1 : utf8 c with
  | none => simp [h1] at e
  | some u =>
    cases h2 : encode cs with
    | none => simp [h1, h2] at e
    | some v =>
      simp [h1, h2] at e
      exact ⟨u, v, rfl, rfl, e.symm⟩

theorem decode_encode {s bs : List Nat} (e : encode s = some bs) : decode bs = some s := by
  induction s generalizing bs with
  | nil => cases e; rfl
  | cons c cs ih =>
    obtain ⟨u, v, h1, h2, rfl⟩ := encode_cons e
    rw [decode_utf8 h1, ih h2]; rfl

theorem utf8_zero {c : Nat} {u : List Nat} (e : utf8 c = some u) (hc : c ≠ 0) : 0 ∉ u := by
  unfold utf8 at e
  repeat' split at e
  all_goals first | cases e | skip
  all_goals simp
  all_goals omega

theorem encode_zero {s bs : List Nat} (e : encode s = some bs) (hs : 0 ∉ s) : 0 ∉ bs := by
  induction s generalizing bs with
  | nil => cases e; simp
  | cons c cs ih =>
    obtain ⟨u, v, h1, h2, rfl⟩ := encode_cons e
    simp only [List.mem_cons, not_or] at hs
    simp only [List.mem_append, not_or]
    exact ⟨utf8_zero h1 (Ne.symm hs.1), ih h2 hs.2⟩

theorem takeWhile_zero {bs : List Nat} (h : 0 ∉ bs) : bs.takeWhile (· ≠ 0) = bs := by
  induction bs with
  | nil => rfl
  | cons b bs ih =>
    simp only [List.mem_cons, not_or] at h
    rw [List.takeWhile_cons, if_pos (by simpa using Ne.symm h.1), ih h.2]

theorem encode_ascii {s : List Nat} (h : ∀ c ∈ s, c < 128) : encode s = some s := by
  induction s with
  | nil => rfl
  | cons c cs ih =>
    have h1 := h c List.mem_cons_self
    simp [encode, utf8, h1, ih (fun d hd => h d (List.mem_cons_of_mem _ hd))]

/-! ## Scalars -/

theorem check_iff {t : Ty} {o : Obj} : check t o = true ↔ ∃ a, o = .atom a ∧ IsA a t := by
  cases o with
  | atom a => cases t <;> cases a <;> simp [check, IsA, eq_comm]
  | _ => cases t <;> simp [check]

theorem wrap_id {w : Nat} {z : Int} (h1 : -2 ^ (w - 1) ≤ z) (h2 : z < 2 ^ (w - 1)) (hw : 1 ≤ w) :
    wrap w z = z := by
  unfold wrap
  have : (2 : Int) ^ w = 2 * 2 ^ (w - 1) := by
    obtain ⟨v, rfl⟩ : ∃ v, w = v + 1 := ⟨w - 1, by omega⟩
    rw [Int.pow_succ]; simp only [Nat.add_sub_cancel]; omega
  rw [Int.emod_eq_of_lt (by omega) (by omega)]
  omega

/-- Accepted scalars are converted without a change. -/
theorem cast_plain {L : Lang} {t : Ty} {a : Atom} (ht : IsA a t) (hp : Plain L a) :
    ∃ c, cast L t a = some (c, false) ∧ Same a c := by
  cases t <;> cases a <;> simp only [IsA] at ht <;> simp only [Plain] at hp
  · rename_i b; exact ⟨_, rfl, by cases b <;> simp [Same]⟩
  · rename_i z; refine ⟨.int z, ?_, rfl⟩; simp only [Model.cast]; exact if_pos hp
  · subst ht
    refine ⟨_, rfl, ?_⟩
    rw [wrap_id hp.1 hp.2.1 hp.2.2]; rfl
  · exact ⟨_, rfl, rfl⟩
  · rename_i s
    obtain ⟨h0, h1, h2⟩ := hp
    cases he : encode s with
    | none => simp [he] at h1
    | some bs =>
      cases L with
      | c =>
        refine ⟨.str bs, ?_, he⟩
        simp only [Model.cast, he, Option.map_some]
        rw [takeWhile_zero (encode_zero he h0)]
      | fortran =>
        have := encode_ascii (h2 rfl)
        rw [he] at this
        obtain rfl : bs = s := by simpa using this
        refine ⟨.str bs, ?_, he⟩
        simp only [Model.cast, he, Option.map_some, List.take_length]
  · exact ⟨_, rfl, rfl⟩

/-- Only surrogates make the conversion of an accepted scalar impossible. -/
theorem cast_some {L : Lang} {t : Ty} {a : Atom} (ht : IsA a t)
    (hs : ∀ s, a = .str s → (encode s).isSome) : (cast L t a).isSome := by
  cases t <;> cases a <;> simp only [IsA] at ht <;> try rfl
  · simp only [Model.cast]; split <;> rfl
  · have := hs _ rfl
    simp only [Model.cast, Option.isSome_map]; exact this

theorem uncast_sendable {t : Ty} {c : CAtom} (h : Sendable t c) :
    ∃ a, uncast t c = some a ∧ IsA a t ∧ Same a c := by
  cases t <;> cases c <;> simp only [Sendable] at h
  · exact ⟨_, rfl, trivial, rfl⟩
  · exact ⟨_, rfl, trivial, rfl⟩
  · exact ⟨_, rfl, rfl, rfl⟩
  · exact ⟨_, rfl, trivial, rfl⟩
  · obtain ⟨s, h0, he⟩ := h
    refine ⟨.str s, ?_, trivial, he⟩
    simp only [uncast]
    rw [takeWhile_zero (encode_zero he h0), decode_encode he]; rfl
  · exact ⟨_, rfl, rfl, rfl⟩

theorem Same_unique {a : Atom} {c c' : CAtom} (h : Same a c) (h' : Same a c') : c = c' := by
  cases a <;> cases c <;> simp only [Same] at h <;> cases c' <;> simp only [Same] at h' <;>
    simp_all

/-! ## Arguments -/

theorem allAre_iff {t : Ty} {h : Heap} {xs : List Id} :
    allAre t h xs = true ↔ ∀ x ∈ xs, h.isA t x := by
  unfold allAre
  rw [List.all_eq_true]
  constructor
  · intro hh x hx
    have := hh x hx
    cases ho : h.obj x with
    | none => simp [ho] at this
    | some o =>
      simp only [ho] at this
      obtain ⟨a, rfl, ha⟩ := check_iff.1 this
      exact ⟨a, ho, ha⟩
  · intro hh x hx
    obtain ⟨a, ho, ha⟩ := hh x hx
    simp only [ho]
    exact check_iff.2 ⟨a, rfl, ha⟩

theorem okArg_iff {h : Heap} {k : Arg} {i : Id} : okArg h k i = true ↔ h.hasType i k := by
  unfold okArg Heap.hasType
  cases k with
  | atom t =>
    simp only [Heap.isA]
    cases ho : h.obj i with
    | none => simp
    | some o => simp only [Option.some.injEq]; rw [check_iff]
  | _ =>
    simp only
    cases ho : h.obj i with
    | none => simp
    | some o => cases o <;> simp [allAre_iff]

theorem castTuple_plain {L : Lang} {t : Ty} {h : Heap} {xs : List Id} (ht : ∀ x ∈ xs, h.isA t x)
    (hp : ∀ x ∈ xs, ∀ a, h.obj x = some (.atom a) → Plain L a) :
    ∃ cs, castTuple L t h xs = some (cs, false) ∧ Each h.is xs cs := by
  induction xs with
  | nil => exact ⟨[], rfl, trivial⟩
  | cons x xs ih =>
    obtain ⟨a, ho, ha⟩ := ht x List.mem_cons_self
    obtain ⟨c, hc, hs⟩ := cast_plain ha (hp x List.mem_cons_self a ho)
    obtain ⟨cs, hcs, hes⟩ := ih (fun y hy => ht y (List.mem_cons_of_mem _ hy))
      (fun y hy => hp y (List.mem_cons_of_mem _ hy))
    exact ⟨c :: cs, by simp [castTuple, ho, hc, hcs], ⟨a, ho, hs⟩, hes⟩

theorem castTuple_some {L : Lang} {t : Ty} {h : Heap} {xs : List Id} (ht : ∀ x ∈ xs, h.isA t x)
    (hp : ∀ x ∈ xs, ∀ s, h.obj x = some (.atom (.str s)) → (encode s).isSome) :
    (castTuple L t h xs).isSome := by
  induction xs with
  | nil => rfl
  | cons x xs ih =>
    obtain ⟨a, ho, ha⟩ := ht x List.mem_cons_self
    have h1 := cast_some (L := L) ha (fun s hs => hp x List.mem_cons_self s (by rw [ho, hs]))
    have h2 := ih (fun y hy => ht y (List.mem_cons_of_mem _ hy))
      (fun y hy => hp y (List.mem_cons_of_mem _ hy))
    cases hc : cast L t a with
    | none => simp [hc] at h1
    | some c =>
      cases hr : castTuple L t h xs with
      | none => simp [hr] at h2
      | some r => simp [castTuple, ho, hc, hr]

theorem castVal_plain {L : Lang} {h : Heap} {k : Arg} {i : Id} (ht : h.hasType i k) (hp : h.plain L i) :
    ∃ c, castVal L h k i = some (c, false) ∧ h.arg i k c := by
  cases k with
  | atom t =>
    obtain ⟨a, ho, ha⟩ := ht
    simp only [Heap.plain, ho] at hp
    obtain ⟨c, hc, hs⟩ := cast_plain ha hp
    exact ⟨.atom c, by simp [castVal, ho, hc], a, ho, hs⟩
  | _ =>
    obtain ⟨xs, ho, ha⟩ := ht
    simp only [Heap.plain, ho, Obj.refs] at hp
    obtain ⟨cs, hc, hs⟩ := castTuple_plain ha hp
    exact ⟨.seq cs, by simp [castVal, ho, hc], xs, ho, hs⟩

theorem castVal_some {L : Lang} {h : Heap} {k : Arg} {i : Id} (ht : h.hasType i k) (hp : Heap.text h i) :
    (castVal L h k i).isSome := by
  cases k with
  | atom t =>
    obtain ⟨a, ho, ha⟩ := ht
    have := cast_some (L := L) ha (fun s hs => by subst hs; simpa only [Heap.text, ho] using hp)
    simp [castVal, ho, this]
  | _ =>
    obtain ⟨xs, ho, ha⟩ := ht
    have := castTuple_some (L := L) ha (by simpa only [Heap.text, ho, Obj.refs] using hp)
    simp [castVal, ho, this]

theorem castVals_length {L : Lang} {h : Heap} {ks : List Arg} {is : List Id} {x : List CVal × Bool}
    (e : castVals L h ks is = some (some x)) : AllTyped h ks is ∧ x.1.length = ks.length := by
  induction ks generalizing is x with
  | nil =>
    cases is with
    | nil => simp only [castVals, Option.some.injEq] at e; subst e; exact ⟨trivial, rfl⟩
    | cons i is => simp [castVals] at e
  | cons k ks ih =>
    cases is with
    | nil => simp [castVals] at e
    | cons i is =>
      simp only [castVals] at e
      split at e
      · rename_i ok
        cases hv : castVal L h k i with
        | none => simp [hv] at e
        | some r =>
          cases hw : castVals L h ks is with
          | none => simp [hv, hw] at e
          | some w =>
            cases w with
            | none => simp [hv, hw] at e
            | some w =>
              simp [hv, hw] at e
              subst e
              obtain ⟨h1, h2⟩ := ih hw
              exact ⟨⟨okArg_iff.1 ok, h1⟩, by simp [h2]⟩
      · simp at e

theorem castVals_fail {L : Lang} {h : Heap} {ks : List Arg} {is : List Id}
    (e : castVals L h ks is = some none) : ¬ AllTyped h ks is := by
  induction ks generalizing is with
  | nil => cases is <;> simp [castVals] at e
  | cons k ks ih =>
    cases is with
    | nil => simp [castVals] at e
    | cons i is =>
      simp only [castVals] at e
      rintro ⟨h1, h2⟩
      rw [if_pos (okArg_iff.2 h1)] at e
      cases hv : castVal L h k i with
      | none => simp [hv] at e
      | some r =>
        cases hw : castVals L h ks is with
        | none => simp [hv, hw] at e
        | some w =>
          cases w with
          | none => exact ih hw h2
          | some w => simp [hv, hw] at e

theorem castVals_plain {L : Lang} {h : Heap} {ks : List Arg} {is : List Id} (ht : AllTyped h ks is)
    (hp : ∀ i ∈ is, h.plain L i) :
    ∃ cs, castVals L h ks is = some (some (cs, false)) ∧
      Each (fun (p : Id × Arg) c => h.arg p.1 p.2 c) (is.zip ks) cs := by
  induction ks generalizing is with
  | nil =>
    cases is with
    | nil => exact ⟨[], rfl, trivial⟩
    | cons i is => exact ht.elim
  | cons k ks ih =>
    cases is with
    | nil => exact ht.elim
    | cons i is =>
      obtain ⟨c, hc, ha⟩ := castVal_plain ht.1 (hp i List.mem_cons_self)
      obtain ⟨cs, hcs, has⟩ := ih ht.2 (fun j hj => hp j (List.mem_cons_of_mem _ hj))
      refine ⟨c :: cs, ?_, ha, has⟩
      simp [castVals, okArg_iff.2 ht.1, hc, hcs]

theorem castVals_some {L : Lang} {h : Heap} {ks : List Arg} {is : List Id} (hl : is.length = ks.length)
    (hp : ∀ i ∈ is, Heap.text h i) : (castVals L h ks is).isSome := by
  induction ks generalizing is with
  | nil =>
    cases is with
    | nil => rfl
    | cons i is => simp at hl
  | cons k ks ih =>
    cases is with
    | nil => simp at hl
    | cons i is =>
      simp only [castVals]
      split
      · rename_i ok
        have h1 := castVal_some (L := L) (okArg_iff.1 ok) (hp i List.mem_cons_self)
        have h2 := ih (is := is) (by simpa using hl) (fun j hj => hp j (List.mem_cons_of_mem _ hj))
        cases hv : castVal L h k i with
        | none => simp [hv] at h1
        | some r => simp [h2]
      · rfl

end Verif.Wrapper.Lemmas
