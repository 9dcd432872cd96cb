import Verif.Calls.BindLemmas
import Mathlib.Tactic.Linarith
/-!
# The closed form of the sorted arguments is Python's binding
-/

namespace Verif.Calls
open Spec

section
variable {V : Type}

/-- The arguments passed for a binding. -/
def encode (s : Sig V) (b : Bound V) : List (Arg V) :=
  b.pos.map .val ++ ((if s.vararg then [.tuple b.star] else []) ++
    (b.kwonly.map .val ++ (if s.kwarg then [.dict b.extra] else [])))

theorem map_some_iff (l : List V) (m : List (Option V)) :
    l.map some = m ↔ l.length = m.length ∧
      ∀ (i : Nat) (o : Option V), m[i]? = some o → l[i]? = o ∧ l[i]? ≠ none := by
  constructor
  · rintro rfl
    refine ⟨by simp, ?_⟩
    intro i o h
    rw [List.getElem?_map, Option.map_eq_some_iff] at h
    obtain ⟨a, ha, rfl⟩ := h
    simp [ha]
  · rintro ⟨h1, h2⟩
    apply List.ext_getElem?
    intro i
    rw [List.getElem?_map]
    cases hm : m[i]? with
    | none =>
      rw [List.getElem?_eq_none_iff] at hm
      rw [List.getElem?_eq_none_iff.2 (by omega)]
      rfl
    | some o =>
      obtain ⟨h3, h4⟩ := h2 i o hm
      rw [h3] at h4 ⊢
      cases o with
      | none => exact absurd rfl h4
      | some v => rfl

theorem kwonly_iff (l : List V) (kw : List (String × V)) (ps : List (String × Option V)) :
    ((∀ (j : Nat) (p : String × Option V), ps[j]? = some p →
      (l[j]? = if (kw.lookup p.1).isSome then kw.lookup p.1 else p.2) ∧ l[j]? ≠ none) ∧
      l.length = ps.length) ↔ l.map some = ps.map (supply kw) := by
  rw [map_some_iff]
  constructor
  · rintro ⟨h1, h2⟩
    refine ⟨by simpa using h2, ?_⟩
    intro i o ho
    rw [List.getElem?_map, Option.map_eq_some_iff] at ho
    obtain ⟨p, hp, rfl⟩ := ho
    exact h1 i p hp
  · rintro ⟨h1, h2⟩
    refine ⟨?_, by simpa using h1⟩
    intro j p hp
    exact h2 j (supply kw p) (by rw [List.getElem?_map, hp]; rfl)

theorem pos_iff (s : Sig V) (c : Call V) (l : List V) (hP : s.posonly.length ≤ c.pos.length) :
    ((∀ (i : Nat) (p : String × Option V), s.posonly[i]? = some p →
        (l[i]? = if i < c.pos.length then c.pos[i]? else p.2) ∧ l[i]? ≠ none) ∧
      (∀ (j : Nat) (p : String × Option V), s.normal[j]? = some p →
        let i := s.posonly.length + j
        (l[i]? = if i < c.pos.length then c.pos[i]?
          else if (c.kw.lookup p.1).isSome then c.kw.lookup p.1 else p.2) ∧ l[i]? ≠ none) ∧
      l.length = s.posonly.length + s.normal.length) ↔
    l.map some = (c.pos.take (s.posonly.length + s.normal.length)).map some ++
      (s.normal.drop (c.pos.length - s.posonly.length)).map (supply c.kw) := by
  rw [map_some_iff]
  have hlen : ((c.pos.take (s.posonly.length + s.normal.length)).map some ++
      (s.normal.drop (c.pos.length - s.posonly.length)).map (supply c.kw)).length =
      s.posonly.length + s.normal.length := by
    simp only [List.length_append, List.length_map, List.length_take, List.length_drop]
    omega
  have hget1 : ∀ i, i < c.pos.length → i < s.posonly.length + s.normal.length →
      ((c.pos.take (s.posonly.length + s.normal.length)).map some ++
      (s.normal.drop (c.pos.length - s.posonly.length)).map (supply c.kw))[i]? =
      some c.pos[i]? := by
    intro i h1 h2
    rw [List.getElem?_append_left (by simp; omega), List.getElem?_map,
      List.getElem?_take_of_lt h2, List.getElem?_eq_getElem h1]
    rfl
  have hget2 : ∀ j p, s.normal[j]? = some p → ¬ s.posonly.length + j < c.pos.length →
      ((c.pos.take (s.posonly.length + s.normal.length)).map some ++
      (s.normal.drop (c.pos.length - s.posonly.length)).map (supply c.kw))[s.posonly.length + j]? =
      some (supply c.kw p) := by
    intro j p hp hj
    have hjl : j < s.normal.length := (List.getElem?_eq_some_iff.1 hp).1
    have htl : ((c.pos.take (s.posonly.length + s.normal.length)).map some).length =
        c.pos.length := by
      simp; omega
    rw [List.getElem?_append_right (by omega), htl, List.getElem?_map, List.getElem?_drop]
    have : c.pos.length - s.posonly.length + (s.posonly.length + j - c.pos.length) = j := by omega
    rw [this, hp]
    rfl
  rw [hlen]
  constructor
  · rintro ⟨h1, h2, h3⟩
    refine ⟨h3, ?_⟩
    intro i o ho
    have hi : i < s.posonly.length + s.normal.length := by
      have := (List.getElem?_eq_some_iff.1 ho).1
      rwa [hlen] at this
    by_cases hiP : i < s.posonly.length
    · rw [hget1 i (by omega) hi, Option.some.injEq] at ho
      subst ho
      have := h1 i s.posonly[i] (List.getElem?_eq_getElem hiP)
      rwa [if_pos (by omega)] at this
    · obtain ⟨j, rfl⟩ : ∃ j, i = s.posonly.length + j := ⟨i - s.posonly.length, by omega⟩
      have hj : j < s.normal.length := by omega
      have h4 := h2 j s.normal[j] (List.getElem?_eq_getElem hj)
      by_cases hL : s.posonly.length + j < c.pos.length
      · rw [hget1 _ hL hi, Option.some.injEq] at ho
        subst ho
        simpa only [if_pos hL] using h4
      · rw [hget2 j _ (List.getElem?_eq_getElem hj) hL, Option.some.injEq] at ho
        subst ho
        simp only [if_neg hL] at h4
        exact h4
  · rintro ⟨h1, h2⟩
    refine ⟨?_, ?_, h1⟩
    · intro i p hp
      have hi := (List.getElem?_eq_some_iff.1 hp).1
      rw [if_pos (by omega)]
      exact h2 i _ (hget1 i (by omega) (by omega))
    · intro j p hp
      have hj := (List.getElem?_eq_some_iff.1 hp).1
      by_cases hL : s.posonly.length + j < c.pos.length
      · simp only [if_pos hL]
        exact h2 _ _ (hget1 _ hL (by omega))
      · simp only [if_neg hL]
        exact h2 _ _ (hget2 j p hp hL)

/-- The leftover keywords are Python's when no keyword names a filled parameter. -/
theorem left_eq (s : Sig V) (c : Call V)
    (hclash : ∀ (j : Nat) (p : String × Option V), s.normal[j]? = some p →
      s.posonly.length + j < c.pos.length → p.1 ∉ c.kw.map Prod.fst) :
    c.kw.filter (fun kv => !((s.normal.drop (c.pos.length - s.posonly.length) ++
      s.kwonly).map Prod.fst).contains kv.1) =
    c.kw.filter (fun kv => !((s.normal ++ s.kwonly).map Prod.fst).contains kv.1) := by
  apply List.filter_congr
  intro kv hkv
  congr 1
  rw [Bool.eq_iff_iff]
  simp only [List.contains_eq_mem, decide_eq_true_eq, List.map_append, List.mem_append]
  constructor
  · rintro (h | h)
    · obtain ⟨p, hp, he⟩ := List.mem_map.1 h
      exact Or.inl (he ▸ List.mem_map_of_mem (List.mem_of_mem_drop hp))
    · exact Or.inr h
  · rintro (h | h)
    · obtain ⟨p, hp, he⟩ := List.mem_map.1 h
      obtain ⟨j, hj, rfl⟩ := List.mem_iff_getElem.1 hp
      left
      have hnot : ¬ s.posonly.length + j < c.pos.length := by
        intro hL
        exact hclash j _ (List.getElem?_eq_getElem hj) hL (he ▸ List.mem_map_of_mem hkv)
      rw [← he]
      apply List.mem_map_of_mem
      rw [List.mem_iff_getElem?]
      refine ⟨j - (c.pos.length - s.posonly.length), ?_⟩
      rw [List.getElem?_drop, ← List.getElem?_eq_getElem hj]
      congr 1
      omega
    · exact Or.inr h

theorem mapM_some {α : Type} (l : List α) : (l.map some).mapM id = some l := by
  induction l with
  | nil => rfl
  | cons a l ih => simp only [List.map_cons, List.mapM_cons, ih]; rfl

theorem mapM_id_some {α : Type} {l : List (Option α)} {m : List α} (h : l.mapM id = some m) :
    l = m.map some := by
  induction l generalizing m with
  | nil => simp at h; simp [h]
  | cons a l ih =>
    simp only [List.mapM_cons, id, Option.pure_def, Option.bind_eq_bind,
      Option.bind_eq_some_iff, Option.some.injEq] at h
    obtain ⟨x, rfl, m', hm', rfl⟩ := h
    rw [ih hm', List.map_cons]

theorem map_val_inj {l : List (Option V)} {m : List (Arg V)}
    (h : l.map (fun o => o.map Arg.val) = m.map some) :
    ∃ vs : List V, l = vs.map some ∧ m = vs.map .val := by
  induction l generalizing m with
  | nil =>
    refine ⟨[], rfl, ?_⟩
    cases m with
    | nil => rfl
    | cons a m => simp at h
  | cons o l ih =>
    cases m with
    | nil => simp at h
    | cons a m =>
      simp only [List.map_cons, List.cons.injEq] at h
      obtain ⟨vs, h1, h2⟩ := ih h.2
      cases o with
      | none => simp at h
      | some v =>
        refine ⟨v :: vs, by simp [h1], ?_⟩
        simp only [Option.map_some, Option.some.injEq] at h
        simp [h2, ← h.1]

/-- Python's binding, equation by equation. -/
theorem binds_iff (s : Sig V) (c : Call V) (b : Bound V)
    (hP : s.posonly.length ≤ c.pos.length) :
    Binds s c b ↔
      b.pos.map some = (c.pos.take (s.posonly.length + s.normal.length)).map some ++
        (s.normal.drop (c.pos.length - s.posonly.length)).map (supply c.kw) ∧
      b.kwonly.map some = s.kwonly.map (supply c.kw) ∧
      b.star = c.pos.drop (s.posonly.length + s.normal.length) ∧
      (b.star ≠ [] → s.vararg = true) ∧
      (∀ (j : Nat) (p : String × Option V), s.normal[j]? = some p →
        s.posonly.length + j < c.pos.length → p.1 ∉ c.kw.map Prod.fst) ∧
      b.extra = c.kw.filter (fun kv => !((s.normal ++ s.kwonly).map Prod.fst).contains kv.1) ∧
      (b.extra ≠ [] → s.kwarg = true) := by
  rw [← pos_iff s c b.pos hP, ← kwonly_iff]
  constructor
  · intro h
    exact ⟨⟨h.posonly, h.normal, h.posLength⟩, ⟨h.kwonly, h.kwonlyLength⟩, h.star, h.starOk,
      h.noClash, h.extra, h.extraOk⟩
  · rintro ⟨⟨h1, h2, h3⟩, ⟨h4, h5⟩, h6, h7, h8, h9, h10⟩
    exact ⟨h1, h2, h3, h4, h5, h6, h7, h8, h9, h10⟩

theorem closed_of_binds (s : Sig V) (c : Call V) (b : Bound V)
    (hP : s.posonly.length ≤ c.pos.length) (h : Binds s c b)
    (hkw : s.kwarg = true → b.extra ≠ []) :
    closed s c = some ((encode s b).map some) := by
  obtain ⟨h1, h2, h3, h4, h5, h6, h7⟩ := (binds_iff s c b hP).1 h
  unfold closed
  simp only
  rw [if_neg (by omega), left_eq s c h5, ← h6]
  have e1 : (c.pos.take (s.posonly.length + s.normal.length)).map (fun v => some (Arg.val v)) ++
      (s.normal.drop (c.pos.length - s.posonly.length)).map (fun p => (supply c.kw p).map .val) =
      b.pos.map (fun v => some (Arg.val v)) := by
    have := congrArg (List.map (fun o : Option V => o.map Arg.val)) h1
    simp only [List.map_map, List.map_append] at this
    exact this.symm
  have e2 : s.kwonly.map (fun p => (supply c.kw p).map Arg.val) =
      b.kwonly.map (fun v => some (Arg.val v)) := by
    have := congrArg (List.map (fun o : Option V => o.map Arg.val)) h2
    simp only [List.map_map] at this
    exact this.symm
  rw [← List.append_assoc, e1, e2, ← h3]
  unfold encode
  by_cases hk : s.kwarg = true
  · have hne := hkw hk
    have : b.extra.isEmpty = false := by
      cases hb : b.extra with
      | nil => exact absurd hb hne
      | cons _ _ => rfl
    simp only [this, Bool.false_eq_true, if_false, hk, if_true]
    cases s.vararg <;> simp <;> rfl
  · have he : b.extra = [] := by
      by_contra hne
      exact hk (h7 hne)
    simp only [he, List.isEmpty_nil, if_true, hk]
    cases s.vararg <;> simp <;> rfl

theorem encode_length (s : Sig V) (b : Bound V)
    (h1 : b.pos.length = s.posonly.length + s.normal.length)
    (h2 : b.kwonly.length = s.kwonly.length) (vn kn : String) :
    (encode s b).length = (fargsOf s vn kn).length := by
  rw [fargsOf_length]
  unfold encode
  cases s.vararg <;> cases s.kwarg <;> simp [h1, h2] <;> omega

theorem binds_of_closed (s : Sig V) (c : Call V) (vn kn : String) (r : List (Option (Arg V)))
    (vs : List (Arg V)) (h : closed s c = some r) (hvs : r.mapM id = some vs)
    (hlen : vs.length = (fargsOf s vn kn).length)
    (hroom : c.pos.length ≤ s.posonly.length + s.normal.length ∨ s.vararg = true)
    (hclash : ∀ (j : Nat) (p : String × Option V), s.normal[j]? = some p →
      s.posonly.length + j < c.pos.length → p.1 ∉ c.kw.map Prod.fst) :
    ∃ b, Binds s c b ∧ vs = encode s b := by
  unfold closed at h
  simp only at h
  split at h
  · cases h
  rename_i hP
  have hP : s.posonly.length ≤ c.pos.length := by omega
  rw [left_eq s c hclash] at h
  have hr := mapM_id_some hvs
  have hrl : r.length = vs.length := by rw [hr]; simp
  -- the two pieces coming from keywords and defaults have no hole
  generalize hleft : c.kw.filter
    (fun kv => !((s.normal ++ s.kwonly).map Prod.fst).contains kv.1) = left at h
  have hbase : ∀ tl : List (Option (Arg V)), r = ((c.pos.take (s.posonly.length +
      s.normal.length)).map (fun v => some (Arg.val v)) ++
      ((s.normal.drop (c.pos.length - s.posonly.length)).map
        (fun p => (supply c.kw p).map .val) ++
      ((if s.vararg then [some (.tuple (c.pos.drop (s.posonly.length + s.normal.length)))]
        else []) ++ s.kwonly.map (fun p => (supply c.kw p).map .val)))) ++ tl →
      ∃ (k1 k2 : List V), (s.normal.drop (c.pos.length - s.posonly.length)).map (supply c.kw) =
          k1.map some ∧ s.kwonly.map (supply c.kw) = k2.map some := by
    intro tl hrt
    rw [hr] at hrt
    have all : ∀ o ∈ vs.map some, o ≠ none := by
      intro o ho
      obtain ⟨a, _, rfl⟩ := List.mem_map.1 ho
      simp
    have pick : ∀ l : List (String × Option V),
        (∀ o ∈ l.map (fun p => (supply c.kw p).map (Arg.val)), o ≠ none) →
        ∃ k : List V, l.map (supply c.kw) = k.map some := by
      intro l hl
      induction l with
      | nil => exact ⟨[], rfl⟩
      | cons p l ih =>
        obtain ⟨k, hk⟩ := ih (fun o ho => hl o (by simp at ho ⊢; exact Or.inr ho))
        have := hl ((supply c.kw p).map Arg.val) (by simp)
        cases hs : supply c.kw p with
        | none => simp [hs] at this
        | some v => exact ⟨v :: k, by simp [hs, hk]⟩
    rw [hrt] at all
    obtain ⟨k1, hk1⟩ := pick _ (fun o ho => all o (by simp only [List.mem_append]; tauto))
    obtain ⟨k2, hk2⟩ := pick s.kwonly (fun o ho => all o (by simp only [List.mem_append]; tauto))
    exact ⟨k1, k2, hk1, hk2⟩
  have hfl := fargsOf_length s vn kn
  -- the binding
  have hfin : (s.kwarg = true → left ≠ []) → (s.kwarg = false → left = []) →
      (∃ (k1 k2 : List V), (s.normal.drop (c.pos.length - s.posonly.length)).map (supply c.kw) =
          k1.map some ∧ s.kwonly.map (supply c.kw) = k2.map some) →
      ∃ b, Binds s c b ∧ (s.kwarg = true → b.extra ≠ []) := by
    rintro hk1 hk2 ⟨k1, k2, e1, e2⟩
    refine ⟨⟨c.pos.take (s.posonly.length + s.normal.length) ++ k1,
      c.pos.drop (s.posonly.length + s.normal.length), k2, left⟩, ?_, hk1⟩
    rw [binds_iff s c _ hP]
    refine ⟨by simp [e1], e2.symm, rfl, ?_, hclash, hleft.symm, ?_⟩
    · intro hne
      rcases hroom with hr' | hv
      · exact absurd (List.drop_eq_nil_of_le hr') hne
      · exact hv
    · intro hne
      cases hk : s.kwarg with
      | true => rfl
      | false => exact absurd (hk2 hk) hne
  have hconc : ∀ b, Binds s c b → (s.kwarg = true → b.extra ≠ []) →
      closed s c = some r → vs = encode s b := by
    intro b hb hbk hcl
    rw [closed_of_binds s c b hP hb hbk, Option.some.injEq] at hcl
    rw [← hcl, mapM_some, Option.some.injEq] at hvs
    exact hvs.symm
  have hclosed : closed s c = some r := by
    unfold closed
    simp only
    rw [if_neg (by omega), left_eq s c hclash, hleft]
    exact h
  split at h
  · rename_i hemp
    rw [Option.some.injEq] at h
    have hex := hbase [] (by rw [List.append_nil]; exact h.symm)
    have hkf : s.kwarg = false := by
      cases hk : s.kwarg with
      | false => rfl
      | true =>
        exfalso
        have := congrArg List.length h
        simp only [hrl, hlen, hfl, hk, if_true, List.length_append, List.length_map,
          List.length_take, List.length_drop] at this
        cases hv : s.vararg <;> simp [hv] at this <;> omega
    obtain ⟨b, hb, hbk⟩ := hfin (by simp [hkf]) (fun _ => by simpa using hemp) hex
    exact ⟨b, hb, hconc b hb hbk hclosed⟩
  · rename_i hemp
    split at h
    · rename_i hk
      rw [Option.some.injEq] at h
      have hex := hbase _ h.symm
      obtain ⟨b, hb, hbk⟩ := hfin (fun _ => by simpa using hemp) (by simp [hk]) hex
      exact ⟨b, hb, hconc b hb hbk hclosed⟩
    · cases h

end
end Verif.Calls
