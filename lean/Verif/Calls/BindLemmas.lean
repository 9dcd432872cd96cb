import Verif.Calls.Model
/-!
# Lemmas about argument binding
-/

namespace Verif.Calls
open Spec

section
variable {V : Type}

/-- The parameter list Pyccel should hold for a signature. -/
def fargsOf (s : Sig V) (vn kn : String) : List (FArg V) :=
  s.posonly.map (fun p => FArg.mk p.1 .posonly p.2) ++
  (s.normal.map (fun p => FArg.mk p.1 .normal p.2) ++
  ((if s.vararg then [FArg.mk vn .vararg none] else []) ++
  (s.kwonly.map (fun p => FArg.mk p.1 .kwonly p.2) ++
  (if s.kwarg then [FArg.mk kn .kwarg none] else []))))

/-- The values behind `input_args`. -/
def flat : List (IArg V) → List V
  | [] => []
  | .one v :: l => v :: flat l
  | .starred vs :: l => vs ++ flat l

theorem flat_append (a b : List (IArg V)) : flat (a ++ b) = flat a ++ flat b := by
  induction a with
  | nil => rfl
  | cons x a ih => cases x <;> simp [flat, ih]

theorem flat_one (l : List V) : flat (l.map .one) = l := by
  induction l with
  | nil => rfl
  | cons x l ih => simp [flat, ih]

theorem collect_flat (fargs : List (FArg V)) (args : List (CArg V)) (i0 : List (IArg V))
    (k0 : List (String × V)) {input kws} (h : collect fargs args i0 k0 = some (input, kws)) :
    flat input = flat i0 ++ (unpack args).pos ∧ kws = k0 ++ (unpack args).kw := by
  induction args generalizing i0 k0 with
  | nil =>
    simp only [collect, Option.some.injEq, Prod.mk.injEq] at h
    simp [unpack, h.1, h.2]
  | cons a l ih =>
    cases a with
    | pos v =>
      rw [collect] at h
      obtain ⟨h1, h2⟩ := ih _ _ h
      simp [h1, h2, unpack, flat_append, flat]
    | star vs =>
      rw [collect] at h
      split at h
      · cases h
      · split at h <;> obtain ⟨h1, h2⟩ := ih _ _ h <;>
          simp [h1, h2, unpack, flat_append, flat, flat_one]
    | kw n v =>
      rw [collect] at h
      obtain ⟨h1, h2⟩ := ih _ _ h
      simp [h1, h2, unpack]

theorem plainArgs_flat {l : List (IArg V)} {p : List (Arg V)} (h : plainArgs l = some p) :
    p = (flat l).map .val ∧ l = (flat l).map .one := by
  induction l generalizing p with
  | nil => simp [plainArgs] at h; simp [flat, h]
  | cons a l ih =>
    cases a with
    | one v =>
      simp only [plainArgs, List.mapM_cons, Option.pure_def, Option.bind_eq_bind,
        Option.bind_some, Option.bind_eq_some_iff, Option.some.injEq] at h
      obtain ⟨p', hp', rfl⟩ := h
      obtain ⟨h1, h2⟩ := ih hp'
      refine ⟨by simp [flat, ← h1], ?_⟩
      rw [flat, List.map_cons, ← h2]
    | starred vs => simp [plainArgs] at h

theorem plainArgs_one (l : List V) : plainArgs (l.map IArg.one) = some (l.map .val) := by
  induction l with
  | nil => rfl
  | cons a l ih =>
    simp only [plainArgs, List.map_cons, List.mapM_cons] at ih ⊢
    rw [ih]
    rfl

theorem mapM_rest {l : List (IArg V)} {t : List V}
    (h : l.mapM (fun a => match a with | .one v => some v | .starred _ => none) = some t) :
    t = flat l := by
  induction l generalizing t with
  | nil => simp at h; simp [h, flat]
  | cons a l ih =>
    cases a with
    | one v =>
      simp only [List.mapM_cons, Option.pure_def, Option.bind_eq_bind,
        Option.bind_some, Option.bind_eq_some_iff, Option.some.injEq] at h
      obtain ⟨p', hp', rfl⟩ := h
      rw [flat, ih hp']
    | starred vs => simp at h

theorem packRest_flat {l : List (IArg V)} {t : List V} (h : packRest l = some t) :
    t = flat l := by
  unfold packRest at h
  split at h
  · simp at h; simp [flat, h]
  · exact mapM_rest h

theorem packRest_one (l : List V) : packRest (l.map IArg.one) = some l := by
  have : ∀ l : List V, (l.map IArg.one).mapM
      (fun a => match a with | .one v => some v | .starred _ => none) = some l := by
    intro l
    induction l with
    | nil => rfl
    | cons a l ih => simp only [List.map_cons, List.mapM_cons, ih]; rfl
  unfold packRest
  split
  · rename_i h
    rcases l with _ | ⟨a, l⟩ <;> simp at h
  · exact this l

/-! ### Completing the list -/

/-- Keyword argument or default. -/
def supply (kws : List (String × V)) (p : String × Option V) : Option V :=
  if (kws.lookup p.1).isSome then kws.lookup p.1 else p.2

theorem lookup_filter_ne (kws : List (String × V)) (a b : String) (h : a ≠ b) :
    (kws.filter (fun kv => kv.1 != b)).lookup a = kws.lookup a := by
  induction kws with
  | nil => rfl
  | cons kv l ih =>
    obtain ⟨k, v⟩ := kv
    by_cases hk : k = b
    · subst hk
      have : (a == k) = false := by simpa using h
      simp [List.lookup, this, ih]
    · have hkb : (k != b) = true := by simpa using hk
      rw [List.filter_cons_of_pos (by simpa using hk)]
      simp only [List.lookup]
      split <;> simp [ih]

theorem complete_append (l1 l2 : List (FArg V)) (kws : List (String × V)) :
    complete (l1 ++ l2) kws =
      ((complete l1 kws).1 ++ (complete l2 (complete l1 kws).2).1,
        (complete l2 (complete l1 kws).2).2) := by
  induction l1 generalizing kws with
  | nil => simp [complete]
  | cons f l ih =>
    simp only [List.cons_append, complete]
    split
    · simp [ih]
    · split
      · simp [ih]
      · simp [ih]

theorem complete_named (k : Kind) (hk1 : k ≠ .vararg) (hk2 : k ≠ .kwarg)
    (l : List (String × Option V)) (kws : List (String × V)) (hn : (l.map Prod.fst).Nodup) :
    complete (l.map (fun p => FArg.mk p.1 k p.2)) kws =
      (l.map (fun p => (supply kws p).map .val),
        kws.filter (fun kv => !(l.map Prod.fst).contains kv.1)) := by
  induction l generalizing kws with
  | nil =>
    simp only [List.map_nil, complete, Prod.mk.injEq, true_and]
    symm
    rw [List.filter_eq_self]
    simp
  | cons p l ih =>
    simp only [List.map_cons, List.nodup_cons] at hn
    rw [List.map_cons, complete]
    simp only [hk1, hk2, if_false, pop]
    rw [ih _ hn.2]
    simp only [Prod.mk.injEq, List.map_cons, List.cons.injEq]
    refine ⟨⟨?_, ?_⟩, ?_⟩
    · rfl
    · apply List.map_congr_left
      intro q hq
      have hne : q.1 ≠ p.1 := fun h => hn.1 (h ▸ List.mem_map_of_mem hq)
      unfold supply
      rw [lookup_filter_ne _ _ _ hne]
    · rw [List.filter_filter]
      apply List.filter_congr
      intro kv _
      rw [List.contains_cons]
      rw [Bool.not_or, Bool.and_comm]
      rfl

/-! ### Closed form -/

/-- What the sorted arguments look like for a signature. -/
def closed (s : Sig V) (c : Call V) : Option (List (Option (Arg V))) :=
  let P := s.posonly.length
  let N := P + s.normal.length
  let rest := s.normal.drop (c.pos.length - P)
  if c.pos.length < P then none
  else
    let res := (c.pos.take N).map (fun v => some (.val v)) ++
      (rest.map (fun p => (supply c.kw p).map .val) ++
      ((if s.vararg then [some (.tuple (c.pos.drop N))] else []) ++
      s.kwonly.map (fun p => (supply c.kw p).map .val)))
    let left := c.kw.filter (fun kv => !((rest ++ s.kwonly).map Prod.fst).contains kv.1)
    if left.isEmpty then some res
    else if s.kwarg then some (res ++ [some (.dict left)]) else none

theorem takeWhile_posonly (s : Sig V) (vn kn : String) :
    ((fargsOf s vn kn).takeWhile (fun f => f.kind = .posonly)).length = s.posonly.length := by
  unfold fargsOf
  rw [List.takeWhile_append_of_pos (by
      intro f hf; obtain ⟨_, _, rfl⟩ := List.mem_map.1 hf; rfl)]
  have : ∀ l : List (FArg V), (∀ f ∈ l, f.kind ≠ .posonly) →
      l.takeWhile (fun f => decide (f.kind = .posonly)) = [] := by
    intro l hl
    cases l with
    | nil => rfl
    | cons f l => simp [List.takeWhile, hl f (by simp)]
  rw [this]
  · simp
  · intro f hf
    simp only [List.mem_append, List.mem_map, List.mem_ite_nil_right, List.mem_singleton] at hf
    rcases hf with ⟨_, _, rfl⟩ | ⟨_, rfl⟩ | ⟨_, _, rfl⟩ | ⟨_, rfl⟩ <;> simp

theorem takeWhile_vararg (s : Sig V) (vn kn : String) :
    ((fargsOf s vn kn).takeWhile (fun f => f.kind ≠ .vararg)).length =
      if s.vararg then s.posonly.length + s.normal.length else (fargsOf s vn kn).length := by
  by_cases hv : s.vararg = true
  · simp only [hv, if_true]
    unfold fargsOf
    rw [List.takeWhile_append_of_pos (by
      intro f hf; obtain ⟨_, _, rfl⟩ := List.mem_map.1 hf; rfl), List.takeWhile_append_of_pos (by
      intro f hf; obtain ⟨_, _, rfl⟩ := List.mem_map.1 hf; rfl)]
    simp [hv]
  · simp only [hv]
    have hall : ∀ f ∈ fargsOf s vn kn, f.kind ≠ .vararg := by
      intro f hf
      simp only [fargsOf, hv, List.mem_append, List.mem_map, List.mem_ite_nil_right,
        List.mem_singleton, Bool.false_eq_true, if_false, List.not_mem_nil, false_or] at hf
      rcases hf with ⟨_, _, rfl⟩ | ⟨_, _, rfl⟩ | ⟨_, _, rfl⟩ | ⟨_, rfl⟩ <;> simp
    have := List.takeWhile_append_of_pos (p := fun f : FArg V => decide (f.kind ≠ .vararg))
      (l₁ := fargsOf s vn kn) (l₂ := []) (by simpa using hall)
    simp only [List.append_nil, List.takeWhile_nil] at this
    rw [this]
    simp

theorem fargsOf_length (s : Sig V) (vn kn : String) :
    (fargsOf s vn kn).length = s.posonly.length + s.normal.length +
      (if s.vararg then 1 else 0) + s.kwonly.length + (if s.kwarg then 1 else 0) := by
  unfold fargsOf
  cases s.vararg <;> cases s.kwarg <;> simp <;> omega

theorem getLast_kwarg (s : Sig V) (vn kn : String) :
    (∃ f, (fargsOf s vn kn).getLast? = some f ∧ f.kind = .kwarg) ↔ s.kwarg = true := by
  by_cases hk : s.kwarg = true
  · simp only [hk, iff_true]
    refine ⟨FArg.mk kn .kwarg none, ?_, rfl⟩
    unfold fargsOf
    simp [hk, List.getLast?_append]
  · refine ⟨?_, fun h => absurd h hk⟩
    rintro ⟨f, hf, hkind⟩
    have hm := List.mem_of_getLast? hf
    simp only [fargsOf, hk, List.mem_append, List.mem_map, List.mem_ite_nil_right,
      List.mem_singleton, Bool.false_eq_true, if_false, List.not_mem_nil, or_false] at hm
    rcases hm with ⟨_, _, rfl⟩ | ⟨_, _, rfl⟩ | ⟨_, rfl⟩ | ⟨_, _, rfl⟩ <;> cases hkind

/-- The names of the ordinary and keyword-only parameters are distinct. -/
def NamesOk (s : Sig V) : Prop := ((s.normal ++ s.kwonly).map Prod.fst).Nodup

theorem complete_kw (s : Sig V) (kn : String) (kws : List (String × V))
    (hn : (s.kwonly.map Prod.fst).Nodup) :
    complete (s.kwonly.map (fun p => FArg.mk p.1 .kwonly p.2) ++
      (if s.kwarg then [FArg.mk kn .kwarg none] else [])) kws =
      (s.kwonly.map (fun p => (supply kws p).map .val),
        kws.filter (fun kv => !(s.kwonly.map Prod.fst).contains kv.1)) := by
  rw [complete_append, complete_named _ (by simp) (by simp) _ _ hn]
  cases s.kwarg <;> simp [complete]

theorem lookup_filter_not_contains (kws : List (String × V)) (ns : List String) (a : String)
    (h : a ∉ ns) :
    (kws.filter (fun kv => !ns.contains kv.1)).lookup a = kws.lookup a := by
  induction kws with
  | nil => rfl
  | cons kv l ih =>
    obtain ⟨k, v⟩ := kv
    by_cases hk : k ∈ ns
    · have hak : (a == k) = false := by
        rw [beq_eq_false_iff_ne]
        rintro rfl
        exact h hk
      rw [List.filter_cons_of_neg (by simp [hk]), ih]
      simp [List.lookup, hak]
    · rw [List.filter_cons_of_pos (by simp [hk])]
      simp only [List.lookup]
      split
      · rfl
      · exact ih

theorem filter_not_contains_append (kws : List (String × V)) (a b : List String) :
    (kws.filter (fun kv => !a.contains kv.1)).filter (fun kv => !b.contains kv.1) =
      kws.filter (fun kv => !(a ++ b).contains kv.1) := by
  rw [List.filter_filter]
  apply List.filter_congr
  intro kv _
  by_cases h1 : kv.1 ∈ a <;> by_cases h2 : kv.1 ∈ b <;> simp [h1, h2]

theorem complete_rest (s : Sig V) (vn kn : String) (kws : List (String × V)) (j : Nat)
    (hn : NamesOk s) :
    complete ((s.normal.drop j).map (fun p => FArg.mk p.1 .normal p.2) ++
      ((if s.vararg then [FArg.mk vn .vararg none] else []) ++
      (s.kwonly.map (fun p => FArg.mk p.1 .kwonly p.2) ++
      (if s.kwarg then [FArg.mk kn .kwarg none] else [])))) kws =
      ((s.normal.drop j).map (fun p => (supply kws p).map .val) ++
        ((if s.vararg then [some (.tuple [])] else []) ++
          s.kwonly.map (fun p => (supply kws p).map .val)),
        kws.filter (fun kv => !((s.normal.drop j ++ s.kwonly).map Prod.fst).contains kv.1)) := by
  unfold NamesOk at hn
  rw [List.map_append, List.nodup_append] at hn
  obtain ⟨hn1, hn2, hn3⟩ := hn
  have hd : ((s.normal.drop j).map Prod.fst).Nodup :=
    List.Sublist.nodup ((List.drop_sublist j s.normal).map _) hn1
  rw [complete_append, complete_named _ (by simp) (by simp) _ _ hd]
  have hva : ∀ kws' : List (String × V),
      complete ((if s.vararg then [FArg.mk vn .vararg none] else []) ++
        (s.kwonly.map (fun p => FArg.mk p.1 .kwonly p.2) ++
        (if s.kwarg then [FArg.mk kn .kwarg none] else []))) kws' =
      ((if s.vararg then [some (.tuple [])] else []) ++
          s.kwonly.map (fun p => (supply kws' p).map .val),
        kws'.filter (fun kv => !(s.kwonly.map Prod.fst).contains kv.1)) := by
    intro kws'
    rw [complete_append]
    cases s.vararg with
    | false => simp [complete, complete_kw s kn _ hn2]
    | true => simp [complete, complete_kw s kn _ hn2]
  rw [hva]
  simp only [Prod.mk.injEq]
  refine ⟨?_, ?_⟩
  · congr 2
    apply List.map_congr_left
    intro q hq
    have : q.1 ∉ (s.normal.drop j).map Prod.fst := by
      intro hmem
      obtain ⟨r, hr, hrq⟩ := List.mem_map.1 hmem
      exact hn3 r.1 (List.mem_map_of_mem (List.mem_of_mem_drop hr)) q.1
        (List.mem_map_of_mem hq) hrq
    unfold supply
    rw [lookup_filter_not_contains _ _ _ this]
  · rw [filter_not_contains_append, List.map_append]

theorem fargsOf_drop_pos (s : Sig V) (vn kn : String) (m : Nat) (h1 : s.posonly.length ≤ m)
    (h2 : m ≤ s.posonly.length + s.normal.length) :
    (fargsOf s vn kn).drop m =
      (s.normal.drop (m - s.posonly.length)).map (fun p => FArg.mk p.1 .normal p.2) ++
      ((if s.vararg then [FArg.mk vn .vararg none] else []) ++
      (s.kwonly.map (fun p => FArg.mk p.1 .kwonly p.2) ++
      (if s.kwarg then [FArg.mk kn .kwarg none] else []))) := by
  unfold fargsOf
  rw [List.drop_append, List.drop_eq_nil_of_le (by simpa using h1), List.nil_append,
    List.length_map, List.drop_append_of_le_length (by simp; omega), List.map_drop]

theorem fargsOf_drop_star (s : Sig V) (vn kn : String) (hv : s.vararg = true) :
    (fargsOf s vn kn).drop (s.posonly.length + s.normal.length + 1) =
      s.kwonly.map (fun p => FArg.mk p.1 .kwonly p.2) ++
      (if s.kwarg then [FArg.mk kn .kwarg none] else []) := by
  unfold fargsOf
  rw [← List.append_assoc, ← List.append_assoc,
    List.drop_append_of_le_length (by simp [hv]; omega)]
  rw [List.drop_eq_nil_of_le (by simp [hv]; omega), List.nil_append]

/-- The end of `sortArgs`. -/
theorem finish_eq (s : Sig V) (vn kn : String) (res : List (Option (Arg V)))
    (left : List (String × V)) :
    addKwargs (fargsOf s vn kn) res left =
    (if left.isEmpty then some res
      else if s.kwarg then some (res ++ [some (.dict left)]) else none) := by
  unfold addKwargs
  split
  · rfl
  · have h := getLast_kwarg s vn kn
    cases hg : (fargsOf s vn kn).getLast? with
    | none =>
      simp only [hg, reduceCtorEq, false_and, exists_false, false_iff] at h
      simp [h]
    | some f =>
      simp only [hg, Option.some.injEq, exists_eq_left'] at h
      simp only [h]

/-- Once the positional arguments are known, `sortArgs` is the closed form. -/
theorem sortArgs_closed (s : Sig V) (vn kn : String) (hn : NamesOk s) (args : List (CArg V))
    {input : List (IArg V)} {kws : List (String × V)}
    (hc : collect (fargsOf s vn kn) args [] [] = some (input, kws))
    (hroom : input.length ≤ s.posonly.length + s.normal.length ∨ s.vararg = true)
    (hplain : input.length ≤ s.posonly.length + s.normal.length → plainArgs input ≠ none)
    (hpack : s.posonly.length + s.normal.length < input.length →
      plainArgs (input.take (s.posonly.length + s.normal.length)) ≠ none ∧
      packRest (input.drop (s.posonly.length + s.normal.length)) ≠ none) :
    sortArgs (fargsOf s vn kn) args = closed s (unpack args) := by
  obtain ⟨hf, hk⟩ := collect_flat _ _ _ _ hc
  simp only [flat, List.nil_append] at hf hk
  unfold sortArgs
  simp only [hc, takeWhile_posonly, takeWhile_vararg]
  unfold closed
  simp only [← hf, ← hk]
  have hlen := fargsOf_length s vn kn
  by_cases hle : input.length ≤ s.posonly.length + s.normal.length
  · -- no more positional arguments than parameters
    have hpl := hplain hle
    obtain ⟨p, hp⟩ := Option.ne_none_iff_exists'.1 hpl
    obtain ⟨hp1, hp2⟩ := plainArgs_flat hp
    have hl : (flat input).length = input.length := by
      have := congrArg List.length hp2
      rw [List.length_map] at this
      exact this.symm
    have hnot : ¬ input.length > (if s.vararg = true then s.posonly.length + s.normal.length
        else (fargsOf s vn kn).length) := by
      split <;> omega
    rw [if_neg hnot, hp, hl]
    split
    · rfl
    · rename_i hge
      have hpl' : p.length = input.length := by rw [hp1, List.length_map, hl]
      simp only [hpl']
      rw [finish_eq, fargsOf_drop_pos s vn kn _ (by omega) hle, complete_rest s vn kn _ _ hn]
      have h1 : (flat input).take (s.posonly.length + s.normal.length) = flat input :=
        List.take_of_length_le (by omega)
      have h2 : (flat input).drop (s.posonly.length + s.normal.length) = [] :=
        List.drop_eq_nil_of_le (by omega)
      simp only [h1, h2, hp1, List.map_map]
      rfl
  · -- the rest goes to `*args`
    have hv : s.vararg = true := by
      rcases hroom with h | h
      · exact absurd h hle
      · exact h
    obtain ⟨hq1, hq2⟩ := hpack (by omega)
    obtain ⟨p, hp⟩ := Option.ne_none_iff_exists'.1 hq1
    obtain ⟨t, ht⟩ := Option.ne_none_iff_exists'.1 hq2
    obtain ⟨hp1, hp2⟩ := plainArgs_flat hp
    have ht1 := packRest_flat ht
    have hfl : flat input = flat (input.take (s.posonly.length + s.normal.length)) ++ t := by
      rw [ht1, ← flat_append, List.take_append_drop]
    have hlt : (flat (input.take (s.posonly.length + s.normal.length))).length =
        s.posonly.length + s.normal.length := by
      have := congrArg List.length hp2
      rw [List.length_map, List.length_take] at this
      omega
    have hpl : p.length = s.posonly.length + s.normal.length := by
      rw [hp1, List.length_map, hlt]
    have htake : (flat input).take (s.posonly.length + s.normal.length) =
        flat (input.take (s.posonly.length + s.normal.length)) := by
      rw [hfl]
      exact List.take_left' hlt
    have hdrop : (flat input).drop (s.posonly.length + s.normal.length) = t := by
      rw [hfl]
      exact List.drop_left' hlt
    have hge : s.posonly.length + s.normal.length ≤ (flat input).length := by
      rw [hfl, List.length_append]
      omega
    simp only [hv, if_true]
    rw [if_neg (by omega), if_pos (by omega), if_neg (by omega), ht, hp]
    simp only [Option.bind_some, Option.map_some, List.length_append, hpl, List.length_singleton]
    rw [finish_eq, fargsOf_drop_star s vn kn hv]
    have hn2 : (s.kwonly.map Prod.fst).Nodup := by
      unfold NamesOk at hn
      rw [List.map_append, List.nodup_append] at hn
      exact hn.2.1
    rw [complete_kw s kn _ hn2, htake, hdrop]
    have hrest : s.normal.drop ((flat input).length - s.posonly.length) = [] :=
      List.drop_eq_nil_of_le (by omega)
    simp only [hrest, List.map_nil, List.nil_append, hp1, List.map_append, List.map_map,
      List.append_assoc, List.map_cons, List.singleton_append]
    rfl

end
end Verif.Calls
