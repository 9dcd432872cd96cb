import Verif.Calls.BindSpec
/-!
# Lemmas about calls from Python
-/

namespace Verif.Calls
open Spec

section
variable {V : Type}

/-- What a parameter looks like to `PyArg_ParseTupleAndKeywords` when the format
is right. -/
def slotOf (cname : String → String) (f : FArg V) : Slot :=
  ⟨if f.kind = .posonly then "" else cname f.name, f.dflt.isSome, decide (f.kind = .kwonly)⟩

/-- The shape of the parameter lists whose format says what the parameters are. -/
def FmtOk : List (FArg V) → Bool → Bool → Prop
  | [], _, _ => True
  | f :: l, hd, hk =>
      (hd = true → f.dflt.isSome = true) ∧ (hk = true → f.kind = .kwonly) ∧
        (f.dflt.isSome = true → hd = true ∨ hk = false) ∧
        FmtOk l (hd || f.dflt.isSome) (hk || decide (f.kind = .kwonly))

theorem readFormat_format (cname : String → String) (l : List (FArg V)) (hd hk : Bool)
    (h : FmtOk l hd hk) :
    readFormat (format l hd hk) (kwlist cname l) hd hk = some (l.map (slotOf cname)) := by
  induction l generalizing hd hk with
  | nil => simp [format, kwlist, readFormat]
  | cons f l ih =>
    obtain ⟨h1, h2, h3, h4⟩ := h
    have ih' := ih _ _ h4
    unfold kwlist at ih' ⊢
    have e : slotOf cname f = ⟨if f.kind = .posonly then "" else cname f.name, f.dflt.isSome,
      decide (f.kind = .kwonly)⟩ := rfl
    by_cases hdf : f.dflt.isSome = true
    · by_cases hkf : f.kind = .kwonly
      · cases hd <;> cases hk <;>
          simp_all [format, readFormat, e]
      · cases hd <;> cases hk <;>
          simp_all [format, readFormat, e]
    · by_cases hkf : f.kind = .kwonly
      · cases hd <;> cases hk <;>
          simp_all [format, readFormat, e]
      · cases hd <;> cases hk <;>
          simp_all [format, readFormat, e]

theorem parseSlots_kw (l : List Slot) (kws : List (String × V)) (hne : ∀ s ∈ l, s.name ≠ "")
    (hnd : (l.map Slot.name).Nodup) (vals : List (Option V)) :
    parseSlots l [] kws = some vals ↔
      vals = l.map (fun s => kws.lookup s.name) ∧
      (∀ s ∈ l, s.optional = true ∨ (kws.lookup s.name).isSome = true) ∧
      kws.filter (fun kv => !(l.map Slot.name).contains kv.1) = [] := by
  induction l generalizing kws vals with
  | nil =>
    have : kws.filter (fun kv => !(([] : List Slot).map Slot.name).contains kv.1) = kws := by
      rw [List.filter_eq_self]
      simp
    rw [this, parseSlots]
    cases kws with
    | nil => simp
    | cons a l => simp
  | cons s l ih =>
    rw [List.map_cons, List.nodup_cons] at hnd
    have hs := hne s (by simp)
    have hne' : ∀ t ∈ l, t.name ≠ "" := fun t ht => hne t (by simp [ht])
    have hdiff : ∀ t ∈ l, t.name ≠ s.name := fun t ht h =>
      hnd.1 (h ▸ List.mem_map_of_mem ht)
    rw [parseSlots]
    by_cases hl : (kws.lookup s.name).isSome = true
    · rw [if_pos ⟨hs, hl⟩]
      rw [Option.map_eq_some_iff]
      simp only [pop, ih _ hne' hnd.2]
      constructor
      · rintro ⟨vs, ⟨rfl, h2, h3⟩, rfl⟩
        refine ⟨?_, ?_, ?_⟩
        · rw [List.map_cons]
          congr 1
          apply List.map_congr_left
          intro t ht
          rw [lookup_filter_ne _ _ _ (hdiff t ht)]
        · intro t ht
          rcases List.mem_cons.1 ht with rfl | ht
          · exact Or.inr hl
          · have := h2 t ht
            rwa [lookup_filter_ne _ _ _ (hdiff t ht)] at this
        · rw [← h3, List.filter_filter]
          apply List.filter_congr
          intro kv _
          rw [List.map_cons, List.contains_cons, Bool.not_or, Bool.and_comm]
          rfl
      · rintro ⟨rfl, h2, h3⟩
        refine ⟨_, ⟨rfl, ?_, ?_⟩, ?_⟩
        · intro t ht
          rw [lookup_filter_ne _ _ _ (hdiff t ht)]
          exact h2 t (by simp [ht])
        · rw [← h3, List.filter_filter]
          apply List.filter_congr
          intro kv _
          rw [List.map_cons, List.contains_cons, Bool.not_or, Bool.and_comm]
          rfl
        · rw [List.map_cons]
          congr 1
          apply List.map_congr_left
          intro t ht
          rw [lookup_filter_ne _ _ _ (hdiff t ht)]
    · rw [if_neg (by tauto)]
      have hnone : kws.lookup s.name = none := by
        cases h : kws.lookup s.name with
        | none => rfl
        | some v => simp [h] at hl
      have hnk : ∀ kv ∈ kws, kv.1 ≠ s.name := by
        intro kv hkv heq
        rw [List.lookup_eq_none_iff] at hnone
        have := hnone kv hkv
        simp [heq] at this
      have hfil : kws.filter (fun kv => !((s :: l).map Slot.name).contains kv.1) =
          kws.filter (fun kv => !(l.map Slot.name).contains kv.1) := by
        apply List.filter_congr
        intro kv hkv
        rw [List.map_cons, List.contains_cons]
        have := hnk kv hkv
        simp [this]
      rw [hfil]
      by_cases ho : s.optional = true
      · rw [if_pos ho, Option.map_eq_some_iff]
        simp only [ih _ hne' hnd.2]
        constructor
        · rintro ⟨vs, ⟨rfl, h2, h3⟩, rfl⟩
          refine ⟨by simp [hnone], ?_, h3⟩
          intro t ht
          rcases List.mem_cons.1 ht with rfl | ht
          · exact Or.inl ho
          · exact h2 t ht
        · rintro ⟨rfl, h2, h3⟩
          exact ⟨_, ⟨rfl, fun t ht => h2 t (by simp [ht]), h3⟩, by simp [hnone]⟩
      · rw [if_neg ho]
        constructor
        · intro h; cases h
        · rintro ⟨-, h2, -⟩
          rcases h2 s (by simp) with h | h
          · exact absurd h ho
          · exact absurd h hl

theorem parseSlots_pos (A K : List Slot) (pos : List V) (kws : List (String × V))
    (hA : ∀ s ∈ A, s.kwonly = false) (hK : ∀ s ∈ K, s.kwonly = true) (vals : List (Option V)) :
    parseSlots (A ++ K) pos kws = some vals ↔
      pos.length ≤ A.length ∧
      (∀ s ∈ A.take pos.length, s.name = "" ∨ kws.lookup s.name = none) ∧
      ∃ vs, parseSlots (A.drop pos.length ++ K) [] kws = some vs ∧ vals = pos.map some ++ vs := by
  induction pos generalizing A vals with
  | nil => simp
  | cons v pos ih =>
    cases A with
    | nil =>
      cases K with
      | nil => simp [parseSlots]
      | cons k K =>
        have := hK k (by simp)
        simp [parseSlots, this]
    | cons s A =>
      have hs := hA s (by simp)
      have hA' : ∀ s ∈ A, s.kwonly = false := fun t ht => hA t (by simp [ht])
      rw [List.cons_append, parseSlots, hs]
      simp only [Bool.false_eq_true, if_false]
      by_cases hc : s.name ≠ "" ∧ (kws.lookup s.name).isSome
      · rw [if_pos hc]
        constructor
        · intro h; cases h
        · rintro ⟨-, h2, -⟩
          exfalso
          rcases h2 s (by simp) with h | h
          · exact hc.1 h
          · simp [h] at hc
      · rw [if_neg hc, Option.map_eq_some_iff]
        simp only [ih A hA']
        have hc' : s.name = "" ∨ kws.lookup s.name = none := by
          by_cases h : s.name = ""
          · exact Or.inl h
          · right
            cases hl : kws.lookup s.name with
            | none => rfl
            | some w => exact absurd ⟨h, by simp [hl]⟩ hc
        constructor
        · rintro ⟨w, ⟨h1, h2, vs, h3, rfl⟩, rfl⟩
          refine ⟨by simp; omega, ?_, vs, by simpa using h3, by simp⟩
          intro t ht
          simp only [List.length_cons, List.take_succ_cons, List.mem_cons] at ht
          rcases ht with rfl | ht
          · exact hc'
          · exact h2 t ht
        · rintro ⟨h1, h2, vs, h3, rfl⟩
          refine ⟨pos.map some ++ vs, ⟨by simpa using h1, ?_, vs, by simpa using h3, rfl⟩, by simp⟩
          intro t ht
          exact h2 t (by simp [ht])

/-- The parameters of a signature as the wrapper sees them. -/
def paramsOf (k : Kind) (l : List (String × Option V)) : List (FArg V) :=
  l.map (fun p => FArg.mk p.1 k p.2)

theorem fargsOf_plain (s : Sig V) (vn kn : String) (hv : s.vararg = false)
    (hk : s.kwarg = false) :
    fargsOf s vn kn =
      (paramsOf .posonly s.posonly ++ paramsOf .normal s.normal) ++ paramsOf .kwonly s.kwonly := by
  simp [fargsOf, hv, hk, paramsOf]

theorem argValue_of [DecidableEq V] (pyNone : V) (d o : Option V) (ho : o ≠ some pyNone)
    (v : V) (h : (if o.isSome then o else d) = some v) : argValue pyNone d o = .val v := by
  cases d <;> cases o <;> simp_all [argValue]

theorem supply_all (kws : List (String × V)) (l : List (String × Option V)) :
    (∃ k : List V, l.map (supply kws) = k.map some) ↔
      ∀ p ∈ l, p.2.isSome = true ∨ (kws.lookup p.1).isSome = true := by
  induction l with
  | nil => exact ⟨fun _ p hp => by simp at hp, fun _ => ⟨[], rfl⟩⟩
  | cons p l ih =>
    constructor
    · rintro ⟨k, hk⟩
      cases k with
      | nil => simp at hk
      | cons v k =>
        simp only [List.map_cons, List.cons.injEq] at hk
        intro q hq
        rcases List.mem_cons.1 hq with rfl | hq
        · have := hk.1
          unfold supply at this
          split at this
          · rename_i h; exact Or.inr h
          · left; simp [this]
        · exact (ih.1 ⟨k, hk.2⟩) q hq
    · intro h
      obtain ⟨k, hk⟩ := ih.2 (fun q hq => h q (by simp [hq]))
      have hp := h p (by simp)
      have : (supply kws p).isSome = true := by
        unfold supply
        split
        · assumption
        · rename_i h'; tauto
      obtain ⟨v, hv⟩ := Option.isSome_iff_exists.1 this
      exact ⟨v :: k, by simp [hv, hk]⟩

theorem values_pos [DecidableEq V] (pyNone : V) (fs : List (FArg V)) (pos : List V)
    (hl : fs.length = pos.length) (hnone : pyNone ∉ pos) :
    (fs.zip (pos.map some)).map (fun fv => argValue pyNone fv.1.dflt fv.2) = pos.map .val := by
  induction fs generalizing pos with
  | nil =>
    have : pos = [] := List.length_eq_zero_iff.1 hl.symm
    simp [this]
  | cons f fs ih =>
    cases pos with
    | nil => simp at hl
    | cons v pos =>
      simp only [List.mem_cons, not_or] at hnone
      simp only [List.map_cons, List.zip_cons_cons, List.cons.injEq]
      refine ⟨argValue_of pyNone _ _ ?_ v (by simp), ih pos (by simpa using hl) hnone.2⟩
      simp only [ne_eq, Option.some.injEq]
      exact fun h => hnone.1 h.symm

theorem values_kw [DecidableEq V] (pyNone : V) (k : Kind) (kws : List (String × V))
    (l : List (String × Option V)) (vs : List V) (hvs : l.map (supply kws) = vs.map some)
    (hnone : pyNone ∉ kws.map Prod.snd) :
    ((paramsOf k l).zip (l.map (fun p => kws.lookup p.1))).map
      (fun fv => argValue pyNone fv.1.dflt fv.2) = vs.map .val := by
  induction l generalizing vs with
  | nil =>
    cases vs with
    | nil => rfl
    | cons v vs => simp at hvs
  | cons p l ih =>
    cases vs with
    | nil => simp at hvs
    | cons v vs =>
      simp only [List.map_cons, List.cons.injEq] at hvs
      simp only [paramsOf, List.map_cons, List.zip_cons_cons, List.cons.injEq]
      refine ⟨argValue_of pyNone _ _ ?_ v hvs.1, ih vs hvs.2⟩
      intro h
      apply hnone
      rw [List.lookup_eq_some_iff] at h
      obtain ⟨l1, l2, h1, -⟩ := h
      simp [h1]

/-- Which calls the wrapper accepts, and with which values. -/
theorem wrapper_iff [DecidableEq V] (pyNone : V) (s : Sig V) (vn kn : String) (c : Call V)
    (hv : s.vararg = false) (hk : s.kwarg = false) (hn : NamesOk s)
    (hne : ∀ p ∈ s.normal ++ s.kwonly, p.1 ≠ "")
    (hfmt : FmtOk (fargsOf s vn kn) false false)
    (hpos : pyNone ∉ c.pos) (hkw : pyNone ∉ c.kw.map Prod.snd)
    (hP : s.posonly.length ≤ c.pos.length) (w : List (CVal V)) :
    wrapperArgs pyNone id (fargsOf s vn kn) c = some w ↔
      c.pos.length ≤ s.posonly.length + s.normal.length ∧
      (∀ (j : Nat) (p : String × Option V), s.normal[j]? = some p →
        s.posonly.length + j < c.pos.length → p.1 ∉ c.kw.map Prod.fst) ∧
      c.kw.filter (fun kv => !((s.normal.drop (c.pos.length - s.posonly.length) ++
        s.kwonly).map Prod.fst).contains kv.1) = [] ∧
      ∃ k1 k2 : List V,
        (s.normal.drop (c.pos.length - s.posonly.length)).map (supply c.kw) = k1.map some ∧
        s.kwonly.map (supply c.kw) = k2.map some ∧
        w = (c.pos ++ (k1 ++ k2)).map .val := by
  have hread := readFormat_format id (fargsOf s vn kn) false false hfmt
  have hplain := fargsOf_plain s vn kn hv hk
  have hany : (fargsOf s vn kn).any (fun f => f.kind = .vararg || f.kind = .kwarg) = false := by
    rw [hplain]
    simp [paramsOf]
  unfold wrapperArgs
  rw [hany, hread]
  simp only [Bool.false_eq_true, if_false, Option.map_eq_some_iff]
  -- the slots
  set A := (paramsOf .posonly s.posonly ++ paramsOf .normal s.normal) with hA
  have hAlen : A.length = s.posonly.length + s.normal.length := by simp [hA, paramsOf]
  have hslots : (fargsOf s vn kn).map (slotOf id) =
      A.map (slotOf id) ++ (paramsOf .kwonly s.kwonly).map (slotOf id) := by
    rw [hplain, List.map_append]
  have hA0 : ∀ t ∈ A.map (slotOf (V := V) id), t.kwonly = false := by
    intro t ht
    obtain ⟨f, hf, rfl⟩ := List.mem_map.1 ht
    rw [hA, List.mem_append] at hf
    rcases hf with hf | hf <;> obtain ⟨p, _, rfl⟩ := List.mem_map.1 hf <;> simp [slotOf]
  have hK0 : ∀ t ∈ (paramsOf .kwonly s.kwonly).map (slotOf (V := V) id), t.kwonly = true := by
    intro t ht
    obtain ⟨f, hf, rfl⟩ := List.mem_map.1 ht
    obtain ⟨p, _, rfl⟩ := List.mem_map.1 hf
    simp [slotOf]
  have hdrop : A.drop c.pos.length =
      paramsOf .normal (s.normal.drop (c.pos.length - s.posonly.length)) := by
    rw [hA, List.drop_append, List.drop_eq_nil_of_le (by simpa [paramsOf] using hP)]
    simp [paramsOf, List.map_drop]
  set R := s.normal.drop (c.pos.length - s.posonly.length) with hR
  have hrest : (A.map (slotOf (V := V) id)).drop c.pos.length ++
      (paramsOf .kwonly s.kwonly).map (slotOf id) =
      R.map (fun p => (⟨p.1, p.2.isSome, false⟩ : Slot)) ++
        s.kwonly.map (fun p => (⟨p.1, p.2.isSome, true⟩ : Slot)) := by
    rw [← List.map_drop, hdrop]
    simp [paramsOf, slotOf, Function.comp_def]
  have hnames : (R.map (fun p => (⟨p.1, p.2.isSome, false⟩ : Slot)) ++
        s.kwonly.map (fun p => (⟨p.1, p.2.isSome, true⟩ : Slot))).map Slot.name =
      (R ++ s.kwonly).map Prod.fst := by
    simp [Function.comp_def]
  have hsub : (R ++ s.kwonly).Sublist (s.normal ++ s.kwonly) :=
    List.Sublist.append (List.drop_sublist _ _) (List.Sublist.refl _)
  have hnd : ((R.map (fun p => (⟨p.1, p.2.isSome, false⟩ : Slot)) ++
        s.kwonly.map (fun p => (⟨p.1, p.2.isSome, true⟩ : Slot))).map Slot.name).Nodup := by
    rw [hnames]
    exact List.Sublist.nodup (hsub.map _) hn
  have hne' : ∀ t ∈ (R.map (fun p => (⟨p.1, p.2.isSome, false⟩ : Slot)) ++
        s.kwonly.map (fun p => (⟨p.1, p.2.isSome, true⟩ : Slot))), t.name ≠ "" := by
    intro t ht
    have : t.name ∈ (R ++ s.kwonly).map Prod.fst := hnames ▸ List.mem_map_of_mem ht
    obtain ⟨p, hp, he⟩ := List.mem_map.1 this
    exact he ▸ hne p (hsub.subset hp)
  -- keywords naming a filled parameter
  have hclash : (∀ t ∈ (A.map (slotOf (V := V) id)).take c.pos.length,
      t.name = "" ∨ c.kw.lookup t.name = none) ↔
      (∀ (j : Nat) (p : String × Option V), s.normal[j]? = some p →
        s.posonly.length + j < c.pos.length → p.1 ∉ c.kw.map Prod.fst) := by
    have hmemlk : ∀ n, c.kw.lookup n = none ↔ n ∉ c.kw.map Prod.fst := by
      intro n
      rw [List.lookup_eq_none_iff]
      simp only [List.mem_map, not_exists, not_and, bne_iff_ne, ne_eq]
      constructor
      · intro h kv hkv he; exact h kv hkv he.symm
      · intro h kv hkv he; exact h kv hkv he.symm
    rw [← List.map_take]
    constructor
    · intro h j p hp hj
      have hjl := (List.getElem?_eq_some_iff.1 hp).1
      have hAj : A[s.posonly.length + j]? = some (FArg.mk p.1 .normal p.2) := by
        rw [hA, List.getElem?_append_right (by simp [paramsOf])]
        simp [paramsOf, hp]
      have hmem : FArg.mk p.1 .normal p.2 ∈ A.take c.pos.length := by
        rw [List.mem_iff_getElem?]
        exact ⟨s.posonly.length + j, by rw [List.getElem?_take_of_lt hj, hAj]⟩
      rcases h _ (List.mem_map_of_mem hmem) with h' | h'
      · exact absurd h' (by
          simpa [slotOf] using hne p (by simp [List.mem_of_getElem? hp]))
      · rw [← hmemlk]
        simpa [slotOf] using h'
    · intro h t ht
      obtain ⟨f, hf, rfl⟩ := List.mem_map.1 ht
      obtain ⟨i, hi⟩ := List.mem_iff_getElem?.1 hf
      have hil : i < c.pos.length := by
        by_contra hcon
        rw [List.getElem?_take_eq_none (by omega)] at hi
        cases hi
      rw [List.getElem?_take_of_lt hil] at hi
      by_cases hip : i < s.posonly.length
      · left
        rw [hA, List.getElem?_append_left (by simpa [paramsOf] using hip)] at hi
        simp only [paramsOf, List.getElem?_map, Option.map_eq_some_iff] at hi
        obtain ⟨p, _, rfl⟩ := hi
        simp [slotOf]
      · right
        rw [hA, List.getElem?_append_right (by simp [paramsOf]; omega)] at hi
        simp only [paramsOf, List.getElem?_map, Option.map_eq_some_iff, List.length_map] at hi
        obtain ⟨p, hp, rfl⟩ := hi
        simp only [slotOf, reduceCtorEq, if_false, id]
        rw [hmemlk]
        exact h (i - s.posonly.length) p hp (by omega)
  -- the values
  have hval : ∀ (k1 k2 : List V), c.pos.length ≤ s.posonly.length + s.normal.length →
      R.map (supply c.kw) = k1.map some → s.kwonly.map (supply c.kw) = k2.map some →
      ((fargsOf s vn kn).zip (c.pos.map some ++
        ((R.map (fun p => (⟨p.1, p.2.isSome, false⟩ : Slot)) ++
          s.kwonly.map (fun p => (⟨p.1, p.2.isSome, true⟩ : Slot))).map
            (fun t => c.kw.lookup t.name)))).map
        (fun fv => argValue pyNone fv.1.dflt fv.2) = (c.pos ++ (k1 ++ k2)).map .val := by
    intro k1 k2 hle h1 h2
    have e1 : fargsOf s vn kn = A.take c.pos.length ++
        (paramsOf .normal R ++ paramsOf .kwonly s.kwonly) := by
      rw [hplain, ← hdrop, ← List.append_assoc, List.take_append_drop]
    rw [e1, List.zip_append (by simp [hAlen]; omega), List.map_append (l₁ := R.map _),
      List.zip_append (by simp [paramsOf]), List.map_append, List.map_append, List.map_append,
      List.map_append]
    rw [values_pos pyNone _ _ (by simp [hAlen]; omega) hpos]
    simp only [List.map_map, Function.comp_def]
    have e3 := values_kw pyNone .normal c.kw R k1 h1 hkw
    have e4 := values_kw pyNone .kwonly c.kw s.kwonly k2 h2 hkw
    rw [e3, e4]
  constructor
  · rintro ⟨vals, hp, rfl⟩
    rw [hslots, parseSlots_pos _ _ _ _ hA0 hK0] at hp
    obtain ⟨h1, h2, vs, h3, rfl⟩ := hp
    rw [hrest, parseSlots_kw _ _ hne' hnd, hnames] at h3
    obtain ⟨rfl, h4, h5⟩ := h3
    have hle : c.pos.length ≤ s.posonly.length + s.normal.length := by
      simpa [hAlen] using h1
    obtain ⟨k1, hk1⟩ := (supply_all c.kw R).2 (fun p hp => by
      simpa using h4 ⟨p.1, p.2.isSome, false⟩ (by
        rw [List.mem_append]; exact Or.inl (List.mem_map.2 ⟨p, hp, rfl⟩)))
    obtain ⟨k2, hk2⟩ := (supply_all c.kw s.kwonly).2 (fun p hp => by
      simpa using h4 ⟨p.1, p.2.isSome, true⟩ (by
        rw [List.mem_append]; exact Or.inr (List.mem_map.2 ⟨p, hp, rfl⟩)))
    exact ⟨hle, hclash.1 h2, h5, k1, k2, hk1, hk2, hval k1 k2 hle hk1 hk2⟩
  · rintro ⟨hle, h2, h5, k1, k2, hk1, hk2, rfl⟩
    refine ⟨_, ?_, hval k1 k2 hle hk1 hk2⟩
    rw [hslots, parseSlots_pos _ _ _ _ hA0 hK0]
    refine ⟨by simpa [hAlen] using hle, hclash.2 h2, _, ?_, rfl⟩
    rw [hrest, parseSlots_kw _ _ hne' hnd, hnames]
    refine ⟨rfl, ?_, h5⟩
    intro t ht
    rcases List.mem_append.1 ht with ht | ht
    · obtain ⟨p, hp, rfl⟩ := List.mem_map.1 ht
      exact (supply_all c.kw R).1 ⟨k1, hk1⟩ p hp
    · obtain ⟨p, hp, rfl⟩ := List.mem_map.1 ht
      exact (supply_all c.kw s.kwonly).1 ⟨k2, hk2⟩ p hp

theorem wrapper_few [DecidableEq V] (pyNone : V) (s : Sig V) (vn kn : String) (c : Call V)
    (hv : s.vararg = false) (hk : s.kwarg = false) (hpo : ∀ p ∈ s.posonly, p.2 = none)
    (hfmt : FmtOk (fargsOf s vn kn) false false)
    (hP : c.pos.length < s.posonly.length) :
    wrapperArgs pyNone id (fargsOf s vn kn) c = none := by
  have hread := readFormat_format id (fargsOf s vn kn) false false hfmt
  have hplain := fargsOf_plain s vn kn hv hk
  unfold wrapperArgs
  rw [hread]
  split
  · rfl
  simp only [Option.map_eq_none_iff]
  by_contra hcon
  obtain ⟨vals, hvals⟩ := Option.ne_none_iff_exists'.1 hcon
  rw [hplain, List.map_append, parseSlots_pos] at hvals
  · obtain ⟨-, -, vs, h3, -⟩ := hvals
    have : ∃ l, ((paramsOf .posonly s.posonly ++ paramsOf .normal s.normal).map
        (slotOf (V := V) id)).drop c.pos.length = ⟨"", false, false⟩ :: l := by
      refine ⟨((paramsOf .posonly s.posonly ++ paramsOf .normal s.normal).map
        (slotOf (V := V) id)).drop (c.pos.length + 1), ?_⟩
      · rw [List.drop_eq_getElem_cons (by simp [paramsOf]; omega)]
        congr 1
        rw [List.getElem_map, List.getElem_append_left (by simpa [paramsOf] using hP)]
        simp [paramsOf, slotOf, hpo _ (List.getElem_mem hP)]
    obtain ⟨l, hl⟩ := this
    rw [hl, List.cons_append, parseSlots] at h3
    simp at h3
  · intro t ht
    obtain ⟨f, hf, rfl⟩ := List.mem_map.1 ht
    rw [List.mem_append] at hf
    rcases hf with hf | hf <;> obtain ⟨p, _, rfl⟩ := List.mem_map.1 hf <;> simp [slotOf]
  · intro t ht
    obtain ⟨f, hf, rfl⟩ := List.mem_map.1 ht
    obtain ⟨p, _, rfl⟩ := List.mem_map.1 hf
    simp [slotOf]

/-! ### The format -/

theorem fmtOk_append (l1 l2 : List (FArg V)) (hd hk : Bool) :
    FmtOk (l1 ++ l2) hd hk ↔ FmtOk l1 hd hk ∧
      FmtOk l2 (hd || l1.any (fun f => f.dflt.isSome)) (hk || l1.any (fun f => f.kind = .kwonly)) := by
  induction l1 generalizing hd hk with
  | nil => simp [FmtOk]
  | cons f l ih =>
    simp only [List.cons_append, FmtOk, ih, List.any_cons, Bool.or_assoc]
    tauto

theorem fmtOk_required (k : Kind) (l : List (String × Option V)) (hl : ∀ p ∈ l, p.2 = none)
    (hk : Bool) (hkk : hk = true → k = .kwonly) : FmtOk (paramsOf k l) false hk := by
  induction l generalizing hk with
  | nil => trivial
  | cons p l ih =>
    have hp := hl p (by simp)
    refine ⟨by simp, hkk, by simp [hp], ?_⟩
    simp only [hp, Option.isSome_none, Bool.or_false]
    apply ih (fun q hq => hl q (by simp [hq]))
    intro h
    by_contra hne
    simp [hne] at h
    exact hne (hkk h)

theorem fmtOk_optional (k : Kind) (l : List (String × Option V))
    (hl : ∀ p ∈ l, p.2.isSome = true) (hd hk : Bool) (hkk : hk = true → k = .kwonly)
    (hor : hd = true ∨ hk = false) : FmtOk (paramsOf k l) hd hk := by
  induction l generalizing hd hk with
  | nil => trivial
  | cons p l ih =>
    have hp := hl p (by simp)
    refine ⟨fun _ => hp, hkk, fun _ => hor, ?_⟩
    simp only [hp, Bool.or_true]
    apply ih (fun q hq => hl q (by simp [hq]))
    · intro h
      by_contra hne
      simp [hne] at h
      exact hne (hkk h)
    · simp

/-! ### Reading the parameter list -/

theorem alignRight_append (A B : List String) (ds : List V) (h : ds.length ≤ B.length) :
    alignRight (A ++ B) ds = A.map (fun n => (n, none)) ++ alignRight B ds := by
  unfold alignRight
  have : (A ++ B).length - ds.length = A.length + (B.length - ds.length) := by
    rw [List.length_append]; omega
  rw [this, ← List.replicate_append_replicate, List.append_assoc, List.zip_append (by simp)]
  congr 1
  clear this h
  induction A with
  | nil => rfl
  | cons a A ih => simp [List.replicate_succ, ih]

theorem alignRight_split (B : List String) (ds : List V) (h : ds.length ≤ B.length) :
    alignRight B ds = (B.take (B.length - ds.length)).map (fun n => (n, none)) ++
      ((B.drop (B.length - ds.length)).zip ds).map (fun nd => (nd.1, some nd.2)) := by
  have key : ∀ (n : Nat) (B : List String), n ≤ B.length →
      B.zip (List.replicate n none ++ ds.map some) =
        (B.take n).map (fun n => (n, (none : Option V))) ++
          ((B.drop n).zip ds).map (fun nd => (nd.1, some nd.2)) := by
    intro n
    induction n with
    | zero =>
      intro B _
      simp only [List.replicate_zero, List.nil_append, List.take_zero, List.map_nil,
        List.drop_zero]
      rw [List.zip_map_right]
      rfl
    | succ n ih =>
      intro B hB
      cases B with
      | nil => simp at hB
      | cons b B =>
        simp only [List.replicate_succ, List.cons_append, List.zip_cons_cons,
          List.take_succ_cons, List.map_cons, List.drop_succ_cons, List.cons.injEq, true_and]
        exact ih B (by simpa using hB)
  exact key _ B (by omega)

theorem signature_parts (a : PyArguments V) (h : a.defaults.length ≤ a.args.length) :
    (signature a).posonly = a.posonly.map (fun n => (n, none)) ∧
      (signature a).normal = alignRight a.args a.defaults := by
  unfold signature
  simp only
  rw [alignRight_append _ _ _ h]
  exact ⟨List.take_left' (by simp), List.drop_left' (by simp)⟩

theorem visitArguments_eq (a : PyArguments V) (h : a.defaults.length ≤ a.args.length) :
    visitArguments a = fargsOf (signature a) (a.vararg.getD "") (a.kwarg.getD "") := by
  obtain ⟨h1, h2⟩ := signature_parts a h
  unfold visitArguments fargsOf
  rw [h1, h2, alignRight_split _ _ h]
  have e1 : sliceTo a.args ((a.args.length : Int) - a.defaults.length) =
      a.args.take (a.args.length - a.defaults.length) := by
    unfold sliceTo
    rw [if_neg (by omega)]
    congr 1
    omega
  have e2 : sliceFrom a.args ((a.args.length : Int) - a.defaults.length) =
      a.args.drop (a.args.length - a.defaults.length) := by
    unfold sliceFrom
    rw [if_neg (by omega)]
    congr 1
    omega
  simp only [e1, e2, List.map_map, List.map_append, List.append_assoc, Function.comp_def]
  have e3 : (a.vararg.toList.map (fun n => FArg.mk n Kind.vararg (none : Option V))) =
      if (signature a).vararg = true then [FArg.mk (a.vararg.getD "") .vararg none] else [] := by
    cases hv : a.vararg <;> simp [signature, hv]
  have e4 : (a.kwarg.toList.map (fun n => FArg.mk n Kind.kwarg (none : Option V))) =
      if (signature a).kwarg = true then [FArg.mk (a.kwarg.getD "") .kwarg none] else [] := by
    cases hv : a.kwarg <;> simp [signature, hv]
  rw [e3, e4]
  rfl

theorem alignRight_names (B : List String) (ds : List V) (h : ds.length ≤ B.length) :
    (alignRight B ds).map Prod.fst = B := by
  unfold alignRight
  rw [List.map_fst_zip]
  simp; omega

theorem signature_names (a : PyArguments V) (hw : a.Wf) (h : a.defaults.length ≤ a.args.length) :
    ((signature a).normal ++ (signature a).kwonly).map Prod.fst = a.args ++ a.kwonly := by
  rw [List.map_append, (signature_parts a h).2, alignRight_names _ _ h]
  congr 1
  simp only [signature]
  rw [List.map_fst_zip]
  rw [hw.kwDefaultsFit]

theorem namesOk_signature (a : PyArguments V) (hw : a.Wf)
    (h : a.defaults.length ≤ a.args.length) : NamesOk (signature a) := by
  unfold NamesOk
  rw [signature_names a hw h]
  have := hw.namesDistinct
  have hsub : (a.args ++ a.kwonly).Sublist
      (a.posonly ++ a.args ++ a.vararg.toList ++ a.kwonly ++ a.kwarg.toList) := by
    simp only [List.append_assoc]
    refine List.Sublist.trans ?_ (List.sublist_append_right _ _)
    refine List.Sublist.append (List.Sublist.refl _) ?_
    refine List.Sublist.trans ?_ (List.sublist_append_right _ _)
    exact List.sublist_append_left _ _
  exact List.Sublist.nodup hsub this

theorem any_kwonly (k : Kind) (l : List (String × Option V)) (hk : k ≠ .kwonly) :
    (l.map (fun p => FArg.mk p.1 k p.2)).any (fun f => f.kind = .kwonly) = false := by
  rw [List.any_eq_false]
  intro f hf
  obtain ⟨p, _, rfl⟩ := List.mem_map.1 hf
  simpa using hk

theorem fmtOk_signature (a : PyArguments V) (h : a.defaults.length ≤ a.args.length)
    (hv : a.vararg = none) (hk : a.kwarg = none)
    (hkd : (a.defaults = [] ∧ ∀ d ∈ a.kwDefaults, d = none) ∨ ∀ d ∈ a.kwDefaults, d ≠ none) :
    FmtOk (fargsOf (signature a) (a.vararg.getD "") (a.kwarg.getD "")) false false := by
  obtain ⟨h1, h2⟩ := signature_parts a h
  rw [fargsOf_plain _ _ _ (by simp [signature, hv]) (by simp [signature, hk])]
  rw [fmtOk_append, fmtOk_append]
  have hkw0 : (paramsOf .posonly (signature a).posonly ++
      paramsOf .normal (signature a).normal).any (fun f => f.kind = .kwonly) = false := by
    simp [paramsOf]
  have hpo0 : (paramsOf .posonly (signature a).posonly).any
      (fun f => f.kind = .kwonly) = false := by
    simp [paramsOf]
  have hpod : (paramsOf .posonly (signature a).posonly).any
      (fun f => f.dflt.isSome) = false := by
    simp [paramsOf, h1]
  have hkwm : ∀ p ∈ (signature a).kwonly, p.2 ∈ a.kwDefaults := by
    intro p hp
    simp only [signature] at hp
    exact (List.of_mem_zip (a := p.1) (b := p.2) hp).2
  refine ⟨⟨?_, ?_⟩, ?_⟩
  · apply fmtOk_required _ _ _ _ (by simp)
    rw [h1]
    simp
  · rw [hpo0, hpod, h2, alignRight_split _ _ h]
    rw [paramsOf, List.map_append, fmtOk_append]
    refine ⟨?_, ?_⟩
    · refine fmtOk_required .normal _ ?_ _ (by simp)
      intro p hp
      obtain ⟨_, _, rfl⟩ := List.mem_map.1 hp
      rfl
    · refine fmtOk_optional .normal _ ?_ _ _ ?_ (Or.inr ?_)
      · intro p hp
        obtain ⟨_, _, rfl⟩ := List.mem_map.1 hp
        rfl
      · intro hc
        rw [any_kwonly _ _ (by simp)] at hc
        simp at hc
      · rw [any_kwonly _ _ (by simp)]
        rfl
  · rw [hkw0]
    rcases hkd with ⟨hd, hkn⟩ | hks
    · have hA : (paramsOf .posonly (signature a).posonly ++
          paramsOf .normal (signature a).normal).any (fun f => f.dflt.isSome) = false := by
        rw [List.any_append, hpod, h2, alignRight_split _ _ h, hd]
        rw [List.any_eq_false.2]
        · rfl
        · intro f hf
          obtain ⟨p, hp, rfl⟩ := List.mem_map.1 hf
          rw [List.zip_nil_right, List.map_nil, List.append_nil] at hp
          obtain ⟨_, _, rfl⟩ := List.mem_map.1 hp
          simp
      rw [hA]
      apply fmtOk_required
      · intro p hp
        exact hkn _ (hkwm p hp)
      · simp
    · apply fmtOk_optional
      · intro p hp
        exact Option.isSome_iff_ne_none.2 (hks _ (hkwm p hp))
      · simp
      · simp

end
end Verif.Calls
