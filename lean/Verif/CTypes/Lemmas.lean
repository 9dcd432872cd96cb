import Verif.CTypes.Model

/-!
# Lemmas
-/

namespace Verif.CTypes
open Spec Model

/-! ### Names -/

def numName (n : Num) (c : Bool) : Name := .num n :: if c then [.complex] else []

def basic : PyType → Bool
  | .num _ => true
  | .cplx _ => true
  | .str => true
  | _ => false

def suffix (t : PyType) : Name := if basic t then [] else [.mem]

def nm : PyType → Name
  | .num n => [.num n]
  | .cplx n => [.num n, .complex]
  | .str => [.cstr]
  | .array n c r _ => .array :: (numName n c ++ [.dim r])
  | .list t => .vec :: (nm t ++ suffix t)
  | .set t => .hset :: (nm t ++ suffix t)
  | .dict k v => .hmap :: ((nm k ++ suffix k) ++ (nm v ++ suffix v))

def nmC : CType → Name
  | .val t => nm t
  | .ptr t => nm t ++ [.mem]

theorem nmC_stored (t : PyType) : nmC (stored t) = nm t ++ suffix t := by
  cases t <;> simp [stored, nmC, suffix, basic]

theorem getNum_name (n : Num) (s : Imports) : (getNum n s).2 = [.num n] := by cases n <;> rfl
theorem getCplx_name (n : Num) (s : Imports) : (getCplx n s).2 = [.num n, .complex] := by
  simp [getCplx, getNum_name]

theorem getStored_name (t : PyType) (r : Imports × Name) : (getStored t r).2 = r.2 ++ suffix t := by
  cases t <;> simp [getStored, suffix, basic]

theorem getC_name (t : PyType) (s : Imports) : (getC t s).2 = nm t := by
  induction t generalizing s with
  | num n => exact getNum_name n s
  | cplx n => exact getCplx_name n s
  | str => rfl
  | array n c r k => cases c <;> simp [getC, getNum_name, getCplx_name, nm, numName]
  | list t ih => simp [getC, getStored_name, ih, nm]
  | set t ih => simp [getC, getStored_name, ih, nm]
  | dict k v hk hv => simp [getC, getStored_name, hk, hv, nm]

theorem basic_plain (t : PyType) : basic (plain t) = basic t := by cases t <;> rfl

theorem suffix_congr {t u : PyType} (h : plain t = plain u) : suffix t = suffix u := by
  unfold suffix; rw [← basic_plain t, h, basic_plain]

theorem nm_plain (t : PyType) : nm (plain t) = nm t := by
  have hs : ∀ t, suffix (plain t) = suffix t := fun t => by unfold suffix; rw [basic_plain]
  induction t with
  | list t ih => simp [plain, nm, ih, hs]
  | set t ih => simp [plain, nm, ih, hs]
  | dict k v hk hv => simp [plain, nm, hk, hv, hs]
  | _ => rfl

theorem nm_congr {t u : PyType} (h : plain t = plain u) : nm t = nm u := by rw [← nm_plain t, h, nm_plain]

/-- Not starting with the word `complex`. -/
def NC (r : Name) : Prop := ∀ l, r ≠ .complex :: l

theorem nc_nm (t : PyType) (l : Name) : NC (nm t ++ l) := by
  intro l' h
  cases t <;> simp [nm] at h

theorem nc_suffix (t : PyType) {r : Name} (h : NC r) : NC (suffix t ++ r) := by
  unfold suffix; split
  · exact h
  · intro l e; cases e

theorem stored_inj {t : PyType}
    (ih : ∀ (u : PyType) (r r' : Name), NC r → NC r' → nm t ++ r = nm u ++ r' → plain t = plain u ∧ r = r')
    {u : PyType} {r r' : Name} (h : NC r) (h' : NC r')
    (e : (nm t ++ suffix t) ++ r = (nm u ++ suffix u) ++ r') : plain t = plain u ∧ r = r' := by
  simp only [List.append_assoc] at e
  obtain ⟨h1, h2⟩ := ih u _ _ (nc_suffix t h) (nc_suffix u h') e
  rw [suffix_congr h1] at h2
  exact ⟨h1, List.append_cancel_left h2⟩

theorem nm_inj (t : PyType) : ∀ (u : PyType) (r r' : Name), NC r → NC r' → nm t ++ r = nm u ++ r' →
    plain t = plain u ∧ r = r' := by
  induction t with
  | num n =>
    intro u r r' h h' e
    cases u <;> simp [nm] at e
    · simp [e, plain]
    · exact absurd e.2 (h _)
  | cplx n =>
    intro u r r' h h' e
    cases u <;> simp [nm] at e
    · exact absurd e.2.symm (h' _)
    · simp [e, plain]
  | str =>
    intro u r r' h h' e
    cases u <;> simp [nm] at e
    simp [e, plain]
  | array n c d k =>
    intro u r r' h h' e
    cases u <;> simp [nm] at e
    next n' c' d' k' =>
    cases c <;> cases c' <;> simp [numName] at e <;> simp [plain, e]
  | list t ih =>
    intro u r r' h h' e
    cases u <;> simp only [nm, List.cons_append, List.cons.injEq, reduceCtorEq, false_and, true_and] at e
    obtain ⟨h1, h2⟩ := stored_inj ih h h' e
    exact ⟨by simp [plain, h1], h2⟩
  | set t ih =>
    intro u r r' h h' e
    cases u <;> simp only [nm, List.cons_append, List.cons.injEq, reduceCtorEq, false_and, true_and] at e
    obtain ⟨h1, h2⟩ := stored_inj ih h h' e
    exact ⟨by simp [plain, h1], h2⟩
  | dict k v hk hv =>
    intro u r r' h h' e
    cases u <;> simp only [nm, List.cons_append, List.cons.injEq, reduceCtorEq, false_and, true_and] at e
    next k' v' =>
    rw [List.append_assoc (nm k ++ suffix k), List.append_assoc (nm k' ++ suffix k')] at e
    obtain ⟨h1, h2⟩ := stored_inj hk (by rw [List.append_assoc]; exact nc_nm _ _)
      (by rw [List.append_assoc]; exact nc_nm _ _) e
    obtain ⟨h3, h4⟩ := stored_inj hv h h' h2
    exact ⟨by simp [plain, h1, h3], h4⟩

theorem nc_nil : NC [] := fun _ h => by cases h
theorem nc_mem (r : Name) : NC (.mem :: r) := fun _ h => by cases h

theorem nmC_inj {T U : CType} (h : nmC T = nmC U) : Same T U := by
  cases T with
  | val t =>
    cases U with
    | val u => exact (nm_inj t u [] [] nc_nil nc_nil (by simpa [nmC] using h)).1
    | ptr u => have := (nm_inj t u [] [.mem] nc_nil (nc_mem _) (by simpa [nmC] using h)).2; cases this
  | ptr t =>
    cases U with
    | val u => have := (nm_inj t u [.mem] [] (nc_mem _) nc_nil (by simpa [nmC] using h)).2; cases this
    | ptr u => exact (nm_inj t u [.mem] [.mem] (nc_mem _) (nc_mem _) (by simpa [nmC] using h)).1

theorem same_name {T U : CType} (h : Same T U) : nmC T = nmC U := by
  cases T <;> cases U <;> simp only [Same] at h <;> simp [nmC, nm_congr h]

theorem same_kind {T U : CType} (h : Same T U) : kind T = kind U := by
  cases T <;> cases U <;> simp only [Same] at h
  · next t u => cases t <;> cases u <;> simp [plain] at h <;> simp [Spec.kind, h]
  · rfl

theorem same_needs {T U : CType} (h : Same T U) : (needs T).map nmC = (needs U).map nmC := by
  cases T <;> cases U <;> simp only [Same] at h
  · next t u =>
    cases t <;> cases u <;> simp [plain] at h <;> try rfl
    · next n c r k n' c' r' k' => obtain ⟨rfl, rfl, rfl⟩ := h; cases c <;> rfl
    · simp [Spec.needs, nmC_stored, nm_congr h, suffix_congr h]
    · simp [Spec.needs, nmC_stored, nm_congr h, suffix_congr h]
    · simp [Spec.needs, nmC_stored, nm_congr h.1, suffix_congr h.1, nm_congr h.2, suffix_congr h.2]
  · simp [Spec.needs, nmC, nm_congr h]

theorem rank_plain (t : PyType) : rank (plain t) = rank t := by
  induction t <;> simp_all [plain, rank]

def srcOf : CType → Source
  | .val (.array ..) => .cspan
  | .val (.list _) => .vec
  | .val (.set _) => .hset
  | .val (.dict _ _) => .hmap
  | .val _ => .vec
  | .ptr _ => .managed

theorem same_src {T U : CType} (h : Same T U) : srcOf T = srcOf U := by
  cases T <;> cases U <;> simp only [Same] at h
  · next t u => cases t <;> cases u <;> simp [plain] at h <;> rfl
  · rfl

theorem same_rank {T U : CType} (h : Same T U) : typeRank T = typeRank U := by
  cases T <;> cases U <;> simp only [Same] at h
  all_goals simp only [typeRank]; rw [← rank_plain, h, rank_plain]

/-! ### What is collected -/

def base : CType → PyType
  | .val t => t
  | .ptr t => t

/-- The C type is available. -/
def Has (s : Imports) (U : CType) : Prop :=
  (Basic U ∧ ∃ t, U = .val t ∧ ∀ h, header t = some h → h ∈ s.headers) ∨
    ∃ τ ∈ s.targets, τ.source = srcOf U ∧ τ.alias = nmC U

structure Inv (s : Imports) : Prop where
  name : ∀ τ ∈ s.targets, τ.alias = nmC τ.type
  src : ∀ τ ∈ s.targets, τ.source = srcOf τ.type
  cont : ∀ τ ∈ s.targets, ¬ Basic τ.type
  py : ∀ τ ∈ s.targets, InPython (base τ.type)
  closed : ∀ τ ∈ s.targets, ∀ U ∈ needs τ.type, Has s U
  nodup : (s.targets.map (·.alias)).Nodup

def Le (s s' : Imports) : Prop := (∀ h ∈ s.headers, h ∈ s'.headers) ∧ ∀ τ ∈ s.targets, τ ∈ s'.targets

theorem Le.refl (s : Imports) : Le s s := ⟨fun _ h => h, fun _ h => h⟩
theorem Le.trans {a b c : Imports} (h : Le a b) (h' : Le b c) : Le a c :=
  ⟨fun x hx => h'.1 x (h.1 x hx), fun x hx => h'.2 x (h.2 x hx)⟩

theorem Has.mono {s s' : Imports} {U : CType} (h : Has s U) (hl : Le s s') : Has s' U := by
  rcases h with ⟨hb, t, e, ht⟩ | ⟨τ, hτ, h⟩
  · exact .inl ⟨hb, t, e, fun h hh => hl.1 _ (ht h hh)⟩
  · exact .inr ⟨τ, hl.2 _ hτ, h⟩

theorem addHeader_targets (s : Imports) (h : Header) : (s.addHeader h).targets = s.targets := by
  unfold Imports.addHeader; split <;> rfl
theorem addHeader_mem (s : Imports) (h : Header) : h ∈ (s.addHeader h).headers := by
  unfold Imports.addHeader; split
  · assumption
  · simp
theorem addHeader_le (s : Imports) (h : Header) : Le s (s.addHeader h) := by
  refine ⟨?_, fun τ hτ => by rw [addHeader_targets]; exact hτ⟩
  unfold Imports.addHeader; split
  · exact fun _ h => h
  · intro x hx; simp [hx]
theorem addHeader_inv {s : Imports} (hi : Inv s) (h : Header) : Inv (s.addHeader h) := by
  have e := addHeader_targets s h
  constructor
  · rw [e]; exact hi.name
  · rw [e]; exact hi.src
  · rw [e]; exact hi.cont
  · rw [e]; exact hi.py
  · rw [e]; exact fun τ hτ U hU => (hi.closed τ hτ U hU).mono (addHeader_le s h)
  · rw [e]; exact hi.nodup

theorem addTarget_le (s : Imports) (τ : Target) : Le s (s.addTarget τ) := by
  unfold Imports.addTarget; split
  · exact Le.refl s
  · exact ⟨fun _ h => h, fun x hx => by simp [hx]⟩

theorem addTarget_spec {s : Imports} (hi : Inv s) {τ : Target} (hn : τ.alias = nmC τ.type) (hsrc : τ.source = srcOf τ.type)
    (hc : ¬ Basic τ.type) (hp : InPython (base τ.type)) (hd : ∀ U ∈ needs τ.type, Has s U) :
    Inv (s.addTarget τ) ∧ Has (s.addTarget τ) τ.type := by
  have hle := addTarget_le s τ
  unfold Imports.addTarget at hle ⊢
  split
  · next h =>
    refine ⟨hi, .inr ?_⟩
    simp only [List.any_eq_true, Bool.and_eq_true, decide_eq_true_eq] at h
    obtain ⟨u, hu, h1, h2⟩ := h
    exact ⟨u, hu, h1.trans hsrc, h2.trans hn⟩
  · next h =>
    rw [if_neg h] at hle
    simp only [List.any_eq_true, Bool.and_eq_true, decide_eq_true_eq, not_exists, not_and] at h
    refine ⟨⟨?_, ?_, ?_, ?_, ?_, ?_⟩, .inr ⟨τ, by simp, hsrc, hn⟩⟩
    · intro u hu
      simp only [List.mem_append, List.mem_singleton] at hu
      rcases hu with hu | rfl
      · exact hi.name u hu
      · exact hn
    · intro u hu
      simp only [List.mem_append, List.mem_singleton] at hu
      rcases hu with hu | rfl
      · exact hi.src u hu
      · exact hsrc
    · intro u hu
      simp only [List.mem_append, List.mem_singleton] at hu
      rcases hu with hu | rfl
      · exact hi.cont u hu
      · exact hc
    · intro u hu
      simp only [List.mem_append, List.mem_singleton] at hu
      rcases hu with hu | rfl
      · exact hi.py u hu
      · exact hp
    · intro u hu U hU
      simp only [List.mem_append, List.mem_singleton] at hu
      rcases hu with hu | rfl
      · exact (hi.closed u hu U hU).mono hle
      · exact (hd U hU).mono hle
    · simp only [List.map_append, List.map_cons, List.map_nil]
      rw [List.nodup_append]
      refine ⟨hi.nodup, by simp, ?_⟩
      intro a ha b hb
      simp only [List.mem_singleton] at hb
      subst hb
      simp only [List.mem_map] at ha
      obtain ⟨u, hu, rfl⟩ := ha
      intro e
      refine h u hu ?_ e
      rw [hi.src u hu, hsrc]
      have hsame : Same u.type τ.type := nmC_inj ((hi.name u hu).symm.trans (e.trans hn))
      exact same_src hsame

theorem getNum_spec {s : Imports} (hi : Inv s) (n : Num) :
    Inv (getNum n s).1 ∧ Le s (getNum n s).1 ∧ Has (getNum n s).1 (.val (.num n)) := by
  cases n
  case float | double => exact ⟨hi, Le.refl s, .inl ⟨trivial, _, rfl, fun h e => by cases e⟩⟩
  all_goals
    refine ⟨addHeader_inv hi _, addHeader_le s _, .inl ⟨trivial, _, rfl, fun h e => ?_⟩⟩
    injection e with e; subst e; exact addHeader_mem _ _

theorem getCplx_spec {s : Imports} (hi : Inv s) (n : Num) :
    Inv (getCplx n s).1 ∧ Le s (getCplx n s).1 ∧ Has (getCplx n s).1 (.val (.cplx n)) := by
  obtain ⟨h1, h2, _⟩ := getNum_spec (addHeader_inv hi .complex) n
  refine ⟨h1, (addHeader_le s _).trans h2, .inl ⟨trivial, _, rfl, fun h e => ?_⟩⟩
  injection e with e; subst e; exact h2.1 _ (addHeader_mem _ _)

theorem getStored_spec {t : PyType} {r : Imports × Name} (hi : Inv r.1) (hn : r.2 = nm t) (hp : InPython t)
    (hh : Has r.1 (.val t)) :
    Inv (getStored t r).1 ∧ Le r.1 (getStored t r).1 ∧ Has (getStored t r).1 (stored t) := by
  have key : basic t = false → Inv (r.1.addTarget ⟨.managed, r.2 ++ [.mem], .ptr t⟩) ∧
      Le r.1 (r.1.addTarget ⟨.managed, r.2 ++ [.mem], .ptr t⟩) ∧
      Has (r.1.addTarget ⟨.managed, r.2 ++ [.mem], .ptr t⟩) (.ptr t) := by
    intro _
    obtain ⟨h1, h2⟩ := addTarget_spec hi (τ := ⟨.managed, r.2 ++ [.mem], .ptr t⟩) (by simp [nmC, hn]) rfl (fun h => h) hp
      (by intro U hU; simp only [needs, List.mem_singleton] at hU; subst hU; exact hh)
    exact ⟨h1, addTarget_le _ _, h2⟩
  cases t
  case num | cplx | str => exact ⟨hi, Le.refl _, hh⟩
  all_goals exact key rfl

theorem getC_spec (t : PyType) : ∀ {s : Imports}, Inv s → InPython t →
    Inv (getC t s).1 ∧ Le s (getC t s).1 ∧ Has (getC t s).1 (.val t) := by
  induction t with
  | num n => exact fun hi _ => getNum_spec hi n
  | cplx n => exact fun hi _ => getCplx_spec hi n
  | str =>
    intro s hi _
    refine ⟨addHeader_inv hi _, addHeader_le s _, .inl ⟨trivial, _, rfl, fun h e => ?_⟩⟩
    injection e with e; subst e; exact addHeader_mem _ _
  | array n c r k =>
    intro s hi _
    cases c with
    | false =>
      obtain ⟨h1, h2, h3⟩ := getNum_spec hi n
      obtain ⟨h4, h5⟩ := addTarget_spec h1
        (τ := ⟨.cspan, .array :: (getNum n s).2 ++ [.dim r], .val (.array n false r k)⟩)
        (by simp [nmC, nm, numName, getNum_name]) rfl (fun h => h) trivial
        (by intro U hU; simp only [needs, List.mem_singleton] at hU; subst hU; exact h3)
      exact ⟨h4, h2.trans (addTarget_le _ _), h5⟩
    | true =>
      obtain ⟨h1, h2, h3⟩ := getCplx_spec hi n
      obtain ⟨h4, h5⟩ := addTarget_spec h1
        (τ := ⟨.cspan, .array :: (getCplx n s).2 ++ [.dim r], .val (.array n true r k)⟩)
        (by simp [nmC, nm, numName, getCplx_name]) rfl (fun h => h) trivial
        (by intro U hU; simp only [needs, List.mem_singleton] at hU; subst hU; exact h3)
      exact ⟨h4, h2.trans (addTarget_le _ _), h5⟩
  | list t ih =>
    intro s hi hp
    obtain ⟨h1, h2, h3⟩ := ih hi hp
    obtain ⟨h4, h5, h6⟩ := getStored_spec h1 (getC_name t s) hp h3
    obtain ⟨h7, h8⟩ := addTarget_spec h4
      (τ := ⟨.vec, .vec :: (getStored t (getC t s)).2, .val (.list t)⟩)
      (by simp [nmC, nm, getStored_name, getC_name]) rfl (fun h => h) hp
      (by intro U hU; simp only [needs, List.mem_singleton] at hU; subst hU; exact h6)
    exact ⟨h7, (h2.trans h5).trans (addTarget_le _ _), h8⟩
  | set t ih =>
    intro s hi hp
    obtain ⟨h1, h2, h3⟩ := ih hi hp.2
    obtain ⟨h4, h5, h6⟩ := getStored_spec h1 (getC_name t s) hp.2 h3
    obtain ⟨h7, h8⟩ := addTarget_spec h4
      (τ := ⟨.hset, .hset :: (getStored t (getC t s)).2, .val (.set t)⟩)
      (by simp [nmC, nm, getStored_name, getC_name]) rfl (fun h => h) hp
      (by intro U hU; simp only [needs, List.mem_singleton] at hU; subst hU; exact h6)
    exact ⟨h7, (h2.trans h5).trans (addTarget_le _ _), h8⟩
  | dict k v hk hv =>
    intro s hi hp
    obtain ⟨h1, h2, h3⟩ := hk hi hp.2.1
    obtain ⟨h4, h5, h6⟩ := getStored_spec h1 (getC_name k s) hp.2.1 h3
    obtain ⟨g1, g2, g3⟩ := hv h4 hp.2.2
    obtain ⟨g4, g5, g6⟩ := getStored_spec g1 (getC_name v _) hp.2.2 g3
    obtain ⟨h7, h8⟩ := addTarget_spec g4
      (τ := ⟨.hmap, .hmap :: (getStored k (getC k s)).2 ++ (getStored v (getC v (getStored k (getC k s)).1)).2,
        .val (.dict k v)⟩)
      (by simp [nmC, nm, getStored_name, getC_name]) rfl (fun h => h) hp
      (by
        intro U hU
        simp only [needs, List.mem_cons, List.not_mem_nil, or_false] at hU
        rcases hU with rfl | rfl
        · exact h6.mono (g2.trans g5)
        · exact g6)
    exact ⟨h7, (((h2.trans h5).trans g2).trans g5).trans (addTarget_le _ _), h8⟩

theorem foldl_spec (used : List PyType) (hu : ∀ t ∈ used, InPython t) : ∀ {s : Imports}, Inv s →
    Inv (used.foldl (fun s t => (getC t s).1) s) ∧ Le s (used.foldl (fun s t => (getC t s).1) s) ∧
      ∀ t ∈ used, Has (used.foldl (fun s t => (getC t s).1) s) (.val t) := by
  induction used with
  | nil => exact fun hi => ⟨hi, Le.refl _, by simp⟩
  | cons t used ih =>
    intro s hi
    obtain ⟨h1, h2, h3⟩ := getC_spec t hi (hu t (by simp))
    obtain ⟨h4, h5, h6⟩ := ih (fun u hu' => hu u (by simp [hu'])) h1
    refine ⟨h4, h2.trans h5, ?_⟩
    intro u hu'
    simp only [List.mem_cons] at hu'
    rcases hu' with rfl | hu'
    · exact h3.mono h5
    · exact h6 u hu'

theorem collect_spec (used : List PyType) (hu : ∀ t ∈ used, InPython t) :
    Inv (collect used) ∧ ∀ t ∈ used, Has (collect used) (.val t) := by
  obtain ⟨h1, _, h2⟩ := foldl_spec used hu (s := ⟨[], []⟩)
    ⟨by simp, by simp, by simp, by simp, by simp, by simp⟩
  exact ⟨h1, h2⟩

/-! ### Sorting -/

theorem insert_perm (cmp : Name → Name → Bool) (t : Target) (l : List Target) : (insertT cmp t l).Perm (t :: l) := by
  induction l with
  | nil => exact .refl _
  | cons u us ih =>
    unfold insertT; split
    · exact .refl _
    · exact (ih.cons u).trans (.swap t u us)

theorem sort_perm (cmp : Name → Name → Bool) (l : List Target) : (sort cmp l).Perm l := by
  induction l with
  | nil => exact .refl _
  | cons t ts ih => exact (insert_perm cmp t _).trans (ih.cons t)

theorem before_le {cmp : Name → Name → Bool} {a b : Target} (h : before cmp a b = true) : key a ≤ key b := by
  unfold before at h
  split at h
  · exact Nat.le_of_lt (of_decide_eq_true h)
  · omega

theorem not_before_le {cmp : Name → Name → Bool} {a b : Target} (h : ¬ before cmp a b = true) : key b ≤ key a := by
  unfold before at h
  split at h
  · simp only [decide_eq_true_eq] at h; omega
  · omega

theorem insert_sorted (cmp : Name → Name → Bool) (t : Target) {l : List Target}
    (h : l.Pairwise (fun a b => key a ≤ key b)) : (insertT cmp t l).Pairwise (fun a b => key a ≤ key b) := by
  induction l with
  | nil => simp [insertT]
  | cons u us ih =>
    rw [List.pairwise_cons] at h
    unfold insertT; split
    · next hb =>
      have := before_le hb
      rw [List.pairwise_cons, List.pairwise_cons]
      refine ⟨?_, h⟩
      intro x hx
      simp only [List.mem_cons] at hx
      rcases hx with rfl | hx
      · exact this
      · exact Nat.le_trans this (h.1 x hx)
    · next hb =>
      rw [List.pairwise_cons]
      refine ⟨?_, ih h.2⟩
      intro x hx
      have hx := (insert_perm cmp t us).mem_iff.mp hx
      simp only [List.mem_cons] at hx
      rcases hx with rfl | hx
      · exact not_before_le hb
      · exact h.1 x hx

theorem sort_sorted (cmp : Name → Name → Bool) (l : List Target) : (sort cmp l).Pairwise (fun a b => key a ≤ key b) := by
  induction l with
  | nil => simp [sort]
  | cons t ts ih => exact insert_sorted cmp t ih

/-! ### Printing -/

theorem element_some {s : Imports} {t : PyType} {a : Name} (h : element s t = some a) :
    a = nmC (stored t) ∧ isArray t = false := by
  rw [nmC_stored]
  cases t <;> simp only [element, Option.some.injEq, reduceCtorEq] at h <;> subst h <;>
    simp [getC_name, getStored_name, nm, suffix, basic, isArray]

theorem element_isSome {s : Imports} {t : PyType} (h : isArray t = false) : ∃ a, element s t = some a := by
  cases t <;> first | exact ⟨_, rfl⟩ | cases h

/-- No array is an element of the type itself. -/
def Direct : CType → Prop
  | .val (.list t) => isArray t = false
  | .val (.set t) => isArray t = false
  | .val (.dict k v) => isArray k = false ∧ isArray v = false
  | _ => True

theorem print_some {s : Imports} {τ : Target} {i : Item Name} (hn : τ.alias = nmC τ.type)
    (h : printTarget s τ = some i) : i.IsDecl nmC τ.type ∧ Direct τ.type := by
  obtain ⟨src, al, T⟩ := τ
  simp only at hn
  subst hn
  cases T with
  | ptr u =>
    simp only [printTarget, Option.some.injEq] at h
    subst h
    exact ⟨⟨_, rfl, by simp [needs, nmC, getC_name]⟩, trivial⟩
  | val t =>
    cases t with
    | num => cases h
    | cplx => cases h
    | str => cases h
    | array n c r k =>
      simp only [printTarget, Option.some.injEq] at h
      subst h
      refine ⟨⟨_, rfl, ?_⟩, trivial⟩
      cases c <;> simp [needs, nmC, getNum_name, getCplx_name, nm]
    | list t =>
      simp only [printTarget, Option.map_eq_some_iff] at h
      obtain ⟨a, ha, rfl⟩ := h
      obtain ⟨rfl, h2⟩ := element_some ha
      exact ⟨⟨_, rfl, rfl⟩, h2⟩
    | set t =>
      simp only [printTarget, Option.map_eq_some_iff] at h
      obtain ⟨a, ha, rfl⟩ := h
      obtain ⟨rfl, h2⟩ := element_some ha
      exact ⟨⟨_, rfl, rfl⟩, h2⟩
    | dict k v =>
      simp only [printTarget] at h
      split at h
      · next a b ha hb =>
        injection h with h
        subst h
        obtain ⟨rfl, h2⟩ := element_some ha
        obtain ⟨rfl, h3⟩ := element_some hb
        exact ⟨⟨_, rfl, rfl⟩, h2, h3⟩
      · cases h

theorem print_isSome {s : Imports} {τ : Target} (hc : ¬ Basic τ.type) (hd : Direct τ.type) :
    ∃ i, printTarget s τ = some i := by
  obtain ⟨src, al, T⟩ := τ
  cases T with
  | ptr u => exact ⟨_, rfl⟩
  | val t =>
    cases t with
    | num => exact absurd trivial hc
    | cplx => exact absurd trivial hc
    | str => exact absurd trivial hc
    | array => exact ⟨_, rfl⟩
    | list t => obtain ⟨a, ha⟩ := element_isSome (s := s) hd; simp [printTarget, ha]
    | set t => obtain ⟨a, ha⟩ := element_isSome (s := s) hd; simp [printTarget, ha]
    | dict k v =>
      obtain ⟨a, ha⟩ := element_isSome (s := s) hd.1
      obtain ⟨b, hb⟩ := element_isSome (s := s) hd.2
      simp [printTarget, ha, hb]

theorem printAll_cons {s : Imports} {τ : Target} {ts : List Target} {is : List (Item Name)}
    (h : printAll s (τ :: ts) = some is) :
    ∃ i is', is = i :: is' ∧ printTarget s τ = some i ∧ printAll s ts = some is' := by
  simp only [printAll] at h
  split at h
  · next a b ha hb => injection h with h; exact ⟨a, b, h.symm, ha, hb⟩
  · cases h

theorem printAll_mem {s : Imports} : ∀ {ts : List Target} {is : List (Item Name)}, printAll s ts = some is →
    ∀ τ ∈ ts, ∃ i ∈ is, printTarget s τ = some i := by
  intro ts
  induction ts with
  | nil => simp
  | cons t ts ih =>
    intro is h τ hτ
    obtain ⟨i, is', rfl, h1, h2⟩ := printAll_cons h
    simp only [List.mem_cons] at hτ
    rcases hτ with rfl | hτ
    · exact ⟨i, by simp, h1⟩
    · obtain ⟨j, hj, h3⟩ := ih h2 τ hτ
      exact ⟨j, by simp [hj], h3⟩

theorem printAll_split {s : Imports} : ∀ {ts : List Target} {b : List (Item Name)} {i : Item Name} {a : List (Item Name)},
    printAll s ts = some (b ++ i :: a) →
    ∃ tb τ ta, ts = tb ++ τ :: ta ∧ printAll s tb = some b ∧ printTarget s τ = some i := by
  intro ts
  induction ts with
  | nil => intro b i a h; simp [printAll] at h
  | cons t ts ih =>
    intro b i a h
    obtain ⟨j, is', e, h1, h2⟩ := printAll_cons h
    cases b with
    | nil =>
      simp only [List.nil_append, List.cons.injEq] at e
      obtain ⟨rfl, rfl⟩ := e
      exact ⟨[], t, ts, rfl, rfl, h1⟩
    | cons x b =>
      simp only [List.cons_append, List.cons.injEq] at e
      obtain ⟨rfl, rfl⟩ := e
      obtain ⟨tb, τ, ta, rfl, h3, h4⟩ := ih h2
      exact ⟨t :: tb, τ, ta, rfl, by simp [printAll, h1, h3], h4⟩

theorem printAll_isSome {s : Imports} {ts : List Target} (h : ∀ τ ∈ ts, ∃ i, printTarget s τ = some i) :
    ∃ is, printAll s ts = some is := by
  induction ts with
  | nil => exact ⟨[], rfl⟩
  | cons t ts ih =>
    obtain ⟨i, hi⟩ := h t (by simp)
    obtain ⟨is, his⟩ := ih fun τ hτ => h τ (by simp [hτ])
    exact ⟨i :: is, by simp [printAll, hi, his]⟩

theorem printAll_declared {s : Imports} : ∀ {ts : List Target} {is : List (Item Name)},
    (∀ τ ∈ ts, τ.alias = nmC τ.type) → printAll s ts = some is → declared is = ts.map (·.alias) := by
  intro ts
  induction ts with
  | nil => intro is _ h; simp only [printAll, Option.some.injEq] at h; subst h; rfl
  | cons t ts ih =>
    intro is hn h
    obtain ⟨i, is', rfl, h1, h2⟩ := printAll_cons h
    obtain ⟨⟨k, _, rfl⟩, _⟩ := print_some (hn t (by simp)) h1
    have := ih (fun τ hτ => hn τ (by simp [hτ])) h2
    simp only [declared] at this ⊢
    simp [this, hn t (by simp)]

theorem needs_key {T U : CType} (hd : Direct T) (hp : InPython (base T)) (hU : U ∈ needs T) (hb : ¬ Basic U) :
    2 * typeRank U + (if srcOf U = .managed then 1 else 0) < 2 * typeRank T + if srcOf T = .managed then 1 else 0 := by
  have hs : ∀ t, ¬ Basic (stored t) → typeRank (stored t) = rank t ∧ srcOf (stored t) = .managed := by
    intro t h
    cases t <;> first | exact absurd trivial h | exact ⟨rfl, rfl⟩
  cases T with
  | ptr t =>
    simp only [needs, List.mem_singleton] at hU
    subst hU
    have : srcOf (.val t) ≠ .managed := by cases t <;> simp [srcOf]
    have h2 : srcOf (.ptr t) = .managed := rfl
    rw [if_neg this, if_pos h2]
    exact Nat.lt_succ_self _
  | val t =>
    cases t with
    | num => simp [needs] at hU
    | cplx => simp [needs] at hU
    | str => simp [needs] at hU
    | array n c r k =>
      cases c <;> simp only [needs, List.mem_singleton] at hU <;> subst hU <;> exact absurd trivial hb
    | list t =>
      simp only [needs, List.mem_singleton] at hU
      subst hU
      obtain ⟨h1, h2⟩ := hs t hb
      rw [h1, if_pos h2, if_neg (by simp [srcOf])]
      simp only [typeRank, rank]
      omega
    | set t =>
      simp only [needs, List.mem_singleton] at hU
      subst hU
      obtain ⟨h1, h2⟩ := hs t hb
      rw [h1, if_pos h2, if_neg (by simp [srcOf])]
      simp only [typeRank, rank]
      omega
    | dict k v =>
      simp only [needs, List.mem_cons, List.not_mem_nil, or_false] at hU
      rcases hU with rfl | rfl
      · exfalso
        have h1 := hp.1
        have h2 := hd.1
        cases k <;> first | exact hb trivial | (simp [isHashable] at h1; done) | (simp [isArray] at h2; done)
      · obtain ⟨h1, h2⟩ := hs v hb
        rw [h1, if_pos h2, if_neg (by simp [srcOf])]
        simp only [typeRank, rank]
        omega

theorem has_known {s : Imports} (hi : Inv s) (cmp : Name → Name → Bool) {tb ta : List Target} {τ : Target}
    {b : List (Item Name)} (hsplit : sort cmp s.targets = tb ++ τ :: ta) (hb : printAll s tb = some b)
    (hd : Direct τ.type) {U : CType} (hU : U ∈ needs τ.type) : Known nmC (s.headers.map .incl ++ b) U := by
  have hmem : ∀ x, x ∈ sort cmp s.targets ↔ x ∈ s.targets := fun x => (sort_perm cmp s.targets).mem_iff
  have hτ : τ ∈ s.targets := (hmem τ).mp (by rw [hsplit]; simp)
  by_cases hB : Basic U
  · rcases hi.closed τ hτ U hU with ⟨_, t, e, ht⟩ | ⟨τ', hτ', _, h2⟩
    · exact .inl ⟨hB, t, e, fun h hh => by simp [ht h hh]⟩
    · exfalso
      have hsame : Same τ'.type U := nmC_inj ((hi.name τ' hτ').symm.trans h2)
      refine hi.cont τ' hτ' ?_
      have hk := same_kind hsame
      revert hk hB
      cases U with
      | ptr => intro h; exact h.elim
      | val u =>
        cases τ'.type with
        | ptr => intro hB; cases u <;> first | exact hB.elim | exact fun h => by cases h
        | val t => intro hB; cases u <;> cases t <;> first | exact hB.elim | exact fun _ => trivial | exact fun h => by cases h
  · rcases hi.closed τ hτ U hU with ⟨h, _⟩ | ⟨τ', hτ', h1, h2⟩
    · exact absurd h hB
    · right
      have hsame : Same τ'.type U := nmC_inj ((hi.name τ' hτ').symm.trans h2)
      have hlt := needs_key hd (hi.py τ hτ) hU hB
      have hk : key τ' < key τ := by
        unfold key
        rw [hi.src τ' hτ', hi.src τ hτ, same_rank hsame, same_src hsame]
        exact hlt
      have hin : τ' ∈ tb := by
        have hm := (hmem τ').mpr hτ'
        rw [hsplit] at hm
        simp only [List.mem_append, List.mem_cons] at hm
        rcases hm with hm | rfl | hm
        · exact hm
        · omega
        · have hs := sort_sorted cmp s.targets
          rw [hsplit, List.pairwise_append, List.pairwise_cons] at hs
          have := hs.2.1.1 τ' hm
          omega
      obtain ⟨i, hi', hpr⟩ := printAll_mem hb τ' hin
      obtain ⟨⟨k, hk1, hk2⟩, _⟩ := print_some (hi.name τ' hτ') hpr
      exact ⟨i, by simp [hi'], k, (same_kind hsame).symm.trans hk1, by rw [hk2, same_name hsame, same_needs hsame]⟩

/-! ### Supported types -/

def Fine (s : Imports) : Prop := ∀ τ ∈ s.targets, ¬ Basic τ.type ∧ Direct τ.type

theorem addTarget_fine {s : Imports} (h : Fine s) {τ : Target} (h1 : ¬ Basic τ.type) (h2 : Direct τ.type) :
    Fine (s.addTarget τ) := by
  unfold Imports.addTarget; split
  · exact h
  · intro u hu
    simp only [List.mem_append, List.mem_singleton] at hu
    rcases hu with hu | rfl
    · exact h u hu
    · exact ⟨h1, h2⟩

theorem addHeader_fine {s : Imports} (h : Fine s) (x : Header) : Fine (s.addHeader x) := by
  unfold Fine; rw [addHeader_targets]; exact h

theorem getNum_fine {s : Imports} (h : Fine s) (n : Num) : Fine (getNum n s).1 := by
  cases n <;> first | exact h | exact addHeader_fine h _

theorem getStored_fine {t : PyType} {r : Imports × Name} (h : Fine r.1) : Fine (getStored t r).1 := by
  cases t <;> first | exact h | exact addTarget_fine h (fun h => h) trivial

theorem getC_fine (t : PyType) : ∀ {s : Imports}, Supported t → Fine s → Fine (getC t s).1 := by
  induction t with
  | num n => exact fun _ h => getNum_fine h n
  | cplx n => exact fun _ h => getNum_fine (addHeader_fine h _) n
  | str => exact fun _ h => addHeader_fine h _
  | array n c r k =>
    intro s _ h
    cases c with
    | false => exact addTarget_fine (getNum_fine h n) (fun h => h) trivial
    | true => exact addTarget_fine (getNum_fine (addHeader_fine h _) n) (fun h => h) trivial
  | list t ih => exact fun hs h => addTarget_fine (getStored_fine (ih hs.2 h)) (fun h => h) hs.1
  | set t ih => exact fun hs h => addTarget_fine (getStored_fine (ih hs.2 h)) (fun h => h) hs.1
  | dict k v hk hv =>
    exact fun hs h => addTarget_fine (getStored_fine (hv hs.2.2 (getStored_fine (hk hs.2.1 h)))) (fun h => h) hs.1

theorem collect_direct (used : List PyType) (hs : ∀ t ∈ used, Supported t) : Fine (collect used) := by
  have : ∀ (used : List PyType) (s : Imports), (∀ t ∈ used, Supported t) → Fine s →
      Fine (used.foldl (fun s t => (getC t s).1) s) := by
    intro used
    induction used with
    | nil => exact fun _ _ h => h
    | cons t used ih => exact fun s hs h => ih _ (fun u hu => hs u (by simp [hu])) (getC_fine t (hs t (by simp)) h)
  exact this used _ hs (fun τ hτ => by cases hτ)

end Verif.CTypes
