import Verif.Names.Model
import Mathlib.Data.Nat.Digits.Lemmas
import Mathlib.Data.List.Nodup
import Mathlib.Data.List.Perm.Subperm
import Mathlib.Logic.Relation
namespace Verif.Names
open Spec

/-! ### Numbered names are distinct -/

def charVal (c : Char) : Nat := c.toNat - 48

def nameVal (n : Name) : Nat := Nat.ofDigits 10 (n.map charVal).reverse

theorem charVal_digit {d : Nat} (h : d < 10) : charVal (digitChar d) = d := by
  match d, h with
  | 0, _ | 1, _ | 2, _ | 3, _ | 4, _ | 5, _ | 6, _ | 7, _ | 8, _ | 9, _ => decide

theorem toLower_digit {d : Nat} (h : d < 10) : (digitChar d).toLower = digitChar d := by
  match d, h with
  | 0, _ | 1, _ | 2, _ | 3, _ | 4, _ | 5, _ | 6, _ | 7, _ | 8, _ | 9, _ => decide

theorem digitChar_ne_underscore {d : Nat} (h : d < 10) : digitChar d ≠ '_' := by
  match d, h with
  | 0, _ | 1, _ | 2, _ | 3, _ | 4, _ | 5, _ | 6, _ | 7, _ | 8, _ | 9, _ => decide

theorem pad4_digits (n : Nat) :
    ∃ ds : List Nat, pad4 n = ds.map digitChar ∧ (∀ d ∈ ds, d < 10) ∧
      Nat.ofDigits 10 ds.reverse = n := by
  refine ⟨_, rfl, ?_, ?_⟩
  · intro d hd
    rcases List.mem_append.1 hd with h | h
    · have := (List.mem_replicate.1 h).2; omega
    · exact Nat.digits_lt_base (by omega) (List.mem_reverse.1 h)
  · rw [List.reverse_append, List.reverse_reverse, List.reverse_replicate,
      Nat.ofDigits_append_replicate_zero, Nat.ofDigits_digits]

theorem map_charVal_digits {ds : List Nat} (h : ∀ d ∈ ds, d < 10) :
    (ds.map digitChar).map charVal = ds := by
  induction ds with
  | nil => rfl
  | cons d ds ih =>
    simp only [List.map_cons]
    rw [charVal_digit (h d (by simp)), ih fun x hx => h x (by simp [hx])]

theorem map_toLower_digits {ds : List Nat} (h : ∀ d ∈ ds, d < 10) :
    (ds.map digitChar).map Char.toLower = ds.map digitChar := by
  induction ds with
  | nil => rfl
  | cons d ds ih =>
    simp only [List.map_cons]
    rw [toLower_digit (h d (by simp)), ih fun x hx => h x (by simp [hx])]

theorem nameVal_pad4 (n : Nat) : nameVal (pad4 n) = n := by
  obtain ⟨ds, h1, h2, h3⟩ := pad4_digits n
  rw [nameVal, h1, map_charVal_digits h2, h3]

theorem lower_pad4 (n : Nat) : (pad4 n).map Char.toLower = pad4 n := by
  obtain ⟨ds, h1, h2, h3⟩ := pad4_digits n
  rw [h1, map_toLower_digits h2]

theorem pad4_inj {a b : Nat} (h : pad4 a = pad4 b) : a = b := by
  rw [← nameVal_pad4 a, h, nameVal_pad4]

theorem pad4_length (n : Nat) : 4 ≤ (pad4 n).length := by
  simp only [pad4, List.length_map, List.length_append, List.length_replicate]
  omega

theorem fold_numbered (l : Language) (p : Name) (n : Nat) :
    fold l (numbered p n) = fold l p ++ '_' :: pad4 n := by
  cases l with
  | c => rfl
  | python => rfl
  | fortran =>
    have h := lower_pad4 n
    simp only [fold, numbered, List.map_append, List.map_cons, h]
    rfl

theorem numbered_inj (l : Language) (p : Name) {a b : Nat}
    (h : fold l (numbered p a) = fold l (numbered p b)) : a = b := by
  rw [fold_numbered, fold_numbered] at h
  have := List.append_cancel_left h
  exact pad4_inj (List.cons.inj this).2

/-! ### The search terminates with a fresh name -/

theorem incrLoop_none {clash : Name → Bool} {pre : Name} : ∀ {fuel c : Nat},
    incrLoop clash pre fuel c = none → ∀ k < fuel, clash (numbered pre (c + k)) = true
  | 0, _, _, k, hk => by omega
  | fuel + 1, c, h, k, hk => by
    unfold incrLoop at h
    split at h
    next hc =>
      cases k with
      | zero => exact hc
      | succ k =>
        have := incrLoop_none h k (by omega)
        rwa [show c + (k + 1) = c + 1 + k by omega]
    next => simp at h

theorem incrLoop_some {clash : Name → Bool} {pre : Name} : ∀ {fuel c : Nat} {n : Name} {c' : Nat},
    incrLoop clash pre fuel c = some (n, c') →
      clash n = false ∧ ∃ k, c ≤ k ∧ n = numbered pre k ∧ c' = k + 1 ∧
        ∀ j, c ≤ j → j < k → clash (numbered pre j) = true
  | 0, _, _, _, h => by simp [incrLoop] at h
  | fuel + 1, c, n, c', h => by
    unfold incrLoop at h
    split at h
    next hc =>
      obtain ⟨h1, k, h2, h3, h4, h5⟩ := incrLoop_some h
      refine ⟨h1, k, by omega, h3, h4, fun j hj hk => ?_⟩
      by_cases e : j = c
      · exact e ▸ hc
      · exact h5 j (by omega) hk
    next hc =>
      simp only [Option.some.injEq, Prod.mk.injEq] at h
      obtain ⟨rfl, rfl⟩ := h
      exact ⟨by simpa using hc, c, le_refl _, rfl, rfl, fun j h1 h2 => by omega⟩

theorem incrLoop_total {clash : Name → Bool} {pre : Name} {fuel c : Nat} (l : Language)
    (bad : List Name) (hbad : ∀ n, clash n = true → fold l n ∈ bad) (hf : bad.length < fuel) :
    ∃ r, incrLoop clash pre fuel c = some r := by
  cases h : incrLoop clash pre fuel c with
  | some r => exact ⟨r, rfl⟩
  | none =>
    exfalso
    have hall := incrLoop_none h
    let names := (List.range fuel).map fun k => fold l (numbered pre (c + k))
    have hnd : names.Nodup := by
      refine List.Nodup.map_on ?_ List.nodup_range
      intro x _ y _ hxy
      have := numbered_inj l pre hxy
      omega
    have hsub : names ⊆ bad := by
      intro n hn
      obtain ⟨k, hk, rfl⟩ := List.mem_map.1 hn
      exact hbad _ (hall k (List.mem_range.1 hk))
    have := (hnd.subperm hsub).length_le
    simp only [names, List.length_map, List.length_range] at this
    omega

theorem hasClash_false {l : Language} {n : Name} {syms : List Name} :
    hasClash l n syms = false ↔ fold l n ∉ keywords l ∧ ∀ s ∈ syms, fold l s ≠ fold l n := by
  simp [hasClash]

theorem hasClash_true {l : Language} {n : Name} {syms : List Name} (h : hasClash l n syms = true) :
    fold l n ∈ keywords l ++ syms.map (fold l) := by
  simp only [hasClash, Bool.or_eq_true, List.contains_iff_mem] at h
  exact List.mem_append.2 h

theorem createIncremented_total (l : Language) (f : List Name) (p : Name) (c : Nat) :
    ∃ r, createIncremented l f p c = some r :=
  incrLoop_total l (keywords l ++ f.map (fold l)) (fun _ h => hasClash_true h) (by simp)

theorem createIncrementedPlain_total (f : List Name) (p : Name) (c : Nat) :
    ∃ r, createIncrementedPlain f p c = some r :=
  incrLoop_total .c f (fun n h => by simpa [fold] using h) (by simp)

theorem collisionless_spec (l : Language) (n : Name) (syms : List Name) :
    ∃ v, collisionless l n syms = some v ∧ hasClash l v syms = false ∧
      (v = n ∨ (hasClash l n syms = true ∧ ∃ k, v = numbered n k)) := by
  unfold collisionless
  cases h : hasClash l n syms with
  | false => exact ⟨n, by simp, h, Or.inl rfl⟩
  | true =>
    obtain ⟨⟨v, c⟩, hr⟩ := createIncremented_total l (keywords l ++ syms) n 1
    refine ⟨v, by simp [hr], ?_, Or.inr ⟨rfl, ?_⟩⟩
    · have h1 := (incrLoop_some hr).1
      rw [hasClash_false] at h1 ⊢
      exact ⟨h1.1, fun s hs => h1.2 s (List.mem_append.2 (Or.inr hs))⟩
    · obtain ⟨_, k, _, hk, _⟩ := incrLoop_some hr
      exact ⟨k, hk⟩

theorem getCollisionless_fresh {l : Language} {n : Name} {syms : List Name} {pre : Name} {ctx : Ctx}
    {k : Kind} {v : Name} (h : getCollisionless l n syms pre ctx k = some v) :
    hasClash l v syms = false := by
  obtain ⟨w, h1, h2, _⟩ := collisionless_spec l (mangle l n pre ctx k) syms
  rw [getCollisionless, h1] at h
  cases h; exact h2

theorem same_iff_fold {l : Language} {a b : Name} : Same l a b ↔ fold l a = fold l b := by
  cases l <;> rfl

/-! ### Dictionaries -/

theorem get_set_self (d : Dict) (k v : Name) : (d.set k v).get k = some v := by
  simp [Dict.get, Dict.set]

theorem find?_filter_ne (d : Dict) (k k' : Name) (h : k' ≠ k) :
    (d.filter fun e => e.1 != k).find? (fun e => e.1 == k') = d.find? fun e => e.1 == k' := by
  induction d with
  | nil => rfl
  | cons e d ih =>
    by_cases h1 : e.1 = k
    · have h2 : (e.1 == k') = false := by
        rw [h1]; simp; exact fun h3 => h h3.symm
      simp [List.filter_cons, h1, List.find?_cons]
      rw [show (k == k') = false by rw [← h1]; exact h2]
      simpa using ih
    · simp [List.filter_cons, h1, List.find?_cons]
      cases h3 : (e.1 == k') with
      | true => rfl
      | false => simpa using ih

theorem get_set_ne (d : Dict) {k k' : Name} (v : Name) (h : k' ≠ k) :
    (d.set k v).get k' = d.get k' := by
  have h2 : (k == k') = false := by simp; exact fun h3 => h h3.symm
  simp only [Dict.get, Dict.set, List.find?_cons, h2]
  rw [find?_filter_ne d k k' h]

theorem get_del_ne (d : Dict) {k k' : Name} (h : k' ≠ k) : (d.del k).get k' = d.get k' := by
  simp only [Dict.get, Dict.del]
  rw [find?_filter_ne d k k' h]

theorem get_del_self (d : Dict) (k : Name) : (d.del k).get k = none := by
  simp [Dict.get, Dict.del]

theorem mem_of_get {d : Dict} {k v : Name} (h : d.get k = some v) : (k, v) ∈ d := by
  simp only [Dict.get, Option.map_eq_some_iff] at h
  obtain ⟨⟨k', v'⟩, h1, h2⟩ := h
  have h3 := List.find?_some h1
  simp only [beq_iff_eq] at h3
  simp only at h2
  subst h3; subst h2
  exact List.mem_of_find?_eq_some h1

theorem get_none {d : Dict} {k : Name} (h : d.get k = none) (v : Name) : (k, v) ∉ d := by
  simp only [Dict.get, Option.map_eq_none_iff] at h
  intro hm
  have := List.find?_eq_none.1 h _ hm
  simp at this

/-- Keys are unique and names do not clash. -/
def LocalOK (l : Language) (d : Dict) : Prop :=
  d.Pairwise fun e f => e.1 ≠ f.1 ∧ fold l e.2 ≠ fold l f.2

theorem LocalOK.mem_get {l : Language} {d : Dict} (h : LocalOK l d) {k v : Name} (hm : (k, v) ∈ d) :
    d.get k = some v := by
  induction d with
  | nil => simp at hm
  | cons e d ih =>
    unfold LocalOK at h
    rw [List.pairwise_cons] at h
    rcases List.mem_cons.1 hm with rfl | hm'
    · simp [Dict.get]
    · have h1 : (e.1 == k) = false := by
        have := (h.1 _ hm').1
        simpa using this
      have := ih h.2 hm'
      simp only [Dict.get] at this ⊢
      rw [List.find?_cons, h1]
      exact this

theorem LocalOK.set {l : Language} {d : Dict} (h : LocalOK l d) {k v : Name}
    (hf : ∀ w ∈ d.values, fold l w ≠ fold l v) : LocalOK l (d.set k v) := by
  unfold LocalOK Dict.set
  rw [List.pairwise_cons]
  refine ⟨?_, List.Pairwise.filter _ h⟩
  intro e he
  obtain ⟨h1, h2⟩ := List.mem_filter.1 he
  refine ⟨?_, ?_⟩
  · simp only [bne_iff_ne] at h2; exact fun h3 => h2 h3.symm
  · exact fun h3 => hf e.2 (List.mem_map.2 ⟨e, h1, rfl⟩) h3.symm

theorem LocalOK.del {l : Language} {d : Dict} (h : LocalOK l d) (k : Name) : LocalOK l (d.del k) :=
  List.Pairwise.filter _ h

theorem LocalOK.key_eq {l : Language} {d : Dict} (h : LocalOK l d) {e f : Name × Name}
    (he : e ∈ d) (hf : f ∈ d) (hs : fold l e.2 = fold l f.2) : e = f := by
  induction d with
  | nil => simp at he
  | cons x d ih =>
    unfold LocalOK at h
    rw [List.pairwise_cons] at h
    rcases List.mem_cons.1 he with rfl | he' <;> rcases List.mem_cons.1 hf with rfl | hf'
    · rfl
    · exact absurd hs (h.1 f hf').2
    · exact absurd hs.symm (h.1 e he').2
    · exact ih h.2 he' hf'

theorem mem_set {d : Dict} {k v : Name} {e : Name × Name} (h : e ∈ d.set k v) :
    e = (k, v) ∨ (e ∈ d ∧ e.1 ≠ k) := by
  rcases List.mem_cons.1 h with rfl | h
  · exact Or.inl rfl
  · have := List.mem_filter.1 h
    exact Or.inr ⟨this.1, by simpa using this.2⟩

theorem mem_set_self (d : Dict) (k v : Name) : (k, v) ∈ d.set k v := List.mem_cons_self

theorem mem_set_of_ne {d : Dict} {k v : Name} {e : Name × Name} (h : e ∈ d) (hk : e.1 ≠ k) :
    e ∈ d.set k v :=
  List.mem_cons_of_mem _ (List.mem_filter.2 ⟨h, by simpa using hk⟩)

theorem mem_del {d : Dict} {k : Name} {e : Name × Name} (h : e ∈ d.del k) : e ∈ d ∧ e.1 ≠ k := by
  have := List.mem_filter.1 h
  exact ⟨this.1, by simpa using this.2⟩

/-! ### Chains -/

theorem chain_eq (t : Tree) (i : Nat) :
    t.chain i = i :: (match t.par i with | none => [] | some p => t.chain p) := by
  rw [Tree.chain]
  split
  next h => simp [h]
  next p h => simp [h]

theorem self_mem_chain (t : Tree) (i : Nat) : i ∈ t.chain i := by
  rw [chain_eq]; exact List.mem_cons_self

theorem chain_le (t : Tree) {i j : Nat} (h : j ∈ t.chain i) : j ≤ i := by
  induction i using Nat.strong_induction_on with
  | _ i ih =>
    rw [chain_eq] at h
    rcases List.mem_cons.1 h with rfl | h
    · exact le_refl _
    · cases hp : t.par i with
      | none => rw [hp] at h; simp at h
      | some p =>
        rw [hp] at h
        have h1 := t.par_lt i p hp
        have := ih p h1 h
        omega

theorem chain_trans (t : Tree) {i j k : Nat} (h1 : j ∈ t.chain i) (h2 : k ∈ t.chain j) :
    k ∈ t.chain i := by
  induction i using Nat.strong_induction_on with
  | _ i ih =>
    rw [chain_eq] at h1
    rcases List.mem_cons.1 h1 with rfl | h1
    · exact h2
    · cases hp : t.par i with
      | none => rw [hp] at h1; simp at h1
      | some p =>
        rw [hp] at h1
        have := ih p (t.par_lt i p hp) h1
        rw [chain_eq, hp]
        exact List.mem_cons_of_mem _ this

/-- Two scopes of one chain are comparable. -/
theorem chain_total (t : Tree) {i a b : Nat} (ha : a ∈ t.chain i) (hb : b ∈ t.chain i) :
    a ∈ t.chain b ∨ b ∈ t.chain a := by
  induction i using Nat.strong_induction_on with
  | _ i ih =>
    have ha' := ha; have hb' := hb
    rw [chain_eq] at ha hb
    rcases List.mem_cons.1 ha with rfl | ha
    · exact Or.inr hb'
    · rcases List.mem_cons.1 hb with rfl | hb
      · exact Or.inl ha'
      · cases hp : t.par i with
        | none => rw [hp] at ha; simp at ha
        | some p =>
          rw [hp] at ha hb
          exact ih p (t.par_lt i p hp) ha hb

theorem mem_allUsed {t : Tree} {s : St} {i j : Nat} (hj : j ∈ t.chain i) {e : Name × Name}
    (he : e ∈ s.used j) : e.2 ∈ allUsed t s i :=
  List.mem_flatMap.2 ⟨j, hj, List.mem_map.2 ⟨e, he, rfl⟩⟩

theorem mem_allUsed_iff {t : Tree} {s : St} {i : Nat} {v : Name} :
    v ∈ allUsed t s i ↔ ∃ j ∈ t.chain i, ∃ k, (k, v) ∈ s.used j := by
  simp [allUsed, Dict.values]

/-! ### What the operations do -/

/-- The elementary updates the operations are made of. -/
inductive Atom (t : Tree) : St → St → Prop
  | dummy (s : St) (i c : Nat) : Atom t s { s with dummy := upd s.dummy i c }
  | put (s : St) (i : Nat) (k v : Name) (h : hasClash t.lang v (allUsed t s i) = false) :
      Atom t s (put s i k v)
  | enter (s : St) (i p : Nat) (k v : Name) (hp : t.par i = some p)
      (hv : (s.used p).get k = some v) (he : s.used i = []) : Atom t s (put s i k v)
  | remove (s : St) (i : Nat) (k v : Name) (h : (s.used i).get k = some v) :
      Atom t s { s with used := upd s.used i ((s.used i).del k)
                        orig := upd s.orig i ((s.orig i).del v) }

theorem insertHere_cases {t : Tree} {s : St} {i : Nat} {k : Name} {ctx : Ctx} {s' : St} {v : Name}
    (h : insertHere t s i k ctx = some (s', v)) :
    (s' = s ∧ (s.used i).get k = some v) ∨
    (s' = put s i k v ∧ (s.used i).get k = none ∧ hasClash t.lang v (allUsed t s i) = false) := by
  unfold insertHere at h
  cases hg : (s.used i).get k with
  | some w =>
    rw [hg] at h
    simp only [Option.some.injEq, Prod.mk.injEq] at h
    exact Or.inl ⟨h.1.symm, by rw [h.2]⟩
  | none =>
    rw [hg] at h
    cases hc : getCollisionless t.lang k (allUsed t s i) (t.pre i) ctx (t.kind i) with
    | none => rw [hc] at h; simp at h
    | some w =>
      rw [hc] at h
      simp only [Option.some.injEq, Prod.mk.injEq] at h
      obtain ⟨h1, rfl⟩ := h
      exact Or.inr ⟨h1.symm, rfl, getCollisionless_fresh hc⟩

theorem insertSymbol_cases {t : Tree} {s : St} {i : Nat} {k : Name} {ctx : Ctx} {s' : St} {v : Name}
    (h : insertSymbol t s i k ctx = some (s', v)) :
    ∃ j ∈ t.chain i, t.isLoop j = false ∧ ((s' = s ∧ (s.used j).get k = some v) ∨
    (s' = put s j k v ∧ (s.used j).get k = none ∧ hasClash t.lang v (allUsed t s j) = false)) := by
  induction i using Nat.strong_induction_on generalizing ctx with
  | _ i ih =>
    rw [insertSymbol] at h
    split at h
    next hl =>
      split at h
      next p hp =>
        obtain ⟨j, hj, hr⟩ := ih p (t.par_lt i p hp) h
        refine ⟨j, ?_, hr⟩
        rw [chain_eq, hp]; exact List.mem_cons_of_mem _ hj
      next => simp at h
    next hl =>
      exact ⟨i, self_mem_chain t i, by simpa using hl, insertHere_cases h⟩

theorem insertHere_total (t : Tree) (s : St) (i : Nat) (k : Name) (ctx : Ctx) :
    ∃ r, insertHere t s i k ctx = some r := by
  unfold insertHere
  cases (s.used i).get k with
  | some w => exact ⟨_, rfl⟩
  | none =>
    obtain ⟨v, h, _⟩ := collisionless_spec t.lang (mangle t.lang k (t.pre i) ctx (t.kind i))
      (allUsed t s i)
    simp only [getCollisionless, h]
    exact ⟨_, rfl⟩

theorem insertSymbol_total (t : Tree) (hl : ∀ i, t.isLoop i = true → (t.par i).isSome) (s : St)
    (i : Nat) (k : Name) (ctx : Ctx) : ∃ r, insertSymbol t s i k ctx = some r := by
  induction i using Nat.strong_induction_on generalizing ctx with
  | _ i ih =>
    rw [insertSymbol]
    split
    next h =>
      split
      next p hp => exact ih p (t.par_lt i p hp) _
      next hn => have := hl i h; rw [hn] at this; simp at this
    next => exact insertHere_total t s i k ctx

theorem getNewName_cases {t : Tree} {s : St} {i : Nat} {cur : Option Name} {ctx : Ctx} {s' : St}
    {n : Name} (h : getNewName t s i cur ctx = some (s', n)) :
    (∃ k, cur = some k ∧ insertSymbol t s i k ctx = some (s', n)) ∨
    (∃ c v, let s1 := { s with dummy := upd s.dummy i c }
      hasClash t.lang v (allUsed t s i) = false ∧
      insertSymbol t (put s1 i v v) i v ctx = some (s', n)) := by
  have key : ∀ (h : (do
      let (n, c) ← newNameBase t s i cur
      let s := { s with dummy := upd s.dummy i c }
      let v ← getCollisionless t.lang n (allUsed t s i) (t.pre i) ctx (t.kind i)
      insertSymbol t (put s i v v) i v ctx) = some (s', n)),
      ∃ c v, let s1 := { s with dummy := upd s.dummy i c }
        hasClash t.lang v (allUsed t s i) = false ∧
        insertSymbol t (put s1 i v v) i v ctx = some (s', n) := by
    intro h
    cases hb : newNameBase t s i cur with
    | none => rw [hb] at h; simp at h
    | some r =>
      obtain ⟨b, c⟩ := r
      rw [hb] at h
      simp only [Option.bind_eq_bind, Option.bind_some] at h
      cases hv : getCollisionless t.lang b (allUsed t { s with dummy := upd s.dummy i c } i)
          (t.pre i) ctx (t.kind i) with
      | none => rw [hv] at h; simp at h
      | some v =>
        rw [hv] at h
        exact ⟨c, v, getCollisionless_fresh (syms := allUsed t s i) hv, h⟩
  unfold getNewName at h
  cases cur with
  | none => exact Or.inr (key h)
  | some k =>
    simp only at h
    split at h
    next => exact Or.inr (key h)
    next => exact Or.inl ⟨k, rfl, h⟩

/-! ### Invariants -/

/-- Tables are locally injective and `_original_symbol` inverts `_used_symbols`. -/
def Ok (t : Tree) (s : St) : Prop :=
  (∀ i, LocalOK t.lang (s.used i)) ∧ ∀ i k v, (k, v) ∈ s.used i → (s.orig i).get v = some k

theorem used_put (s : St) (i : Nat) (k v : Name) (j : Nat) :
    (put s i k v).used j = if j = i then (s.used i).set k v else s.used j := by
  simp [put, upd]

theorem orig_put (s : St) (i : Nat) (k v : Name) (j : Nat) :
    (put s i k v).orig j = if j = i then (s.orig i).set v k else s.orig j := by
  simp [put, upd]

theorem ok_put {t : Tree} {s : St} {i : Nat} {k v : Name} (h : Ok t s)
    (hf : ∀ w ∈ (s.used i).values, fold t.lang w ≠ fold t.lang v) : Ok t (put s i k v) := by
  refine ⟨fun j => ?_, fun j k' v' hm => ?_⟩
  · rw [used_put]
    split
    next hj => exact (h.1 i).set hf
    next => exact h.1 j
  · rw [used_put] at hm
    rw [orig_put]
    by_cases hj : j = i
    · subst hj
      simp only [if_true] at hm ⊢
      rcases mem_set hm with h1 | ⟨h1, h2⟩
      · cases h1; exact get_set_self _ _ _
      · have hne : v' ≠ v := by
          rintro rfl
          exact hf v' (List.mem_map.2 ⟨_, h1, rfl⟩) rfl
        rw [get_set_ne _ _ hne]
        exact h.2 j k' v' h1
    · simp only [hj, if_false] at hm ⊢
      exact h.2 j k' v' hm

theorem fresh_local {t : Tree} {s : St} {i : Nat} {v : Name}
    (h : hasClash t.lang v (allUsed t s i) = false) :
    ∀ w ∈ (s.used i).values, fold t.lang w ≠ fold t.lang v := by
  intro w hw
  obtain ⟨e, he, rfl⟩ := List.mem_map.1 hw
  exact (hasClash_false.1 h).2 _ (mem_allUsed (self_mem_chain t i) he)

theorem ok_atom {t : Tree} {s s' : St} (h : Atom t s s') (hs : Ok t s) : Ok t s' := by
  cases h with
  | dummy i c => exact hs
  | put i k v h => exact ok_put hs (fresh_local h)
  | enter i p k v hp hv he => exact ok_put hs (by simp [he, Dict.values])
  | remove i k v h =>
    refine ⟨fun j => ?_, fun j k' v' hm => ?_⟩
    · show LocalOK t.lang (upd s.used i ((s.used i).del k) j)
      unfold upd; split
      next hj => exact (hs.1 i).del k
      next => exact hs.1 j
    · change (k', v') ∈ upd s.used i ((s.used i).del k) j at hm
      show (upd s.orig i ((s.orig i).del v) j).get v' = some k'
      unfold upd at hm ⊢
      by_cases hj : j = i
      · subst hj
        simp only [if_true] at hm ⊢
        obtain ⟨h1, h2⟩ := mem_del hm
        have hne : v' ≠ v := by
          rintro rfl
          have := (hs.1 j).key_eq h1 (mem_of_get h) rfl
          exact h2 (congrArg Prod.fst this)
        rw [get_del_ne _ hne]
        exact hs.2 j k' v' h1
      · simp only [hj, if_false] at hm ⊢
        exact hs.2 j k' v' hm

theorem insert_atoms {t : Tree} {s s' : St} {i : Nat} {k v : Name} {ctx : Ctx}
    (h : insertSymbol t s i k ctx = some (s', v)) : Relation.ReflTransGen (Atom t) s s' := by
  obtain ⟨j, _, _, ⟨rfl, _⟩ | ⟨rfl, _, hf⟩⟩ := insertSymbol_cases h
  · exact .refl
  · exact .single (.put s j k v hf)

theorem step_atoms {t : Tree} {s s' : St} {op : Op} (h : step t s op = some s') :
    Relation.ReflTransGen (Atom t) s s' := by
  cases op with
  | insert i k ctx =>
    simp only [step, Option.map_eq_some_iff] at h
    obtain ⟨⟨s1, v⟩, h1, rfl⟩ := h
    exact insert_atoms h1
  | newName i cur ctx =>
    simp only [step, Option.map_eq_some_iff] at h
    obtain ⟨⟨s1, v⟩, h1, rfl⟩ := h
    rcases getNewName_cases h1 with ⟨k, _, h2⟩ | ⟨c, w, h2, h3⟩
    · exact insert_atoms h2
    · refine .trans (.trans (.single (.dummy s i c)) (.single (.put _ i w w h2))) (insert_atoms h3)
  | enter i k =>
    simp only [step] at h
    cases hp : t.par i with
    | none => simp [hp] at h
    | some p =>
      simp only [hp] at h
      cases hv : (s.used p).get k with
      | none => simp [hv] at h
      | some v =>
        simp only [hv] at h
        split at h
        next he =>
          cases h
          exact .single (.enter s i p k v hp hv he)
        next => simp at h
  | remove i k =>
    simp only [step] at h
    cases hv : (s.used i).get k with
    | none => simp only [hv] at h; cases h; exact .refl
    | some v => simp only [hv] at h; cases h; exact .single (.remove s i k v hv)
  | lowLevel i k v =>
    simp only [step] at h
    split at h
    next => simp at h
    next hc =>
      cases h
      simp only [Bool.or_eq_true, not_or, Bool.not_eq_true] at hc
      exact .single (.put s i k v hc.2)

theorem ok_step {t : Tree} {s s' : St} {op : Op} (h : step t s op = some s') (hs : Ok t s) :
    Ok t s' := by
  have h' := step_atoms h
  clear h
  induction h' with
  | refl => exact hs
  | tail _ ha ih => exact ok_atom ha ih

theorem ok_init (t : Tree) : Ok t St.init :=
  ⟨fun _ => List.Pairwise.nil, fun _ _ _ h => by simp [St.init] at h⟩

theorem ok_run {t : Tree} : ∀ {ops : List Op} {s s' : St}, run t s ops = some s' → Ok t s → Ok t s'
  | [], s, s', h, hs => by simp only [run, Option.some.injEq] at h; exact h ▸ hs
  | op :: ops, s, s', h, hs => by
    simp only [run] at h
    cases h1 : step t s op with
    | none => simp [h1] at h
    | some s1 =>
      rw [h1] at h
      exact ok_run h (ok_step h1 hs)

/-- Names along a chain clash only if they stand for the same symbol. -/
def Vis (t : Tree) (s : St) : Prop :=
  ∀ b a, a ∈ t.chain b → ∀ e ∈ s.used a, ∀ f ∈ s.used b,
    fold t.lang e.2 = fold t.lang f.2 → e.1 = f.1

theorem Vis.any {t : Tree} {s : St} (h : Vis t s) {i a b : Nat} (ha : a ∈ t.chain i)
    (hb : b ∈ t.chain i) {e f : Name × Name} (he : e ∈ s.used a) (hf : f ∈ s.used b)
    (hs : fold t.lang e.2 = fold t.lang f.2) : e.1 = f.1 := by
  rcases chain_total t ha hb with h1 | h1
  · exact h b a h1 e he f hf hs
  · exact (h a b h1 f hf e he hs.symm).symm

theorem vis_put {t : Tree} {s : St} {i : Nat} {k v : Name} (h : Vis t s)
    (hup : ∀ a ∈ t.chain i, ∀ e ∈ s.used a, fold t.lang e.2 = fold t.lang v → e.1 = k)
    (hdown : ∀ d, i ∈ t.chain d → d ≠ i → ∀ f ∈ s.used d,
      fold t.lang f.2 = fold t.lang v → f.1 = k) : Vis t (put s i k v) := by
  intro b a hab e he f hf hs
  rw [used_put] at he hf
  have hold : e = (k, v) ∧ a = i ∨ e ∈ s.used a := by
    split at he
    next ha =>
      rcases mem_set he with h1 | h1
      · exact Or.inl ⟨h1, ha⟩
      · exact Or.inr (ha ▸ h1.1)
    next => exact Or.inr he
  have hold' : f = (k, v) ∧ b = i ∨ f ∈ s.used b := by
    split at hf
    next hb =>
      rcases mem_set hf with h1 | h1
      · exact Or.inl ⟨h1, hb⟩
      · exact Or.inr (hb ▸ h1.1)
    next => exact Or.inr hf
  rcases hold with ⟨rfl, rfl⟩ | he'
  · rcases hold' with ⟨rfl, rfl⟩ | hf'
    · rfl
    · by_cases hb : b = a
      · subst hb
        exact (hup b (self_mem_chain t b) f hf' hs.symm).symm
      · exact (hdown b hab hb f hf' hs.symm).symm
  · rcases hold' with ⟨rfl, rfl⟩ | hf'
    · exact hup a hab e he' hs
    · exact h b a hab e he' f hf' hs

theorem vis_put_fresh {t : Tree} {s : St} {i : Nat} {k v : Name} (h : Vis t s)
    (hf : hasClash t.lang v (allUsed t s i) = false)
    (hdown : ∀ d, i ∈ t.chain d → d ≠ i → ∀ f ∈ s.used d,
      fold t.lang f.2 = fold t.lang v → f.1 = k) : Vis t (put s i k v) :=
  vis_put h (fun _ ha _ he hs => absurd hs ((hasClash_false.1 hf).2 _ (mem_allUsed ha he))) hdown

theorem noCapture_down {t : Tree} {s s' : St} (h : NoCapture t s s') {i : Nat} {k v : Name}
    (h1 : (k, v) ∈ s'.used i) (h2 : (k, v) ∉ s.used i) {s0 : St}
    (hd : ∀ d, i < d → s0.used d = s'.used d) :
    ∀ d, i ∈ t.chain d → d ≠ i → ∀ f ∈ s0.used d, fold t.lang f.2 = fold t.lang v → f.1 = k := by
  intro d hid hne f hf hs
  have hlt : i < d := lt_of_le_of_ne (chain_le t hid) (Ne.symm hne)
  rw [hd d hlt] at hf
  exact h i k v h1 h2 d hid hne f.1 f.2 hf (same_iff_fold.2 hs)

theorem put_used_self (s : St) (i : Nat) (k v : Name) : (k, v) ∈ (put s i k v).used i := by
  rw [used_put]; simp only [if_true]; exact mem_set_self _ _ _

theorem put_used_ne (s : St) {i d : Nat} (k v : Name) (h : d ≠ i) :
    (put s i k v).used d = s.used d := by
  rw [used_put]; simp [h]

theorem vis_insert {t : Tree} {s s' : St} {i : Nat} {k v : Name} {ctx : Ctx}
    (h : insertSymbol t s i k ctx = some (s', v)) (hn : NoCapture t s s') (hs : Vis t s) :
    Vis t s' := by
  obtain ⟨j, _, _, ⟨rfl, _⟩ | ⟨rfl, hg, hf⟩⟩ := insertSymbol_cases h
  · exact hs
  · exact vis_put_fresh hs hf (noCapture_down hn (put_used_self _ _ _ _) (get_none hg v)
      fun d hd => (put_used_ne s k v (by omega)).symm)

theorem vis_step {t : Tree} {s s' : St} {op : Op} (h : step t s op = some s')
    (hn : NoCapture t s s') (hs : Vis t s) : Vis t s' := by
  cases op with
  | insert i k ctx =>
    simp only [step, Option.map_eq_some_iff] at h
    obtain ⟨⟨s1, v⟩, h1, rfl⟩ := h
    exact vis_insert h1 hn hs
  | newName i cur ctx =>
    simp only [step, Option.map_eq_some_iff] at h
    obtain ⟨⟨s1, n⟩, h1, rfl⟩ := h
    rcases getNewName_cases h1 with ⟨k, _, h2⟩ | ⟨c, v, h2, h3⟩
    · exact vis_insert h2 hn hs
    · have hfresh : (v, v) ∉ s.used i := fun hm =>
        (hasClash_false.1 h2).2 _ (mem_allUsed (self_mem_chain t i) hm) rfl
      set s0 : St := { s with dummy := upd s.dummy i c } with hs0
      have hvis0 : Vis t s0 := hs
      obtain ⟨j, hj, _, ⟨h4, _⟩ | ⟨h4, hg, hf⟩⟩ := insertSymbol_cases h3
      · rw [h4] at hn ⊢
        exact vis_put_fresh hvis0 h2 (noCapture_down hn (put_used_self _ _ _ _) hfresh
          fun d hd => (put_used_ne s0 v v (by omega)).symm)
      · have hji : j ≠ i := by
          rintro rfl
          rw [used_put] at hg
          simp [get_set_self] at hg
        have hjlt : j < i := lt_of_le_of_ne (chain_le t hj) hji
        rw [h4] at hn ⊢
        have hv1 : Vis t (put s0 i v v) := by
          refine vis_put_fresh hvis0 h2 (noCapture_down hn ?_ hfresh fun d hd => ?_)
          · rw [put_used_ne _ _ _ (Ne.symm hji)]; exact put_used_self _ _ _ _
          · rw [put_used_ne _ _ _ (by omega), put_used_ne _ _ _ (by omega)]
        refine vis_put_fresh hv1 hf (noCapture_down hn (put_used_self _ _ _ _) ?_ fun d hd => ?_)
        · rw [put_used_ne _ _ _ hji] at hg
          exact get_none hg n
        · rw [put_used_ne _ v n (by omega)]
  | enter i k =>
    simp only [step] at h
    cases hp : t.par i with
    | none => simp [hp] at h
    | some p =>
      simp only [hp] at h
      cases hv : (s.used p).get k with
      | none => simp [hv] at h
      | some v =>
        simp only [hv] at h
        split at h
        next he =>
          cases h
          refine vis_put hs ?_ (noCapture_down hn (put_used_self _ _ _ _) (by simp [he])
            fun d hd => (put_used_ne s k v (by omega)).symm)
          intro a ha e hea hse
          rw [chain_eq, hp] at ha
          rcases List.mem_cons.1 ha with rfl | ha
          · simp [he] at hea
          · exact hs p a ha e hea (k, v) (mem_of_get hv) hse
        next => simp at h
  | remove i k =>
    simp only [step] at h
    cases hv : (s.used i).get k with
    | none => simp only [hv] at h; cases h; exact hs
    | some v =>
      simp only [hv] at h; cases h
      intro b a hab e he f hf hse
      have sub : ∀ j, ∀ e ∈ upd s.used i ((s.used i).del k) j, e ∈ s.used j := by
        intro j e he
        unfold upd at he
        split at he
        next hj => exact hj ▸ (mem_del he).1
        next => exact he
      exact hs b a hab e (sub _ _ he) f (sub _ _ hf) hse
  | lowLevel i k v =>
    simp only [step] at h
    split at h
    next => simp at h
    next hc =>
      cases h
      simp only [Bool.or_eq_true, not_or, Bool.not_eq_true] at hc
      have hg : (s.used i).get k = none := by
        have := hc.1.2; simpa using this
      exact vis_put_fresh hs hc.2 (noCapture_down hn (put_used_self _ _ _ _) (get_none hg v)
        fun d hd => (put_used_ne s k v (by omega)).symm)

/-- `_original_symbol` has no entry left from a former name. -/
def NoStale (s : St) : Prop :=
  ∀ i v k, (s.orig i).get v = some k → (s.used i).get k = some v

theorem noStale_put {s : St} {i : Nat} {k v : Name} (h : NoStale s)
    (hg : ∀ w, (s.used i).get k = some w → w = v) : NoStale (put s i k v) := by
  intro j v' k' ho
  rw [orig_put] at ho
  rw [used_put]
  by_cases hj : j = i
  · subst hj
    simp only [if_true] at ho ⊢
    by_cases hv : v' = v
    · subst hv
      rw [get_set_self] at ho
      cases ho
      exact get_set_self _ _ _
    · rw [get_set_ne _ _ hv] at ho
      have h1 := h j v' k' ho
      have hk : k' ≠ k := by
        rintro rfl
        exact hv (hg _ h1)
      rw [get_set_ne _ _ hk]
      exact h1
  · simp only [hj, if_false] at ho ⊢
    exact h j v' k' ho

theorem noStale_insert {t : Tree} {s s' : St} {i : Nat} {k v : Name} {ctx : Ctx}
    (h : insertSymbol t s i k ctx = some (s', v)) (hs : NoStale s) : NoStale s' := by
  obtain ⟨j, _, _, ⟨rfl, _⟩ | ⟨rfl, hg, _⟩⟩ := insertSymbol_cases h
  · exact hs
  · exact noStale_put hs (by simp [hg])

theorem noStale_step {t : Tree} {s s' : St} {op : Op} (h : step t s op = some s')
    (hk : Keeps s s') (hs : NoStale s) : NoStale s' := by
  cases op with
  | insert i k ctx =>
    simp only [step, Option.map_eq_some_iff] at h
    obtain ⟨⟨s1, v⟩, h1, rfl⟩ := h
    exact noStale_insert h1 hs
  | newName i cur ctx =>
    simp only [step, Option.map_eq_some_iff] at h
    obtain ⟨⟨s1, n⟩, h1, rfl⟩ := h
    rcases getNewName_cases h1 with ⟨k, _, h2⟩ | ⟨c, v, h2, h3⟩
    · exact noStale_insert h2 hs
    · set s0 : St := { s with dummy := upd s.dummy i c } with hs0
      have hst0 : NoStale s0 := hs
      refine noStale_insert h3 (noStale_put hst0 ?_)
      intro w hw
      have hw' : (s.used i).get v = some w := hw
      have hfin : (s1.used i).get v = some v := by
        obtain ⟨j, _, _, ⟨h4, _⟩ | ⟨h4, hg, _⟩⟩ := insertSymbol_cases h3
        · rw [h4, used_put]; simp [get_set_self]
        · have hji : i ≠ j := by
            rintro rfl
            rw [used_put] at hg
            simp [get_set_self] at hg
          rw [h4, put_used_ne _ _ _ hji, used_put]; simp [get_set_self]
      exact (hk i v w v hw' hfin).symm
  | enter i k =>
    simp only [step] at h
    cases hp : t.par i with
    | none => simp [hp] at h
    | some p =>
      simp only [hp] at h
      cases hv : (s.used p).get k with
      | none => simp [hv] at h
      | some v =>
        simp only [hv] at h
        split at h
        next he =>
          cases h
          exact noStale_put hs (by simp [he, Dict.get])
        next => simp at h
  | remove i k =>
    simp only [step] at h
    cases hv : (s.used i).get k with
    | none => simp only [hv] at h; cases h; exact hs
    | some v =>
      simp only [hv] at h; cases h
      intro j v' k' ho
      change (upd s.orig i ((s.orig i).del v) j).get v' = some k' at ho
      show (upd s.used i ((s.used i).del k) j).get k' = some v'
      unfold upd at ho ⊢
      by_cases hj : j = i
      · subst hj
        simp only [if_true] at ho ⊢
        have hvv : v' ≠ v := by
          rintro rfl
          rw [get_del_self] at ho; simp at ho
        rw [get_del_ne _ hvv] at ho
        have h1 := hs j v' k' ho
        have hkk : k' ≠ k := by
          rintro rfl
          rw [hv] at h1; cases h1; exact hvv rfl
        rw [get_del_ne _ hkk]; exact h1
      · simp only [hj, if_false] at ho ⊢
        exact hs j v' k' ho
  | lowLevel i k v =>
    simp only [step] at h
    split at h
    next => simp at h
    next hc =>
      cases h
      simp only [Bool.or_eq_true, not_or, Bool.not_eq_true] at hc
      have hg : (s.used i).get k = none := by
        have := hc.1.2; simpa using this
      exact noStale_put hs (by simp [hg])

theorem vis_run {t : Tree} {s s' : St} {ops : List Op} (h : RunSafe t s ops s') (h0 : Vis t s) :
    Vis t s' := by
  induction h with
  | nil => exact h0
  | cons hs hn _ ih => exact ih (vis_step hs hn h0)

theorem all_run {t : Tree} {s s' : St} {ops : List Op} (h : RunSafe' t s ops s')
    (h0 : Vis t s ∧ NoStale s ∧ Ok t s) : Vis t s' ∧ NoStale s' ∧ Ok t s' := by
  induction h with
  | nil => exact h0
  | cons hs hn hk _ ih =>
    exact ih ⟨vis_step hs hn h0.1, noStale_step hs hk h0.2.1, ok_step hs h0.2.2⟩

theorem step_insert_eq {t : Tree} {s : St} {i : Nat} {k v : Name} {ctx : Ctx}
    (hl : t.isLoop i = false) (hg : (s.used i).get k = none)
    (hc : getCollisionless t.lang k (allUsed t s i) (t.pre i) ctx (t.kind i) = some v) :
    step t s (.insert i k ctx) = some (put s i k v) := by
  simp only [step]
  rw [insertSymbol]
  simp [hl, insertHere, hg, hc]

theorem expected_mem {t : Tree} {s : St} {i : Nat} {k v : Name} (h : expectedName t s i k = some v) :
    ∃ j ∈ t.chain i, (k, v) ∈ s.used j := by
  obtain ⟨j, hj, hv⟩ := List.exists_of_findSome?_eq_some h
  exact ⟨j, hj, mem_of_get hv⟩

theorem find_eq (t : Tree) (o : Objs) (i : Nat) (k : Name) (cat : Option Cat) :
    find t o i k cat false =
      (t.chain i).findSome? fun j =>
        findHere o j k (catList cat) := by
  induction i using Nat.strong_induction_on with
  | _ i ih =>
    rw [find, chain_eq, List.findSome?_cons]
    cases hf : findHere o i k (catList cat) with
    | some x => simp
    | none =>
      simp only
      split
      next p hp => simp only [Bool.not_false, Bool.or_true, if_true, hp]; exact ih p (t.par_lt i p hp)
      next hp => simp [hp]

end Verif.Names
