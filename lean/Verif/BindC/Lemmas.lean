import Verif.BindC.Model

namespace Verif.BindC.Lemmas
open Spec Model

/-! ### Memory -/

theorem elements_self (l : List Int) : elements l l.length = l := by
  apply List.ext_getElem
  · simp [elements]
  · intro i h1 h2
    have h : i < l.length := h2
    simp [elements, List.getD, h]

theorem fill_eq (a : Nat) : ∀ (l : List Int) (h : Heap) (i : Nat) (c : List Int), h[a]? = some (some c) →
    c.length = i + l.length → fill h a i l = h.set a (some (c.take i ++ l))
  | [], h, i, c, hc, hl => by
    have hl' : c.length ≤ i := by simp at hl; omega
    rw [fill, List.append_nil, List.take_of_length_le hl']
    apply List.ext_getElem?
    intro j
    by_cases hj : a = j
    · subst hj
      obtain ⟨hlt, _⟩ := List.getElem?_eq_some_iff.1 hc
      rw [List.getElem?_set_self hlt, hc]
    · rw [List.getElem?_set_ne hj]
  | v :: l, h, i, c, hc, hl => by
    obtain ⟨hlt, he⟩ := List.getElem?_eq_some_iff.1 hc
    simp only [List.length_cons] at hl
    have hp : poke h a i v = h.set a (some (c.set i v)) := by
      apply List.ext_getElem?
      intro j
      unfold poke
      rw [List.getElem?_modify]
      by_cases hj : a = j
      · subst hj
        rw [List.getElem?_set_self hlt, hc]
        simp
      · rw [List.getElem?_set_ne hj]
        simp [hj]
    have hc' : (poke h a i v)[a]? = some (some (c.set i v)) := by
      rw [hp, List.getElem?_set_self hlt]
    rw [fill, fill_eq a l _ (i + 1) (c.set i v) hc' (by simp; omega), hp, List.set_set]
    congr 2
    rw [List.take_succ_eq_append_getElem (by simp; omega)]
    simp only [List.getElem_set_self, List.append_assoc, List.cons_append, List.nil_append]
    rw [List.take_set, List.set_eq_of_length_le (by simp; omega)]

theorem store_eq (a : Nat) : ∀ (l : List Int) (h : Heap) (i : Nat), store h a i l = fill h a i l
  | [], _, _ => rfl
  | _ :: l, h, i => by rw [store, fill]; exact store_eq a l _ _

theorem fill_new (h : Heap) (l : List Int) :
    fill (h ++ [some (List.replicate l.length 0)]) h.length 0 l = h ++ [some l] := by
  rw [fill_eq h.length l _ 0 (List.replicate l.length 0) (by simp) (by simp)]
  simp

/-- Memory that other arguments do not change. -/
structure Ext (ns : List Name) (m m' : Mem) : Prop where
  obj : ∀ n, n ∉ ns → m'.obj n = m.obj n
  heap : ∃ t, m'.heap = m.heap ++ t

/-- Where the argument of a parameter may point to. -/
def Own (p : Param) (m : Mem) : CArg → Prop
  | .val _ => True
  | .ptr q _ => q = .null ∨ q = .obj p.name ∨ ∃ a, q = .heap a ∧ a < m.heap.length

theorem argument_ext {ns : List Name} {m m' : Mem} {p : Param} {c : CArg} (h : Ext ns m m') (hn : p.name ∉ ns)
    (ho : Own p m c) : argument m' p c = argument m p c := by
  cases c with
  | val v => rfl
  | ptr q n =>
    have hl : m'.load q = m.load q := by
      rcases ho with rfl | rfl | ⟨a, rfl, ha⟩
      · rfl
      · simp [Mem.load, h.obj _ hn]
      · obtain ⟨t, ht⟩ := h.heap
        simp [Mem.load, ht, List.getElem?_append_left ha]
    unfold argument
    simp only [hl]

theorem own_ext {ns : List Name} {m m' : Mem} {p : Param} {c : CArg} (h : Ext ns m m') (ho : Own p m c) :
    Own p m' c := by
  cases c with
  | val v => trivial
  | ptr q n =>
    refine ho.imp_right fun ho => ho.imp_right ?_
    rintro ⟨a, e, ha⟩
    obtain ⟨t, ht⟩ := h.heap
    exact ⟨a, e, by simp [ht]; omega⟩

/-! ### One argument -/

/-- A null pointer. -/
def isNull : CArg → Bool
  | .ptr .null _ => true
  | _ => false

/-- What the argument is for the function. -/
def Good (m : Mem) (p : Param) (g : Given) (c : CArg) : Prop :=
  (optional p = true ∧ isNull c = true ∧ received p g = none) ∨
    ((optional p = true → isNull c = false) ∧
      ∃ v w, received p g = some v ∧ argument m p c = some w ∧ Same v w)

theorem insertS_mem {x y : Int} : ∀ {l : List Int}, y ∈ insertS x l ↔ y = x ∨ y ∈ l
  | [] => by simp [insertS]
  | z :: l => by
    unfold insertS
    split
    · simp
    · split
      · rename_i h; subst h; simp
      · simp only [List.mem_cons, insertS_mem (l := l)]
        constructor
        · rintro (h | h | h) <;> simp [h]
        · rintro (h | h | h) <;> simp [h]

theorem foldS_mem {y : Int} : ∀ {l s : List Int}, y ∈ l.foldl (fun s x => insertS x s) s ↔ y ∈ l ∨ y ∈ s
  | [], s => by simp
  | x :: l, s => by
    rw [List.foldl_cons, foldS_mem (l := l), insertS_mem]
    simp only [List.mem_cons]
    constructor
    · rintro (h | h | h) <;> simp [h]
    · rintro ((h | h) | h) <;> simp [h]

theorem foldl_snoc : ∀ (l s : List Int), l.foldl (fun s x => s ++ [x]) s = s ++ l
  | [], s => by simp
  | x :: l, s => by rw [List.foldl_cons, foldl_snoc l]; simp

/-- The blocks that are taken for an argument. -/
def block : Param × Given → Option (Option (List Int))
  | (p, .value v) => if p.ty = .tup ∨ p.ty = .lst ∨ p.ty = .set then some (some v.data) else none
  | _ => none

def Fine (p : Param) (g : Given) : Prop :=
  Supported p ∧ Legal p g ∧ ¬(p.ty = .str ∧ (∃ v, p.dflt = .value v) ∧ g = .omitted)

theorem collect_heap {p : Param} {g : Given} {m : Mem} :
    (collect p g m).1.heap = m.heap ++ (block (p, g)).toList := by
  obtain ⟨n, t, d⟩ := p
  cases t <;> cases d <;> cases g <;> simp [collect, block, malloc, fill_new]

theorem collect_ok {p : Param} {g : Given} {m : Mem} (h : Fine p g) :
    Ext [p.name] m (collect p g m).1 ∧ Own p (collect p g m).1 (collect p g m).2 ∧
      Good (collect p g m).1 p g (collect p g m).2 := by
  obtain ⟨hs, hl, hn⟩ := h
  have hH := @collect_heap p g m
  refine ⟨⟨?_, ⟨_, hH⟩⟩, ?_, ?_⟩
  · intro n hn
    have hn' : n ≠ p.name := by simpa using hn
    obtain ⟨pn, t, d⟩ := p
    have : n ≠ pn := hn'
    cases t <;> cases d <;> cases g <;> simp [collect, malloc, this]
  · obtain ⟨pn, t, d⟩ := p
    cases t <;> cases d <;> cases g <;> simp [collect, malloc, Own, fill_new]
  · obtain ⟨pn, t, d⟩ := p
    cases g with
    | none =>
      have hd : d = .absent := hl
      subst hd
      left
      rcases hs with h | h | h <;> (have h' : t = _ := h; subst h'; exact ⟨rfl, rfl, rfl⟩)
    | omitted =>
      cases d with
      | required => exact absurd rfl hl
      | absent =>
        left
        rcases hs with h | h | h <;> (have h' : t = _ := h; subst h'; exact ⟨rfl, rfl, rfl⟩)
      | value v =>
        obtain ⟨h1, h2, h3, h4⟩ := hs
        rcases h1 with h1 | h1
        · have h1' : t = _ := h1
          subst h1'
          right
          refine ⟨fun h => (by cases h), v, _, rfl, rfl, h2, ?_⟩
          have h3 := h3 rfl
          obtain ⟨vt, vd⟩ := v
          have h2' : vt = .num := h2
          subst h2'
          match vd, h3 with
          | [x], _ => simp
        · exact absurd ⟨h1, ⟨v, rfl⟩, rfl⟩ hn
    | value v =>
      obtain ⟨vt, vd⟩ := v
      obtain ⟨h2, h3, h4⟩ := hl
      have h2' : vt = t := h2
      subst h2'
      right
      cases vt with
      | num =>
        have h3 := h3 rfl
        match vd, h3 with
        | [x], _ =>
          cases d <;>
            exact ⟨fun _ => (by first | rfl | contradiction), _, _, rfl,
              (by simp [collect, argument, Mem.load, elements]), rfl, by simp⟩
      | arr =>
        cases d <;>
          exact ⟨fun _ => (by first | rfl | contradiction), _, _, rfl,
            (by simp [collect, argument, Mem.load, elements_self]), rfl, by simp⟩
      | str =>
        have e : (elements vd vd.length).foldl (fun s x => s ++ [x]) [] = vd := by
          rw [foldl_snoc, elements_self]; rfl
        have e' : vd = [] → vd = vd.foldl (fun s x => s ++ [x]) [] := by rintro rfl; rfl
        cases d <;>
        · refine ⟨fun _ => (by first | rfl | contradiction), _, ⟨.str, vd⟩, rfl, ?_, rfl, by simp⟩
          by_cases h0 : vd.length = 0
          · have := List.length_eq_zero_iff.1 h0
            subst this
            simp [collect, argument]
          · simp only [collect, argument, Mem.load, if_true, if_neg h0, Option.map_some, e]
      | tup =>
        cases d <;>
        · refine ⟨fun _ => (by first | rfl | contradiction), _, ⟨.tup, vd⟩, rfl, ?_, rfl, by simp⟩
          simp [collect, argument, Mem.load, malloc, fill_new, elements_self]
      | lst =>
        have e : (elements vd vd.length).foldl (fun s x => s ++ [x]) [] = vd := by
          rw [foldl_snoc, elements_self]; rfl
        cases d <;>
        · refine ⟨fun _ => (by first | rfl | contradiction), _, ⟨.lst, vd⟩, rfl, ?_, rfl, by simp⟩
          by_cases h0 : vd.length = 0
          · have := List.length_eq_zero_iff.1 h0
            subst this
            simp [collect, argument, malloc]
          · simp only [collect, argument, malloc, fill_new, if_neg h0, Mem.load]
            simp only [List.length_append, List.getElem?_append_right (Nat.le_refl _), Nat.sub_self,
              List.getElem?_cons_zero, Option.join_some, Option.map_some, e]
      | set =>
        have e : ∀ x, x ∈ (elements vd vd.length).foldl (fun s x => insertS x s) [] ↔ x ∈ vd := by
          intro x; rw [foldS_mem, elements_self]; simp
        cases d <;>
        · refine ⟨fun _ => (by first | rfl | contradiction), _,
            ⟨.set, (elements vd vd.length).foldl (fun s x => insertS x s) []⟩, rfl, ?_, rfl, ?_⟩
          · by_cases h0 : vd.length = 0
            · have := List.length_eq_zero_iff.1 h0
              subst this
              simp [collect, argument, malloc, elements]
            · simp only [collect, argument, malloc, fill_new, if_neg h0, Mem.load]
              simp only [List.length_append, List.getElem?_append_right (Nat.le_refl _), Nat.sub_self,
                List.getElem?_cons_zero, Option.join_some, Option.map_some]
          · rw [if_pos rfl]
            exact fun x => (e x).symm

/-! ### All arguments -/

theorem collectAll_heap : ∀ (l : List (Param × Given)) (m : Mem),
    (collectAll l m).1.heap = m.heap ++ l.filterMap block
  | [], m => by simp [collectAll]
  | (p, g) :: l, m => by
    simp only [collectAll]
    rw [collectAll_heap l, collect_heap]
    cases hb : block (p, g) <;> simp [hb]

theorem collectAll_ok : ∀ (l : List (Param × Given)) (m : Mem), (∀ x ∈ l, Fine x.1 x.2) →
    (l.map (·.1.name)).Nodup →
    (collectAll l m).2.map (·.1) = l.map (·.1) ∧ Ext (l.map (·.1.name)) m (collectAll l m).1 ∧
      ∀ p g, (p, g) ∈ l → ∃ c, (collectAll l m).2.lookup p = some c ∧ Good (collectAll l m).1 p g c
  | [], m, _, _ => ⟨rfl, ⟨fun _ _ => rfl, [], by simp [collectAll]⟩, by simp⟩
  | (p, g) :: l, m, hf, hd => by
    obtain ⟨e1, o1, g1⟩ := collect_ok (m := m) (hf (p, g) (by simp))
    simp only [List.map_cons, List.nodup_cons] at hd
    obtain ⟨i1, i2, i3⟩ := collectAll_ok l (collect p g m).1 (fun x hx => hf x (by simp [hx])) hd.2
    refine ⟨by simp [collectAll, i1], ⟨?_, ?_⟩, ?_⟩
    · intro n hn
      simp only [List.map_cons, List.mem_cons, not_or] at hn
      simp only [collectAll]
      rw [i2.obj n hn.2, e1.obj n (by simpa using hn.1)]
    · obtain ⟨t1, h1⟩ := e1.heap
      obtain ⟨t2, h2⟩ := i2.heap
      exact ⟨t1 ++ t2, by simp [collectAll, h2, h1]⟩
    · intro p' g' hp
      rcases List.mem_cons.1 hp with h | h
      · cases h
        refine ⟨(collect p g m).2, by simp [collectAll], ?_⟩
        simp only [collectAll]
        unfold Good at g1 ⊢
        rw [argument_ext i2 hd.1 o1]
        exact g1
      · obtain ⟨c, hc, hg⟩ := i3 p' g' h
        refine ⟨c, ?_, hg⟩
        have hne : p' ≠ p := by
          rintro rfl
          exact hd.1 (List.mem_map.2 ⟨(p', g'), h, rfl⟩)
        simp only [collectAll, List.lookup_cons]
        rw [beq_eq_false_iff_ne.2 hne]
        exact hc

end Verif.BindC.Lemmas
