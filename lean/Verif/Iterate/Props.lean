import Verif.Iterate.Lemmas

/-!
# Loops over lists, arrays and dictionaries: the properties
-/

namespace Verif.Iterate
open Spec Model

/-! ## C143: loops over lists -/

/-- C143, Fortran, a loop that ends with `break`: the same elements are visited as in Python and the
same variables and list result, whatever the body did to the list. -/
theorem C143_fortran_break {σ α : Type} (body : Body σ α) (s : σ) (l : List α) (s' : σ) (l' : List α)
    (h : fFor body s l = .ok (s', l', .brk)) : ∃ j, PyFor body s l j s' l' .brk :=
  fLoop_brk body h

/-- C143, Fortran, a loop that ends by itself: it visited as many elements as the list had at the
beginning, and that is what Python does if and only if the list is not longer afterwards. -/
theorem C143_fortran_iff {σ α : Type} (body : Body σ α) (s : σ) (l : List α) (s' : σ) (l' : List α)
    (h : fFor body s l = .ok (s', l', .next)) :
    PyFor body s l l.length s' l' .next ↔ l'.length ≤ l.length := by
  have := fLoop_next body h
  simpa using this

/-- C143, Fortran: the loop has undefined behaviour if and only if Python's ends by itself before it
has visited as many elements as the list had at the beginning. -/
theorem C143_fortran_ub_iff {σ α : Type} (body : Body σ α) (s : σ) (l : List α) :
    fFor body s l = .ub ↔ ∃ j s' l', PyFor body s l j s' l' .next ∧ j < l.length := by
  have := fLoop_ub body l.length 0 s l
  simpa [fFor, PyFor] using this

/-- C143, C and Fortran, a body that leaves the list as long as it is (it can change its elements):
the loop is Python's, whatever the unused capacity of the vector. -/
theorem C143_same_length_partial {σ α : Type} (g : Growth) (body : Body σ α)
    (hb : ∀ x s l, ∀ o ∈ (body x s l).2.1, ∃ k v, o = .set k v) (s : σ) (l : List α)
    (rest : List (Option α)) :
    ∃ j s' l' c, PyFor body s l j s' l' c ∧ l'.length = l.length ∧
      fFor body s l = .ok (s', l', c) ∧ cFor g body s l rest = .ok (s', l', c) := by
  obtain ⟨j, s', l', c, h1, h2, h3, h4⟩ := set_loop g body hb l.length 0 s l rest (by simp)
  exact ⟨j, s', l', c, h1, h2, h3, h4⟩

/-- C143, C, a body that also appends: as long as it does not have undefined behaviour, the loop
visits the elements that the Fortran loop visits. -/
theorem C143_append_partial {σ α : Type} (g : Growth) (body : Body σ α)
    (hb : ∀ x s l, ∀ o ∈ (body x s l).2.1, (∃ k v, o = .set k v) ∨ ∃ v, o = .push v) (s : σ)
    (l : List α) (rest : List (Option α)) (r : σ × List α × Ctl)
    (h : cFor g body s l rest = .ok r) : fFor body s l = .ok r :=
  push_loop g body hb l.length 0 s l rest false r (by simp) h

/-- `for x in l: total += x; if len(l) < 3: l.append(7)` -/
def appending : Body Int Int := fun x t l => (t + x, if l.length < 3 then [.push 7] else [], .next)

/-- `for x in l: total += x; if len(l) > 2: l.pop()` -/
def popping : Body Int Int :=
  fun x t l => (t + x, if 2 < l.length then [.erase (l.length - 1)] else [], .next)

/-- `for i, x in …: if x == 2: l.pop(0)`: remove the first element when 2 is met. -/
def removing : Body Int Int := fun x t l => (t + x, if x = 2 then [.erase 0] else [], .next)

/-- `for x in l: l[0] = 9; total += x` -/
def writing : Body Int Int := fun x t _ => (t + x, [.set 0 9, .set 1 5], .next)

/-- The hypotheses of `C143_same_length_partial`: the changed elements are the ones that are
visited. -/
example : (∀ x s l, ∀ o ∈ (writing x s l).2.1, ∃ k v, o = Op.set k v) ∧
    fFor writing 0 [1, 2, 3] = .ok (9, [9, 5, 3], .next) ∧
    cFor (fun _ => 4) writing 0 [1, 2, 3] [none] = .ok (9, [9, 5, 3], .next) := by
  refine ⟨?_, by decide, by decide⟩
  intro x s l o ho
  simp [writing] at ho
  rcases ho with h | h
  · exact ⟨0, 9, h⟩
  · exact ⟨1, 5, h⟩

/-- The hypothesis of `C143_append_partial`: room for one element. -/
example : (∀ x s l, ∀ o ∈ (appending x s l).2.1, (∃ k v, o = Op.set k v) ∨ ∃ v, o = Op.push v) ∧
    cFor (fun _ => 4) appending 0 [1, 2] [none] = .ok (3, [1, 2, 7], .next) := by
  refine ⟨?_, by decide⟩
  intro x s l o ho
  simp only [appending] at ho
  split at ho <;> simp at ho
  exact .inr ⟨7, ho⟩

/-- C143 fails: elements appended by the body are visited in Python and not in C or Fortran. -/
theorem C143_violated_append :
    PyFor appending 0 [1, 2] 3 10 [1, 2, 7] .next ∧
    fFor appending 0 [1, 2] = .ok (3, [1, 2, 7], .next) ∧
    cFor (fun _ => 4) appending 0 [1, 2] [none] = .ok (3, [1, 2, 7], .next) := by
  refine ⟨?_, by decide, by decide⟩
  refine .next (x := 1) (s' := 1) (ops := [.push 7]) rfl rfl ?_
  refine .next (x := 2) (s' := 3) (ops := []) rfl rfl ?_
  refine .next (x := 7) (s' := 10) (ops := []) rfl rfl ?_
  exact .done (by decide)

/-- C143 fails: in C, appending to a vector without room makes the loop read freed memory. -/
theorem C143_violated_freed (g : Growth) : cFor g appending 0 [1, 2] [] = .ub := by
  simp [cFor, cLoop, appending, Vec.runAll, Vec.run]

/-- C143 fails: when the body removes elements, Python's loop ends earlier; the Fortran loop reads
outside the list and the C loop still visits the removed element. -/
theorem C143_violated_pop :
    PyFor popping 0 [1, 2, 3] 2 3 [1, 2] .next ∧
    fFor popping 0 [1, 2, 3] = .ub ∧
    cFor (fun _ => 4) popping 0 [1, 2, 3] [] = .ok (6, [1, 2], .next) := by
  refine ⟨?_, by decide, by decide⟩
  refine .next (x := 1) (s' := 1) (ops := [.erase 2]) rfl rfl ?_
  refine .next (x := 2) (s' := 3) (ops := []) rfl rfl ?_
  exact .done (by decide)

/-- C143 fails: when the body removes an element that was visited, the C loop visits the last element
twice (here it is counted instead of the one that is passed over). -/
theorem C143_violated_remove :
    PyFor removing 0 [1, 2, 3, 4] 3 7 [2, 3, 4] .next ∧
    fFor removing 0 [1, 2, 3, 4] = .ub ∧
    cFor (fun _ => 4) removing 0 [1, 2, 3, 4] [] = .ok (11, [2, 3, 4], .next) := by
  refine ⟨?_, by decide, by decide⟩
  refine .next (x := 1) (s' := 1) (ops := []) rfl rfl ?_
  refine .next (x := 2) (s' := 3) (ops := [.erase 0]) rfl rfl ?_
  refine .next (x := 4) (s' := 7) (ops := []) rfl rfl ?_
  exact .done (by decide)

/-! ## C144: loops over arrays -/

/-- C144, C and Fortran, a body that does not give the name of the array to another array: the loop
is Python's (elements changed before they are visited are visited with their new value). -/
theorem C144_writes_partial {σ α : Type} (body : ABody σ α)
    (hb : ∀ x s a, ∀ o ∈ (body x s a).2.1, ∃ k v, o = .write k v) (s : σ) (a : List α)
    (s' : σ) (a' : List α) (c : Ctl) :
    (pyArrFor body s a = (s', a', c) ↔ CArrFor body s a s' a' c) ∧
    (pyArrFor body s a = (s', a', c) ↔ fArrFor body s a = .ok (s', a', c)) :=
  arr_loop body hb s a s' a' c

/-- `for x in a: total += x; a = a + a` -/
def doubling : ABody Int Int := fun x t a => (t + x, [.rebind (a.map fun y => y + y)], .next)

/-- `for x in a: total += x; a = np.zeros(1)` -/
def shrinking : ABody Int Int := fun x t _ => (t + x, [.rebind [0]], .next)

/-- `for x in a: total += x; a[2] = x` -/
def forwarding : ABody Int Int := fun x t _ => (t + x, [.write 2 x], .next)

/-- The hypothesis of `C144_writes_partial`: the last element is changed before it is visited. -/
example : (∀ x s a, ∀ o ∈ (forwarding x s a).2.1, ∃ k v, o = AOp.write k v) ∧
    pyArrFor forwarding 0 [1, 2, 3] = (5, [1, 2, 2], .next) ∧
    fArrFor forwarding 0 [1, 2, 3] = .ok (5, [1, 2, 2], .next) := by
  refine ⟨?_, by decide, by decide⟩
  intro x s a o ho
  simp [forwarding] at ho
  exact ⟨2, x, ho⟩

/-- C144 fails: if the body gives the name to another array, Python goes on with the array that the
loop was started with, C and Fortran with the new one. -/
theorem C144_violated :
    pyArrFor doubling 0 [1, 2, 3] = (6, [8, 16, 24], .next) ∧
    CArrFor doubling 0 [1, 2, 3] 17 [8, 16, 24] .next ∧
    fArrFor doubling 0 [1, 2, 3] = .ok (17, [8, 16, 24], .next) := by
  refine ⟨by decide, ?_, by decide⟩
  refine .next (x := 1) (s' := 1) (ops := [.rebind [2, 4, 6]]) rfl rfl ?_
  refine .next (x := 4) (s' := 5) (ops := [.rebind [4, 8, 12]]) rfl rfl ?_
  refine .next (x := 12) (s' := 17) (ops := [.rebind [8, 16, 24]]) rfl rfl ?_
  exact .done (by decide)

/-- C144 fails: with a shorter array, the C loop ends early and the Fortran loop reads outside the
array. -/
theorem C144_violated_shorter :
    pyArrFor shrinking 0 [1, 2, 3] = (6, [0], .next) ∧
    CArrFor shrinking 0 [1, 2, 3] 1 [0] .next ∧
    fArrFor shrinking 0 [1, 2, 3] = .ub := by
  refine ⟨by decide, ?_, by decide⟩
  refine .next (x := 1) (s' := 1) (ops := [.rebind [0]]) rfl rfl ?_
  exact .done (by decide)

/-! ## C145: loops over dictionaries and sets -/

/-- C145, Fortran: every item is visited, and once. -/
theorem C145_fortran_once {ν : Type} (d : List (Int × ν)) : (sorted d).Perm d := sorted_perm d

/-- C145, Fortran: the items are visited in Python's order if and only if the keys were inserted in
ascending order. -/
theorem C145_fortran_order_iff {ν : Type} (d : List (Int × ν)) (hd : Keys d) :
    fDict (fun k v r => (r ++ [(k, v)], .next)) d [] = pyDict (fun k v r => (r ++ [(k, v)], .next)) d []
      ↔ d.Pairwise (fun p q => p.1 < q.1) :=
  order_iff d hd

/-- C145, Fortran, keys inserted in ascending order: every loop is Python's, with or without
`break`. -/
theorem C145_fortran_partial {σ ν : Type} (body : DBody σ Int ν) (d : List (Int × ν))
    (hd : d.Pairwise (fun p q => p.1 < q.1)) (s : σ) : fDict body d s = pyDict body d s := by
  unfold fDict pyDict
  rw [sorted_of_pairwise d (hd.imp Int.le_of_lt)]

/-- C145, C and Fortran, a body for which the order does not matter: the result is Python's, for
every dictionary (and set) and every order of the hash table. -/
theorem C145_commutes_partial {σ ν : Type} (body : DBody σ Int ν) (hb : Commutes body)
    (d slots : List (Int × ν)) (hs : slots.Perm d) (s : σ) :
    cDict body slots s = pyDict body d s ∧ fDict body d s = pyDict body d s :=
  ⟨visit_perm hb hs s, visit_perm hb (sorted_perm d) s⟩

/-- C145, C: a loop that notes the keys shows the order of the hash table; it is Python's if and only
if that is the order of insertion. -/
theorem C145_c_order_iff {κ ν : Type} (d slots : List (κ × ν)) :
    cDict (fun k v r => (r ++ [(k, v)], .next)) slots [] =
      pyDict (fun k v r => (r ++ [(k, v)], .next)) d [] ↔ slots = d := by
  simp [cDict, pyDict, visit_record]

/-- Hypotheses of C145: a sum over the values. -/
example : Commutes (fun (_ : Int) (v : Int) (t : Int) => (t + v, Ctl.next)) ∧
    [(1, 10), (2, 20)].Perm [((2 : Int), (20 : Int)), (1, 10)] ∧ Keys [((2 : Int), (20 : Int)), (1, 10)] := by
  refine ⟨⟨fun _ _ _ => rfl, ?_⟩, List.Perm.swap _ _ _, by simp [Keys]⟩
  intro _ v _ v' s
  simp only
  omega

/-- C145 fails: the keys of `{2: 20, 1: 10}` are visited in the order 1, 2 in Fortran. -/
theorem C145_violated :
    pyDict (fun k _ (r : List Int) => (r ++ [k], .next)) [(2, 20), (1, 10)] [] = [2, 1] ∧
    fDict (fun k (_ : Int) (r : List Int) => (r ++ [k], .next)) [(2, 20), (1, 10)] [] = [1, 2] := by
  decide

/-- C145 fails: `for k in {2: 20, 1: 10}: first = k; break` gives 2 in Python and 1 in Fortran. -/
theorem C145_violated_break :
    pyDict (fun k (_ : Int) (_ : Int) => (k, .brk)) [(2, 20), (1, 10)] 0 = 2 ∧
    fDict (fun k (_ : Int) (_ : Int) => (k, .brk)) [(2, 20), (1, 10)] 0 = 1 := by
  decide

end Verif.Iterate
