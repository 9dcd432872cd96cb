import Verif.Instances.Lemmas2
/-
C174–C175 as theorems.
-/
namespace Verif.Instances.Props
open Verif.Instances.Spec Verif.Instances.Model Verif.Instances.Lemmas

/-- C174 (part): if pyccel accepts the function, it is `Plain`, and Python executes it without an exception, then the C program and the Fortran
program print what Python prints: variables that are other names of an object see its changes, and others do not. -/
theorem C174_compiled_objects_print_partial (l : Lang) (p : Stmt) (hp : Plain p) (fuel : Nat) (out : List Int) (hpy : Spec.run p fuel = some out)
    (hacc : (Model.run l p fuel).isSome) : ∃ clean, Model.run l p fuel = some (.ok (out, clean)) := by
  obtain ⟨r, hr⟩ := Option.isSome_iff_exists.1 hacc
  exact ⟨true, by rw [hr, run_ok l p hp fuel out hpy r hr]⟩

/-- C175 (part): and each array of each object is released exactly once: no memory is left, and none is released twice or used afterwards
(that would be `bad`). -/
theorem C175_compiled_objects_release_partial (l : Lang) (p : Stmt) (hp : Plain p) (fuel : Nat) (out : List Int) (hpy : Spec.run p fuel = some out)
    (r : Res (List Int × Bool)) (hr : Model.run l p fuel = some r) : ∃ o, r = .ok (o, true) :=
  ⟨out, run_ok l p hp fuel out hpy r hr⟩

/-- `a = A(3); b = A(1); y = b; while a.v: y.arr[:] = b.arr[0] + 2; a = A(a.v - 1); print(b.arr[0]); print(a.v)`. -/
def sample : Stmt :=
  .seq (.new 0 (.num 3)) (.seq (.new 1 (.num 1)) (.seq (.bind 2 1) (.seq
    (.while (.attr 0) (.seq (.fill 2 (.add (.elem 1) (.num 2))) (.new 0 (.add (.attr 0) (.num (-1))))))
    (.seq (.print (.elem 1)) (.print (.attr 0))))))

theorem sample_plain : Plain sample :=
  ⟨by decide, by simp [sample, Headed, news, top], by decide, by simp [sample, OwnArgs, elems]⟩

example : Plain sample ∧ Spec.run sample 20 = some [7, 0] ∧ Model.run .c sample 20 = some (.ok ([7, 0], true)) ∧
    Model.run .fortran sample 20 = some (.ok ([7, 0], true)) := ⟨sample_plain, by decide, by decide, by decide⟩

/-- C174 fails: `a = A(1); b = A(2); a = b; b.v = 5; print(a.v)` prints 5 in Python.  The compiled programs copy the structure and print 2 (in C the
array is then also released twice: shown here with the function without its end). -/
theorem C174_assignment_copies_violated : ∃ p fuel, Spec.run p fuel = some [5] ∧ Model.run .fortran p fuel = some (.ok ([2], true)) ∧
    ∃ r, tr ⟨[], [], []⟩ p = some r ∧
      (execC .c fuel r.1 ⟨fun _ => none, fun _ => none, fun _ => none, 0, []⟩).bind (fun m => .ok m.out) = .ok [2] :=
  ⟨.seq (.new 0 (.num 1)) (.seq (.new 1 (.num 2)) (.seq (.bind 0 1) (.seq (.setv 1 (.num 5)) (.print (.attr 0))))), 9,
    by decide, by decide, _, rfl, by decide⟩

/-- C174 fails: `a = A(1); y = a; y = A(2); print(a.v)` prints 1 in Python.  The constructor is called for the object that `y` points to: the C
program prints 2 (and loses the array), the Fortran program stops with an error. -/
theorem C174_pointer_constructed_violated : ∃ p fuel, Spec.run p fuel = some [1] ∧ Model.run .c p fuel = some (.ok ([2], false)) ∧
    Model.run .fortran p fuel = some .bad :=
  ⟨.seq (.new 0 (.num 1)) (.seq (.bind 1 0) (.seq (.new 1 (.num 2)) (.print (.attr 0)))), 9, by decide, by decide, by decide⟩

/-- C174 fails: in a loop a second name refers to the object of the last iteration in Python, and to the new one in the compiled programs: the check
that no pointer refers to the structure looks only at the text before it.
`a = A(2); z = A(9); y = z; while a.v: a = A(a.v - 1); print(y.v); y = a`. -/
theorem C174_name_kept_in_loop_violated : ∃ p fuel, Spec.run p fuel = some [9, 1] ∧ Model.run .c p fuel = some (.ok ([9, 0], true)) ∧
    Model.run .fortran p fuel = some (.ok ([9, 0], true)) :=
  ⟨.seq (.new 0 (.num 2)) (.seq (.new 1 (.num 9)) (.seq (.bind 2 1)
    (.while (.attr 0) (.seq (.new 0 (.add (.attr 0) (.num (-1)))) (.seq (.print (.attr 2)) (.bind 2 0)))))), 20, by decide, by decide, by decide⟩

/-- C174 fails: `a = A(1); a = A(a.arr[0])`: the object is deleted before the argument is computed, so memory is read that has been released. -/
theorem C174_own_array_argument_violated : ∃ p fuel, Spec.run p fuel = some [1] ∧ ∀ l, Model.run l p fuel = some .bad :=
  ⟨.seq (.new 0 (.num 1)) (.seq (.new 0 (.elem 0)) (.print (.attr 0))), 9, by decide, fun l => by cases l <;> decide⟩

/-- C174 fails: `a = A(1); a = a; print(a.arr[0])`: the object is deleted and nothing is assigned. -/
theorem C174_self_assignment_violated : ∃ p fuel, Spec.run p fuel = some [1] ∧ ∀ l, Model.run l p fuel = some .bad :=
  ⟨.seq (.new 0 (.num 1)) (.seq (.bind 0 0) (.print (.elem 0))), 9, by decide, fun l => by cases l <;> decide⟩

/-- C175 fails: after `a = A(1); b = A(2); a = b` the C function releases the array of `b` twice. -/
theorem C175_released_twice_violated : ∃ p fuel out, Spec.run p fuel = some out ∧ Model.run .c p fuel = some .bad :=
  ⟨.seq (.new 0 (.num 1)) (.seq (.new 1 (.num 2)) (.bind 0 1)), 9, [], by decide, by decide⟩

/-- C175 fails: an object that is first made in a loop is constructed in each iteration and deleted once: the C function loses memory, the Fortran
function stops with an error at the second iteration.  `k = A(2); while k.v: a = A(1); k.v = k.v - 1`. -/
theorem C175_first_made_in_loop_violated : ∃ p fuel out, Spec.run p fuel = some out ∧ Model.run .c p fuel = some (.ok (out, false)) ∧
    Model.run .fortran p fuel = some .bad :=
  ⟨.seq (.new 0 (.num 2)) (.while (.attr 0) (.seq (.new 1 (.num 1)) (.setv 0 (.add (.attr 0) (.num (-1)))))), 12, [],
    by decide, by decide, by decide⟩

/-- C175 fails: an object that is made in one branch of a condition is deleted at the end in all cases: if the branch was not taken, the C function
reads and releases addresses that were never set.  `k = A(0); if k.v: a = A(1)`. -/
theorem C175_made_in_branch_violated : ∃ p fuel out, Spec.run p fuel = some out ∧ Model.run .c p fuel = some .bad ∧
    Model.run .fortran p fuel = some (.ok (out, true)) :=
  ⟨.seq (.new 0 (.num 0)) (.ite (.attr 0) (.new 1 (.num 1)) .skip), 12, [], by decide, by decide, by decide⟩

end Verif.Instances.Props
