import Verif.Hoist.Model
/- Which statements can be printed in Fortran. -/
namespace Verif.Hoist

/-- Everything a visit returns can be printed. -/
def Ok (r : Out Tgt) : Prop := (∀ q ∈ r.code, q.2.fortranRhs = true) ∧ r.val.noArr = true
/-- The same for arguments. -/
def OkA (r : Out TArgs) : Prop := (∀ q ∈ r.code, q.2.fortranRhs = true) ∧ r.val.noArr = true

theorem all_append {α} {P : α → Prop} {c d : List α} :
    (∀ q ∈ c ++ d, P q) ↔ (∀ q ∈ c, P q) ∧ (∀ q ∈ d, P q) := by
  simp [List.mem_append, or_imp, forall_and]

theorem isOp_again (a : Src) (k : Nat) (h : a.isOp = true) :
    (again a k).val.fortranRhs = (again a k).val.noArr := by
  cases a <;> simp [Src.isOp] at h <;> simp [again, Tgt.fortranRhs]

theorem ok_asArg (a : Src) (v1 v2 : Nat → Out Tgt) (k : Nat) :
    Ok (asArg a.isOp v1 v2 k) ↔
      if a.isOp then (∀ q ∈ (v1 k).code, q.2.fortranRhs = true) ∧
        (∀ q ∈ (v2 (v1 k).next).code, q.2.fortranRhs = true) ∧
          (v2 (v1 k).next).val.fortranRhs = true
      else Ok (v1 k) := by
  cases a.isOp
  · simp [asArg]
  · simp [asArg, Ok, all_append, Tgt.noArr, and_assoc, -List.mem_append]

mutual
theorem again_ok : ∀ (e : Src) (k : Nat), Ok (again e k) ↔ e.hasArr = false
  | .lit _, _ => by simp [Ok, again, Tgt.noArr, Src.hasArr]
  | .elem _, _ => by simp [Ok, again, Tgt.noArr, Src.hasArr]
  | .call arr f as, k => by
    have h := againArgs_ok as k
    simp only [OkA] at h
    simp only [Ok, again, Tgt.noArr, Src.hasArr, Bool.and_eq_true, Bool.or_eq_false_iff, ← h]
    cases arr <;> simp
  | .op arr o a b, k => by
    have h1 := again_ok a k
    have h2 := again_ok b (again a k).next
    simp only [Ok] at h1 h2
    simp only [Ok, again, all_append, Tgt.noArr, Src.hasArr, Bool.and_eq_true,
      Bool.or_eq_false_iff, ← h1, ← h2]
    exact and_and_and_comm
  | .root a, k => by
    have h1 := again_ok a k
    have h2 := asArg_ok a (again a k).next
    simp only [Ok] at h1 h2
    simp only [Ok, again, all_append, Tgt.noArr, Src.hasArr]
    constructor
    · intro h; exact h2.1 ⟨h.1.2, h.2⟩
    · intro h; exact ⟨⟨(h1.2 h).1, (h2.2 h).1⟩, (h2.2 h).2⟩
theorem asArg_ok (a : Src) (k : Nat) :
    Ok (asArg a.isOp (again a) (again a) k) ↔ a.hasArr = false := by
  have h1 := again_ok a k
  have h2 := again_ok a (again a k).next
  rw [ok_asArg]
  split
  · rename_i ho
    rw [isOp_again _ _ ho]
    simp only [Ok] at h1 h2
    constructor
    · intro h; exact h2.1 h.2
    · intro h; exact ⟨(h1.2 h).1, h2.2 h⟩
  · exact h1
theorem againArgs_ok : ∀ (e : Args) (k : Nat), OkA (againArgs e k) ↔ e.hasArr = false
  | .nil, _ => by simp [OkA, againArgs, TArgs.noArr, Args.hasArr]
  | .cons a as, k => by
    have h1 := asArg_ok a k
    have h2 := againArgs_ok as (asArg a.isOp (again a) (again a) k).next
    simp only [Ok, OkA] at h1 h2
    simp only [OkA, againArgs, all_append, TArgs.noArr, Args.hasArr, Bool.and_eq_true,
      Bool.or_eq_false_iff, ← h1, ← h2]
    exact and_and_and_comm
end

mutual
theorem flat_of_hasArr : ∀ e : Src, e.hasArr = false → e.Flat
  | .lit _, _ => trivial
  | .elem _, _ => trivial
  | .call true _ _, h => by simp [Src.hasArr] at h
  | .call false _ as, h => by
    rw [Src.Flat]; exact flatArgs_of_hasArr as (by simpa [Src.hasArr] using h)
  | .op _ _ a b, h => by
    simp [Src.hasArr] at h
    exact ⟨flat_of_hasArr a h.1, flat_of_hasArr b h.2⟩
  | .root a, h => by simpa [Src.hasArr, Src.Flat] using h
theorem flatArgs_of_hasArr : ∀ e : Args, e.hasArr = false → e.Flat
  | .nil, _ => trivial
  | .cons a as, h => by
    simp [Args.hasArr] at h
    refine ⟨?_, flatArgs_of_hasArr as h.2⟩
    split
    · exact h.1
    · exact flat_of_hasArr a h.1
end

mutual
theorem first_ok : ∀ (e : Src) (k : Nat), Ok (first e k) ↔ e.Flat
  | .lit _, _ => by simp [Ok, first, Tgt.noArr, Src.Flat]
  | .elem _, _ => by simp [Ok, first, Tgt.noArr, Src.Flat]
  | .call true f as, k => by
    have h1 := firstArgs_ok as k
    have h2 := againArgs_ok as (firstArgs as k).next
    simp only [OkA] at h1 h2
    simp only [Ok, first, all_append, Tgt.noArr, Src.Flat, ← h2]
    simp only [List.mem_singleton, forall_eq, Tgt.fortranRhs]
    constructor
    · intro h; exact ⟨h.1.1.2, h.1.2⟩
    · intro h; exact ⟨⟨⟨(h1.2 (flatArgs_of_hasArr as (h2.1 h))).1, h.1⟩, h.2⟩, trivial⟩
  | .call false f as, k => by
    have h := firstArgs_ok as k
    simp only [OkA] at h
    simp only [Ok, first, Tgt.noArr, Src.Flat, ← h]
    simp
  | .op arr o a b, k => by
    have h1 := first_ok a k
    have h2 := first_ok b (first a k).next
    simp only [Ok] at h1 h2
    simp only [Ok, first, all_append, Tgt.noArr, Src.Flat, Bool.and_eq_true, ← h1, ← h2]
    exact and_and_and_comm
  | .root a, k => by
    have h1 := first_ok a k
    have h2 := asArg_ok a (first a k).next
    simp only [Ok] at h1 h2
    simp only [Ok, first, all_append, Tgt.noArr, Src.Flat]
    constructor
    · intro h; exact h2.1 ⟨h.1.2, h.2⟩
    · intro h; exact ⟨⟨(h1.2 (flat_of_hasArr a h)).1, (h2.2 h).1⟩, (h2.2 h).2⟩
theorem firstArg_ok (a : Src) (k : Nat) :
    Ok (asArg a.isOp (first a) (again a) k) ↔ if a.isOp then a.hasArr = false else a.Flat := by
  have h1 := first_ok a k
  have h2 := again_ok a (first a k).next
  rw [ok_asArg]
  split
  · rename_i ho
    rw [isOp_again _ _ ho]
    simp only [Ok] at h1 h2
    constructor
    · intro h; exact h2.1 h.2
    · intro h; exact ⟨(h1.2 (flat_of_hasArr a h)).1, h2.2 h⟩
  · exact h1
theorem firstArgs_ok : ∀ (e : Args) (k : Nat), OkA (firstArgs e k) ↔ e.Flat
  | .nil, _ => by simp [OkA, firstArgs, TArgs.noArr, Args.Flat]
  | .cons a as, k => by
    have h1 := firstArg_ok a k
    have h2 := firstArgs_ok as (asArg a.isOp (first a) (again a) k).next
    simp only [Ok, OkA] at h1 h2
    simp only [OkA, firstArgs, all_append, TArgs.noArr, Args.Flat, Bool.and_eq_true, ← h1, ← h2]
    exact and_and_and_comm
end

theorem fortranOk_first (direct : Bool) (e : Src) (h : (first e 0).val.fortranRhs = (first e 0).val.noArr) :
    fortranOk direct (first e 0) = true ↔ e.Flat := by
  rw [← first_ok e 0]
  cases direct <;> simp [fortranOk, Ok, h]

theorem fortranOk_iff (direct : Bool) (e : Src) :
    fortranOk direct (translate direct e) = true ↔ e.FlatIn direct := by
  match e with
  | .lit _ => exact fortranOk_first direct _ rfl
  | .elem _ => exact fortranOk_first direct _ rfl
  | .op _ _ _ _ => exact fortranOk_first direct _ rfl
  | .root _ => exact fortranOk_first direct _ rfl
  | .call false f as => exact fortranOk_first direct _ (by simp [first, Tgt.fortranRhs, Tgt.noArr])
  | .call true f as =>
    cases direct with
    | false => exact fortranOk_first false _ rfl
    | true =>
      have := firstArgs_ok as 0
      simp [OkA] at this
      simp [translate, Src.FlatIn, fortranOk, Tgt.fortranRhs, ← this]

end Verif.Hoist
