import Verif.AugOps.Lemmas
import Verif.IntMath.Props
/-!
Property theorems C06 (augmented assignment) and C07 (true division).
-/
namespace Verif.AugOps
open Spec Verif.IntMath Verif.IntMath.Spec

/-! ## C06 -/

/-- Every binary integer operator printed in C, when defined, has Python's value. -/
theorem C06_binary_ops_c (op : Op) (x y r : Int) (hx : InRange 64 x) (hy : InRange 64 y)
    (h : cBinary op x y = some r) : PyResult op x y r := by
  cases op with
  | add => simp only [cBinary, cCompound, chk_eq_some] at h; exact h.2
  | sub => simp only [cBinary, cCompound, chk_eq_some] at h; exact h.2
  | mul => simp only [cBinary, cCompound, chk_eq_some] at h; exact h.2
  | floordiv =>
    simp only [cBinary] at h
    have h0 : y ≠ 0 := by rintro rfl; simp [pyFloorDiv, cdiv] at h
    have hov : ¬ (x = -(2 : Int) ^ 63 ∧ y = -1) := by
      rintro ⟨rfl, rfl⟩; revert h; decide +revert
    obtain ⟨q, m, h1, h2⟩ := C01_floor_div_c 64 (by decide) x y hx hy h0 hov
    rw [h1] at h; cases h
    exact ⟨m, h2⟩
  | mod =>
    simp only [cBinary] at h
    have h0 : y ≠ 0 := by rintro rfl; simp [pycModulo, cmod] at h
    have hov : ¬ (x = -(2 : Int) ^ 63 ∧ y = -1) := by
      rintro ⟨rfl, rfl⟩; revert h; decide +revert
    obtain ⟨q, m, h1, h2⟩ := C02_modulo_c x y hx hy h0 hov
    rw [h1] at h; cases h
    exact ⟨q, h2⟩
  | bitor =>
    simp only [cBinary, cCompound, Option.some.injEq] at h
    subst h
    intro i
    unfold cOr
    rw [bit_toInt, BitVec.getLsbD_or, bit_ofInt hx, bit_ofInt hy]
  | bitand =>
    simp only [cBinary, cCompound, Option.some.injEq] at h
    subst h
    intro i
    unfold cAnd
    rw [bit_toInt, BitVec.getLsbD_and, bit_ofInt hx, bit_ofInt hy]
  | lshift =>
    simp only [cBinary, cCompound, cShl] at h
    split at h
    · rename_i hc; rw [chk_eq_some] at h; exact ⟨hc.1, h.2⟩
    · cases h
  | rshift =>
    simp only [cBinary, cCompound, cShr] at h
    split at h
    · rename_i hc
      cases h
      refine ⟨hc.1, ?_⟩
      rw [BitVec.toInt_sshiftRight, toInt_ofInt_of_inRange hx, Int.shiftRight_eq_div_pow]
      norm_cast
    · cases h

example : cBinary .mod (-7) 3 = some 2 ∧ cBinary .bitor 5 2 = some 7 ∧
    cBinary .rshift (-5) 1 = some (-3) := by decide

/-- C06 (C), the part that holds: except for `%=`, the value left by `x op= y` is Python's.
Missing: `%=` with operands of different signs (`C06_mod_violated`). -/
theorem C06_augassign_c_partial (op : Op) (x y r : Int) (hx : InRange 64 x) (hy : InRange 64 y)
    (hop : op ≠ .mod) (h : cAugAssign op x y = some r) : PyResult op x y r := by
  apply C06_binary_ops_c op x y r hx hy
  cases op <;> first | exact absurd rfl hop | exact h

/-- C06 (C), `%=`: exactly when the C remainder is zero or has the sign of the divisor is the
value left by `x %= y` Python's. -/
theorem C06_mod_exact_partial (x y r : Int) (hx : InRange 64 x) (hy : InRange 64 y)
    (h : cAugAssign .mod x y = some r) :
    PyResult .mod x y r ↔ (r = 0 ∨ (0 < r ↔ 0 < y)) := by
  have h' : cmod 64 x y = some r := h
  unfold cmod at h'
  split at h'
  · cases h'
  · rename_i h0
    split at h'
    · cases h'
      obtain ⟨f1, f2, f3, f4, f5⟩ := trunc_facts x y h0
      constructor
      · rintro ⟨q, e, b⟩; omega
      · intro hs
        refine ⟨x.tdiv y, f1, ?_⟩
        omega
    · cases h'

/-- C06: the unchanged code violates the property for `%=`: `x = -7; x %= 3` leaves 2 in Python
and -1 in generated C. -/
theorem C06_mod_violated :
    cAugAssign .mod (-7) 3 = some (-1) ∧ PyResult .mod (-7) 3 2 ∧ ¬ PyResult .mod (-7) 3 (-1) := by
  refine ⟨by decide, ⟨-3, by decide, by decide⟩, ?_⟩
  rintro ⟨q, e, b⟩; omega

/-- C06 (Fortran): the value left by `x op= y` is Python's, for every operator. -/
theorem C06_augassign_fortran (op : Op) (x y r : Int) (hx : InRange 64 x) (hy : InRange 64 y)
    (h : fAugAssign op x y = some r) : PyResult op x y r := by
  cases op with
  | floordiv =>
    simp only [fAugAssign] at h
    have h0 : y ≠ 0 := by rintro rfl; simp [fFloorDiv, cdiv] at h
    have hov : ¬ (x = -(2 : Int) ^ 63 ∧ y = -1) := by
      rintro ⟨rfl, rfl⟩; revert h; decide +revert
    obtain ⟨q, m, h1, h2⟩ := C01_floor_div_fortran 64 x y hx hy h0 hov
    rw [h1] at h; cases h
    exact ⟨m, h2⟩
  | mod =>
    simp only [fAugAssign] at h
    have h0 : y ≠ 0 := by rintro rfl; simp [fModulo] at h
    obtain ⟨q, m, h1, h2⟩ := C02_modulo_fortran x y h0
    rw [h1] at h; cases h
    exact ⟨q, h2⟩
  | lshift =>
    simp only [fAugAssign] at h
    split at h
    · rename_i hc; rw [chk_eq_some] at h; exact ⟨hc.1, h.2⟩
    · cases h
  | add => exact C06_binary_ops_c .add x y r hx hy h
  | sub => exact C06_binary_ops_c .sub x y r hx hy h
  | mul => exact C06_binary_ops_c .mul x y r hx hy h
  | bitor => exact C06_binary_ops_c .bitor x y r hx hy h
  | bitand => exact C06_binary_ops_c .bitand x y r hx hy h
  | rshift => exact C06_binary_ops_c .rshift x y r hx hy h

/-- C06, definedness: whenever Python's result exists and is representable, and (for shifts)
the count is below 64 and the shifted operand non-negative, the generated C statement is
defined, for every operator; so the previous theorems are not vacuous. -/
theorem C06_augassign_c_defined (op : Op) (x y r : Int) (hx : InRange 64 x) (hy : InRange 64 y)
    (hr : PyResult op x y r) (hfit : InRange 64 r)
    (hsh : (op = .lshift ∨ op = .rshift) → y < 64)
    (hsl : op = .lshift → 0 ≤ x) (hmin : ¬ (x = -(2 : Int) ^ 63 ∧ y = -1)) :
    ∃ v, cAugAssign op x y = some v := by
  cases op with
  | add => exact ⟨_, chk_some (by rw [← show r = x + y from hr]; exact hfit)⟩
  | sub => exact ⟨_, chk_some (by rw [← show r = x - y from hr]; exact hfit)⟩
  | mul => exact ⟨_, chk_some (by rw [← show r = x * y from hr]; exact hfit)⟩
  | floordiv =>
    obtain ⟨m, e, b⟩ := hr
    obtain ⟨q, m, h1, h2⟩ := C01_floor_div_c 64 (by decide) x y hx hy (by omega) hmin
    exact ⟨q, h1⟩
  | mod =>
    obtain ⟨m, e, b⟩ := hr
    have h0 : y ≠ 0 := by omega
    refine ⟨x.tmod y, ?_⟩
    show cmod 64 x y = _
    unfold cmod
    rw [if_neg h0, if_pos (tdiv_inRange h0 hx hmin)]
  | bitor => exact ⟨_, rfl⟩
  | bitand => exact ⟨_, rfl⟩
  | lshift =>
    obtain ⟨h0, h1⟩ := hr
    refine ⟨r, ?_⟩
    show cShl x y = _
    unfold cShl
    rw [if_pos ⟨h0, hsh (Or.inl rfl), hsl rfl⟩, ← h1, chk_some hfit]
  | rshift =>
    obtain ⟨h0, h1⟩ := hr
    refine ⟨((BitVec.ofInt 64 x).sshiftRight y.toNat).toInt, ?_⟩
    show cShr x y = _
    unfold cShr
    rw [if_pos ⟨h0, hsh (Or.inr rfl)⟩]

example : InRange 64 6 ∧ InRange 64 (-4) ∧ PyResult .floordiv 6 (-4) (-2) ∧
    cAugAssign .floordiv 6 (-4) = some (-2) :=
  ⟨by decide, by decide, ⟨-2, by decide, by decide⟩, by decide⟩

/-! ## C07 -/

/-- C07 (C), the part that holds: unless both operands are boolean/integer with at least one
boolean, `a / b` is the exact quotient.  Missing: mixes with `bool` (`C07_bool_violated`). -/
theorem C07_true_div_c_partial (ta tb : Prim) (a b : Rat)
    (h : ta = .float ∨ tb = .float ∨ (ta = .int ∧ tb = .int)) : cDiv ta tb a b = a / b := by
  rcases h with rfl | rfl | ⟨rfl, rfl⟩ <;> simp [cDiv, divValue, cDivCasts]

/-- C07 (Fortran): `a / b` is the exact quotient for every mix of types. -/
theorem C07_true_div_fortran (ta tb : Prim) (a b : Rat) : fDiv ta tb a b = a / b := by
  cases ta <;> cases tb <;> simp [fDiv, divValue, fDivCasts]

/-- C07: the unchanged code violates the property in C: `True / 2` is 0.5 in Python, 0 in C. -/
theorem C07_bool_violated :
    HasPrim .bool 1 ∧ HasPrim .int 2 ∧ cDiv .bool .int 1 2 = 0 ∧ (1 : Rat) / 2 ≠ 0 := by
  refine ⟨Or.inr rfl, rfl, by decide, by decide +kernel⟩

/-- C07: exact extent of the violation: with a boolean operand and no float, the value is
Python's only if the integer division is exact. -/
theorem C07_true_div_c_bool_exact (ta tb : Prim) (a b : Rat) (hta : ta ≠ .float) (htb : tb ≠ .float)
    (hb : ta = .bool ∨ tb = .bool) : cDiv ta tb a b = ((a.num.tdiv b.num : Int) : Rat) := by
  cases ta <;> cases tb <;> simp_all [cDiv, divValue, cDivCasts]

end Verif.AugOps
