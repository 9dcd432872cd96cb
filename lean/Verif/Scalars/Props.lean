import Verif.Scalars.Lemmas6
import Verif.Scalars.Prec

namespace Verif.Scalars
open Verif.Types.Spec (Num IsPromotion HasInt safeCast)
open Verif.IntMath.Spec (InRange)

/-! ## C108 -/

/-- C108 (C): an expression to which pyccel gives the types of NumPy, without sums, differences and products of two truth values, has in C the value
that it has in Python and NumPy, if no operation overflows its type, shifts are by less than the number of bits and `-2**63 % -1` does not occur. -/
theorem C108_c_partial (Γ : Nat → Num) (env : Nat → Int) (e : Expr) (t : Num) (x : Int) (hT : Agree Γ e) (hB : NoBoolArith Γ e)
    (hP : Plain false Γ env e) (h : np Γ env e = some (t, x)) :
    ∃ c w, toC Γ e = some c ∧ evalC Γ env c = some (w, x) ∧ storeC t x = x := by
  obtain ⟨hf, c, hc, w, hw, -⟩ := c_ok hT hB hP h
  refine ⟨c, w, hc, hw, ?_⟩
  obtain ⟨t', hi, -, s2⟩ := hT.same
  have e1 := np_ty h s2
  subst e1
  unfold storeC
  split
  · next hb => subst hb; rcases hf with rfl | rfl <;> rfl
  · next hb => exact IntMath.wrap_of_inRange (by have := width_cases hi hb; omega) ((fits_of hi hb).1 hf)

/-- C108 (Fortran): if the Fortran code compiles, it has the value that the expression has in Python and NumPy, under the same conditions;
they have to hold for the second operands of `and` and `or` as well when Python does not evaluate them. -/
theorem C108_fortran_partial (Γ : Nat → Num) (env : Nat → Int) (e : Expr) (t : Num) (x : Int) (c : F) (hT : Agree Γ e)
    (hP : Plain true Γ env e) (h : np Γ env e = some (t, x)) (hc : toF Γ e = some c) (hk : fTy Γ c ≠ none) :
    ∃ k, evalF Γ env c = some (k, x) := by
  obtain ⟨-, ho⟩ := f_ok hT hP h hc hk
  unfold FOk at ho
  split at ho
  · exact ⟨0, ho.1⟩
  · obtain ⟨k, h1, -⟩ := ho
    exact ⟨k, h1⟩

/-- C108: the types of pyccel agree with those of NumPy for the variables `bool` and `int`, unless `-` or `abs` is applied to a truth value. -/
theorem C108_python_types_partial (Γ : Nat → Num) (e : Expr) (hp : PyOnly Γ e) (hn : NoNegBool Γ e) : Agree Γ e := (py_agree hp hn).1

/-- C108: an expression of the types `bool` and `int` compiles in Fortran if and only if it does not compare a truth value with a number by `==` or
`!=` and has no truth value as an operand of `%`. -/
theorem C108_python_compiles_partial (Γ : Nat → Num) (e : Expr) (c : F) (hp : PyOnly Γ e) (hn : NoNegBool Γ e) (hc : toF Γ e = some c) :
    fTy Γ c ≠ none ↔ FGood Γ e := by
  refine ⟨(py_fTy hp hn hc).2, fun hg => ?_⟩
  obtain ⟨t, -, -, h⟩ := (py_fTy hp hn hc).1 hg
  rw [h]
  simp

/-- C108: binary operators: pyccel's type is NumPy's for all pairs of types, except `&`, `|` and `^` of a Python `int` and a NumPy
integer of less than 64 bits. -/
theorem C108_operator_types_iff (o : Bin) (t u : Num) (ht : Num.integral t = true) (hu : Num.integral u = true) :
    binT o t u = some (resT o t u) ↔
      ¬ ((o = .band ∨ o = .bor ∨ o = .bxor) ∧ (t = .pint ∧ u ∈ [Num.i8, .i16, .i32] ∨ u = .pint ∧ t ∈ [Num.i8, .i16, .i32])) := by
  revert t u; cases o <;> decide

/-- C108: unary operators: pyccel's type is NumPy's for `-` except on truth values, for `~` on `bool` and `int` only, for `abs` on `int` only. -/
theorem C108_unary_types_iff (Γ : Nat → Num) (a : Expr) (t : Num) (ht : Num.integral t = true) (h1 : tyOf Γ a = some t) (h2 : npTy Γ a = some t) :
    (SameTy Γ (.neg a) ↔ t ≠ .pbool) ∧ (SameTy Γ (.inv a) ↔ t = .pbool ∨ t = .pint) ∧ (SameTy Γ (.abs a) ↔ t = .pint) := by
  simp only [SameTy, tyOf, npTy, h1, h2, Option.map_some, Option.some.injEq]
  refine ⟨⟨?_, ?_⟩, ⟨?_, ?_⟩, ⟨?_, ?_⟩⟩
  · rintro ⟨u, -, rfl, h⟩; revert h; clear h1 h2; revert t; decide
  · intro h; exact ⟨t, ht, rfl, by simp [unT, h]⟩
  · rintro ⟨u, -, rfl, h⟩; revert h; clear h1 h2; revert t; decide
  · intro h; exact ⟨.pint, rfl, rfl, by rcases h with rfl | rfl <;> rfl⟩
  · rintro ⟨u, hu, rfl, h⟩; revert hu h; clear h1 h2; revert t; decide
  · rintro rfl; exact ⟨.pint, rfl, rfl, rfl⟩

/-- C108: sums, differences, products and negations of variables of one NumPy type (and literals), assigned to a variable of that type, have NumPy's value
even when they overflow the type, as long as the arithmetic of C does not overflow (32 bits, or 64 bits with a literal). -/
theorem C108_store_partial (Γ : Nat → Num) (env : Nat → Int) (t : Num) (ht : NpInt t) (henv : ∀ y, Fits (Γ y) (env y)) (e : Expr) (x v : Int)
    (c : C) (w : Nat) (hr : Ring Γ t e) (h : np Γ env e = some (t, x)) (hc : toC Γ e = some c) (hv : evalC Γ env c = some (w, v)) :
    storeC t v = x := ring_store ht henv hr h hc hv

/-- The types and values of the examples. -/
def exΓ : Nat → Num
  | 0 => .pint | 1 => .i8 | 2 => .pbool | 3 => .i16 | 4 => .i32 | _ => .i8

/-- See `exΓ`. -/
def exEnv : Nat → Int
  | 0 => -7 | 1 => 100 | 2 => 1 | 3 => 300 | 4 => 2147483647 | _ => 0

theorem exFits (y : Nat) : Fits (exΓ y) (exEnv y) := by
  rcases y with _ | _ | _ | _ | _ | y <;> simp only [exΓ, exEnv] <;> decide

/-- `((x // 2) << 3) & ~b if x % 5 < 4 …`: a composed expression that satisfies all conditions of `C108_c_partial` and `C108_fortran_partial`. -/
def exE : Expr :=
  .land (.cmp .lt (.bin .mod (.var 0) (.lit 5)) (.lit 4))
    (.cmp .eq (.bin .band (.bin .shl (.bin .fdiv (.var 0) (.lit 2)) (.lit 3)) (.inv (.var 2))) (.neg (.abs (.lit 32))))

example : PyOnly exΓ exE ∧ NoNegBool exΓ exE ∧ NoBoolArith exΓ exE ∧ FGood exΓ exE ∧ np exΓ exEnv exE = some (.pbool, 1) := by
  refine ⟨?_, ?_, ?_, ?_, by decide +kernel⟩
  · simp [exE, PyOnly, PyTy, exΓ]
  · refine ⟨⟨⟨trivial, trivial⟩, trivial⟩, ⟨⟨⟨⟨trivial, trivial⟩, trivial⟩, trivial⟩, ⟨trivial, rfl⟩, rfl⟩, rfl, rfl⟩
  · simp [exE, NoBoolArith]
  · simp [exE, FGood, npTy, exΓ, resT, Num.python, unT]

example : Plain true exΓ exEnv exE := by
  have fv : ∀ y, Plain true exΓ exEnv (.var y) := exFits
  have fl : ∀ n : Nat, Fits .pint n → Plain true exΓ exEnv (.lit n) := fun _ h => h
  have n1 : np exΓ exEnv (.bin .mod (.var 0) (.lit 5)) = some (.pint, 3) := by decide +kernel
  have n2 : np exΓ exEnv (.bin .fdiv (.var 0) (.lit 2)) = some (.pint, -4) := by decide +kernel
  have n3 : np exΓ exEnv (.bin .shl (.bin .fdiv (.var 0) (.lit 2)) (.lit 3)) = some (.pint, -32) := by decide +kernel
  have n4 : np exΓ exEnv (.inv (.var 2)) = some (.pint, -2) := by decide +kernel
  have p1 : Plain true exΓ exEnv (.cmp .lt (.bin .mod (.var 0) (.lit 5)) (.lit 4)) := by
    refine ⟨⟨fv 0, fl 5 (by decide), ?_⟩, fl 4 (by decide)⟩
    intro t x u y r h1 h2 h3
    cases h1; cases h2; cases h3
    decide
  have p2 : Plain true exΓ exEnv (.cmp .eq (.bin .band (.bin .shl (.bin .fdiv (.var 0) (.lit 2)) (.lit 3)) (.inv (.var 2))) (.neg (.abs (.lit 32)))) := by
    refine ⟨⟨⟨⟨fv 0, fl 2 (by decide), ?_⟩, fl 3 (by decide), ?_⟩, fv 2, ?_⟩, ⟨fl 32 (by decide), ?_⟩, ?_⟩
    · intro t x u y r h1 h2 h3
      cases h1; cases h2; cases h3
      decide
    · intro t x u y r h1 h2 h3
      rw [n2] at h1
      cases h1; cases h2; cases h3
      decide
    · intro t x u y r h1 h2 h3
      rw [n3] at h1
      rw [n4] at h2
      cases h1; cases h2; cases h3
      decide
    · intro t x h; cases h; decide
    · intro t x h; cases h; decide
  exact ⟨p1, fun _ _ _ _ => p2, fun _ => ⟨p2, by decide +kernel⟩⟩

/-- `x * x + 100` in `int8` for `x = 100`: 10100 is reduced to 116. -/
example : Ring exΓ .i8 (.bin .add (.bin .mul (.var 1) (.var 1)) (.lit 100)) ∧
    np exΓ exEnv (.bin .add (.bin .mul (.var 1) (.var 1)) (.lit 100)) = some (.i8, 116) ∧ (∀ y, Fits (exΓ y) (exEnv y)) ∧
    ∃ c, toC exΓ (.bin .add (.bin .mul (.var 1) (.var 1)) (.lit 100)) = some c ∧ evalC exΓ exEnv c = some (64, 10100) := by
  exact ⟨by simp [Ring, exΓ], by decide +kernel, exFits, _, rfl, by decide +kernel⟩

/-- C108 fails: `x + x > 0` for the `int8` 100.  NumPy reduces 200 to -56; C computes in `int` and compares 200. -/
theorem C108_violated_promotion : ∃ e c, Agree exΓ e ∧ np exΓ exEnv e = some (.pbool, 0) ∧ toC exΓ e = some c ∧ evalC exΓ exEnv c = some (32, 1) := by
  refine ⟨.cmp .gt (.bin .add (.var 1) (.var 1)) (.lit 0), _, ⟨⟨.pbool, rfl, rfl, rfl⟩, ⟨⟨.i8, rfl, rfl, rfl⟩, ⟨.i8, rfl, rfl, rfl⟩, ⟨.i8, rfl, rfl, rfl⟩⟩, ⟨.pint, rfl, rfl, rfl⟩⟩, by decide +kernel, rfl, by decide +kernel⟩

/-- C108 fails: `x + x` for the `int32` 2147483647 is -2 in NumPy; in C the overflow is undefined behaviour. -/
theorem C108_violated_overflow : ∃ e c, Agree exΓ e ∧ np exΓ exEnv e = some (.i32, -2) ∧ toC exΓ e = some c ∧ evalC exΓ exEnv c = none := by
  refine ⟨.bin .add (.var 4) (.var 4), _, ⟨⟨.i32, rfl, rfl, rfl⟩, ⟨.i32, rfl, rfl, rfl⟩, ⟨.i32, rfl, rfl, rfl⟩⟩, by decide +kernel, rfl, by decide +kernel⟩

/-- C108 fails: `(b + b) << 40` for `b = True` is `2**41` in Python; in C `b + b` is an `int` of 32 bits and the shift is undefined behaviour. -/
theorem C108_violated_bool_sum : ∃ e c, Agree exΓ e ∧ Plain false exΓ exEnv e ∧ np exΓ exEnv e = some (.pint, 2 ^ 41) ∧ toC exΓ e = some c ∧ evalC exΓ exEnv c = none := by
  refine ⟨.bin .shl (.bin .add (.var 2) (.var 2)) (.lit 40), _, ⟨⟨.pint, rfl, rfl, rfl⟩, ⟨⟨.pint, rfl, rfl, rfl⟩, ⟨.pbool, rfl, rfl, rfl⟩, ⟨.pbool, rfl, rfl, rfl⟩⟩, ⟨.pint, rfl, rfl, rfl⟩⟩, ?_, by decide +kernel, rfl, by decide +kernel⟩
  refine ⟨⟨exFits 2, exFits 2, ?_⟩, (show Fits .pint 40 by decide), ?_⟩
  · intro t x u y r h1 h2 h3
    cases h1; cases h2; cases h3
    decide
  · intro t x u y r h1 h2 h3
    have : np exΓ exEnv (.bin .add (.var 2) (.var 2)) = some (.pint, 2) := by decide +kernel
    rw [this] at h1
    cases h1; cases h2; cases h3
    decide

/-- C108 fails: `x >> 64` is 0 or -1 in Python; in C the shift is undefined behaviour. -/
theorem C108_violated_shift : ∃ e c, Agree exΓ e ∧ np exΓ exEnv e = some (.pint, -1) ∧ toC exΓ e = some c ∧ evalC exΓ exEnv c = none := by
  refine ⟨.bin .shr (.var 0) (.lit 64), _, ⟨⟨.pint, rfl, rfl, rfl⟩, ⟨.pint, rfl, rfl, rfl⟩, ⟨.pint, rfl, rfl, rfl⟩⟩, by decide +kernel, rfl, by decide +kernel⟩

/-- C108 fails: `b == 1`, `b % 2` and `-b` of a truth value, and `(x + 1) // x` of an `int8`, do not compile in Fortran. -/
theorem C108_violated_compile : ∀ e ∈ [Expr.cmp .eq (.var 2) (.lit 1), .bin .mod (.var 2) (.lit 2), .neg (.var 2), .bin .fdiv (.bin .add (.var 1) (.lit 1)) (.var 1)],
    np exΓ exEnv e ≠ none ∧ ∃ c, toF exΓ e = some c ∧ fTy exΓ c = none := by
  intro e he
  simp only [List.mem_cons, List.not_mem_nil, or_false] at he
  rcases he with rfl | rfl | rfl | rfl
  · exact ⟨by decide +kernel, _, rfl, by decide +kernel⟩
  · exact ⟨by decide +kernel, _, rfl, by decide +kernel⟩
  · exact ⟨by decide +kernel, _, rfl, by decide +kernel⟩
  · exact ⟨by decide +kernel, _, rfl, by decide +kernel⟩

/-- C108 fails: `-b` of `b = True` is -1 in Python; pyccel gives it the type `bool`, and a variable that it is assigned to in C holds `True`. -/
theorem C108_violated_neg_bool : tyOf exΓ (.neg (.var 2)) = some .pbool ∧ np exΓ exEnv (.neg (.var 2)) = some (.pint, -1) ∧
    ∃ c w v, toC exΓ (.neg (.var 2)) = some c ∧ evalC exΓ exEnv c = some (w, v) ∧ storeC .pbool v = 1 :=
  ⟨by decide +kernel, by decide +kernel, _, 32, -1, rfl, by decide +kernel, by decide⟩

/-- C108 fails: `~x + y` for an `int16` 300 and an `int8` 0 is the `int16` -301 in NumPy; pyccel gives it the type `int8`, and the variable that it is
assigned to holds -45. -/
theorem C108_violated_invert : tyOf exΓ (.bin .add (.inv (.var 3)) (.var 5)) = some .i8 ∧ np exΓ exEnv (.bin .add (.inv (.var 3)) (.var 5)) = some (.i16, -301) ∧
    ∃ c w v, toC exΓ (.bin .add (.inv (.var 3)) (.var 5)) = some c ∧ evalC exΓ exEnv c = some (w, v) ∧ storeC .i8 v = -45 :=
  ⟨by decide +kernel, by decide +kernel, _, 64, -301, rfl, by decide +kernel, by decide⟩

/-- C108 fails: `abs` of a NumPy integer or of a truth value is an integer; pyccel gives it the type `float`. -/
theorem C108_violated_abs : tyOf exΓ (.abs (.var 4)) = some .pfloat ∧ npTy exΓ (.abs (.var 4)) = some .i32 ∧
    tyOf exΓ (.abs (.var 2)) = some .pfloat ∧ npTy exΓ (.abs (.var 2)) = some .pint := by decide +kernel

/-- C108 fails: `x & 3` of an `int8` is an `int8` in NumPy; pyccel gives it the type `int64`. -/
theorem C108_violated_and : tyOf exΓ (.bin .band (.var 1) (.lit 3)) = some .i64 ∧ npTy exΓ (.bin .band (.var 1) (.lit 3)) = some .i8 := by decide +kernel

/-- C108 fails: `-2**63 % -1` is 0 in Python; in C it is undefined behaviour (the division overflows). -/
theorem C108_violated_mod : ∃ env e c, Agree exΓ e ∧ np exΓ env e = some (.pint, 0) ∧ toC exΓ e = some c ∧ evalC exΓ env c = none := by
  refine ⟨fun _ => -2 ^ 63, .bin .mod (.var 0) (.neg (.lit 1)), _, ⟨⟨.pint, rfl, rfl, rfl⟩, ⟨.pint, rfl, rfl, rfl⟩, ⟨.pint, rfl, rfl, rfl⟩, ⟨.pint, rfl, rfl, rfl⟩⟩, by decide +kernel, rfl, by decide +kernel⟩

/-- C108 fails: `n != 0 and x // n > 1` for `n = 0` is `False` in Python; Fortran may evaluate both operands of `.and.` and then divides by zero. -/
theorem C108_violated_short_circuit : ∃ env e c, Agree exΓ e ∧ Plain false exΓ env e ∧ np exΓ env e = some (.pbool, 0) ∧ toF exΓ e = some c ∧ fTy exΓ c ≠ none ∧ evalF exΓ env c = none := by
  refine ⟨fun _ => 0, .land (.cmp .ne (.var 0) (.lit 0)) (.cmp .gt (.bin .fdiv (.lit 7) (.var 0)) (.lit 1)), _, ?_, ?_, by decide +kernel, rfl, by decide +kernel, by decide +kernel⟩
  · have l : ∀ n, SameTy exΓ (.lit n) := fun _ => ⟨.pint, rfl, rfl, rfl⟩
    have v : SameTy exΓ (.var 0) := ⟨.pint, rfl, rfl, rfl⟩
    exact ⟨⟨.pbool, rfl, rfl, rfl⟩, ⟨⟨.pbool, rfl, rfl, rfl⟩, v, l 0⟩, ⟨⟨.pbool, rfl, rfl, rfl⟩, ⟨⟨.pint, rfl, rfl, rfl⟩, l 7, v⟩, l 1⟩⟩
  · refine ⟨⟨(show Fits .pint 0 by decide), (show Fits .pint 0 by decide)⟩, ?_, by simp⟩
    intro t x h1 h2
    have : np exΓ (fun _ => 0) (.cmp .ne (.var 0) (.lit 0)) = some (.pbool, 0) := by decide +kernel
    rw [this] at h1
    cases h1
    exact absurd rfl h2

/-! ## C109 -/

/-- C109: for two operands with a size (`bool` and the NumPy types) of which at least one is real or complex, C and Fortran compute in the type in which NumPy
computes, except for an integer of 32 or 64 bits with `float32` or `complex64`. -/
theorem C109_sized_iff (t u : Num) (ht : t.weak = false) (hu : u.weak = false) (hk : 2 ≤ max t.kind.level u.kind.level) :
    (IsPromotion t u (cArithT t u) ↔
      ¬ (t ∈ [Num.i32, .i64] ∧ u ∈ [Num.f32, .c64] ∨ u ∈ [Num.i32, .i64] ∧ t ∈ [Num.f32, .c64])) ∧ fArithT t u = cArithT t u := by
  revert t u
  unfold IsPromotion
  decide +kernel

/-- C109: a Python `int` next to a real or complex NumPy value takes the type of that; C and Fortran compute in this type. -/
theorem C109_int_partial (u : Num) (hu : u.weak = false) (hk : 2 ≤ u.kind.level) : cArithT .pint u = u ∧ cArithT u .pint = u ∧ fArithT .pint u = u ∧ fArithT u .pint = u := by
  revert u
  decide +kernel

/-- C109: a Python `float` next to a real or complex NumPy value takes its precision; C and Fortran compute in this type exactly if it is not
single precision. -/
theorem C109_float_iff (u : Num) (hu : u.weak = false) (hk : 2 ≤ u.kind.level) :
    (cArithT .pfloat u = u ↔ u.signif ≠ 24) ∧ fArithT .pfloat u = cArithT .pfloat u := by
  revert u
  decide +kernel

/-- C109 fails: an `int32` and a `float32` are added as `float64` in NumPy; C and Fortran convert the integer to `float32`, which does not hold 16777217. -/
theorem C109_violated_int32 : cArithT .i32 .f32 = .f32 ∧ fArithT .i32 .f32 = .f32 ∧ IsPromotion .i32 .f32 .f64 ∧
    HasInt .i32 16777217 ∧ HasInt .f64 16777217 ∧ ¬ HasInt .f32 16777217 := by
  refine ⟨by decide, by decide, by unfold IsPromotion; decide +kernel, (show (-2 ^ 31 : Int) ≤ 16777217 ∧ (16777217 : Int) < 2 ^ 31 by decide), ⟨16777217, 0, by decide, by decide⟩, ?_⟩
  rintro ⟨m, e, h1, h2⟩
  have h2 : m.natAbs < 16777216 := h2
  rcases e with _ | e
  · simp only [Int.pow_zero, Int.mul_one] at h1; omega
  · rw [Int.pow_succ, ← Int.mul_assoc] at h1; generalize m * 2 ^ e = q at h1; omega

/-- C109 fails: `x * 0.1` of a `float32` is computed as `float32` in NumPy, and as `double` in C and Fortran. -/
theorem C109_violated_float32 : cArithT .f32 .pfloat = .f64 ∧ fArithT .f32 .pfloat = .f64 ∧ Types.npResultType .f32 .pfloat = .f32 := by decide

end Verif.Scalars
