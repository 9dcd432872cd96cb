import Verif.Types.Lemmas
/-
Properties C34 (promotion of numeric types), C35 (array types), C36 (`switch_rank`),
C37 (broadcasting).

The numeric types are finitely many: statements about all of them are decided by going through
the whole list (`Num.decForall`).
-/
namespace Verif.Types
open Spec

/-! ### C34: scalars -/

/-- **C34** (defined).  `a + b` has a type for all numeric types. -/
theorem C34_defined (a b : Num) : (addT a b).isSome = true := by
  revert a b; decide

/-- **C34** (commutative). -/
theorem C34_commutative (a b : Num) : addT a b = addT b a := by
  revert a b; decide

/-- **C34** (idempotent), for every type but `bool`, whose sum is an `int` as in Python. -/
theorem C34_idempotent (a : Num) : addT a a = some (if a = .pbool then .pint else a) := by
  revert a; decide

/-- **C34** (Python).  On built-in numbers the type is the one Python gives. -/
theorem C34_python (a b : Num) (ha : a.python = true) (hb : b.python = true) :
    addT a b = some (pyArith a b) := by
  revert a b; decide

example : Num.python .pfloat = true ∧ addT .pint .pfloat = some .pfloat := by decide

/-- **C34** (NumPy).  When both types have a size (NumPy types, or `bool`), and at least one of
them is a NumPy type, the type is the smallest one to which both can be cast safely. -/
theorem C34_numpy_promotion (a b : Num) (ha : a.weak = false) (hb : b.weak = false)
    (hn : ¬ (a = .pbool ∧ b = .pbool)) :
    ∃ c, addT a b = some c ∧ IsPromotion a b c := by
  have h : ∀ a b : Num, a.weak = false → b.weak = false → ¬ (a = .pbool ∧ b = .pbool) →
      ∃ c, addT a b = some c ∧ c.weak = false ∧ safeCast a c = true ∧ safeCast b c = true ∧
        ∀ d : Num, d.weak = false → safeCast a d = true → safeCast b d = true →
          safeCast c d = true := by
    intro a b
    have key : ∀ a b : Num, a.weak = false → b.weak = false → ¬ (a = .pbool ∧ b = .pbool) →
        ((addT a b).getD .pbool).weak = false ∧ safeCast a ((addT a b).getD .pbool) = true ∧
        safeCast b ((addT a b).getD .pbool) = true ∧
        ∀ d : Num, d.weak = false → safeCast a d = true → safeCast b d = true →
          safeCast ((addT a b).getD .pbool) d = true := by decide +kernel
    intro ha hb hn
    refine ⟨(addT a b).getD .pbool, ?_, key a b ha hb hn⟩
    have := C34_defined a b
    cases h : addT a b with
    | none => simp [h] at this
    | some c => rfl
  exact h a b ha hb hn

example : addT .i16 .f32 = some .f32 ∧ addT .i32 .f32 = some .f64 ∧ addT .pbool .i8 = some .i8 := by
  decide

/-- The smallest type is unique, so the theorem determines the result. -/
theorem C34_promotion_unique (a b c d : Num) (hc : IsPromotion a b c) (hd : IsPromotion a b d) :
    c = d := by
  obtain ⟨c1, c2, c3, c4⟩ := hc
  obtain ⟨d1, d2, d3, d4⟩ := hd
  have h1 := c4 d d1 d2 d3
  have h2 := d4 c c1 c2 c3
  revert h1 h2 c1 d1
  have : ∀ c d : Num, c.weak = false → d.weak = false → safeCast c d = true →
      safeCast d c = true → c = d := by decide
  exact fun c1 d1 h1 h2 => this c d c1 d1 h1 h2

/-- **C34** (Python scalar with NumPy type).  A Python `int`, `float` or `complex` next to a NumPy
type (or `bool` array element) contributes only its kind: the kind of the result is the larger of
the two, and when that is the kind of the NumPy operand its type is kept. -/
theorem C34_weak_operand (w s : Num) (hw : w.weak = true) (hs : s.python = false) :
    ∃ c, addT w s = some c ∧ c.kind.level = max w.kind.level s.kind.level ∧
      (w.kind.level ≤ s.kind.level → c = s) := by
  have key : ∀ w s : Num, w.weak = true → s.python = false →
      addT w s = some ((addT w s).getD .pbool) ∧
      ((addT w s).getD .pbool).kind.level = max w.kind.level s.kind.level ∧
      (w.kind.level ≤ s.kind.level → (addT w s).getD .pbool = s) := by decide
  exact ⟨_, key w s hw hs⟩

example : addT .pint .i8 = some .i8 ∧ addT .pfloat .i8 = some .f64 ∧
    addT .pcomplex .f32 = some .c64 := by decide

/-- **C34** (associative) when no Python `int`, `float`, `complex` is mixed with NumPy types. -/
theorem C34_associative_partial (a b c : Num)
    (h : (a.python = true ∧ b.python = true ∧ c.python = true) ∨
      (a.python = false ∧ b.python = false ∧ c.python = false)) :
    (addT a b).bind (addT · c) = (addT b c).bind (addT a ·) := by
  revert a b c; decide +kernel

/-- **C34** is not associative when they are mixed: `(x + i) + f` and `x + (i + f)` with `x` a
Python `float`, `i` an `int8`, `f` a `float32` have different types (NumPy behaves the same). -/
theorem C34_associative_mixed_violated :
    (addT .pfloat .i8).bind (addT · .f32) = some .f64 ∧
    (addT .i8 .f32).bind (addT .pfloat ·) = some .f32 := by decide

theorem hasInt_real {p : Nat} {n : Int} (h1 : -2 ^ p ≤ n) (h2 : n < 2 ^ p) :
    ∃ (m : Int) (e : Nat), n = m * 2 ^ e ∧ m.natAbs < 2 ^ (p + 1) := by
  refine ⟨n, 0, by simp, ?_⟩
  have h3 : n.natAbs ≤ 2 ^ p := by
    have e1 : ((2 ^ p : Nat) : Int) = 2 ^ p := by norm_cast
    generalize (2 : Int) ^ p = P at *
    generalize (2 : Nat) ^ p = Q at *
    omega
  have : (2 : Nat) ^ p < 2 ^ (p + 1) := Nat.pow_lt_pow_right (by omega) (by omega)
  omega

theorem pow_le_int {a b : Nat} (h : a ≤ b) : (2 : Int) ^ a ≤ 2 ^ b := by
  have : (2 : Nat) ^ a ≤ 2 ^ b := Nat.pow_le_pow_right (by omega) h
  exact_mod_cast this

/-- A safe cast keeps every integer, unless it takes 64-bit integers to a 53-bit significand. -/
theorem safeCast_keeps (a c : Num) (n : Int) (h : safeCast a c = true) (ha : a.weak = false)
    (hx : ¬ (a = .i64 ∧ c.signif = 53)) (hn : HasInt a n) : HasInt c n := by
  have hcw : c.kind = .int → c.width = 8 ∨ c.width = 16 ∨ c.width = 32 ∨ c.width = 64 :=
    (by decide : ∀ c : Num, c.kind = .int →
      c.width = 8 ∨ c.width = 16 ∨ c.width = 32 ∨ c.width = 64) c
  have hcs : c.kind.level ≥ 2 → c.signif = 24 ∨ c.signif = 53 ∨ c.signif = 64 :=
    (by decide : ∀ c : Num, c.kind.level ≥ 2 →
      c.signif = 24 ∨ c.signif = 53 ∨ c.signif = 64) c
  have haw : a.kind = .int → a.width = 8 ∨ a.width = 16 ∨ a.width = 32 ∨ (a.width = 64 ∧ a = .i64) :=
    (by decide : ∀ a : Num, a.weak = false → a.kind = .int →
      a.width = 8 ∨ a.width = 16 ∨ a.width = 32 ∨ (a.width = 64 ∧ a = .i64)) a ha
  unfold safeCast at h
  unfold HasInt at hn ⊢
  have hcs' : c.kind = .real ∨ c.kind = .complex →
      c.signif = 24 ∨ c.signif = 53 ∨ c.signif = 64 := fun h => hcs (by
    rcases h with h | h <;> rw [h] <;> decide)
  cases hka : a.kind <;> cases hkc : c.kind <;> simp only [hka, hkc] at h hn ⊢ <;>
    first | exact hn | cases h | skip
  -- bool
  · rcases hcw hkc with e | e | e | e <;> rw [e] <;> rcases hn with rfl | rfl <;> decide
  · rcases hcs' (by simp [hkc]) with e | e | e <;> rw [e] <;>
      exact ⟨n, 0, by simp, by rcases hn with rfl | rfl <;> decide⟩
  · rcases hcs' (by simp [hkc]) with e | e | e <;> rw [e] <;>
      exact ⟨n, 0, by simp, by rcases hn with rfl | rfl <;> decide⟩
  -- int to int
  · have hle : a.width ≤ c.width := by simpa using h
    have := pow_le_int (a := a.width - 1) (b := c.width - 1) (by omega)
    omega
  -- int to real, complex
  all_goals first
    | (obtain ⟨m, e, h1, h2⟩ := hn
       exact ⟨m, e, h1, Nat.lt_of_lt_of_le h2 (Nat.pow_le_pow_right (by omega) (by simpa using h))⟩)
    | (have hle : a.width ≤ c.signif := by
         rcases haw hka with e | e | e | ⟨e, e'⟩ <;> rcases hcs' (by simp [hkc]) with f | f | f <;>
           simp [e, f] at h ⊢
         exact hx ⟨e', f⟩
       obtain ⟨m, e, h1, h2⟩ := hasInt_real hn.1 hn.2
       have hw : 1 ≤ a.width := by rcases haw hka with e | e | e | ⟨e, _⟩ <;> omega
       exact ⟨m, e, h1, Nat.lt_of_lt_of_le h2 (Nat.pow_le_pow_right (by omega) (by omega))⟩)

/-- **C34** (upper bound, on values).  Between sized types every integer an operand can hold is
represented exactly in the result type, unless a 64-bit integer meets a real or complex type of
64 bits or less.

Missing: that case, where NumPy also loses digits, see `C34_lossy_int64_violated`. -/
theorem C34_upper_bound_partial (a b c : Num) (n : Int) (ha : a.weak = false) (hb : b.weak = false)
    (h : addT a b = some c) (hx : ¬ (a = .i64 ∧ c.signif = 53)) (hn : HasInt a n) : HasInt c n := by
  by_cases hp : a = .pbool ∧ b = .pbool
  · obtain ⟨rfl, rfl⟩ := hp
    have : c = .pint := by have : addT .pbool .pbool = some .pint := by decide
                           rw [this] at h; exact (Option.some.inj h).symm
    subst this
    show -2 ^ 63 ≤ n ∧ n < 2 ^ 63
    rcases hn with rfl | rfl <;> decide
  · obtain ⟨c', h1, _, h2, _⟩ := C34_numpy_promotion a b ha hb hp
    rw [h] at h1; cases h1
    exact safeCast_keeps a c n h2 ha hx hn

example : addT .i32 .f32 = some .f64 ∧ HasInt .i32 2147483647 := by
  refine ⟨by decide, ?_⟩
  show -2 ^ 31 ≤ (2147483647 : Int) ∧ (2147483647 : Int) < 2 ^ 31
  decide

/-- **C34** is not lossless for `int64` with `float64`: `2^53 + 1` has no exact `float64`. -/
theorem C34_lossy_int64_violated :
    addT .i64 .f64 = some .f64 ∧ HasInt .i64 (2 ^ 53 + 1) ∧ ¬ HasInt .f64 (2 ^ 53 + 1) := by
  refine ⟨by decide, by show -2 ^ 63 ≤ (2 ^ 53 + 1 : Int) ∧ (2 ^ 53 + 1 : Int) < 2 ^ 63; decide, ?_⟩
  rintro ⟨m, e, h1, h2⟩
  have h2' : m.natAbs < 2 ^ 53 := h2
  cases e with
  | zero => omega
  | succ e =>
    have : (2 : Int) ^ (e + 1) = 2 * 2 ^ e := by rw [Int.pow_succ]; exact Int.mul_comm _ _
    rw [this, Int.mul_left_comm] at h1
    omega

/-- **C34** (true division).  The type of `a / b` is real or complex; on built-in numbers it is
`float`, or `complex` if one operand is. -/
theorem C34_division (a b : Num) :
    ∃ c, divT a b = some c ∧ 2 ≤ c.kind.level ∧
      (a.python = true → b.python = true →
        c = if a = .pcomplex ∨ b = .pcomplex then .pcomplex else .pfloat) := by
  have key : ∀ a b : Num, divT a b = some ((divT a b).getD .pbool) ∧
      2 ≤ ((divT a b).getD .pbool).kind.level ∧
      (a.python = true → b.python = true →
        (divT a b).getD .pbool = if a = .pcomplex ∨ b = .pcomplex then .pcomplex else .pfloat) := by
    decide
  exact ⟨_, key a b⟩

/-- **C34** (bitwise operators): the type is Python's on `bool` and `int`, and NumPy's when both
types are sized.

Missing: a NumPy integer with a Python `int`, see `C34_bitwise_weak_violated`. -/
theorem C34_bitwise_partial (a b : Num) (ha : a.kind.level ≤ 1) (hb : b.kind.level ≤ 1) :
    (a.python = true → b.python = true → andT a b = some (pyBit a b)) ∧
    (a.weak = false → b.weak = false → ∃ c, andT a b = some c ∧ IsPromotion a b c) := by
  have key : ∀ a b : Num, a.kind.level ≤ 1 → b.kind.level ≤ 1 →
    (a.python = true → b.python = true → andT a b = some (pyBit a b)) ∧
    (a.weak = false → b.weak = false →
      andT a b = some ((andT a b).getD .f32) ∧
      (((andT a b).getD .f32).weak = false ∧ safeCast a ((andT a b).getD .f32) = true ∧
        safeCast b ((andT a b).getD .f32) = true ∧
        ∀ d : Num, d.weak = false → safeCast a d = true → safeCast b d = true →
          safeCast ((andT a b).getD .f32) d = true)) := by decide +kernel
  exact ⟨(key a b ha hb).1, fun h1 h2 => ⟨_, (key a b ha hb).2 h1 h2⟩⟩

/-- **C34** (bitwise operators) do not depend on the operand order, whatever the types. -/
theorem C34_bitwise_commutative_partial (a b : Num) (ha : a.kind.level ≤ 1) (hb : b.kind.level ≤ 1) :
    andT a b = andT b a := by
  revert a b; decide

/-- **C34** fails for `&`, `|`, `^` between a NumPy integer smaller than 64 bits and a Python
`int`: pyccel gives `int64`, NumPy keeps the NumPy type. -/
theorem C34_bitwise_weak_violated (a : Num) (h : a = .i8 ∨ a = .i16 ∨ a = .i32) :
    andT a .pint = some .i64 ∧ npResultType a .pint = a := by
  rcases h with rfl | rfl | rfl <;> decide

example : addT .i32 .pint = some .i32 := by decide

/-- **C34** fails for the unary operators on `bool`: Python's `-b` is an `int`, pyccel's is a
`bool`, which cannot hold the value −1. -/
theorem C34_negated_bool_violated :
    negT .pbool = .pbool ∧ HasInt .pbool 1 ∧ ¬ HasInt (negT .pbool) (-1) := by
  refine ⟨rfl, Or.inr rfl, ?_⟩
  rintro (h | h) <;> revert h <;> decide

/-! ### C35: arrays -/

/-- A type as pyccel builds it: arrays have elements of a sized type, rank at least 1, and an
order exactly from rank 2 on. -/
def Ty.Ok : Ty → Prop
  | .scalar _ => True
  | .arr e r o => e.weak = false ∧ 1 ≤ r ∧ (o = none ↔ r < 2)

theorem npResultType_comm (a b : Num) : npResultType a b = npResultType b a := by
  revert a b; decide

theorem npResultType_strong (a b : Num) (h : a.weak = false) : (npResultType a b).weak = false := by
  revert a b; decide

theorem getNew_some {f : Num} {r : Nat} {o : Option Ord} (hw : f.weak = false) (hr : 1 ≤ r)
    (h : ¬ (2 ≤ r ∧ o = none)) : getNew f r o = some (.arr f r o) := by
  unfold getNew
  rw [if_neg h, if_neg (by simp [hw]), if_neg (by omega)]

theorem arrAdd_comm (a b : Ty) : arrAdd a b = arrAdd b a := by
  unfold arrAdd
  rw [npResultType_comm, Nat.max_comm, Bool.and_comm]

/-- **C35** (arithmetic).  On arrays of any rank, order and element type, and scalars: the type is
defined, does not depend on the operand order, has the larger rank, and its elements have the type
NumPy gives. -/
theorem C35_arithmetic (e : Num) (r : Nat) (o : Option Ord) (b : Ty)
    (ha : (Ty.arr e r o).Ok) (hb : b.Ok) :
    ∃ c, addTy (.arr e r o) b = some c ∧ addTy b (.arr e r o) = some c ∧ c.Ok ∧
      c.rank = max r b.rank ∧ c.elem = npResultType e b.elem ∧
      (2 ≤ c.rank → (c.order = some .C ↔ o = some .C ∨ b.order = some .C)) := by
  have hsym : addTy b (.arr e r o) = addTy (.arr e r o) b := by
    cases b with
    | scalar n => rfl
    | arr e' r' o' => exact arrAdd_comm _ _
  rw [hsym]
  have hd : addTy (.arr e r o) b = arrAdd (.arr e r o) b := by cases b <;> rfl
  rw [hd]
  have hw : (npResultType e b.elem).weak = false := npResultType_strong _ _ ha.1
  have hr : max b.rank r ≠ 0 := by have := ha.2.1; omega
  show ∃ c, getNew (npResultType e b.elem) (max b.rank r) (if max b.rank r < 2 then none
    else if fContiguous b.order && fContiguous o then some .F else some .C) = some c ∧ _
  have hc : ∀ c : Ty, getNew (npResultType e b.elem) (max b.rank r) (if max b.rank r < 2 then none
    else if fContiguous b.order && fContiguous o then some .F else some .C) = some c →
    arrAdd (.arr e r o) b = some c := fun c h => h
  generalize npResultType e b.elem = f at *
  generalize b.order = o' at *
  generalize b.rank = s at *
  by_cases h2 : max s r < 2
  · rw [if_pos h2, getNew_some hw (by omega) (by omega)] at hc ⊢
    refine ⟨_, rfl, hc _ rfl, ⟨hw, by omega, by simp [h2]⟩, Nat.max_comm _ _, rfl, fun h => ?_⟩
    simp only [Ty.rank] at h; omega
  · have hne : (if (fContiguous o' && fContiguous o) = true then some Ord.F else some Ord.C)
        ≠ none := by split <;> simp
    rw [if_neg h2, getNew_some hw (by omega) (by simp only [hne]; simp)] at hc ⊢
    refine ⟨_, rfl, hc _ rfl, ⟨hw, by omega, ?_⟩, Nat.max_comm _ _, rfl, fun _ => ?_⟩
    · simp only [hne, false_iff]; exact h2
    · simp only [Ty.order, fContiguous]
      cases o with
      | none => cases o' with
        | none => simp
        | some x => cases x <;> simp
      | some y => cases o' with
        | none => cases y <;> simp
        | some x => cases x <;> cases y <;> simp

example : addTy (.arr .i8 2 (some .F)) (.arr .f32 1 none) = some (.arr .f32 2 (some .F)) := by decide

theorem precisionMap_strong {k : Kind} {p : Int} {n : Num} (h : precisionMap k p = some n) :
    n.weak = false := by
  unfold precisionMap at h
  cases k <;> simp only at h <;> repeat' split at h
  all_goals first | cases h | skip
  all_goals rfl

/-- **C35** (bitwise operators), for operands where the first array has the larger rank: the type
is defined and has that rank, its elements have the type NumPy gives if both types are sized, and a number may be on
either side.

Missing: a second operand of larger rank, and independence of the operand order, see below. -/
theorem C35_bitwise_partial (e : Num) (r : Nat) (o : Option Ord) (b : Ty)
    (ha : (Ty.arr e r o).Ok) (hb : b.rank ≤ r) (he : e.kind.level ≤ 1) (hbe : b.elem.kind.level ≤ 1) :
    ∃ c, andTy (.arr e r o) b = some c ∧ c.Ok ∧ c.rank = max r b.rank ∧ c.order = o ∧
      (b.elem.weak = false → IsPromotion e b.elem c.elem) ∧ (b.rank = 0 → b.Ok → andTy b (.arr e r o) = some c) := by
  have hd : andTy (.arr e r o) b = arrAnd (.arr e r o) b := by cases b <;> rfl
  rw [hd]
  have key : ∀ e f : Num, e.weak = false → e.kind.level ≤ 1 → f.kind.level ≤ 1 →
      (andT e f).isSome = true ∧
      (precisionMap ((andT e f).getD .pbool).kind (precision ((andT e f).getD .pbool))).isSome = true := by
    decide
  obtain ⟨k1, k2⟩ := key e b.elem ha.1 he hbe
  obtain ⟨m, hm⟩ := Option.isSome_iff_exists.1 k1
  rw [hm] at k2
  obtain ⟨q, hq⟩ := Option.isSome_iff_exists.1 k2
  simp only [Option.getD_some] at hq
  have hw := precisionMap_strong hq
  have key2 : ∀ e f : Num, e.weak = false → e.kind.level ≤ 1 → f.kind.level ≤ 1 → f.weak = false →
      precisionMap ((andT e f).getD .pbool).kind (precision ((andT e f).getD .pbool)) = andT e f := by
    decide
  have hel : b.elem.weak = false → IsPromotion e b.elem q := by
    intro hf
    have h1 := key2 e b.elem ha.1 he hbe hf
    rw [hm, Option.getD_some, hq] at h1
    obtain ⟨c, h2, h3⟩ := (C34_bitwise_partial e b.elem he hbe).2 ha.1 hf
    rw [hm, ← h1] at h2
    exact (Option.some.inj h2) ▸ h3
  obtain ⟨h1, h2, h3⟩ := ha
  have hres : arrAnd (.arr e r o) b = some (.arr q r o) := ?_
  refine ⟨.arr q r o, hres, ⟨hw, h2, h3⟩, (Nat.max_eq_left hb).symm, rfl, hel, fun hb0 hok => ?_⟩
  · cases b with
    | scalar n => exact hres
    | arr e' r' o' => have h := hok.2.1; simp only [Ty.rank] at hb0; omega
  have hg : getNew q r o = some (.arr q r o) := by
    unfold getNew
    rw [if_neg, if_neg (by simp [hw]), if_neg (by omega)]
    rintro ⟨h4, h5⟩
    have := h3.1 h5
    omega
  show (andT e b.elem).bind (fun n => switchBasic (.arr e r o) n) = _
  rw [hm]
  show (precisionMap m.kind (precision m)).bind (fun m => getNew m r o) = _
  rw [hq]
  exact hg

/-- **C35** (a new element type, as for `/` and `~`): an array keeps its rank and order, and its elements get the type
asked for; `int`, `float` and `complex` stand for the types of NumPy of the same kind with 64 bits in each number. -/
theorem C35_switch (e : Num) (r : Nat) (o : Option Ord) (n : Num) (ha : (Ty.arr e r o).Ok) :
    switchBasic (.arr e r o) n = some (.arr (match n with
      | .pint => .i64
      | .pfloat => .f64
      | .pcomplex => .c128
      | n => n) r o) := by
  obtain ⟨h1, h2, h3⟩ := ha
  have hg : ∀ q : Num, q.weak = false → getNew q r o = some (.arr q r o) := by
    intro q hw
    unfold getNew
    rw [if_neg, if_neg (by simp [hw]), if_neg (by omega)]
    rintro ⟨h4, h5⟩
    have := h3.1 h5
    omega
  cases n <;> exact hg _ rfl

example : switchBasic (.arr .i8 2 (some .F)) .pfloat = some (.arr .f64 2 (some .F)) := by decide

example : andTy (.arr .i32 2 (some .C)) (.arr .i64 1 none) = some (.arr .i64 2 (some .C)) := by decide

/-- **C35** fails for `&`, `|`, `^`: the rank (and the order) are those of the first operand.  For
every element type and all ranks `1 ≤ r < s`, the expression on arrays of ranks `r` and `s` is
given rank `r`, and the swapped expression rank `s`. -/
theorem C35_bitwise_rank_violated (r s : Nat) (h1 : 1 ≤ r) (h2 : r < s) :
    ∃ (o o' : Option Ord) (c d : Ty), (Ty.arr .i64 r o).Ok ∧ (Ty.arr .i64 s o').Ok ∧
      andTy (.arr .i64 r o) (.arr .i64 s o') = some c ∧ c.rank = r ∧
      andTy (.arr .i64 s o') (.arr .i64 r o) = some d ∧ d.rank = s := by
  have hand : andT .i64 .i64 = some .i64 := by decide
  have hp : precisionMap Num.i64.kind (precision .i64) = some .i64 := by decide
  refine ⟨if r < 2 then none else some .C, some .C, .arr .i64 r (if r < 2 then none else some .C),
    .arr .i64 s (some .C), ⟨rfl, h1, by split <;> simp_all⟩, ⟨rfl, by omega, by simp; omega⟩, ?_, rfl,
    ?_, rfl⟩
  · have hg : getNew .i64 r (if r < 2 then none else some .C) =
        some (.arr .i64 r (if r < 2 then none else some .C)) := by
      unfold getNew
      rw [if_neg, if_neg (by decide), if_neg (by omega)]
      rintro ⟨h4, h5⟩
      rw [if_neg (by omega)] at h5; cases h5
    simp only [andTy, arrAnd, Ty.elem, hand, switchBasic, Ty.rank, Ty.order, Option.bind_eq_bind,
      Option.bind_some, hp, hg]
  · have hg : getNew .i64 s (some .C) = some (.arr .i64 s (some .C)) := by
      unfold getNew
      rw [if_neg (by simp), if_neg (by decide), if_neg (by omega)]
    simp only [andTy, arrAnd, Ty.elem, hand, switchBasic, Ty.rank, Ty.order, Option.bind_eq_bind,
      Option.bind_some, hp, hg]

/-! ### C36: `switch_rank` -/

/-- The type of an element: what one indexing leaves.  Indexing a NumPy array drops one of its
dimensions, and its order when one dimension is left. -/
def elementType : CTy → Option CTy
  | .scalar _ => none
  | .arr e r o =>
    if r = 0 then none
    else if r = 1 then some (.scalar e)
    else some (.arr e (r - 1) (if r - 1 = 1 then none else o))
  | .cont _ e => some e

/-- The type left by `n` indexings. -/
def afterIndexings : Nat → CTy → Option CTy
  | 0, t => some t
  | n + 1, t => (elementType t).bind (afterIndexings n)

/-- The array types in a type have rank at least 1, and an order exactly from rank 2 on. -/
def CTy.Ok : CTy → Prop
  | .scalar _ => True
  | .arr _ r o => 1 ≤ r ∧ (o = none ↔ r < 2)
  | .cont _ e => e.Ok

theorem afterIndexings_arr (e : Num) : ∀ (n r : Nat) (o : Option Ord), n < r →
    (o = none ↔ r < 2) →
    afterIndexings n (.arr e r o) = some (.arr e (r - n) (if 1 < r - n then o else none))
  | 0, r, o, h, ho => by
    simp only [afterIndexings, Nat.sub_zero]
    by_cases h1 : 1 < r
    · simp [h1]
    · have : o = none := ho.2 (by omega)
      simp [this]
  | n + 1, r, o, h, ho => by
    have h1 : r ≠ 0 := by omega
    have h2 : r ≠ 1 := by omega
    have h3 : r - 1 - n = r - (n + 1) := by omega
    simp only [afterIndexings, elementType, h1, h2, if_false, Option.bind_some]
    by_cases h4 : r - 1 = 1
    · have hn : n = 0 := by omega
      subst hn
      have h5 : r = 2 := by omega
      subst h5
      simp [afterIndexings]
    · rw [if_neg h4, afterIndexings_arr e n (r - 1) o (by omega) ⟨fun hh => by have := ho.1 hh; omega,
        fun hh => by omega⟩, h3]

theorem afterIndexings_arr_all (e : Num) : ∀ (r : Nat) (o : Option Ord), 1 ≤ r →
    (o = none ↔ r < 2) → afterIndexings r (.arr e r o) = some (.scalar e)
  | r + 1, o, _, ho => by
    by_cases h0 : r = 0
    · subst h0; simp [afterIndexings, elementType]
    · simp only [afterIndexings, elementType, Nat.add_one_ne_zero, if_false, Nat.add_sub_cancel,
        Nat.add_eq_right, h0, Option.bind_some]
      refine afterIndexings_arr_all e r _ (by omega) ⟨fun h => ?_, fun h => ?_⟩
      · split at h
        · omega
        · have := ho.1 h; omega
      · rw [if_pos (by omega)]

/-- **C36** (NumPy arrays).  For every rank `r` and every `k < r`, `switch_rank(k)` is the type of
what is left after `r - k` indexings. -/
theorem C36_array (e : Num) (r : Nat) (o : Option Ord) (k : Nat) (h : (CTy.arr e r o).Ok) (hk : k < r) :
    ∃ u, afterIndexings (r - k) (.arr e r o) = some u ∧
      switchRank (.arr e r o) k = some (.ty u) := by
  obtain ⟨h1, h2⟩ := h
  by_cases h0 : k = 0
  · subst h0
    exact ⟨.scalar e, afterIndexings_arr_all e r o h1 h2, by simp [switchRank]⟩
  · refine ⟨_, afterIndexings_arr e (r - k) r o (by omega) h2, ?_⟩
    have hr : r - (r - k) = k := by omega
    have hno : ¬ (2 ≤ (k : Int) ∧ (if (k : Int) > 1 then o else none) = none) := by
      rintro ⟨a, b⟩
      rw [if_pos (by omega)] at b
      have := h2.1 b; omega
    simp only [switchRank, hr]
    rw [if_neg (by omega), if_neg (by omega), if_neg hno]
    by_cases h3 : 1 < k
    · have : (1 : Int) < k := by omega
      simp [h3, this]
    · have : ¬ (1 : Int) < k := by omega
      simp [h3, this]

example : switchRank (.arr .f64 3 (some .C)) 1 = some (.ty (.arr .f64 1 none)) := by decide

/-- **C36** (any nesting, one level).  Dropping one dimension of a list, set or tuple gives its
element type, whatever it contains.

Missing: dropping two or more dimensions of a list, set or tuple, which always fails (below). -/
theorem C36_one_level_partial (tag : Nat) (t : CTy) :
    switchRank (.cont tag t) ((CTy.cont tag t).rank - 1) = some (.ty t) ∧
      afterIndexings 1 (.cont tag t) = some t := by
  refine ⟨?_, rfl⟩
  rw [switchRank, if_neg (by omega), if_pos (by omega)]

/-- **C36** fails whenever two or more levels of a list, set or tuple are dropped: the result, if
any, has a rank smaller than the requested one. -/
theorem C36_nested_violated (tag : Nat) (t : CTy) (k : Int) (hk : k + 2 ≤ (CTy.cont tag t).rank) :
    ∀ u, switchRank (.cont tag t) k = some (.ty u) → u.rank < k := by
  have hr : (CTy.cont tag t).rank = 1 + t.rank := rfl
  exact switchRank_gap t k tag (by omega)

/-- Instances: `list[list[int]]` to rank 0 raises, and a list of matrices to rank 1 gives a
scalar. -/
example : switchRank (.cont 0 (.cont 0 (.scalar .pint))) 0 = none ∧
    switchRank (.cont 0 (.arr .f64 2 (some .C))) 1 = some (.ty (.scalar .f64)) := by decide

/-! ### C37: broadcasting -/

theorem padLeft_length {A : SymAlg} {n : Nat} {s : List A.E} (h : s.length ≤ n) :
    (padLeft A n s).length = n := by simp [padLeft]; omega

theorem padLeft_eval {A : SymAlg} (ρ : A.Env) (n : Nat) (s : List A.E) :
    (padLeft A n s).map (A.eval ρ) =
      List.replicate (n - (s.map (A.eval ρ)).length) 1 ++ s.map (A.eval ρ) := by
  simp [padLeft, A.eval_one]

/-- **C37** (rank).  The result has the larger of the two ranks. -/
theorem C37_rank (A : SymAlg) (s1 s2 r : List A.E) (h : broadcast A s1 s2 = some r) :
    r.length = max s1.length s2.length := by
  have := bDim_len _ _ _ h
  rw [padLeft_length (Nat.le_max_left ..), padLeft_length (Nat.le_max_right ..)] at this
  simpa using this

/-- The unknown extents do not turn out to be 1 at run time. -/
def NoHiddenOnes (A : SymAlg) (ρ : A.Env) (s : List A.E) : Prop :=
  ∀ e ∈ s, A.isConst e = false → A.eval ρ e ≠ 1

/-- **C37** (agreement).  If NumPy can broadcast the run-time shapes, the shape pyccel computed
evaluates to NumPy's, provided no unknown extent of the first operand is 1.

Missing: unknown extents that turn out to be 1, see `C37_hidden_one_violated`. -/
theorem C37_sound_partial (A : SymAlg) (s1 s2 r : List A.E) (ρ : A.Env) (z : List Int)
    (h : broadcast A s1 s2 = some r)
    (hz : npBroadcast (s1.map (A.eval ρ)) (s2.map (A.eval ρ)) = some z)
    (h1 : NoHiddenOnes A ρ s1) :
    r.map (A.eval ρ) = z := by
  refine bZip_sound ρ _ _ r z h ?_ ?_
  · rw [padLeft_eval, padLeft_eval, npBroadcast_pad _ _ _ (by simp), hz]
  · rintro ⟨e1, e2⟩ hp hc1 _ hv
    have hm := (List.of_mem_zip hp).1
    simp only [padLeft, List.mem_append, List.mem_replicate] at hm
    rcases hm with ⟨_, rfl⟩ | hm
    · rw [A.const_one] at hc1; cases hc1
    · exact absurd hv (h1 e1 hm hc1)

/-- **C37** (incompatible constants are rejected).  Two different constant extents, neither of
them 1, at the same position are refused, whatever the other dimensions. -/
theorem C37_rejects (A : SymAlg) (s1 s2 : List A.E) (hlen : s1.length = s2.length) (i : Nat)
    (e1 e2 : A.E) (h1 : s1[i]? = some e1) (h2 : s2[i]? = some e2)
    (hc1 : A.isConst e1 = true) (hc2 : A.isConst e2 = true) (hne : e1 ≠ e2)
    (hn1 : e1 ≠ A.one) (hn2 : e2 ≠ A.one) : broadcast A s1 s2 = none := by
  have hd : bDim A e1 e2 = none := by simp [bDim, hne, hn1, hn2, hc1, hc2]
  have key : ∀ (s1 s2 : List A.E) (i : Nat), s1[i]? = some e1 → s2[i]? = some e2 →
      bZip A s1 s2 = none := by
    intro s1
    induction s1 with
    | nil => intro s2 i h; simp at h
    | cons x s1 ih =>
      intro s2 i h1 h2
      cases s2 with
      | nil => simp at h2
      | cons y s2 =>
        cases i with
        | zero => simp at h1 h2; subst h1; subst h2; simp [bZip, hd]
        | succ i =>
          simp only [bZip, ih s2 i (by simpa using h1) (by simpa using h2)]
          cases bDim A x y <;> rfl
  have e1 : padLeft A (max s1.length s2.length) s1 = s1 := by simp [padLeft, hlen]
  have e2 : padLeft A (max s1.length s2.length) s2 = s2 := by simp [padLeft, hlen]
  unfold broadcast
  simp only [e1, e2]
  exact key s1 s2 i h1 h2

/-- **C37** (accepts).  Shapes equal up to literal ones on either side are accepted. -/
theorem C37_accepts (A : SymAlg) (s1 s2 : List A.E)
    (h : ∀ p ∈ (padLeft A (max s1.length s2.length) s1).zip (padLeft A (max s1.length s2.length) s2),
      p.1 = p.2 ∨ p.1 = A.one ∨ p.2 = A.one) : (broadcast A s1 s2).isSome = true := by
  have key : ∀ (s1 s2 : List A.E), (∀ p ∈ s1.zip s2, p.1 = p.2 ∨ p.1 = A.one ∨ p.2 = A.one) →
      (bZip A s1 s2).isSome = true := by
    intro s1
    induction s1 with
    | nil => intro s2 _; rfl
    | cons x s1 ih =>
      intro s2 h
      cases s2 with
      | nil => rfl
      | cons y s2 =>
        have h2 := ih s2 (fun p hp => h p (by simp [hp]))
        obtain ⟨s, hs⟩ := Option.isSome_iff_exists.1 h2
        have h1 : ∃ e, bDim A x y = some e := by
          unfold bDim
          rcases h (x, y) (by simp) with h | h | h
          · exact ⟨x, if_pos h⟩
          · by_cases hxy : x = y
            · exact ⟨x, if_pos hxy⟩
            · exact ⟨y, by simp only at h; rw [if_neg hxy, if_pos h]⟩
          · by_cases hxy : x = y
            · exact ⟨x, if_pos hxy⟩
            · by_cases hx1 : x = A.one
              · exact ⟨y, by rw [if_neg hxy, if_pos hx1]⟩
              · exact ⟨x, by simp only at h; rw [if_neg hxy, if_neg hx1, if_pos h]⟩
        obtain ⟨e, he⟩ := h1
        simp [bZip, he, hs]
  exact key _ _ h

/-- **C37** (commutative where decided): if at each position the extents are equal or one of them
is a constant, swapping the operands gives the same shape. -/
theorem C37_commutative_partial (A : SymAlg) (s1 s2 : List A.E)
    (h : ∀ p ∈ (padLeft A (max s1.length s2.length) s1).zip (padLeft A (max s1.length s2.length) s2),
      p.1 = p.2 ∨ A.isConst p.1 = true ∨ A.isConst p.2 = true) :
    broadcast A s1 s2 = broadcast A s2 s1 := by
  have key : ∀ (s1 s2 : List A.E),
      (∀ p ∈ s1.zip s2, p.1 = p.2 ∨ A.isConst p.1 = true ∨ A.isConst p.2 = true) →
      bZip A s1 s2 = bZip A s2 s1 := by
    intro s1
    induction s1 with
    | nil => intro s2 _; cases s2 <;> rfl
    | cons x s1 ih =>
      intro s2 h
      cases s2 with
      | nil => rfl
      | cons y s2 =>
        have h2 := ih s2 (fun p hp => h p (by simp [hp]))
        have h1 : bDim A x y = bDim A y x := by
          have hh := h (x, y) (by simp)
          by_cases hxy : x = y
          · subst hxy; rfl
          · have hyx : y ≠ x := fun h => hxy h.symm
            by_cases hx1 : x = A.one
            · have hy1 : y ≠ A.one := fun h => hxy (hx1.trans h.symm)
              have : A.one ≠ y := fun h => hy1 h.symm
              simp [bDim, hx1, hy1, this]
            · by_cases hy1 : y = A.one
              · have : A.one ≠ x := fun h => hx1 h.symm
                simp [bDim, hx1, hy1, this]
              · simp only [bDim, hxy, hyx, hx1, hy1, if_false]
                simp only [hxy, false_or] at hh
                cases hcx : A.isConst x <;> cases hcy : A.isConst y <;> simp_all
        simp [bZip, h1, h2]
  unfold broadcast
  rw [Nat.max_comm s2.length s1.length]
  exact key _ _ h

/-- Extents that are a number plus a multiple of one unknown `n`: an instance of what sympy
provides, used for the examples. -/
abbrev linear : SymAlg where
  E := Int × Int
  Env := Int
  eval n e := e.1 + e.2 * n
  one := (1, 0)
  eval_one _ := by simp
  isConst e := e.2 = 0
  constDiff e f := e.2 = f.2
  const_one := by simp
  const_sound e h ρ σ := by simp at h; simp [h]
  const_canon e f he hf h := by
    have h0 := h 0
    simp at he hf h0
    exact Prod.ext h0 (he.trans hf.symm)
  diff_sound e f h ρ σ := by
    have h' : e.2 = f.2 := by simpa using h
    show e.1 + e.2 * ρ - (f.1 + f.2 * ρ) = e.1 + e.2 * σ - (f.1 + f.2 * σ)
    rw [h']; omega

example : broadcast linear [(3, 0), (0, 1)] [(1, 0)] = some [(3, 0), (0, 1)] := by decide
example : NoHiddenOnes linear (5 : Int) [(3, 0), (0, 1)] := by
  intro e he
  simp at he
  rcases he with rfl | rfl <;> decide

/-- **C37** fails when an unknown extent is 1 at run time: arrays of shapes `(n,)` and `(2*n+3,)`
with `n = 1` broadcast in NumPy to `(5,)`, but pyccel gives the result the shape `(n,) = (1,)`;
with the operands swapped it gives `(5,)`. -/
theorem C37_hidden_one_violated :
    broadcast linear [(0, 1)] [(3, 2)] = some [(0, 1)] ∧
    broadcast linear [(3, 2)] [(0, 1)] = some [(3, 2)] ∧
    npBroadcast ([(0, 1)].map (linear.eval (1 : Int))) ([(3, 2)].map (linear.eval (1 : Int))) = some [5] ∧
    [(0, 1)].map (linear.eval (1 : Int)) = [1] := by decide

/-- **C37** also rejects shapes that NumPy accepts for some sizes: `(n,)` and `(n+1,)` are refused
although with `n = 1` they broadcast to `(2,)`. -/
theorem C37_rejected_offset_violated :
    broadcast linear [(0, 1)] [(1, 1)] = none ∧
    npBroadcast ([(0, 1)].map (linear.eval (1 : Int))) ([(1, 1)].map (linear.eval (1 : Int))) = some [2] := by decide

end Verif.Types
