import Verif.Whole.Lemmas

/-!
# Conversions and whole numbers: properties C135 to C137
-/

namespace Verif.Whole
open Spec
open Verif.Complex.Spec (Fl Prec rnd fs Rep24)
open Verif.Floats

/-! ## C135 -/

/-- The functions that return an integer. -/
def ToInt (f : Fn) : Prop := f = .int ∨ f = .floor ∨ f = .ceil ∨ f = .trunc

theorem store_d64 (x : Fl) : store (.int 64) (.d x) = (toInt 64 x).map .int := rfl

theorem whole_q {w : ℕ} {x : Fl} {k n : ℤ} (h : toQ x = some (k : ℚ)) :
    (toInt w x).map Res.int = some (.int n) ↔ k = n ∧ InBits w n := by
  rw [toInt_some h, tozero_int]
  split
  · rename_i hk; simp only [Option.map_some, Option.some.injEq, Res.int.injEq]
    exact ⟨fun e => ⟨e, e ▸ hk⟩, fun e => e.1⟩
  · rename_i hk; simp only [Option.map_none, reduceCtorEq, false_iff]
    rintro ⟨rfl, h⟩; exact hk h

/-- Storing a converted number in an integer variable changes nothing. -/
theorem store_i {w : ℕ} (o : Option ℤ) (h : ∀ k ∈ o, InBits w k) : (o.map Val.i).bind (store (.int w)) = o.map Res.int := by
  cases o with
  | none => rfl
  | some k => simp [store, h k rfl]

theorem toInt_bits {w : ℕ} {x : Fl} : ∀ k ∈ toInt w x, InBits w k := by
  intro k hk
  simp only [toInt] at hk
  split at hk
  · simp at hk
  · split at hk
    · rename_i h; simp only [Option.mem_def, Option.some.injEq] at hk; exact hk ▸ h
    · simp at hk

theorem floorTo_bits {w : ℕ} {x : Fl} : ∀ k ∈ floorTo w x, InBits w k := by
  intro k hk
  simp only [floorTo] at hk
  split at hk
  · simp at hk
  · split at hk
    · rename_i h; simp only [Option.mem_def, Option.some.injEq] at hk; exact hk ▸ h
    · simp at hk

theorem ceilTo_bits {w : ℕ} {x : Fl} : ∀ k ∈ ceilTo w x, InBits w k := by
  intro k hk
  simp only [ceilTo] at hk
  split at hk
  · simp at hk
  · split at hk
    · rename_i h; simp only [Option.mem_def, Option.some.injEq] at hk; exact hk ▸ h
    · simp at hk

theorem InBits.of64 {w : ℕ} {n : ℤ} (h : Arg.WF (.int w n)) : InBits 64 n := by
  obtain ⟨hw, hn⟩ := h
  refine InBits.mono ?_ hn
  rcases hw with rfl | rfl | rfl | rfl <;> norm_num

/-- C135 (C): `int(x)`, `math.floor(x)`, `math.ceil(x)` and `math.trunc(x)`, stored in a variable, are the integers of Python if and only if
these have 64 bits and, for the functions of `math`, an integer argument is exact as a float.  Missing: long integers as arguments. -/
theorem C135_c_iff_partial (f : Fn) (hf : ToInt f) (v : Arg) (hv : v.WF) (n : ℤ) (h : py f v = some (.int n)) :
    runC f v = some (.int n) ↔ InBits 64 n ∧ ∀ w m, v = .int w m → f ≠ .int → fl m = m := by
  cases v with
  | int w m =>
    have hm := InBits.of64 hv
    obtain ⟨k, hk⟩ := rnd_int .dbl m
    have hk' : fl (m : ℚ) = k := hk
    have hq : toQ (ofInt m) = some (k : ℚ) := by rw [ofInt, toQ_ofQ, hk']
    have hnm : n = m := by
      rcases hf with rfl | rfl | rfl | rfl <;> simpa [py, eq_comm] using h
    subst hnm
    simp only [Arg.int.injEq, and_imp]
    have key : ∀ x : Fl, toQ x = some (k : ℚ) → ((toInt 64 x).map Res.int = some (.int n) ↔ InBits 64 n ∧ fl (n : ℚ) = n) := by
      intro x hx
      rw [whole_q hx, hk']
      simp only [Int.cast_inj]
      tauto
    rcases hf with rfl | rfl | rfl | rfl
    · simp [runC, exprC, tyOf, store, hm]
    · have e : runC .floor (.int w n) = (toInt 64 (floorFl (ofInt n))).map Res.int := store_i _ toInt_bits
      rw [e, key _ (by rw [toQ_floorFl, hq]; simp)]
      simp
    · have e : runC .ceil (.int w n) = (toInt 64 (ceilFl (ofInt n))).map Res.int := store_i _ toInt_bits
      rw [e, key _ (by rw [toQ_ceilFl, hq]; simp)]
      simp
    · have e : runC .trunc (.int w n) = (toInt 64 (truncFl (ofInt n))).map Res.int := rfl
      rw [e, key _ (by rw [toQ_truncFl, hq]; simp [tozero_int])]
      simp
  | flt p x =>
    simp only [reduceCtorEq, false_implies, implies_true, and_true]
    cases hx : toQ x with
    | none => rcases hf with rfl | rfl | rfl | rfl <;> simp [py, hx] at h
    | some q =>
      rcases hf with rfl | rfl | rfl | rfl
      · have e : runC .int (.flt p x) = (toInt 64 x).map Res.int := store_i _ toInt_bits
        simp only [py, hx, Option.map_some, Option.some.injEq, Res.int.injEq] at h
        rw [e, toInt_some hx, h]
        split <;> simp_all
      · have e : runC .floor (.flt p x) = (toInt 64 (floorFl x)).map Res.int := store_i _ toInt_bits
        simp only [py, hx, Option.map_some, Option.some.injEq, Res.int.injEq] at h
        rw [e, whole_q (k := ⌊q⌋) (by rw [toQ_floorFl, hx]; rfl)]
        simp [h]
      · have e : runC .ceil (.flt p x) = (toInt 64 (ceilFl x)).map Res.int := store_i _ toInt_bits
        simp only [py, hx, Option.map_some, Option.some.injEq, Res.int.injEq] at h
        rw [e, whole_q (k := ⌈q⌉) (by rw [toQ_ceilFl, hx]; rfl)]
        simp [h]
      · have e : runC .trunc (.flt p x) = (toInt 64 (truncFl x)).map Res.int := rfl
        simp only [py, hx, Option.map_some, Option.some.injEq, Res.int.injEq] at h
        rw [e, whole_q (k := tozero q) (by rw [toQ_truncFl, hx]; rfl)]
        simp [h]

example : ToInt .ceil ∧ Arg.WF (.flt .dbl (.num (5 / 2))) ∧ py .ceil (.flt .dbl (.num (5 / 2))) = some (.int 3) ∧ InBits 64 3 :=
  ⟨.inr (.inr (.inl rfl)), ⟨⟨5, -1, by norm_num, by norm_num⟩, by rintro q ⟨⟩; norm_num⟩, by decide +kernel, by decide⟩

/-- What is needed in Fortran for the integer `n` to be right. -/
def FortranOk (f : Fn) (v : Arg) (n : ℤ) : Prop :=
  match f with
  | .ceil => InBits 32 n
  | .trunc => InBits 64 n ∧ (∀ w m, v = .int w m → fl m = m) ∧ ∀ x, v ≠ .flt .sgl x
  | _ => InBits 64 n

/-- C135 (Fortran): they are if and only if the integers have 64 bits, and 32 bits for `math.ceil`; for `math.trunc` an integer argument must
be exact as a float, and an `np.float32` is not accepted.  Missing: the others. -/
theorem C135_fortran_iff_partial (f : Fn) (hf : ToInt f) (v : Arg) (hv : v.WF) (n : ℤ) (h : py f v = some (.int n)) :
    runF f v = some (.int n) ↔ FortranOk f v n := by
  cases v with
  | int w m =>
    have hm := InBits.of64 hv
    obtain ⟨k, hk⟩ := rnd_int .dbl m
    have hk' : fl (m : ℚ) = k := hk
    have hq : toQ (ofInt m) = some (k : ℚ) := by rw [ofInt, toQ_ofQ, hk']
    have hnm : n = m := by
      rcases hf with rfl | rfl | rfl | rfl <;> simpa [py, eq_comm] using h
    subst hnm
    rcases hf with rfl | rfl | rfl | rfl
    · simp [runF, exprF, tyOf, store, hm, FortranOk]
    · simp [runF, exprF, tyOf, store, hm, FortranOk]
    · have hb : ∀ k ∈ ceilTo 32 (ofInt n), InBits 64 k := fun k hk => InBits.mono (by norm_num) (ceilTo_bits k hk)
      have e : runF .ceil (.int w n) = (ceilTo 32 (ofInt n)).map Res.int := store_i _ hb
      rw [e]
      simp only [ceilTo, hq, FortranOk, Int.ceil_intCast]
      constructor
      · intro h'
        split at h'
        · rename_i hk32; simp at h'; exact h' ▸ hk32
        · simp at h'
      · intro h32
        have : fl (n : ℚ) = n := by
          refine fl_exact (rep_int ?_)
          have := h32.1; have := h32.2
          rw [abs_le]; constructor <;> norm_num at * <;> omega
        have hkn : k = n := by rw [hk'] at this; exact_mod_cast this
        simp [hkn, h32]
    · have e : runF .trunc (.int w n) = (toInt 64 (truncFl (ofInt n))).map Res.int := rfl
      rw [e, whole_q (k := k) (by rw [toQ_truncFl, hq]; simp [tozero_int])]
      simp only [FortranOk, Arg.int.injEq, and_imp, ne_eq, reduceCtorEq, not_false_eq_true, implies_true, and_true]
      constructor
      · rintro ⟨rfl, h2⟩
        exact ⟨h2, by rintro w' m' - rfl; exact hk'⟩
      · rintro ⟨h1, h2⟩
        have := h2 w n rfl rfl
        rw [hk'] at this
        exact ⟨by exact_mod_cast this, h1⟩
  | flt p x =>
    cases hx : toQ x with
    | none => rcases hf with rfl | rfl | rfl | rfl <;> simp [py, hx] at h
    | some q =>
      rcases hf with rfl | rfl | rfl | rfl
      · have e : runF .int (.flt p x) = (toInt 64 x).map Res.int := store_i _ toInt_bits
        simp only [py, hx, Option.map_some, Option.some.injEq, Res.int.injEq] at h
        show _ ↔ InBits 64 n
        rw [e, toInt_some hx, h]
        split <;> simp_all
      · have e : runF .floor (.flt p x) = (floorTo 64 x).map Res.int := store_i _ floorTo_bits
        simp only [py, hx, Option.map_some, Option.some.injEq, Res.int.injEq] at h
        rw [e]
        simp only [floorTo, hx, h, FortranOk]
        split <;> simp_all
      · have hb : ∀ k ∈ ceilTo 32 x, InBits 64 k := fun k hk => InBits.mono (by norm_num) (ceilTo_bits k hk)
        have e : runF .ceil (.flt p x) = (ceilTo 32 x).map Res.int := store_i _ hb
        simp only [py, hx, Option.map_some, Option.some.injEq, Res.int.injEq] at h
        rw [e]
        simp only [ceilTo, hx, h, FortranOk]
        split <;> simp_all
      · simp only [py, hx, Option.map_some, Option.some.injEq, Res.int.injEq] at h
        cases p with
        | sgl => simp [runF, exprF, FortranOk]
        | dbl =>
          have e : runF .trunc (.flt .dbl x) = (toInt 64 (truncFl x)).map Res.int := rfl
          rw [e, whole_q (k := tozero q) (by rw [toQ_truncFl, hx]; rfl)]
          simp [h, FortranOk]

theorem long : fl (9007199254740993 : ℤ) = 9007199254740992 := by decide +kernel

/-- C135 fails: in C, `math.floor(9007199254740993)` is 9007199254740992: integers are made floats. -/
theorem C135_violated_long :
    runC .floor (.int 64 9007199254740993) = some (.int 9007199254740992) ∧
      py .floor (.int 64 9007199254740993) = some (.int 9007199254740993) := ⟨by decide +kernel, rfl⟩

/-- C135 fails: in Fortran, `math.ceil(x)` is undefined from 2147483648 on: the intrinsic returns an integer of 32 bits. -/
theorem C135_violated_ceil (x : ℚ) (hx : 2147483647 < x) :
    runF .ceil (.flt .dbl (.num x)) = none ∧ py .ceil (.flt .dbl (.num x)) = some (.int ⌈x⌉) := by
  refine ⟨?_, rfl⟩
  have h : (2147483647 : ℤ) < ⌈x⌉ := by rw [Int.lt_ceil]; exact_mod_cast hx
  have : ¬ InBits 32 ⌈x⌉ := by
    rintro ⟨_, h2⟩
    norm_num at h2
    omega
  simp [runF, exprF, ceilTo, widen, toQ, this]

/-! ## C136 -/

/-- The functions that return a float or a truth value, or keep the type. -/
def Keeps (f : Fn) : Prop := f = .npFloor ∨ f = .npAbs ∨ f = .fabs ∨ f = .float ∨ f = .bool

theorem store_flt {p : Prec} {x : Fl} (h : x.IsFloat p) (h0 : ∀ q, x = .num q → q ≠ 0) : store (.flt p) (.d x) = some (.flt x) := by
  cases x with
  | num q =>
    have := Complex.rnd_exact h
    simp [store, this, Fl.ofQ, h0 q rfl]
  | _ => rfl

theorem ofInt_float (n : ℤ) : (ofInt n).IsFloat .dbl := Complex.isFloat_ofQ .dbl n

theorem ofInt_nz (n : ℤ) : ∀ q, ofInt n = .num q → q ≠ 0 := by
  intro q h
  simp only [ofInt, Fl.ofQ] at h
  split at h
  · simp at h
  · rename_i hn; simp only [Fl.num.injEq] at h; exact h ▸ hn

theorem float_mono {p : Prec} {x : Fl} (h : x.IsFloat p) : x.IsFloat .dbl := Complex.IsFloat.mono .dbl h fun _ => rfl

theorem abs_float {p : Prec} {x : Fl} (h : x.IsFloat p) : (absFl x).IsFloat p := by
  cases x with
  | num q =>
    show Fl.IsFloat p (.num |q|)
    rcases abs_choice q with hq | hq <;> rw [hq]
    · exact h
    · cases p with
      | sgl => obtain ⟨m, e, hm, rfl⟩ := h; exact ⟨-m, e, by rwa [abs_neg], by push_cast; ring⟩
      | dbl => exact Floats.Spec.Rep.neg h
  | _ => trivial

theorem abs_nz {x : Fl} (h : ∀ q, x = .num q → q ≠ 0) : ∀ q, absFl x = .num q → q ≠ 0 := by
  cases x with
  | num q => rintro r ⟨⟩; exact abs_ne_zero.2 (h q rfl)
  | _ => intro q hq; cases hq

theorem floor_float {p : Prec} {x : Fl} (h : x.IsFloat p) : (floorFl x).IsFloat p := by
  cases x with
  | num q =>
    simp only [floorFl]
    split
    · trivial
    · cases p with
      | sgl => obtain ⟨m, e, hm, rfl⟩ := h; exact floor_bits 23 m e hm
      | dbl => obtain ⟨m, e, hm, rfl⟩ := h; exact floor_bits 52 m e hm
  | _ => trivial

theorem floor_nz {x : Fl} : ∀ q, floorFl x = .num q → x = .num 0 ∨ q ≠ 0 := by
  cases x with
  | num q =>
    intro r hr
    simp only [floorFl] at hr
    split at hr
    · cases hr
    · rename_i h
      simp only [Fl.num.injEq] at hr
      right; rw [← hr]; exact_mod_cast h
  | _ => intro q hq; cases hq

theorem nonzero_eq (v : Arg) (hv : v.WF) : some (Res.bool (nonzero v)) = py .bool v := by
  cases v with
  | int w n => simp [nonzero, py]
  | flt p x =>
    cases x with
    | num q => simp [nonzero, py, toQ, hv.2 q rfl]
    | _ => simp [nonzero, py, toQ]

/-- An integer survives the way through a float. -/
theorem via_float {w : ℕ} {n : ℤ} (hn : InBits w n) :
    store (.int w) (.d (ofInt n)) = some (.int n) ↔ fl n = n := by
  obtain ⟨k, hk⟩ := rnd_int .dbl n
  have hk' : fl (n : ℚ) = k := hk
  have e : store (.int w) (.d (ofInt n)) = (toInt w (ofInt n)).map Res.int := rfl
  rw [e, whole_q (k := k) (by rw [ofInt, toQ_ofQ, hk']), hk']
  simp only [Int.cast_inj]
  exact ⟨fun h => h.1, fun h => ⟨h, hn⟩⟩

theorem via_float_abs {w : ℕ} {n : ℤ} (hn : InBits w n) :
    store (.int w) (.d (absFl (ofInt n))) = some (.int (if n = -(2 : ℤ) ^ (w - 1) then n else |n|)) ↔ fl n = n ∧ n ≠ -(2 : ℤ) ^ (w - 1) := by
  obtain ⟨k, hk⟩ := rnd_int .dbl n
  have hk' : fl (n : ℚ) = k := hk
  have e : store (.int w) (.d (absFl (ofInt n))) = (toInt w (absFl (ofInt n))).map Res.int := rfl
  have hp : (0 : ℤ) < 2 ^ (w - 1) := by positivity
  rw [e, whole_q (k := |k|) (by rw [toQ_absFl, ofInt, toQ_ofQ, hk']; simp), hk']
  simp only [Int.cast_inj]
  have hsign : (0 ≤ n → 0 ≤ k) ∧ (n ≤ 0 → k ≤ 0) := by
    constructor
    · intro h
      have : fl 0 ≤ fl (n : ℚ) := fl_mono (by exact_mod_cast h)
      rw [fl_zero, hk'] at this; exact_mod_cast this
    · intro h
      have : fl (n : ℚ) ≤ fl 0 := fl_mono (by exact_mod_cast h)
      rw [fl_zero, hk'] at this; exact_mod_cast this
  by_cases hmin : n = -(2 : ℤ) ^ (w - 1)
  · rw [if_pos hmin]
    constructor
    · rintro ⟨h1, _⟩
      have := abs_nonneg k
      omega
    · rintro ⟨_, h⟩; exact absurd hmin h
  · rw [if_neg hmin]
    have hr : InBits w |n| := by
      refine ⟨by have := abs_nonneg n; omega, ?_⟩
      rw [abs_lt]
      have := hn.1; have := hn.2
      omega
    constructor
    · rintro ⟨h1, _⟩
      refine ⟨?_, hmin⟩
      rcases le_total 0 n with h0 | h0
      · rw [abs_of_nonneg h0, abs_of_nonneg (hsign.1 h0)] at h1; exact h1
      · rw [abs_of_nonpos h0, abs_of_nonpos (hsign.2 h0)] at h1; omega
    · rintro ⟨rfl, _⟩; exact ⟨rfl, hr⟩

/-- C136 (C): `np.floor`, `np.abs`, `math.fabs`, `float` and `bool` give Python's number (also for NaN, infinities and both zeros) if and only
if, for `np.floor` and `np.abs` of an integer, it is exact as a float and, for `np.abs`, not the least of its type.  Missing: the others. -/
theorem C136_c_iff_partial (f : Fn) (hf : Keeps f) (v : Arg) (hv : v.WF) :
    runC f v = py f v ↔
      ∀ w m, v = .int w m → (f = .npFloor ∨ f = .npAbs → fl m = m) ∧ (f = .npAbs → m ≠ -(2 : ℤ) ^ (w - 1)) := by
  cases v with
  | int w m =>
    simp only [Arg.int.injEq, and_imp, forall_eq_apply_imp_iff, forall_eq']
    rcases hf with rfl | rfl | rfl | rfl | rfl
    · have e : runC .npFloor (.int w m) = store (.int w) (.d (floorFl (ofInt m))) := rfl
      have e2 : toInt w (floorFl (ofInt m)) = toInt w (ofInt m) := by
        obtain ⟨k, hk⟩ := rnd_int .dbl m
        have hk' : fl (m : ℚ) = k := hk
        have hq : toQ (ofInt m) = some (k : ℚ) := by rw [ofInt, toQ_ofQ, hk']
        rw [toInt_some hq, toInt_some (q := k) (by rw [toQ_floorFl, hq]; simp)]
      have e3 : store (.int w) (.d (floorFl (ofInt m))) = store (.int w) (.d (ofInt m)) := by simp only [store, e2]
      rw [e, e3]
      simp only [py]
      rw [via_float hv.2]
      simp
    · have e : runC .npAbs (.int w m) = store (.int w) (.d (absFl (ofInt m))) := rfl
      rw [e]
      simp only [py]
      rw [via_float_abs hv.2]
      simp
    · have e : runC .fabs (.int w m) = store (.flt .dbl) (.d (absFl (ofInt m))) := rfl
      rw [e, store_flt (abs_float (ofInt_float m)) (abs_nz (ofInt_nz m))]
      simp [py]
    · have e : runC .float (.int w m) = store (.flt .dbl) (.d (ofInt m)) := rfl
      rw [e, store_flt (ofInt_float m) (ofInt_nz m)]
      simp [py]
    · simp [runC, exprC, tyOf, store, ← nonzero_eq _ hv]
  | flt p x =>
    simp only [reduceCtorEq, false_implies, implies_true, iff_true]
    obtain ⟨h1, h2⟩ := hv
    rcases hf with rfl | rfl | rfl | rfl | rfl
    · have e : runC .npFloor (.flt p x) = store (.flt p) (.d (floorFl x)) := rfl
      rw [e, store_flt (floor_float h1) (fun q hq => (floor_nz q hq).resolve_left fun h => h2 0 h rfl)]
      rfl
    · have e : runC .npAbs (.flt p x) = store (.flt p) (.d (absFl x)) := rfl
      rw [e, store_flt (abs_float h1) (abs_nz h2)]
      rfl
    · have e : runC .fabs (.flt p x) = store (.flt .dbl) (.d (absFl x)) := rfl
      rw [e, store_flt (abs_float (float_mono h1)) (abs_nz h2)]
      rfl
    · have e : runC .float (.flt p x) = store (.flt .dbl) (.d x) := rfl
      rw [e, store_flt (float_mono h1) h2]
      rfl
    · have e : runC .bool (.flt p x) = some (.bool (nonzero (.flt p x))) := rfl
      rw [e, nonzero_eq (.flt p x) ⟨h1, h2⟩]

example : Keeps .npFloor ∧ Arg.WF (.flt .sgl (.num (-5 / 2))) ∧ Arg.WF (.int 32 7) ∧ fl (7 : ℤ) = (7 : ℤ) :=
  ⟨.inl rfl, ⟨(⟨-5, -1, by norm_num, by norm_num⟩ : Rep24 (-5 / 2)), by rintro q ⟨⟩; norm_num⟩, ⟨.inr (.inr (.inl rfl)), by decide⟩, by decide +kernel⟩

/-- What is needed in Fortran. -/
def FortranKeeps (f : Fn) : Arg → Prop
  | .int w m => match f with
    | .npFloor => (w = 64 ∧ fl m = m) ∨ (w = 32 ∧ fs m = m)
    | .npAbs => fl m = m ∧ m ≠ -(2 : ℤ) ^ (w - 1)
    | _ => True
  | .flt p x => match f with
    | .npFloor => x ≠ .zero true ∧ ∃ q, toQ x = some q ∧ InBits (size p) ⌊q⌋
    | _ => True

/-- C136 (Fortran): they do if and only if, for `np.floor` of a float, the whole number has 64 bits (32 bits for an `np.float32`) and the argument
is not `-0.0`, and for integers, they are exact as floats (of single precision for `np.int32`; smaller types are not accepted), and, for
`np.abs`, not the least of their type.  Missing: the others. -/
theorem C136_fortran_iff_partial (f : Fn) (hf : Keeps f) (v : Arg) (hv : v.WF) : runF f v = py f v ↔ FortranKeeps f v := by
  cases v with
  | int w m =>
    rcases hf with rfl | rfl | rfl | rfl | rfl
    · obtain ⟨hw, hm⟩ := hv
      have key : ∀ p : Prec, (store (.int w) (.d (.ofQ (rnd p m))) = some (.int m) ↔ rnd p m = m) := by
        intro p
        obtain ⟨k, hk⟩ := rnd_int p m
        have e : store (.int w) (.d (.ofQ (rnd p m))) = (toInt w (.ofQ (rnd p m))).map Res.int := rfl
        rw [e, whole_q (k := k) (by rw [toQ_ofQ, hk]), hk]
        simp only [Int.cast_inj]
        exact ⟨fun h => h.1, fun h => ⟨h, hm⟩⟩
      by_cases h64 : w = 64
      · subst h64
        have e : runF .npFloor (.int 64 m) = store (.int 64) (.d (.ofQ (rnd .dbl m))) := rfl
        rw [e]
        simp only [py]
        rw [key]
        simp [FortranKeeps, rnd]
      · by_cases h32 : w = 32
        · subst h32
          have e : runF .npFloor (.int 32 m) = store (.int 32) (.d (.ofQ (rnd .sgl m))) := rfl
          rw [e]
          simp only [py]
          rw [key]
          simp [FortranKeeps, rnd]
        · simp [runF, exprF, h64, h32, py, FortranKeeps]
    · have e : runF .npAbs (.int w m) = store (.int w) (.d (absFl (ofInt m))) := rfl
      rw [e]
      simp only [py]
      rw [via_float_abs hv.2]
      simp [FortranKeeps]
    · have e : runF .fabs (.int w m) = store (.flt .dbl) (.d (absFl (ofInt m))) := rfl
      rw [e, store_flt (abs_float (ofInt_float m)) (abs_nz (ofInt_nz m))]
      simp [py, FortranKeeps]
    · have e : runF .float (.int w m) = store (.flt .dbl) (.d (ofInt m)) := rfl
      rw [e, store_flt (ofInt_float m) (ofInt_nz m)]
      simp [py, FortranKeeps]
    · simp [runF, exprF, tyOf, store, ← nonzero_eq _ hv, FortranKeeps]
  | flt p x =>
    obtain ⟨h1, h2⟩ := hv
    rcases hf with rfl | rfl | rfl | rfl | rfl
    · have hkb : size p = kindBits p := by cases p <;> rfl
      simp only [FortranKeeps, hkb]
      have e : runF .npFloor (.flt p x) = ((floorTo (kindBits p) x).map fun n : ℤ => Val.d (.ofQ (rnd p (n : ℚ)))).bind (store (.flt p)) := rfl
      rw [e]
      cases hx : toQ x with
      | none => simp [floorTo, hx, py]
      | some q =>
        simp only [floorTo, hx, Option.some.injEq, exists_eq_left']
        split
        · rename_i hb
          simp only [Option.map_some, Option.bind_some, hb, and_true, py]
          cases x with
          | nan => simp [toQ] at hx
          | inf s => simp [toQ] at hx
          | zero s =>
            simp only [toQ, Option.some.injEq] at hx
            subst hx
            have : rnd p ((⌊(0 : ℚ)⌋ : ℤ) : ℚ) = 0 := by
              cases p <;> simp [rnd, fl_zero, Complex.fs_zero]
            rw [this]
            cases s <;> simp [Fl.ofQ, store, floorFl]
          | num q' =>
            simp only [toQ, Option.some.injEq] at hx
            subst hx
            rw [rnd_floor h1]
            simp only [ne_eq, reduceCtorEq, not_false_eq_true, iff_true]
            have h0 : (Fl.ofQ ((⌊q'⌋ : ℤ) : ℚ)) = floorFl (.num q') := by
              simp [Fl.ofQ, floorFl]
            rw [h0, store_flt (floor_float h1) (fun q hq => (floor_nz q hq).resolve_left fun h => h2 0 h rfl)]
        · rename_i hb
          simp [hb, py]
    · have e : runF .npAbs (.flt p x) = store (.flt p) (.d (absFl x)) := rfl
      rw [e, store_flt (abs_float h1) (abs_nz h2)]
      simp [py, FortranKeeps]
    · have e : runF .fabs (.flt p x) = store (.flt .dbl) (.d (absFl x)) := rfl
      rw [e, store_flt (abs_float (float_mono h1)) (abs_nz h2)]
      simp [py, FortranKeeps]
    · have e : runF .float (.flt p x) = store (.flt .dbl) (.d x) := rfl
      rw [e, store_flt (float_mono h1) h2]
      simp [py, FortranKeeps]
    · have e : runF .bool (.flt p x) = some (.bool (nonzero (.flt p x))) := rfl
      rw [e, nonzero_eq (.flt p x) ⟨h1, h2⟩]
      simp [FortranKeeps]

/-- C136 fails: in Fortran, `np.floor` of an `np.float32` is undefined from 2147483648 on, and that of an infinity always. -/
theorem C136_violated_floor :
    runF .npFloor (.flt .sgl (.num 4294967296)) = none ∧ py .npFloor (.flt .sgl (.num 4294967296)) = some (.flt (.num 4294967296)) ∧
      runF .npFloor (.flt .dbl (.inf false)) = none ∧ py .npFloor (.flt .dbl (.inf false)) = some (.flt (.inf false)) :=
  ⟨by decide +kernel, by decide +kernel, rfl, rfl⟩

/-- C136 fails: in Fortran, `np.floor(np.int32(16777217))` is 16777216. -/
theorem C136_violated_single :
    runF .npFloor (.int 32 16777217) = some (.int 16777216) ∧ py .npFloor (.int 32 16777217) = some (.int 16777217) :=
  ⟨by decide +kernel, rfl⟩

/-- C136 fails: `np.abs(-9007199254740993)` is 9007199254740992, in C and in Fortran. -/
theorem C136_violated_abs :
    runC .npAbs (.int 64 (-9007199254740993)) = some (.int 9007199254740992) ∧
      runF .npAbs (.int 64 (-9007199254740993)) = some (.int 9007199254740992) ∧
      py .npAbs (.int 64 (-9007199254740993)) = some (.int 9007199254740993) := ⟨by decide +kernel, by decide +kernel, by decide +kernel⟩

/-! ## C137 -/

/-- C137: the expression that is printed has a type of the kind that pyccel gives to the call (an integer, a floating-point number, a truth
value) if and only if the call is none of `math.trunc(x)` and `np.floor(n)`, `np.abs(n)` for integers `n`.  Missing: these, which are
floating-point numbers where an integer is expected. -/
theorem C137_iff_partial (f : Fn) (v : Arg) :
    ((∀ c, exprC f v = some c → agrees (tyOf f v) c = true) ↔ ¬ (f = .trunc ∨ ((f = .npFloor ∨ f = .npAbs) ∧ ∃ w m, v = .int w m))) ∧
      ((∀ c, exprF f v = some c → agrees (tyOf f v) c = true) ↔
        ¬ ((f = .trunc ∧ ∀ x, v ≠ .flt .sgl x) ∨ (f = .npFloor ∧ ∃ w m, v = .int w m ∧ (w = 32 ∨ w = 64)) ∨ (f = .npAbs ∧ ∃ w m, v = .int w m))) := by
  constructor
  · cases f <;> cases v <;> simp [exprC, tyOf, agrees]
  · cases f <;> cases v <;> simp [exprF, tyOf, agrees]
    · rename_i p x; cases p <;> simp [exprF, agrees]
    · rename_i w n
      by_cases h1 : w = 64 <;> by_cases h2 : w = 32 <;> simp [h1, h2, agrees]

example : ¬ ((Fn.floor = .trunc) ∨ ((Fn.floor = .npFloor ∨ Fn.floor = .npAbs) ∧ ∃ w m, Arg.int 64 3 = .int w m)) := by simp

/-- C137 fails: `math.trunc(x)` is a `double` in the generated code, so that `print(math.trunc(x))` prints it with the format of an integer. -/
theorem C137_violated (x : Fl) :
    ∃ c, exprC .trunc (.flt .dbl x) = some c ∧ tyOf .trunc (.flt .dbl x) = .int 64 ∧ agrees (tyOf .trunc (.flt .dbl x)) c = false :=
  ⟨_, rfl, rfl, rfl⟩

end Verif.Whole
