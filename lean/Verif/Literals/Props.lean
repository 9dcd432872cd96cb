import Verif.Literals.Lemmas

/-!
# C193, C194: number literals, infinities and NaN
-/

namespace Verif.Literals
open Spec Model
open Verif.Floats (fl fl_nearest fl_exact fl_mono)
open Verif.Floats.Spec (Rep Nearest)

/-- Every literal has exactly one value in Python. -/
theorem python_unique (neg : Bool) (a : Lit) : ∃ v, ∀ v', Python neg a v' ↔ v' = v := by
  have key : ∀ w, (∀ w', Means a w' ↔ w' = w) → ∃ v, ∀ v', Python neg a v' ↔ v' = v := by
    intro w hw
    refine ⟨if neg then w.neg else w, fun v' => ?_⟩
    constructor
    · rintro ⟨w', h, rfl⟩
      rw [(hw w').1 h]
    · rintro rfl
      exact ⟨w, (hw w).2 rfl, rfl⟩
  cases a with
  | int n => exact key (.fin n) fun w' => ⟨by rintro ⟨⟩; rfl, by rintro rfl; exact .int⟩
  | inf => exact key (.inf false) fun w' => ⟨by rintro ⟨⟩; rfl, by rintro rfl; exact .inf⟩
  | nan => exact key .nan fun w' => ⟨by rintro ⟨⟩; rfl, by rintro rfl; exact .nan⟩
  | float r =>
    rcases lt_or_ge r bigDouble with h | h
    · refine key (.fin (fl r)) fun w' => ⟨?_, fun e => .float ((double_iff h _).2 e)⟩
      rintro (_ | h'); exact (double_iff h _).1 h'
    · refine key (.inf false) fun w' => ⟨?_, fun e => .float ((double_inf h _).2 e)⟩
      rintro (_ | h'); exact (double_inf h _).1 h'
  | float32 r =>
    rcases lt_or_ge r bigDouble with h | h
    · rcases lt_or_ge (fl r) bigSingle with h2 | h2
      · refine key (.fin (fs (fl r))) fun w' =>
          ⟨?_, fun e => .float32 ((double_iff h _).2 rfl) ((single_iff h2 _).2 e)⟩
        rintro (_ | _ | ⟨h3, h4⟩ | h3)
        · have := (double_iff h _).1 h3
          injection this with this
          subst this
          exact (single_iff h2 _).1 h4
        · have := (double_iff h _).1 h3
          injection this
      · refine key (.inf false) fun w' =>
          ⟨?_, fun e => .float32 ((double_iff h _).2 rfl) ((single_inf h2 _).2 e)⟩
        rintro (_ | _ | ⟨h3, h4⟩ | h3)
        · have := (double_iff h _).1 h3
          injection this with this
          subst this
          exact (single_inf h2 _).1 h4
        · rfl
    · refine key (.inf false) fun w' => ⟨?_, fun e => by subst e; exact .float32Inf (.inf h)⟩
      rintro (_ | _ | ⟨h3, h4⟩ | h3)
      · have := (double_inf h _).1 h3
        injection this
      · rfl

/-- To compare the two values it is enough to look at the literal without a minus. -/
theorem runs_iff {repr : ℚ → ℚ} {l : Lang} {whole single : Bool} {a : Lit}
    (h : ∀ w, (∃ n t, Parses a n ∧ print repr l whole n = some t ∧ Reads l single t w) ↔ Means a w)
    (neg : Bool) (v : Num) : Runs repr l whole single neg a v ↔ Python neg a v := by
  constructor
  · rintro ⟨n, t, w, h1, h2, h3, rfl⟩
    exact ⟨w, (h w).1 ⟨n, t, h1, h2, h3⟩, rfl⟩
  · rintro ⟨w, hw, rfl⟩
    obtain ⟨n, t, h1, h2, h3⟩ := (h w).2 hw
    exact ⟨n, t, w, h1, h2, h3, rfl⟩

/-! ## C193: number literals -/

/-- C193 (partial: integers below `2 ^ 63`).  An integer literal, with or without a minus, has the same value in C and
in Fortran as in Python. -/
theorem C193_int_partial (repr : ℚ → ℚ) (l : Lang) (whole single neg : Bool) {n : ℕ} (hn : n < 2 ^ 63) (v : Num) :
    Runs repr l whole single neg (.int n) v ↔ Python neg (.int n) v := by
  refine runs_iff (fun w => ?_) neg v
  constructor
  · rintro ⟨_, t, ⟨⟩, h2, h3⟩
    cases l <;> (injection h2 with h2; subst h2; cases h3; exact .int)
  · rintro ⟨⟩
    exact ⟨.int n, .int n, .int, by cases l <;> rfl, .int hn⟩

example (repr : ℚ → ℚ) : Runs repr .fortran true false true (.int 17) (.fin (-17)) :=
  (C193_int_partial repr .fortran true false true (by decide) _).2 ⟨.fin 17, .int, rfl⟩

/-- C193 fails: the smallest 64-bit integer can be written in Python (`-9223372036854775808`), but in Fortran the minus
does not belong to the literal, and the literal is not valid. -/
theorem C193_min_violated (repr : ℚ → ℚ) :
    Python true (.int (2 ^ 63)) (.fin (-2 ^ 63)) ∧ ∀ v, ¬ Runs repr .fortran true false true (.int (2 ^ 63)) v := by
  refine ⟨⟨.fin ((2 ^ 63 : ℕ) : ℚ), .int, by simp only [if_true, Num.neg]; norm_num⟩, ?_⟩
  rintro v ⟨_, t, w, ⟨⟩, h2, h3, _⟩
  injection h2 with h2
  subst h2
  rcases h3 with h | _
  exact absurd h (lt_irrefl _)

/-- C193 (partial: numbers that are finite in double precision).  A decimal number, with or without a minus, has the same
value in C and in Fortran as in Python, to the last bit. -/
theorem C193_float_partial {repr : ℚ → ℚ} (hr : ReprOk repr) (l : Lang) (whole single neg : Bool) {r : ℚ}
    (h0 : 0 ≤ r) (h : r < bigDouble) (v : Num) :
    Runs repr l whole single neg (.float r) v ↔ Python neg (.float r) v := by
  have hd0 : 0 ≤ fl r := by
    have := fl_mono h0
    rwa [Floats.fl_zero] at this
  obtain ⟨_, hn⟩ := hr (fl r) (fl_nearest r).rep hd0
  have hb := below_big h (fl_nearest r) hn
  refine runs_iff (fun w => ?_) neg v
  constructor
  · rintro ⟨_, t, hp, h2, h3⟩
    rcases hp with _ | hp
    have := (double_iff h _).1 hp
    subst this
    have h2 : t = .dec (repr (fl r)) false := by cases l <;> (injection h2 with h2; exact h2.symm)
    subst h2
    refine .float ((double_iff h _).2 ?_)
    rcases h3 with _ | h3 | _ | ⟨_, h3⟩
    · rw [(double_iff hb _).1 h3, ← Floats.nearest_iff.1 hn]
    · have := (double_iff hb _).1 h3
      injection this
  · rintro (_ | hm)
    have := (double_iff h _).1 hm
    subst this
    exact ⟨_, .dec (repr (fl r)) false, .float hm, by cases l <;> rfl, .double (.fin hb hn)⟩

/-- Printing the exact decimal expansion of a double is one of the possible functions `repr`. -/
theorem reprOk_id : ReprOk id := fun d hd h0 => ⟨h0, by
  rw [id, Floats.nearest_iff, fl_exact hd]⟩

example : Runs id .c false false true (.float (1 / 10)) (.fin (-fl (1 / 10))) :=
  (C193_float_partial reprOk_id .c false false true (by norm_num) (by unfold bigDouble; decide +kernel) _).2
    ⟨.fin (fl (1 / 10)), .float (.fin (by unfold bigDouble; decide +kernel) (fl_nearest _)), rfl⟩

/-- C193 (partial: numbers whose double is not halfway between two numbers of single precision, and which are not too
large for Fortran).  `np.float32(r)` has the same value in C and in Fortran as in Python, although the number is
rounded to double precision and then to single precision in Python, and the compilers round what is printed to single
precision at once. -/
theorem C193_float32_partial {repr : ℚ → ℚ} (hr : ReprOk repr) (l : Lang) (whole single neg : Bool) {r d : ℚ}
    (h0 : 0 ≤ r) (h : Double r (.fin d)) (hh : ¬ Halfway d) (hl : l = .c ∨ d < bigSingle) (v : Num) :
    Runs repr l whole single neg (.float32 r) v ↔ Python neg (.float32 r) v := by
  obtain ⟨h, hrd⟩ := h
  have hd : d = fl r := Floats.nearest_iff.1 hrd
  have hd0 : 0 ≤ d := by
    have := fl_mono h0
    rw [Floats.fl_zero] at this
    rwa [hd]
  obtain ⟨_, hn⟩ := hr d hrd.rep hd0
  have ht : fs d = fs (repr d) := twice hn (fs_nearest d) (fs_nearest _) hh
  have hb := below_single hn hh
  have hDr : ∀ {w}, Double r w → w = .fin d := fun hw => by rw [(double_iff h _).1 hw, hd]
  refine runs_iff (fun w => ?_) neg v
  constructor
  · rintro ⟨_, t, hp, h2, h3⟩
    rcases hp with _ | _ | hp
    have := hDr hp
    subst this
    have h2 : t = .dec (repr d) true := by cases l <;> (injection h2 with h2; exact h2.symm)
    subst h2
    rcases h3 with _ | _ | h3 | _ | ⟨_, h3⟩
    · rcases h3 with ⟨h4, h5⟩
      exact .float32 hp ((single_iff (hb.1 h4) _).2 (by rw [nearest_iff.1 h5, ht]))
    · rcases h3 with _ | h4
      exact .float32 hp (.inf (not_lt.1 fun hc => absurd (hb.2 hc) (not_lt.2 h4)))
  · rintro (_ | _ | ⟨h3, h4⟩ | h3)
    · have := hDr h3
      injection this with this
      subst this
      refine ⟨_, .dec (repr _) true, .float32 h3, by cases l <;> rfl, ?_⟩
      rcases h4 with ⟨h5, h6⟩ | h5
      · refine .single (.fin (hb.2 h5) ?_)
        rw [nearest_iff.1 h6, ht]
        exact fs_nearest _
      · refine .singleInf (hl.resolve_right (not_lt.2 h5)) (.inf ?_)
        exact not_lt.1 fun hc => absurd (hb.1 hc) (not_lt.2 h5)
    · have := hDr h3
      injection this

/-- Numbers that are of single precision themselves are not halfway, so that the theorem above is for them. -/
theorem not_halfway_of_single {x : ℚ} (hx : Single x) : ¬ Halfway x := by
  rintro ⟨s, t, _, _, h1, h2, h3⟩
  exact h3 x hx ⟨by linarith, by linarith⟩

example (v : Num) : Runs id .fortran true true false (.float32 (3 / 2)) v ↔ Python false (.float32 (3 / 2)) v :=
  C193_float32_partial (d := 3 / 2) reprOk_id .fortran true true false (by norm_num)
    (.fin (by unfold bigDouble; decide +kernel) (Floats.nearest_iff.2 (by decide +kernel)))
    (not_halfway_of_single ⟨3, -1, by norm_num, by norm_num⟩) (.inr (by unfold bigSingle; norm_num)) v

/-- C193 fails: `np.float32(1.0000000596046448)` is 1 in Python, because the double is exactly halfway between two
numbers of single precision; the digits that are printed are above the middle, and the compilers read the next number.
`repr` of the double gives these digits. -/
theorem C193_halfway_violated {repr : ℚ → ℚ} (hr : repr (1 + 1 / 2 ^ 24) = 10000000596046448 / 10 ^ 16) (l : Lang)
    (whole single : Bool) :
    Python false (.float32 (10000000596046448 / 10 ^ 16)) (.fin 1) ∧
      ∀ v, Runs repr l whole single false (.float32 (10000000596046448 / 10 ^ 16)) v ↔ v = .fin (1 + 1 / 2 ^ 23) := by
  have e1 : fl (10000000596046448 / 10 ^ 16) = 1 + 1 / 2 ^ 24 := by decide +kernel
  have e2 : fs (1 + 1 / 2 ^ 24) = 1 := by decide +kernel
  have e3 : fs (10000000596046448 / 10 ^ 16) = 1 + 1 / 2 ^ 23 := by decide +kernel
  have b : (10000000596046448 / 10 ^ 16 : ℚ) < bigDouble := by unfold bigDouble; decide +kernel
  have b1 : (1 + 1 / 2 ^ 24 : ℚ) < bigSingle := by unfold bigSingle; decide +kernel
  have b2 : (10000000596046448 / 10 ^ 16 : ℚ) < bigSingle := by unfold bigSingle; decide +kernel
  have hD := double_iff b
  rw [e1] at hD
  have hS := single_iff b1
  rw [e2] at hS
  have hS' := single_iff b2
  rw [e3] at hS'
  refine ⟨⟨.fin 1, .float32 ((hD _).2 rfl) ((hS _).2 rfl), rfl⟩, fun v => ?_⟩
  constructor
  · rintro ⟨_, t, w, hp, h2, h3, rfl⟩
    rcases hp with _ | _ | hp
    have := (hD _).1 hp
    subst this
    have h2 : t = .dec (repr (1 + 1 / 2 ^ 24)) true := by cases l <;> (injection h2 with h2; exact h2.symm)
    rw [hr] at h2
    subst h2
    rcases h3 with _ | _ | h3 | _ | ⟨_, h3⟩
    · exact (hS' _).1 h3
    · have := (hS' _).1 h3
      injection this
  · rintro rfl
    refine ⟨_, .dec (repr (1 + 1 / 2 ^ 24)) true, _, .float32 ((hD _).2 rfl), by cases l <;> rfl, .single ?_, rfl⟩
    rw [hr]
    exact (hS' _).2 rfl

/-- There is a function `repr` as Python promises that gives these digits. -/
example : ∃ repr, ReprOk repr ∧ repr (1 + 1 / 2 ^ 24) = 10000000596046448 / 10 ^ 16 := by
  refine ⟨fun d => if d = 1 + 1 / 2 ^ 24 then 10000000596046448 / 10 ^ 16 else d, ?_, if_pos rfl⟩
  intro d hd h0
  dsimp only
  split
  · next h => subst h; exact ⟨by norm_num, Floats.nearest_iff.2 (by decide +kernel)⟩
  · exact reprOk_id d hd h0

/-- C193 fails: a decimal number that is infinite in Python (`1e400`) is printed as the name `inf`, which is not
declared; the program is not valid. -/
theorem C193_overflow_violated (repr : ℚ → ℚ) (l : Lang) (whole single neg : Bool) {r : ℚ} (h : bigDouble ≤ r) :
    Python false (.float r) (.inf false) ∧ ∀ v, ¬ Runs repr l whole single neg (.float r) v := by
  refine ⟨⟨_, .float (.inf h), rfl⟩, ?_⟩
  rintro v ⟨_, t, w, hp, h2, h3, _⟩
  rcases hp with _ | hp
  have := (double_inf h _).1 hp
  subst this
  have h2 : t = .infName := by cases l <;> (injection h2 with h2; exact h2.symm)
  subst h2
  cases h3

example : bigDouble ≤ (10 : ℚ) ^ 400 := by unfold bigDouble; decide +kernel

/-- C193 fails: `np.float32(1e39)` is infinite in Python; the literal that is printed in Fortran is too large for its
kind. -/
theorem C193_float32_overflow_violated {repr : ℚ → ℚ} (hr : ReprOk repr) (whole single neg : Bool) :
    Python false (.float32 (10 ^ 39)) (.inf false) ∧
      ∀ v, ¬ Runs repr .fortran whole single neg (.float32 (10 ^ 39)) v := by
  have b : ((10 : ℚ) ^ 39) < bigDouble := by unfold bigDouble; decide +kernel
  have c : bigSingle ≤ fl (10 ^ 39) := by unfold bigSingle; decide +kernel
  have h0 : (0 : ℚ) ≤ fl (10 ^ 39) := by decide +kernel
  obtain ⟨_, hn⟩ := hr _ (fl_nearest (10 ^ 39)).rep h0
  refine ⟨⟨_, .float32 ((double_iff b _).2 rfl) (.inf c), rfl⟩, ?_⟩
  rintro v ⟨_, t, w, hp, h2, h3, _⟩
  rcases hp with _ | _ | hp
  have := (double_iff b _).1 hp
  subst this
  injection h2 with h2
  subst h2
  rcases h3 with _ | _ | h3 | _ | ⟨h3, _⟩
  · rcases h3 with ⟨h4, _⟩
    have h5 := fl_mono h4.le
    rw [fl_exact rep_bigSingle, ← Floats.nearest_iff.1 hn] at h5
    have h6 : ¬ fl (10 ^ 39) ≤ bigSingle := by unfold bigSingle; decide +kernel
    exact h6 h5
  · cases h3

/-! ## C194: infinities and NaN -/

/-- C194 (partial: C).  `math.inf`, `-math.inf` and `math.nan` have the same value in C as in Python, in an assignment
and in other expressions. -/
theorem C194_c_partial (repr : ℚ → ℚ) (whole single neg : Bool) {a : Lit} (ha : a = .inf ∨ a = .nan) (v : Num) :
    Runs repr .c whole single neg a v ↔ Python neg a v := by
  refine runs_iff (fun w => ?_) neg v
  rcases ha with rfl | rfl
  · constructor
    · rintro ⟨_, t, ⟨⟩, h2, h3⟩
      injection h2 with h2; subst h2; cases h3; exact .inf
    · rintro ⟨⟩
      exact ⟨.inf, .hugeVal, .inf, rfl, .hugeVal⟩
  · constructor
    · rintro ⟨_, t, ⟨⟩, h2, h3⟩
      injection h2 with h2; subst h2; cases h3; exact .nan
    · rintro ⟨⟩
      exact ⟨.nan, .nanMacro, .nan, rfl, .nanMacro⟩

example (repr : ℚ → ℚ) : Runs repr .c true false true .inf (.inf true) :=
  (C194_c_partial repr true false true (.inl rfl) _).2 ⟨.inf false, .inf, rfl⟩

/-- C194 fails: after `x = math.inf` (or `x = -math.inf`) in Fortran, `x` is the largest (smallest) finite number of its
type: `np.isinf(x)` is false and `np.isfinite(x)` is true. -/
theorem C194_assign_violated (repr : ℚ → ℚ) (single neg : Bool) :
    Python neg .inf (.inf neg) ∧
      (∀ v, Runs repr .fortran true single neg .inf v ↔ v = .fin (if neg then -hugest single else hugest single)) ∧
      ∀ v, Runs repr .fortran true single neg .inf v →
        (numpyTest .fortran .isinf).eval v = false ∧ (numpyTest .fortran .isfinite).eval v = true := by
  have key : ∀ v, Runs repr .fortran true single neg .inf v ↔
      v = .fin (if neg then -hugest single else hugest single) := by
    intro v
    constructor
    · rintro ⟨_, t, w, ⟨⟩, h2, h3, rfl⟩
      injection h2 with h2
      subst h2
      cases h3
      cases neg <;> rfl
    · rintro rfl
      exact ⟨.inf, .huge, _, .inf, rfl, .huge, by cases neg <;> rfl⟩
  refine ⟨⟨.inf false, .inf, by cases neg <;> rfl⟩, key, fun v hv => ?_⟩
  rw [(key v).1 hv]
  exact ⟨rfl, rfl⟩

/-- C194 fails: `math.inf` in any other expression (`y = x + math.inf`, `f(math.inf)`, `x < math.inf`) is printed as the
name `inf_f64` in Fortran, which is not declared; the program is not valid. -/
theorem C194_expression_violated (repr : ℚ → ℚ) (single neg : Bool) (v : Num) :
    ¬ Runs repr .fortran false single neg .inf v := by
  rintro ⟨_, t, w, ⟨⟩, h2, h3, rfl⟩
  injection h2 with h2
  subst h2
  cases h3

/-- C194 (partial: NaN in Fortran is reported).  No Fortran code is printed for `math.nan`. -/
theorem C194_nan_partial (repr : ℚ → ℚ) (whole : Bool) {n : Node} (h : Parses .nan n) :
    print repr .fortran whole n = none := by
  cases h
  rfl

example : Parses .nan .nan := .nan

/-- C194 (partial: scalars of floating point).  `np.isfinite`, `np.isinf` and `np.isnan` give the same in C and in
Fortran as in Python, and so do those of `math` that are translated; only `math.isfinite` and `math.isinf` in Fortran
are not. -/
theorem C194_tests_partial (l : Lang) (t : Test) (v : Num) :
    (numpyTest l t).eval v = t.holds v ∧
      (∀ e, mathTest l t = some e → e.eval v = t.holds v) ∧
      (mathTest l t = none ↔ l = .fortran ∧ t ≠ .isnan) := by
  refine ⟨?_, ?_, ?_⟩
  · cases l <;> cases t <;> cases v <;> rfl
  · intro e h
    cases l <;> cases t <;> (first | cases h | skip) <;> cases v <;> rfl
  · cases l <;> cases t <;> simp [mathTest]

example : (numpyTest .fortran .isinf).eval (.inf true) = true := rfl

end Verif.Literals
