import Verif.Funcs.Lemmas

/-!
# Properties C121–C123: `np.cross`, `np.sign`, `np.min`/`np.max` of complex arrays
-/

namespace Verif.Funcs

/-- The compiler sees the dimensions of size one of the array: at each position
of the loop indices, the shape has a literal one exactly if the dimension that
this index runs over has size one. -/
def Visible (s : List Dim) (ax : Nat) : Prop :=
  ∀ (i : Nat) (d e : Dim), s[i]? = some d → (s.eraseIdx ax)[i]? = some e →
    (d.isOne = true ↔ e.n = 1)

/-- C121: `c = np.cross(a, b, axisa, axisb, axisc)` stores NumPy's values in `c`
and changes nothing else, in C and in Fortran, for arrays of any rank and sizes
whose vectors have three elements and for every choice of the axes, if `c` is
neither `a` nor `b`, has the shape of NumPy's result, and the dimensions of
size one are visible to the compiler.  Missing: see the `violated` theorems. -/
theorem C121_partial (q : Cross) (σ : Store)
    (hca : q.c ≠ q.a) (hcb : q.c ≠ q.b)
    (h3a : (nums (q.sh q.a))[q.axa]? = some 3)
    (h3b : (nums (q.sh q.b))[q.axb]? = some 3)
    (hcompat : Compat ((nums (q.sh q.a)).eraseIdx q.axa)
      ((nums (q.sh q.b)).eraseIdx q.axb))
    (hlit : ∀ e ∈ (q.sh q.a).eraseIdx q.axa, e.n = 1 → e.lit = true)
    (hva : Visible (q.sh q.a) q.axa) (hvb : Visible (q.sh q.b) q.axb)
    (hvc : Visible (q.sh q.c) q.axc)
    (hax : q.axc < (q.sh q.a).length)
    (hc : nums (q.sh q.c)
      = npCrossShape (nums (q.sh q.a)) (nums (q.sh q.b)) q.axa q.axb q.axc) :
    ∃ τ, runCross q σ = some τ ∧
      IsCross (σ q.a) (σ q.b) (nums (q.sh q.a)) (nums (q.sh q.b))
        q.axa q.axb q.axc (τ q.c) ∧
      ∀ v, v ≠ q.c → τ v = σ v := by
  have hla : q.axa < (nums (q.sh q.a)).length := (List.getElem?_eq_some_iff.1 h3a).1
  have hlb : q.axb < (nums (q.sh q.b)).length := (List.getElem?_eq_some_iff.1 h3b).1
  have hcl := compat_len _ _ hcompat
  have hlen : ∀ s : List Dim, (nums s).length = s.length := fun s => by simp [nums]
  have hcm : (common ((nums (q.sh q.a)).eraseIdx q.axa)
      ((nums (q.sh q.b)).eraseIdx q.axb)).length + 1 = (q.sh q.a).length := by
    rw [hcl.1, List.length_eraseIdx, if_pos hla, hlen]
    rw [hlen] at hla
    omega
  have hbox : nums (loopShape (q.sh q.a) (q.sh q.b) q.axa q.axb)
      = common ((nums (q.sh q.a)).eraseIdx q.axa) ((nums (q.sh q.b)).eraseIdx q.axb) := by
    rw [loopShape, nums_zip _ _ hlit, nums_erase, nums_erase]
  have hce : (nums (q.sh q.c)).eraseIdx q.axc
      = common ((nums (q.sh q.a)).eraseIdx q.axa) ((nums (q.sh q.b)).eraseIdx q.axb) := by
    rw [hc, npCrossShape, List.eraseIdx_insertIdx_self]
  have hc3 : (nums (q.sh q.c))[q.axc]? = some 3 := by
    rw [hc, npCrossShape, List.getElem?_insertIdx_self, if_pos (by omega)]
  have hlc : q.axc < (nums (q.sh q.c)).length := (List.getElem?_eq_some_iff.1 hc3).1
  have put : ∀ (s : List Dim) (ax : Nat), Visible s ax → ax < (nums s).length →
      ∀ idx k, idx.length = ((nums s).eraseIdx ax).length →
      putIdx s ax idx k = (stretch ((nums s).eraseIdx ax) idx).insertIdx ax k := by
    intro s ax hv hs idx k hl
    rw [putIdx, zip_stretch idx s ((nums s).eraseIdx ax) ?_ hl ?_]
    · intro i d x hd hx
      rw [← nums_erase, nums, List.getElem?_map, Option.map_eq_some_iff] at hx
      obtain ⟨e, he, rfl⟩ := hx
      exact hv i d e hd he
    · rw [List.length_eraseIdx, if_pos hs, hlen]; omega
  have hl : ∀ idx, InB idx (common ((nums (q.sh q.a)).eraseIdx q.axa)
      ((nums (q.sh q.b)).eraseIdx q.axb)) →
      (∀ k, putIdx (q.sh q.a) q.axa idx k
        = (stretch ((nums (q.sh q.a)).eraseIdx q.axa) idx).insertIdx q.axa k) ∧
      (∀ k, putIdx (q.sh q.b) q.axb idx k
        = (stretch ((nums (q.sh q.b)).eraseIdx q.axb) idx).insertIdx q.axb k) ∧
      (∀ k, putIdx (q.sh q.c) q.axc idx k = idx.insertIdx q.axc k) := by
    intro idx hi
    refine ⟨fun k => put _ _ hva hla idx k ?_, fun k => put _ _ hvb hlb idx k ?_,
      fun k => ?_⟩
    · rw [hi.len, hcl.1]
    · rw [hi.len, hcl.2]
    · rw [put _ _ hvc hlc idx k (by rw [hi.len, hce]), hce, stretch_self _ _ hi]
  have key := runIts_spec q σ (fun i => InB i (common ((nums (q.sh q.a)).eraseIdx q.axa)
      ((nums (q.sh q.b)).eraseIdx q.axb))) hca hcb
    (fun i k hi hk => by
      rw [(hl i hi).1, inB_iff]
      exact inB_insert _ _ _ 3 k (stretch_left _ _ _ hcompat hi) h3a hk)
    (fun i k hi hk => by
      rw [(hl i hi).2.1, inB_iff]
      exact inB_insert _ _ _ 3 k (stretch_right _ _ _ hcompat hi) h3b hk)
    (fun i k hi hk => by
      rw [(hl i hi).2.2, inB_iff]
      exact inB_insert _ _ _ 3 k (by rw [hce]; exact hi) hc3 hk)
    (fun i j k l hi hj he => by
      rw [(hl i hi).2.2, (hl j hj).2.2] at he
      have hil := hi.len
      exact insert_inj q.axc i j k l (hil.trans hj.len.symm) (by omega) he)
    (box (nums (loopShape (q.sh q.a) (q.sh q.b) q.axa q.axb))) [] σ
    (fun i hi => by rw [hbox, mem_box] at hi; exact hi) (by simp)
    (by simpa using nodup_box _) (fun _ _ => rfl) (by simp)
  obtain ⟨τ, h1, h2, h3⟩ := key
  refine ⟨τ, h1, ?_, h2⟩
  intro idx k hi hk
  have := h3 idx (by rw [List.nil_append, hbox, mem_box]; exact hi) k hk
  rw [(hl idx hi).2.2 k] at this
  rw [this]
  simp only [(hl idx hi).1, (hl idx hi).2.1]
  rfl

/-- An array of shape `(4, 3)` and one of shape `(1, 3)`, both known when
compiling, with the default axes: the hypotheses of `C121_partial` hold. -/
def exCross : Cross :=
  ⟨0, 1, 2, fun v => if v = 1 then [⟨1, true⟩, ⟨3, true⟩] else [⟨4, true⟩, ⟨3, true⟩],
    1, 1, 1⟩

example (σ : Store) : ∃ τ, runCross exCross σ = some τ ∧
    IsCross (σ 0) (σ 1) [4, 3] [1, 3] 1 1 1 (τ 2) ∧ ∀ v, v ≠ 2 → τ v = σ v := by
  have v1 : Visible [⟨4, true⟩, ⟨3, true⟩] 1 := by
    intro i d e hd he
    match i with
    | 0 => simp at hd he; subst hd; subst he; decide
    | i + 1 => simp at he
  have v2 : Visible [⟨1, true⟩, ⟨3, true⟩] 1 := by
    intro i d e hd he
    match i with
    | 0 => simp at hd he; subst hd; subst he; decide
    | i + 1 => simp at he
  exact C121_partial exCross σ (by decide) (by decide) rfl rfl
    ⟨Or.inr (Or.inr rfl), trivial⟩ (by decide) v1 v2 v1 (by decide) rfl

/-- C121 fails: `a = np.cross(a, b)` overwrites `a[0]` before the second
assignment reads it.  For `a = [1, 2, 3]` and `b = [4, 5, 6]` NumPy stores
`[-3, 6, -3]`, the generated code stores `30` in the second element. -/
theorem C121_violated_alias : ∃ (q : Cross) (σ : Store),
    nums (q.sh q.c)
      = npCrossShape (nums (q.sh q.a)) (nums (q.sh q.b)) q.axa q.axb q.axc ∧
    (runCross q σ).map (fun τ => τ q.c [1]) = some 30 ∧
    crossP (vecAt (σ q.a) [3] 0 []) (vecAt (σ q.b) [3] 0 []) 1 = 6 :=
  ⟨⟨0, 1, 0, fun _ => [⟨3, true⟩], 0, 0, 0⟩,
    fun v i => match v, i with
      | 0, [0] => 1 | 0, [1] => 2 | 0, [2] => 3
      | 1, [0] => 4 | 1, [1] => 5 | 1, [2] => 6
      | _, _ => 0,
    rfl, by decide +kernel, by decide +kernel⟩

/-- C121 fails: with `axisc` the result has another shape than `a + b`.  For
two arrays of shape `(2, 3)` and `axisc=0` NumPy returns shape `(3, 2)`; the
compiler creates a result of shape `(2, 3)` and the generated code writes
outside it. -/
theorem C121_violated_axisc : ∃ (q : Cross),
    q.sh q.c = sumShape (q.sh q.a) (q.sh q.b) ∧ q.c ≠ q.a ∧ q.c ≠ q.b ∧
    nums (q.sh q.c)
      ≠ npCrossShape (nums (q.sh q.a)) (nums (q.sh q.b)) q.axa q.axb q.axc ∧
    (runCross q (fun _ _ => 1)).isNone = true :=
  ⟨⟨0, 1, 2, fun _ => [⟨2, true⟩, ⟨3, true⟩], 1, 1, 0⟩, by decide, by decide,
    by decide, by decide, by decide +kernel⟩

/-- C121 fails: the loop indices are matched with the shape from its start, also
if the vector axis comes first.  For shapes `(3, 1)` and `(3, 2)` with `axis=0`,
which NumPy broadcasts, the generated code reads outside the first array. -/
theorem C121_violated_broadcast : ∃ (q : Cross),
    q.c ≠ q.a ∧ q.c ≠ q.b ∧
    Compat ((nums (q.sh q.a)).eraseIdx q.axa) ((nums (q.sh q.b)).eraseIdx q.axb) ∧
    (∀ v, ∀ d ∈ q.sh v, d.lit = true) ∧
    nums (q.sh q.c)
      = npCrossShape (nums (q.sh q.a)) (nums (q.sh q.b)) q.axa q.axb q.axc ∧
    (runCross q (fun _ _ => 1)).isNone = true :=
  ⟨⟨0, 1, 2, fun v => if v = 0 then [⟨3, true⟩, ⟨1, true⟩] else [⟨3, true⟩, ⟨2, true⟩],
    0, 0, 0⟩, by decide, by decide, ⟨Or.inr (Or.inl rfl), trivial⟩,
    by intro v d hd; by_cases h : v = 0 <;> simp [h] at hd <;> rcases hd with rfl | rfl <;> rfl,
    rfl, by decide +kernel⟩

/-- C121 fails: dimensions of size one are only recognised if the size is a
literal.  For shapes `(1, 3)` and `(2, 3)` of which the first is known only at
run time, only the first of the two vectors of the result is computed. -/
theorem C121_violated_runtime_one : ∃ (q : Cross) (τ : Store),
    q.c ≠ q.a ∧ q.c ≠ q.b ∧
    Compat ((nums (q.sh q.a)).eraseIdx q.axa) ((nums (q.sh q.b)).eraseIdx q.axb) ∧
    nums (q.sh q.c)
      = npCrossShape (nums (q.sh q.a)) (nums (q.sh q.b)) q.axa q.axb q.axc ∧
    ∃ σ, runCross q σ = some τ ∧
      ¬ IsCross (σ q.a) (σ q.b) (nums (q.sh q.a)) (nums (q.sh q.b))
        q.axa q.axb q.axc (τ q.c) := by
  let q : Cross :=
    ⟨0, 1, 2, fun v => if v = 0 then [⟨1, false⟩, ⟨3, true⟩] else [⟨2, false⟩, ⟨3, true⟩],
      1, 1, 1⟩
  let σ : Store := fun v i => match v, i with
    | 0, [0, 1] => 1
    | 1, [1, 2] => 1
    | _, _ => 0
  have h : ((runCross q σ).map fun τ => τ 2 [1, 0]) = some 0 := by decide +kernel
  cases hr : runCross q σ with
  | none => rw [hr] at h; simp at h
  | some τ =>
    rw [hr] at h
    simp at h
    refine ⟨q, τ, by decide, by decide, ⟨Or.inr (Or.inl rfl), trivial⟩, rfl, σ, hr, ?_⟩
    intro hx
    have := hx [1] 0 ⟨by decide, trivial⟩ (by decide)
    rw [show ([1] : List Nat).insertIdx q.axc 0 = [1, 0] from rfl,
      show q.c = 2 from rfl, h] at this
    exact absurd this (by decide +kernel)

/-- C121 fails: vectors of two elements, for which NumPy defines the cross
product as well, are read outside their bounds. -/
theorem C121_violated_two : ∃ (q : Cross), q.c ≠ q.a ∧ q.c ≠ q.b ∧
    nums (q.sh q.a) = [2] ∧ nums (q.sh q.b) = [2] ∧
    ∀ σ, runCross q σ = none :=
  ⟨⟨0, 1, 2, fun _ => [⟨2, true⟩], 0, 0, 0⟩, by decide, by decide, rfl, rfl,
    fun _ => rfl⟩

/-- C122: `np.sign` of an integer of any size, in C and in Fortran. -/
theorem C122_int_partial (x : Int) : cSignInt x = x.sign ∧ fSignInt x = x.sign := by
  unfold cSignInt fSignInt b2i
  rcases Int.lt_trichotomy x 0 with h | rfl | h
  · rw [Int.sign_eq_neg_one_of_neg h]
    have h1 : ¬ 0 < x := by omega
    have h2 : x ≠ 0 := by omega
    simp [h, h1, h2]
  · decide
  · rw [Int.sign_eq_one_of_pos h]
    have h1 : ¬ x < 0 := by omega
    have h2 : x ≠ 0 := by omega
    simp [h, h1, h2]

/-- C122: `np.sign` of a floating point number in C is NumPy's exactly if the
number is not a NaN. -/
theorem C122_c_iff_partial (x : Fl) : cSign x = npSign x ↔ ∀ s, x ≠ .nan s := by
  cases x with
  | fin q =>
    simp only [cSign, npSign, Fl.pos, Fl.neg, b2i, Fl.fin.injEq]
    constructor
    · intro _ s h; cases h
    · intro _
      by_cases h1 : q < 0
      · have : ¬ 0 < q := by grind
        simp [h1, this]
      · by_cases h2 : q = 0
        · subst h2; decide
        · have : 0 < q := by grind
          simp [h1, h2, this]
  | inf n => cases n <;> simp [cSign, npSign, Fl.pos, Fl.neg, b2i]
  | nan s => simp [cSign, npSign]

/-- C122: the same in Fortran. -/
theorem C122_fortran_iff_partial (x : Fl) : fSign x = npSign x ↔ ∀ s, x ≠ .nan s := by
  cases x with
  | fin q =>
    simp only [fSign, npSign, Fl.nonzero, Fl.signBit, Fl.fin.injEq]
    constructor
    · intro _ s h; cases h
    · intro _
      by_cases h1 : q < 0
      · have : q ≠ 0 := by grind
        simp [h1, this]
      · by_cases h2 : q = 0
        · simp [h2]
        · simp [h1, h2]
  | inf n => cases n <;> simp [fSign, npSign, Fl.nonzero, Fl.signBit]
  | nan s => simp [fSign, npSign]

example : cSign (.fin (-5 / 2)) = npSign (.fin (-5 / 2)) :=
  (C122_c_iff_partial _).2 (by intro s h; cases h)

/-- C122 fails: the sign of a NaN is NaN in NumPy, `0` in C and `1` or `-1` in
Fortran. -/
theorem C122_violated_nan : npSign (.nan false) = .nan false ∧
    cSign (.nan false) = .fin 0 ∧ fSign (.nan false) = .fin 1 ∧
    fSign (.nan true) = .fin (-1) := by
  refine ⟨rfl, ?_, ?_, ?_⟩ <;> decide +kernel

theorem red_c {f : Cx → Cx → Cx} {R : Cx → Cx → Prop} (p : Picks f R)
    (refl : ∀ x : Cx, x.hasNan = false → R x x)
    (trans : ∀ x y z, R x y → R y z → R x z) (z : Cx) (l : List Cx)
    (h : ∀ x ∈ z :: l, x.hasNan = false) :
    ∃ m, cRed f (z :: l) = some m ∧ m ∈ z :: l ∧ ∀ x ∈ z :: l, R m x := by
  obtain ⟨h1, _, h3⟩ := fold_picks p refl trans (z :: l) z
    (h z List.mem_cons_self) h
  exact ⟨_, rfl, h1.elim (fun e => by rw [e]; exact List.mem_cons_self) id, h3⟩

theorem red_f {f : Cx → Cx → Cx} {R : Cx → Cx → Prop} (p : Picks f R)
    (refl : ∀ x : Cx, x.hasNan = false → R x x)
    (trans : ∀ x y z, R x y → R y z → R x z) (z : Cx) (l : List Cx)
    (h : ∀ x ∈ z :: l, x.hasNan = false) :
    ∃ m, fRed f (z :: l) = some m ∧ m ∈ z :: l ∧ ∀ x ∈ z :: l, R m x := by
  obtain ⟨h1, h2, h3⟩ := fold_picks p refl trans l z
    (h z List.mem_cons_self) (fun x hx => h x (List.mem_cons_of_mem _ hx))
  refine ⟨_, rfl, ?_, ?_⟩
  · rcases h1 with e | e
    · rw [e]; exact List.mem_cons_self
    · exact List.mem_cons_of_mem _ e
  · intro x hx
    rcases List.mem_cons.1 hx with rfl | hx
    · exact h2
    · exact h3 x hx

/-- C123: for every non-empty array of complex numbers without NaN, `np.min` and
`np.max` return NumPy's element in C and in Fortran.  Missing: arrays with a NaN
(`C123_violated_nan`). -/
theorem C123_partial (l : List Cx) (hl : l ≠ []) (h : ∀ x ∈ l, x.hasNan = false) :
    (∃ m, cRed complexMin l = some m ∧ IsMin l m) ∧
    (∃ m, cRed complexMax l = some m ∧ IsMax l m) ∧
    (∃ m, fRed fMinStep l = some m ∧ IsMin l m) ∧
    (∃ m, fRed fMaxStep l = some m ∧ IsMax l m) := by
  cases l with
  | nil => exact absurd rfl hl
  | cons z l =>
    have ha : (z :: l).any Cx.hasNan = false := by
      rw [List.any_eq_false]
      intro x hx
      simp [h x hx]
    simp only [IsMin, IsMax, ha, Bool.false_eq_true, if_false]
    exact ⟨red_c picks_cmin (fun _ => le_refl') (fun _ _ _ => le_trans') z l h,
      red_c picks_cmax (fun _ => le_refl') (fun _ _ _ a b => le_trans' b a) z l h,
      red_f picks_fmin (fun _ => le_refl') (fun _ _ _ => le_trans') z l h,
      red_f picks_fmax (fun _ => le_refl') (fun _ _ _ a b => le_trans' b a) z l h⟩

example : (cRed complexMin [⟨some 2, some 1⟩, ⟨some 1, some 7⟩, ⟨some 1, some 3⟩])
    = some ⟨some 1, some 3⟩ := by decide +kernel

example := C123_partial [⟨some 2, some 1⟩, ⟨some 1, some 7⟩, ⟨some 1, some 3⟩]
  (by simp) (by decide)

/-- The result of `np.min` and `np.max` of an array without NaN is unique, so
`C123_partial` says that the generated code returns the number NumPy returns. -/
theorem C123_unique_partial (l : List Cx) (h : l.any Cx.hasNan = false) (m n : Cx) :
    (IsMin l m → IsMin l n → m = n) ∧ (IsMax l m → IsMax l n → m = n) := by
  have anti : ∀ x y : Cx, x.le y → y.le x → x = y := by
    rintro x y ⟨a, b, c, d, rfl, rfl, h1⟩ h2
    rw [le_mk] at h2
    have : a = c ∧ b = d := by grind
    rw [this.1, this.2]
  simp only [IsMin, IsMax, h, Bool.false_eq_true, if_false]
  exact ⟨fun a b => anti _ _ (a.2 n b.1) (b.2 m a.1),
    fun a b => anti _ _ (b.2 m a.1) (a.2 n b.1)⟩

/-- C123 fails: NumPy's `min` and `max` of an array with a NaN are NaN; the
generated code can return another element. -/
theorem C123_violated_nan :
    ∃ l : List Cx, l.any Cx.hasNan = true ∧
      (∀ m, cRed complexMin l = some m → ¬ IsMin l m) ∧
      (∀ m, fRed fMinStep l = some m → ¬ IsMin l m) := by
  refine ⟨[⟨some 1, some 0⟩, ⟨none, some 0⟩, ⟨some 2, some 0⟩], by decide, ?_, ?_⟩
  · intro m hm
    have : m = ⟨some 2, some 0⟩ := by
      have h : cRed complexMin [⟨some 1, some 0⟩, ⟨none, some 0⟩, ⟨some 2, some 0⟩]
        = some ⟨some 2, some 0⟩ := by decide +kernel
      rw [h] at hm
      exact (Option.some.inj hm).symm
    subst this
    simp [IsMin, Cx.hasNan]
  · intro m hm
    have : m = ⟨some 1, some 0⟩ := by
      have h : fRed fMinStep [⟨some 1, some 0⟩, ⟨none, some 0⟩, ⟨some 2, some 0⟩]
        = some ⟨some 1, some 0⟩ := by decide +kernel
      rw [h] at hm
      exact (Option.some.inj hm).symm
    subst this
    simp [IsMin, Cx.hasNan]

end Verif.Funcs
