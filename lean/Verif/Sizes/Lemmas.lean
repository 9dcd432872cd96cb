import Verif.Sizes.Model

namespace Verif.Sizes.Lemmas
open Verif.Sizes.Spec Verif.Sizes.Model

/-- The value of a node and, if its type is an integer, that this value is one. -/
def Ok (r : ℚ → ℚ) (env : ℕ → ℚ) (p : Py) (v : ℚ) : Prop :=
  p.mval r env = some v ∧ (p.isInt = true → ∃ z : ℤ, v = z)

def Oks (r : ℚ → ℚ) (env : ℕ → ℚ) : Pys → List ℚ → Prop
  | .nil, [] => True
  | .cons p ps, v :: vs => Ok r env p v ∧ Oks r env ps vs
  | _, _ => False

theorem cv_id (i : Bool) (x : ℚ) : cv id i x = x := by cases i <;> rfl

theorem arith_id (i j : Bool) (f : ℚ → ℚ → ℚ) (x y : ℚ) : arith id i j f x y = f x y := by
  cases i <;> cases j <;> rfl

theorem arith_int (r : ℚ → ℚ) (f : ℚ → ℚ → ℚ) (x y : ℚ) : arith r true true f x y = f x y := rfl

theorem oks_mvals {r env} : ∀ {ps : Pys} {vs : List ℚ}, Oks r env ps vs → ps.mvals r env = some vs
  | .nil, [], _ => rfl
  | .cons p ps, v :: vs, h => by
    simp only [Pys.mvals, h.1.1, oks_mvals h.2, Option.bind_some, Option.map_some]
  | .nil, _ :: _, h => h.elim
  | .cons _ _, [], h => h.elim

theorem oks_int {r env} : ∀ {ps : Pys} {vs : List ℚ}, Oks r env ps vs → ps.allInt = true → ∀ v ∈ vs, ∃ z : ℤ, v = z
  | .nil, [], _, _ => by simp
  | .cons p ps, v :: vs, h, hi => by
    simp only [Pys.allInt, Bool.and_eq_true] at hi
    intro w hw
    rcases List.mem_cons.1 hw with rfl | hw
    · exact h.1.2 hi.1
    · exact oks_int h.2 hi.2 w hw
  | .nil, _ :: _, h, _ => h.elim
  | .cons _ _, [], h, _ => h.elim

theorem ok_paren {r env p v} (h : Ok r env p v) : Ok r env (paren p) v := by
  cases p <;> exact h

theorem paren_int (p : Py) : (paren p).isInt = p.isInt := by cases p <;> rfl

theorem ok_add_id {env a b x y} (ha : Ok id env a x) (hb : Ok id env b y) : Ok id env (.add a b) (x + y) := by
  refine ⟨by simp [Py.mval, ha.1, hb.1, arith_id], ?_⟩
  intro h
  simp only [Py.isInt, Bool.and_eq_true] at h
  obtain ⟨z, rfl⟩ := ha.2 h.1
  obtain ⟨w, rfl⟩ := hb.2 h.2
  exact ⟨z + w, by push_cast; rfl⟩

theorem ok_mul_id {env a b x y} (ha : Ok id env a x) (hb : Ok id env b y) : Ok id env (.mul a b) (x * y) := by
  refine ⟨by simp [Py.mval, ha.1, hb.1, arith_id], ?_⟩
  intro h
  simp only [Py.isInt, Bool.and_eq_true] at h
  obtain ⟨z, rfl⟩ := ha.2 h.1
  obtain ⟨w, rfl⟩ := hb.2 h.2
  exact ⟨z * w, by push_cast; rfl⟩

theorem ok_addArgs_id {env} : ∀ {r : Pys} {a p : Py} {x : ℚ} {vs : List ℚ}, Ok id env a x → Oks id env r vs →
    addArgs a r = some p → Ok id env p (x + vs.sum)
  | .nil, a, p, x, [], ha, _, h => by
    simp only [addArgs, Option.some.injEq] at h
    subst h; simpa using ha
  | .cons b l, a, p, x, v :: vs, ha, hr, h => by
    have key : addArgs (.add a b) l = some p := by
      cases b <;> simp_all [addArgs]
    have := ok_addArgs_id (ok_add_id ha hr.1) hr.2 key
    rw [List.sum_cons, ← add_assoc]; exact this
  | .nil, _, _, _, _ :: _, _, h, _ => h.elim
  | .cons _ _, _, _, _, [], _, h, _ => h.elim

theorem trunc_int (z : ℤ) : (trunc (z : ℚ) : ℚ) = z := by
  unfold trunc; split <;> simp

theorem minusOne_iff (e : Sy) : isMinusOne e = true ↔ e = .num (-1) := by
  cases e <;> simp [isMinusOne]

theorem powQ_inv {x w : ℚ} (h : powQ x (-1) = some w) : x ≠ 0 ∧ w = 1 / x := by
  unfold powQ at h
  simp only [Rat.neg_den, Rat.den_one, if_true] at h
  split at h
  · simp at h
  · rename_i hx
    have h0 : x ≠ 0 := fun h => hx ⟨h, by norm_num⟩
    refine ⟨h0, ?_⟩
    simp at h
    rw [← h]; simp

theorem powQ_int {z : ℤ} {y w : ℚ} (hy : 0 ≤ y) (h : powQ z y = some w) : ∃ k : ℤ, w = k := by
  unfold powQ at h
  split at h
  · split at h
    · simp at h
    · simp only [Option.some.injEq] at h
      have hn : 0 ≤ y.num := Rat.num_nonneg.2 hy
      obtain ⟨n, hn⟩ := Int.eq_ofNat_of_zero_le hn
      rw [hn] at h
      exact ⟨z ^ n, by rw [← h]; simp⟩
  · simp at h

theorem min_mem {l : List ℚ} {v : ℚ} (h : l.min? = some v) : v ∈ l := List.min?_mem h
theorem max_mem {l : List ℚ} {v : ℚ} (h : l.max? = some v) : v ∈ l := List.max?_mem h

mutual
/-- In exact arithmetic the converted expression has the same value. -/
theorem conv_ok {syms : ℕ → Option Bool} {env : ℕ → ℚ} (hint : ∀ x, syms x = some true → ∃ z : ℤ, env x = z) :
    ∀ {e : Sy} {p : Py} {v : ℚ}, conv syms e = some p → e.Powers env → e.val env = some v → Ok id env p v
  | .num z, p, v, hc, _, hv => by
    simp only [conv, Option.some.injEq] at hc
    simp only [Sy.val, Option.some.injEq] at hv
    subst hc hv
    split
    · rename_i h
      refine ⟨?_, fun _ => ⟨z, rfl⟩⟩
      simp only [Py.mval, Option.some.injEq]
      exact_mod_cast Int.toNat_of_nonneg h
    · rename_i h
      refine ⟨?_, fun _ => ⟨z, rfl⟩⟩
      simp only [Py.mval, Option.map_some, Option.some.injEq]
      have := Int.toNat_of_nonneg (a := -z) (by omega)
      have h2 : (((-z).toNat : ℤ) : ℚ) = ((-z : ℤ) : ℚ) := by rw [this]
      push_cast at h2
      linarith
  | .rat q, p, v, hc, _, hv => by
    simp only [conv, Option.some.injEq] at hc
    simp only [Sy.val, Option.some.injEq] at hv
    subst hc hv
    exact ⟨rfl, by simp [Py.isInt]⟩
  | .sym x, p, v, hc, _, hv => by
    simp only [conv, Option.map_eq_some_iff] at hc
    obtain ⟨i, hi, rfl⟩ := hc
    simp only [Sy.val, Option.some.injEq] at hv
    subst hv
    refine ⟨rfl, ?_⟩
    intro h
    simp only [Py.isInt] at h
    subst h; exact hint x hi
  | .mul l, p, v, hc, hp, hv => by
    simp only [conv] at hc
    split at hc
    · rename_i a b h
      simp only [Option.some.injEq] at hc
      subst hc
      simp only [Sy.val, Option.map_eq_some_iff] at hv
      obtain ⟨vs, hvs, rfl⟩ := hv
      have := convs_ok hint h (by simpa [Sy.Powers] using hp) hvs
      match vs, this with
      | [x, y], ⟨ha, hb, _⟩ =>
        have := ok_mul_id (ok_paren ha) (ok_paren hb)
        simpa using this
      | [], h => exact h.elim
      | [_], h => exact h.2.elim
      | _ :: _ :: _ :: _, h => exact h.2.2.elim
    · simp at hc
  | .add l, p, v, hc, hp, hv => by
    simp only [conv] at hc
    split at hc
    · rename_i a b h
      simp only [Sy.val, Option.map_eq_some_iff] at hv
      obtain ⟨vs, hvs, rfl⟩ := hv
      have := convs_ok hint h (by simpa [Sy.Powers] using hp) hvs
      match vs, this with
      | x :: r, ⟨ha, hr⟩ =>
        rw [List.sum_cons]; exact ok_addArgs_id ha hr hc
      | [], h => exact h.elim
    · simp at hc
  | .pow b e, p, v, hc, hp, hv => by
    simp only [conv] at hc
    simp only [Sy.Powers] at hp
    simp only [Sy.val, Option.bind_eq_some_iff] at hv
    obtain ⟨x, hx, y, hy, hw⟩ := hv
    split at hc
    · rename_i p1 p2 h1 h2
      have k1 := conv_ok hint h1 hp.1 hx
      have k2 := conv_ok hint h2 hp.2.1 hy
      split at hc
      · rename_i hm
        rw [minusOne_iff] at hm
        subst hm
        simp only [Sy.val, Option.some.injEq] at hy
        subst hy
        simp only [Option.some.injEq] at hc
        subst hc
        push_cast at hw
        obtain ⟨h0, rfl⟩ := powQ_inv hw
        refine ⟨?_, by simp [Py.isInt]⟩
        simp [Py.mval, k1.1, cv_id, h0]
      · rename_i hm
        simp only [Option.some.injEq] at hc
        subst hc
        have hy0 : 0 ≤ y := by
          rcases hp.2.2 with h | h
          · exact absurd ((minusOne_iff e).2 h) hm
          · exact h y hy
        by_cases hi : (p1.isInt && p2.isInt) = true
        · have hi' := hi
          simp only [Bool.and_eq_true] at hi'
          obtain ⟨z, rfl⟩ := k1.2 hi'.1
          obtain ⟨k, rfl⟩ := powQ_int hy0 hw
          refine ⟨?_, fun _ => ⟨k, rfl⟩⟩
          simp only [Py.mval, k1.1, k2.1, Option.bind_some, cv_id, hw, Option.map_some, hi, if_true, id, trunc_int]
        · refine ⟨?_, fun h => absurd h hi⟩
          simp only [Py.mval, k1.1, k2.1, Option.bind_some, cv_id, hw, Option.map_some, hi, id]
          rfl
    · simp at hc
  | .ceil a, p, v, hc, hp, hv => by
    simp only [conv, Option.map_eq_some_iff] at hc
    obtain ⟨q, hq, rfl⟩ := hc
    simp only [Sy.val, Option.map_eq_some_iff] at hv
    obtain ⟨x, hx, rfl⟩ := hv
    have k := conv_ok hint hq (by simpa [Sy.Powers] using hp) hx
    split
    · rename_i hi
      obtain ⟨z, rfl⟩ := k.2 hi
      simpa using k
    · refine ⟨?_, fun _ => ⟨_, rfl⟩⟩
      simp [Py.mval, k.1, cv_id]
  | .floor a, p, v, hc, hp, hv => by
    simp only [conv, Option.map_eq_some_iff] at hc
    obtain ⟨q, hq, rfl⟩ := hc
    simp only [Sy.val, Option.map_eq_some_iff] at hv
    obtain ⟨x, hx, rfl⟩ := hv
    have k := conv_ok hint hq (by simpa [Sy.Powers] using hp) hx
    refine ⟨?_, fun _ => ⟨_, rfl⟩⟩
    simp [Py.mval, k.1, cv_id]
  | .abs a, p, v, hc, hp, hv => by
    simp only [conv, Option.map_eq_some_iff] at hc
    obtain ⟨q, hq, rfl⟩ := hc
    simp only [Sy.val, Option.map_eq_some_iff] at hv
    obtain ⟨x, hx, rfl⟩ := hv
    have k := conv_ok hint hq (by simpa [Sy.Powers] using hp) hx
    refine ⟨?_, by simp [Py.isInt]⟩
    simp [Py.mval, k.1, cv_id]
  | .min l, p, v, hc, hp, hv => by
    simp only [conv, Option.bind_eq_some_iff] at hc
    obtain ⟨ps, h, hc⟩ := hc
    split at hc
    · simp only [Option.some.injEq] at hc
      subst hc
      simp only [Sy.val, Option.bind_eq_some_iff] at hv
      obtain ⟨vs, hvs, hv⟩ := hv
      have k := convs_ok hint h (by simpa [Sy.Powers] using hp) hvs
      refine ⟨by simp [Py.mval, oks_mvals k, hv], ?_⟩
      intro hi
      exact oks_int k (by simpa [Py.isInt] using hi) v (min_mem hv)
    · simp at hc
  | .max l, p, v, hc, hp, hv => by
    simp only [conv, Option.bind_eq_some_iff] at hc
    obtain ⟨ps, h, hc⟩ := hc
    split at hc
    · simp only [Option.some.injEq] at hc
      subst hc
      simp only [Sy.val, Option.bind_eq_some_iff] at hv
      obtain ⟨vs, hvs, hv⟩ := hv
      have k := convs_ok hint h (by simpa [Sy.Powers] using hp) hvs
      refine ⟨by simp [Py.mval, oks_mvals k, hv], ?_⟩
      intro hi
      exact oks_int k (by simpa [Py.isInt] using hi) v (max_mem hv)
    · simp at hc
  | .other, p, v, hc, _, _ => by simp [conv] at hc

theorem convs_ok {syms : ℕ → Option Bool} {env : ℕ → ℚ} (hint : ∀ x, syms x = some true → ∃ z : ℤ, env x = z) :
    ∀ {l : Sys} {ps : Pys} {vs : List ℚ}, convs syms l = some ps → l.Powers env → l.vals env = some vs →
      Oks id env ps vs
  | .nil, ps, vs, hc, _, hv => by
    simp only [convs, Option.some.injEq] at hc
    simp only [Sys.vals, Option.some.injEq] at hv
    subst hc hv; trivial
  | .cons a l, ps, vs, hc, hp, hv => by
    simp only [convs, Option.bind_eq_some_iff, Option.map_eq_some_iff] at hc
    simp only [Sys.vals, Option.bind_eq_some_iff, Option.map_eq_some_iff] at hv
    obtain ⟨p, h1, qs, h2, rfl⟩ := hc
    obtain ⟨x, h3, xs, h4, rfl⟩ := hv
    simp only [Sys.Powers] at hp
    exact ⟨conv_ok hint h1 hp.1 h3, convs_ok hint h2 hp.2 h4⟩
end

/-! ### Integers only -/

/-- An integer node whose value is exact with any rounding. -/
def Ik (env : ℕ → ℚ) (p : Py) (v : ℚ) : Prop :=
  p.isInt = true ∧ (∀ r, p.mval r env = some v) ∧ ∃ z : ℤ, v = z

def Iks (env : ℕ → ℚ) : Pys → List ℚ → Prop
  | .nil, [] => True
  | .cons p ps, v :: vs => Ik env p v ∧ Iks env ps vs
  | _, _ => False

theorem ik_add {env a b x y} (ha : Ik env a x) (hb : Ik env b y) : Ik env (.add a b) (x + y) := by
  obtain ⟨z, rfl⟩ := ha.2.2
  obtain ⟨w, rfl⟩ := hb.2.2
  refine ⟨by simp [Py.isInt, ha.1, hb.1], fun r => ?_, z + w, by push_cast; rfl⟩
  simp [Py.mval, ha.1, hb.1, ha.2.1 r, hb.2.1 r, arith_int]

theorem ik_mul {env a b x y} (ha : Ik env a x) (hb : Ik env b y) : Ik env (.mul a b) (x * y) := by
  obtain ⟨z, rfl⟩ := ha.2.2
  obtain ⟨w, rfl⟩ := hb.2.2
  refine ⟨by simp [Py.isInt, ha.1, hb.1], fun r => ?_, z * w, by push_cast; rfl⟩
  simp [Py.mval, ha.1, hb.1, ha.2.1 r, hb.2.1 r, arith_int]

theorem ik_paren {env p v} (h : Ik env p v) : Ik env (paren p) v := by cases p <;> exact h

theorem ik_addArgs {env} : ∀ {r : Pys} {a p : Py} {x : ℚ} {vs : List ℚ}, Ik env a x → Iks env r vs →
    addArgs a r = some p → Ik env p (x + vs.sum)
  | .nil, a, p, x, [], ha, _, h => by
    simp only [addArgs, Option.some.injEq] at h
    subst h; simpa using ha
  | .cons b l, a, p, x, v :: vs, ha, hr, h => by
    have key : addArgs (.add a b) l = some p := by
      cases b <;> simp_all [addArgs]
    have := ik_addArgs (ik_add ha hr.1) hr.2 key
    rw [List.sum_cons, ← add_assoc]; exact this
  | .nil, _, _, _, _ :: _, _, h, _ => h.elim
  | .cons _ _, _, _, _, [], _, h, _ => h.elim

theorem iks_mvals {env} (r : ℚ → ℚ) : ∀ {ps : Pys} {vs : List ℚ}, Iks env ps vs → ps.mvals r env = some vs
  | .nil, [], _ => rfl
  | .cons p ps, v :: vs, h => by
    simp only [Pys.mvals, h.1.2.1 r, iks_mvals r h.2, Option.bind_some, Option.map_some]
  | .nil, _ :: _, h => h.elim
  | .cons _ _, [], h => h.elim

theorem iks_int {env} : ∀ {ps : Pys} {vs : List ℚ}, Iks env ps vs → ps.allInt = true ∧ ∀ v ∈ vs, ∃ z : ℤ, v = z
  | .nil, [], _ => by simp [Pys.allInt]
  | .cons p ps, v :: vs, h => by
    obtain ⟨i1, i2⟩ := iks_int h.2
    refine ⟨by simp [Pys.allInt, h.1.1, i1], ?_⟩
    intro w hw
    rcases List.mem_cons.1 hw with rfl | hw
    · exact h.1.2.2
    · exact i2 w hw
  | .nil, _ :: _, h => h.elim
  | .cons _ _, [], h => h.elim

mutual
theorem conv_ik {syms : ℕ → Option Bool} {env : ℕ → ℚ} (hint : ∀ x, syms x = some true → ∃ z : ℤ, env x = z) :
    ∀ {e : Sy} {p : Py} {v : ℚ}, conv syms e = some p → e.Whole (fun x => syms x = some true) →
      e.val env = some v → Ik env p v
  | .num z, p, v, hc, _, hv => by
    have k := conv_ok (env := env) hint hc (by simp [Sy.Powers]) hv
    simp only [conv, Option.some.injEq] at hc
    subst hc
    by_cases h : 0 ≤ z
    · rw [if_pos h] at k ⊢; exact ⟨rfl, fun r => k.1, k.2 rfl⟩
    · rw [if_neg h] at k ⊢; exact ⟨rfl, fun r => k.1, k.2 rfl⟩
  | .sym x, p, v, hc, hw, hv => by
    simp only [Sy.Whole] at hw
    simp only [conv, hw, Option.map_some, Option.some.injEq] at hc
    simp only [Sy.val, Option.some.injEq] at hv
    subst hc hv
    exact ⟨rfl, fun r => rfl, hint x hw⟩
  | .mul l, p, v, hc, hp, hv => by
    simp only [conv] at hc
    split at hc
    · rename_i a b h
      simp only [Option.some.injEq] at hc
      subst hc
      simp only [Sy.val, Option.map_eq_some_iff] at hv
      obtain ⟨vs, hvs, rfl⟩ := hv
      have := convs_ik hint h (by simpa [Sy.Whole] using hp) hvs
      match vs, this with
      | [x, y], ⟨ha, hb, _⟩ =>
        have := ik_mul (ik_paren ha) (ik_paren hb)
        simpa using this
      | [], h => exact h.elim
      | [_], h => exact h.2.elim
      | _ :: _ :: _ :: _, h => exact h.2.2.elim
    · simp at hc
  | .add l, p, v, hc, hp, hv => by
    simp only [conv] at hc
    split at hc
    · rename_i a b h
      simp only [Sy.val, Option.map_eq_some_iff] at hv
      obtain ⟨vs, hvs, rfl⟩ := hv
      have := convs_ik hint h (by simpa [Sy.Whole] using hp) hvs
      match vs, this with
      | x :: r, ⟨ha, hr⟩ =>
        rw [List.sum_cons]; exact ik_addArgs ha hr hc
      | [], h => exact h.elim
    · simp at hc
  | .ceil a, p, v, hc, hp, hv => by
    simp only [conv, Option.map_eq_some_iff] at hc
    obtain ⟨q, hq, rfl⟩ := hc
    simp only [Sy.val, Option.map_eq_some_iff] at hv
    obtain ⟨x, hx, rfl⟩ := hv
    have k := conv_ik hint hq (by simpa [Sy.Whole] using hp) hx
    rw [if_pos k.1]
    obtain ⟨z, hz⟩ := k.2.2
    subst hz
    simpa using k
  | .min l, p, v, hc, hp, hv => by
    simp only [conv, Option.bind_eq_some_iff] at hc
    obtain ⟨ps, h, hc⟩ := hc
    split at hc
    · simp only [Option.some.injEq] at hc
      subst hc
      simp only [Sy.val, Option.bind_eq_some_iff] at hv
      obtain ⟨vs, hvs, hv⟩ := hv
      have k := convs_ik hint h (by simpa [Sy.Whole] using hp) hvs
      obtain ⟨i1, i2⟩ := iks_int k
      exact ⟨by simpa [Py.isInt] using i1, fun r => by simp [Py.mval, iks_mvals r k, hv], i2 v (min_mem hv)⟩
    · simp at hc
  | .max l, p, v, hc, hp, hv => by
    simp only [conv, Option.bind_eq_some_iff] at hc
    obtain ⟨ps, h, hc⟩ := hc
    split at hc
    · simp only [Option.some.injEq] at hc
      subst hc
      simp only [Sy.val, Option.bind_eq_some_iff] at hv
      obtain ⟨vs, hvs, hv⟩ := hv
      have k := convs_ik hint h (by simpa [Sy.Whole] using hp) hvs
      obtain ⟨i1, i2⟩ := iks_int k
      exact ⟨by simpa [Py.isInt] using i1, fun r => by simp [Py.mval, iks_mvals r k, hv], i2 v (max_mem hv)⟩
    · simp at hc
  | .rat _, _, _, _, h, _ | .pow _ _, _, _, _, h, _ | .floor _, _, _, _, h, _ | .abs _, _, _, _, h, _
  | .other, _, _, _, h, _ => by simp [Sy.Whole] at h

theorem convs_ik {syms : ℕ → Option Bool} {env : ℕ → ℚ} (hint : ∀ x, syms x = some true → ∃ z : ℤ, env x = z) :
    ∀ {l : Sys} {ps : Pys} {vs : List ℚ}, convs syms l = some ps → l.Whole (fun x => syms x = some true) →
      l.vals env = some vs → Iks env ps vs
  | .nil, ps, vs, hc, _, hv => by
    simp only [convs, Option.some.injEq] at hc
    simp only [Sys.vals, Option.some.injEq] at hv
    subst hc hv; trivial
  | .cons a l, ps, vs, hc, hp, hv => by
    simp only [convs, Option.bind_eq_some_iff, Option.map_eq_some_iff] at hc
    simp only [Sys.vals, Option.bind_eq_some_iff, Option.map_eq_some_iff] at hv
    obtain ⟨p, h1, qs, h2, rfl⟩ := hc
    obtain ⟨x, h3, xs, h4, rfl⟩ := hv
    simp only [Sys.Whole] at hp
    exact ⟨conv_ik hint h1 hp.1 h3, convs_ik hint h2 hp.2 h4⟩
end

/-! ### What is accepted -/

/-- The node isn't a `PyccelUnarySub`. -/
def NotNeg : Py → Prop
  | .neg _ => False
  | _ => True

def NotNegs : Pys → Prop
  | .nil => True
  | .cons a l => NotNeg a ∧ NotNegs l

theorem addArgs_some : ∀ {l : Pys} (a : Py), NotNegs l → ∃ p, addArgs a l = some p
  | .nil, a, _ => ⟨a, rfl⟩
  | .cons b l, a, h => by
    obtain ⟨p, hp⟩ := addArgs_some (.add a b) h.2
    refine ⟨p, ?_⟩
    have := h.1
    cases b <;> simp_all [addArgs, NotNeg]

theorem addArgs_notNeg : ∀ {l : Pys} {a p : Py}, NotNeg a → addArgs a l = some p → NotNeg p
  | .nil, a, p, ha, h => by
    simp only [addArgs, Option.some.injEq] at h
    subst h; exact ha
  | .cons b l, a, p, ha, h => by
    have key : addArgs (.add a b) l = some p := by
      cases b <;> simp_all [addArgs]
    exact addArgs_notNeg (a := .add a b) trivial key

theorem addArgs_cons_notNeg {l : Pys} {a b p : Py} (h : addArgs a (.cons b l) = some p) : NotNeg p := by
  have key : addArgs (.add a b) l = some p := by
    cases b <;> simp_all [addArgs]
  exact addArgs_notNeg (a := .add a b) trivial key

/-- A sum of one term that is a negative integer: SymPy doesn't make these. -/
def single : Sy → Prop
  | .add (.cons _ .nil) => True
  | .ceil a => single a
  | _ => False

theorem convs_cons {syms : ℕ → Option Bool} {a : Sy} {l : Sys} {ps : Pys} (h : convs syms (.cons a l) = some ps) :
    ∃ p qs, conv syms a = some p ∧ convs syms l = some qs ∧ ps = .cons p qs := by
  simp only [convs, Option.bind_eq_some_iff, Option.map_eq_some_iff] at h
  obtain ⟨p, h1, qs, h2, h3⟩ := h
  exact ⟨p, qs, h1, h2, h3.symm⟩

theorem conv_notNeg {syms : ℕ → Option Bool} : ∀ {e : Sy} {p : Py}, conv syms e = some p → ¬ e.Negative → ¬ single e →
    NotNeg p
  | .num z, p, h, hn, _ => by
    simp only [Sy.Negative] at hn
    simp only [conv, if_pos (show 0 ≤ z by omega), Option.some.injEq] at h
    subst h; trivial
  | .rat q, p, h, _, _ => by
    simp only [conv, Option.some.injEq] at h
    subst h; trivial
  | .sym x, p, h, _, _ => by
    simp only [conv, Option.map_eq_some_iff] at h
    obtain ⟨_, _, rfl⟩ := h; trivial
  | .mul l, p, h, _, _ => by
    simp only [conv] at h
    split at h
    · simp only [Option.some.injEq] at h
      subst h; trivial
    · simp at h
  | .add .nil, p, h, _, _ => by simp [conv, convs] at h
  | .add (.cons a .nil), p, h, _, hs => (hs trivial).elim
  | .add (.cons a (.cons b l)), p, h, _, _ => by
    simp only [conv] at h
    split at h
    · rename_i c r hc
      obtain ⟨p1, q1, _, h2, h3⟩ := convs_cons hc
      obtain ⟨p2, q2, _, _, h4⟩ := convs_cons h2
      simp only [Pys.cons.injEq] at h3
      obtain ⟨rfl, rfl⟩ := h3
      subst h4
      exact addArgs_cons_notNeg h
    · simp at h
  | .pow b e, p, h, _, _ => by
    simp only [conv] at h
    split at h
    · split at h <;> simp only [Option.some.injEq] at h <;> subst h <;> trivial
    · simp at h
  | .ceil a, p, h, hn, hs => by
    simp only [conv, Option.map_eq_some_iff] at h
    obtain ⟨q, hq, rfl⟩ := h
    have := conv_notNeg hq (by simpa [Sy.Negative] using hn) (by simpa [single] using hs)
    split
    · exact this
    · trivial
  | .floor a, p, h, _, _ => by
    simp only [conv, Option.map_eq_some_iff] at h
    obtain ⟨q, hq, rfl⟩ := h; trivial
  | .abs a, p, h, _, _ => by
    simp only [conv, Option.map_eq_some_iff] at h
    obtain ⟨q, hq, rfl⟩ := h; trivial
  | .min l, p, h, _, _ => by
    simp only [conv, Option.bind_eq_some_iff] at h
    obtain ⟨_, _, h⟩ := h
    split at h <;> simp only [Option.some.injEq, reduceCtorEq] at h
    subst h; trivial
  | .max l, p, h, _, _ => by
    simp only [conv, Option.bind_eq_some_iff] at h
    obtain ⟨_, _, h⟩ := h
    split at h <;> simp only [Option.some.injEq, reduceCtorEq] at h
    subst h; trivial
  | .other, p, h, _, _ => by simp [conv] at h

theorem simple_single {known : ℕ → Prop} : ∀ {e : Sy}, e.Simple known → ¬ single e
  | .ceil a, h => by
    simp only [Sy.Simple] at h
    simpa [single] using simple_single h
  | .add (.cons a .nil), h => by simp [Sy.Simple] at h
  | .add (.cons _ (.cons _ _)), _ => fun h => h
  | .add .nil, _ | .num _, _ | .rat _, _ | .sym _, _ | .mul _, _ | .pow _ _, _ | .floor _, _ | .abs _, _ | .min _, _
  | .max _, _ | .other, _ => fun h => h

mutual
theorem conv_some {syms : ℕ → Option Bool} : ∀ {e : Sy}, e.Simple (fun x => (syms x).isSome = true) →
    ∃ p, conv syms e = some p
  | .num z, _ => ⟨_, rfl⟩
  | .rat q, _ => ⟨_, rfl⟩
  | .sym x, h => by
    simp only [Sy.Simple] at h
    obtain ⟨i, hi⟩ := Option.isSome_iff_exists.1 h
    exact ⟨.var x i, by simp [conv, hi]⟩
  | .mul (.cons a (.cons b .nil)), h => by
    simp only [Sy.Simple] at h
    obtain ⟨p, hp⟩ := conv_some h.1
    obtain ⟨q, hq⟩ := conv_some h.2
    exact ⟨.mul (paren p) (paren q), by simp [conv, convs, hp, hq]⟩
  | .mul .nil, h | .mul (.cons _ .nil), h | .mul (.cons _ (.cons _ (.cons _ _))), h => by simp [Sy.Simple] at h
  | .add (.cons a (.cons b l)), h => by
    simp only [Sy.Simple] at h
    obtain ⟨p, hp⟩ := conv_some h.1
    obtain ⟨q, hq⟩ := conv_some h.2.1
    obtain ⟨ps, hps, hn⟩ := convs_some h.2.2.1
    simp only [Sys.NoNegative] at h
    obtain ⟨w, hw⟩ := addArgs_some (l := .cons q ps) p
      ⟨conv_notNeg hq h.2.2.2.1 (simple_single h.2.1), hn h.2.2.2.2⟩
    exact ⟨w, by simp [conv, convs, hp, hq, hps, hw]⟩
  | .add .nil, h | .add (.cons _ .nil), h => by simp [Sy.Simple] at h
  | .pow b e, h => by
    simp only [Sy.Simple] at h
    obtain ⟨p, hp⟩ := conv_some h.1
    obtain ⟨q, hq⟩ := conv_some h.2
    by_cases hm : isMinusOne e = true
    · exact ⟨.div (.int 1) p, by simp [conv, hp, hq, hm]⟩
    · exact ⟨.pow p q, by simp [conv, hp, hq, hm]⟩
  | .ceil a, h => by
    simp only [Sy.Simple] at h
    obtain ⟨p, hp⟩ := conv_some h
    exact ⟨if p.isInt then p else .ceil p, by simp only [conv, hp, Option.map_some]⟩
  | .floor a, h => by
    simp only [Sy.Simple] at h
    obtain ⟨p, hp⟩ := conv_some h
    exact ⟨.floor p, by simp only [conv, hp, Option.map_some]⟩
  | .abs a, h => by
    simp only [Sy.Simple] at h
    obtain ⟨p, hp⟩ := conv_some h
    exact ⟨.fabs p, by simp only [conv, hp, Option.map_some]⟩
  | .min _, h | .max _, h | .other, h => by simp [Sy.Simple] at h

theorem convs_some {syms : ℕ → Option Bool} : ∀ {l : Sys}, l.Simple (fun x => (syms x).isSome = true) →
    ∃ ps, convs syms l = some ps ∧ (l.NoNegative → NotNegs ps)
  | .nil, _ => ⟨.nil, rfl, fun _ => trivial⟩
  | .cons a l, h => by
    simp only [Sys.Simple] at h
    obtain ⟨p, hp⟩ := conv_some h.1
    obtain ⟨ps, hps, hn⟩ := convs_some h.2
    refine ⟨.cons p ps, by simp [convs, hp, hps], ?_⟩
    intro hk
    simp only [Sys.NoNegative] at hk
    exact ⟨conv_notNeg hp hk.1 (simple_single h.1), hn hk.2⟩
end

end Verif.Sizes.Lemmas
