import Verif.Operators.Model

namespace Verif.Operators
open Spec Model

theorem bin_ok (C : Classes) (o : Op) (a b : Ty) (r : Act) (hab : a ≠ b)
    (h : bin C o a b = .ok r) : pyBin C o a b = r := by
  cases a <;> cases b <;> simp only [bin, getMethod, direct, pyBin] at h ⊢ <;> grind

theorem bin_same (C : Classes) (o : Op) (a : Ty) (r : Act)
    (hr : ∀ c, a = .cls c → C c (.plain o) = true ∨ C c (.refl o) = false)
    (h : bin C o a a = .ok r) : pyBin C o a a = r := by
  cases a with
  | num => simp only [bin, getMethod, direct, pyBin] at h ⊢; grind
  | cls c =>
    have := hr c rfl
    simp only [bin, getMethod, direct, pyBin] at h ⊢
    grind

theorem inMap_iff (o : Op) : inMap o = true ↔ o ∈ supported := by
  cases o <;> decide

theorem bin_accepts (C : Classes) (o : Op) (a b : Ty) (ho : inMap o = true)
    (h : pyBin C o a b ≠ .error) : bin C o a b = .ok (pyBin C o a b) := by
  cases a <;> cases b <;> simp only [bin, ho, getMethod, direct, pyBin] at h ⊢ <;> grind

theorem aug_ok (C : Classes) (o : Op) (a b : Ty) (r : Act)
    (h : aug C o a b = .ok r) : pyAug C o a b = r := by
  cases a <;> cases b <;> simp only [aug, getMethod, direct, pyAug, pyBin] at h ⊢ <;> grind

theorem aug_iff (C : Classes) (o : Op) (a b : Ty) (ho : inMap o = true) :
    (∃ r, aug C o a b = .ok r) ↔
      pyAug C o a b = .builtin ∨ ∃ m, pyAug C o a b = .left m := by
  cases a <;> cases b <;> simp only [aug, ho, getMethod, direct, pyAug, pyBin] <;>
    (repeat' split) <;> simp_all <;> (repeat' split) <;> simp_all <;> split <;> simp

variable {σ : Type}

/-- Without `return`, nothing is changed by `drop`. -/
theorem drop_noRet (b : Stmt σ) (h : noRet b = true) : drop b = some b := by
  induction b with
  | skip => rfl
  | act f => rfl
  | ret r => simp [noRet] at h
  | seq a b iha ihb =>
    simp only [noRet, Bool.and_eq_true] at h
    simp only [drop, iha h.1, ihb h.2]
  | ite c a b iha ihb =>
    simp only [noRet, Bool.and_eq_true] at h
    simp only [drop, iha h.1, ihb h.2]
  | loop n a iha =>
    simp only [noRet] at h
    simp only [drop, iha h]

theorem again_none (f : σ → σ × Option Ret) (hf : ∀ s, (f s).2 = none) (n : Nat) (s : σ) :
    (again f n s).2 = none := by
  induction n generalizing s with
  | zero => rfl
  | succ n ih =>
    have := hf s
    simp only [again]
    split
    · exact ih _
    · rename_i h; rw [h] at this; cases this

/-- Without `return`, nothing is returned. -/
theorem run_noRet (b : Stmt σ) (h : noRet b = true) (s : σ) : (run b s).2 = none := by
  induction b generalizing s with
  | skip => rfl
  | act f => rfl
  | ret r => simp [noRet] at h
  | seq a b iha ihb =>
    simp only [noRet, Bool.and_eq_true] at h
    have := iha h.1 s
    simp only [run]
    split
    · exact ihb h.2 _
    · rename_i h; rw [h] at this; cases this
  | ite c a b iha ihb =>
    simp only [noRet, Bool.and_eq_true] at h
    simp only [run]
    split
    · exact iha h.1 s
    · exact ihb h.2 s
  | loop n a iha =>
    simp only [noRet] at h
    exact again_none _ (iha h) _ _

theorem drop_tail (b b' : Stmt σ) (ht : tail b = true) (h : drop b = some b') (s : σ) :
    (run b' s).1 = (run b s).1 := by
  induction b generalizing b' s with
  | skip => cases h; rfl
  | act f => cases h; rfl
  | ret r =>
    cases r with
    | self => cases h; rfl
    | other => cases h
  | seq x y ihx ihy =>
    simp only [tail, Bool.and_eq_true] at ht
    simp only [drop, drop_noRet x ht.1] at h
    split at h
    · rename_i x' y' hx hy
      cases hx
      cases h
      have hn := run_noRet x ht.1 s
      simp only [run]
      split
      · exact ihy _ ht.2 hy _
      · rename_i hh; rw [hh] at hn
    · cases h
  | ite c x y ihx ihy =>
    simp only [tail, Bool.and_eq_true] at ht
    simp only [drop] at h
    split at h
    · rename_i x' y' hx hy
      cases h
      simp only [run]
      split
      · exact ihx _ ht.1 hx _
      · exact ihy _ ht.2 hy _
    · cases h
  | loop n x ihx =>
    simp only [tail] at ht
    simp only [drop, drop_noRet x ht] at h
    cases h
    rfl

theorem effect (body : Stmt σ) (ht : tail body = true) (s : σ) (r : σ × Ret)
    (h : call body s = some r) : r.1 = (run body s).1 := by
  unfold call at h
  split at h
  · rename_i b hb
    cases h
    exact drop_tail body b ht hb s
  · cases h

theorem again_other (f : σ → σ × Option Ret) (hf : ∀ s, (f s).2 ≠ some .other) (n : Nat) (s : σ) :
    (again f n s).2 ≠ some .other := by
  induction n generalizing s with
  | zero => simp [again]
  | succ n ih =>
    have := hf s
    simp only [again]
    split
    · exact ih _
    · rename_i h; rw [h] at this; exact this

/-- An accepted method returns nothing but the object. -/
theorem drop_self (b b' : Stmt σ) (h : drop b = some b') (s : σ) : (run b s).2 ≠ some .other := by
  induction b generalizing b' s with
  | skip => simp [run]
  | act f => simp [run]
  | ret r =>
    cases r with
    | self => simp [run]
    | other => cases h
  | seq x y ihx ihy =>
    simp only [drop] at h
    split at h
    · rename_i x' y' hx hy
      simp only [run]
      have := ihx _ hx s
      split
      · exact ihy _ hy _
      · rename_i hh; rw [hh] at this; exact this
    · cases h
  | ite c x y ihx ihy =>
    simp only [drop] at h
    split at h
    · rename_i x' y' hx hy
      simp only [run]
      split
      · exact ihx _ hx _
      · exact ihy _ hy _
    · cases h
  | loop n x ihx =>
    simp only [drop] at h
    split at h
    · rename_i x' hx
      exact again_other _ (ihx _ hx) _ _
    · cases h

theorem target (body : Stmt σ) (s : σ) (r : σ × Ret) (h : call body s = some r)
    (hr : (run body s).2 ≠ none) : r.2 = pyTarget (run body s).2 := by
  unfold call at h
  split at h
  · rename_i b hb
    cases h
    have := drop_self body b hb s
    revert hr this
    rcases (run body s).2 with _ | r
    · intro h; exact absurd rfl h
    · cases r <;> simp [pyTarget]
  · cases h

theorem refused (body : Stmt σ) (s : σ) (h : (run body s).2 = some .other) :
    ∀ t, call body t = none := by
  intro t
  unfold call
  split
  · rename_i b hb
    exact absurd h (drop_self body b hb s)
  · rfl

theorem drop_iff (body : Stmt σ) : (∃ b, drop body = some b) ↔ selfOnly body = true := by
  induction body with
  | skip => simp [drop, selfOnly]
  | act f => simp [drop, selfOnly]
  | ret r => cases r <;> simp [drop, selfOnly]
  | seq a b iha ihb =>
    simp only [drop, selfOnly, Bool.and_eq_true, ← iha, ← ihb]
    cases drop a <;> cases drop b <;> simp
  | ite c a b iha ihb =>
    simp only [drop, selfOnly, Bool.and_eq_true, ← iha, ← ihb]
    cases drop a <;> cases drop b <;> simp
  | loop n a iha =>
    simp only [drop, selfOnly, ← iha]
    cases drop a <;> simp

theorem call_iff (body : Stmt σ) (s : σ) : (∃ r, call body s = some r) ↔ selfOnly body = true := by
  rw [← drop_iff]
  unfold call
  cases drop body <;> simp

end Verif.Operators
