import Verif.Types.Model
/-
Lemmas about broadcasting and nested containers.
-/
namespace Verif.Types
open Spec

/-- Spec of a broadcast on shapes of equal length, first dimension first. -/
def npZip : List Int → List Int → Option (List Int)
  | x :: xs, y :: ys => do
    let z ← npDim x y
    let zs ← npZip xs ys
    pure (z :: zs)
  | _, _ => some []

theorem npZip_append : ∀ (a b c d : List Int), a.length = b.length →
    npZip (a ++ c) (b ++ d) = (npZip a b).bind fun x => (npZip c d).map (x ++ ·)
  | [], [], c, d, _ => by simp [npZip]
  | x :: a, y :: b, c, d, h => by
    have ih := npZip_append a b c d (by simpa using h)
    simp only [List.cons_append, npZip, ih]
    cases npDim x y <;> simp
    cases npZip a b <;> simp
    cases npZip c d <;> simp

theorem npZip_snoc (a b : List Int) (x y : Int) (h : a.length = b.length) :
    npZip (a ++ [x]) (b ++ [y]) = (npZip a b).bind fun s => (npDim x y).map fun z => s ++ [z] := by
  rw [npZip_append a b [x] [y] h]
  cases npZip a b with
  | none => rfl
  | some v => cases h : npDim x y <;> simp [npZip, h]

theorem npDim_cases {a b z : Int} (h : npDim a b = some z) :
    (a = b ∧ z = a) ∨ (a = 1 ∧ z = b) ∨ (b = 1 ∧ z = a) := by
  unfold npDim at h
  by_cases h1 : a = b
  · rw [if_pos h1] at h; cases h; exact .inl ⟨h1, rfl⟩
  · rw [if_neg h1] at h
    by_cases h2 : a = 1
    · rw [if_pos h2] at h; cases h; exact .inr (.inl ⟨h2, rfl⟩)
    · rw [if_neg h2] at h
      by_cases h3 : b = 1
      · rw [if_pos h3] at h; cases h; exact .inr (.inr ⟨h3, rfl⟩)
      · rw [if_neg h3] at h; cases h

theorem npDim_one_left (y : Int) : npDim 1 y = some y := by
  unfold npDim; by_cases h : (1 : Int) = y <;> simp [h]

theorem npDim_one_right (y : Int) : npDim y 1 = some y := by
  unfold npDim; by_cases h : y = 1 <;> simp [h]

theorem npZip_ones_left : ∀ (ys : List Int) (n : Nat), n = ys.length →
    npZip (List.replicate n 1) ys = some ys
  | [], n, h => by subst h; rfl
  | y :: ys, n, h => by
    subst h
    simp [List.replicate_succ, npZip, npDim_one_left, npZip_ones_left ys _ rfl]

theorem npZip_ones_right : ∀ (ys : List Int) (n : Nat), n = ys.length →
    npZip ys (List.replicate n 1) = some ys
  | [], n, h => by subst h; rfl
  | y :: ys, n, h => by
    subst h
    simp [List.replicate_succ, npZip, npDim_one_right, npZip_ones_right ys _ rfl]

/-- Padding on the left and zipping is NumPy's alignment at the last dimension. -/
theorem npBroadcast_pad : ∀ (xs ys : List Int) (n : Nat), n = max xs.length ys.length →
    npZip (List.replicate (n - xs.length) 1 ++ xs) (List.replicate (n - ys.length) 1 ++ ys) =
      npBroadcast xs ys := by
  intro xs
  induction hx : xs.reverse generalizing xs with
  | nil =>
    intro ys n hn
    have : xs = [] := by simpa using hx
    subst this
    have : n = ys.length := by simpa using hn
    subst this
    simp [npBroadcast, npBroadcastRev, npZip_ones_left]
  | cons x xr ih =>
    intro ys n hn
    have hxs : xs = xr.reverse ++ [x] := by
      have := congrArg List.reverse hx; simpa using this
    subst hxs
    rcases hy : ys.reverse with _ | ⟨y, yr⟩
    · have : ys = [] := by simpa using hy
      subst this
      have : n = (xr.reverse ++ [x]).length := by simpa using hn
      subst this
      simp [npBroadcast, npBroadcastRev]
      rw [← List.length_reverse (as := xr)]
      have h := npZip_ones_right (xr.reverse ++ [x]) (xr.reverse.length + 1) (by simp)
      exact h
    · have hys : ys = yr.reverse ++ [y] := by
        have := congrArg List.reverse hy; simpa using this
      subst hys
      have hn' : n - 1 = max xr.reverse.length yr.reverse.length := by
        simp at hn ⊢; omega
      have ih' := ih xr.reverse (by simp) yr.reverse (n - 1) hn'
      have e1 : n - (xr.reverse ++ [x]).length = n - 1 - xr.reverse.length := by simp; omega
      have e2 : n - (yr.reverse ++ [y]).length = n - 1 - yr.reverse.length := by simp; omega
      rw [e1, e2, ← List.append_assoc, ← List.append_assoc, npZip_snoc, ih']
      · simp only [npBroadcast, List.reverse_append, List.reverse_reverse, List.reverse_cons,
          List.reverse_nil, List.nil_append, List.singleton_append, npBroadcastRev]
        cases npDim x y <;> cases npBroadcastRev xr yr <;> simp
      · simp only [List.length_append, List.length_replicate]; omega

theorem bDim_len {A : SymAlg} : ∀ (s1 s2 r : List A.E), bZip A s1 s2 = some r →
    r.length = min s1.length s2.length
  | [], s2, r, h => by simp [bZip] at h; subst h; simp
  | e :: s1, [], r, h => by simp [bZip] at h; subst h; simp
  | e1 :: s1, e2 :: s2, r, h => by
    simp only [bZip, Option.bind_eq_bind, Option.bind_eq_some_iff] at h
    obtain ⟨e, _, s, h2, h3⟩ := h
    simp only [Option.pure_def, Option.some.injEq] at h3
    subst h3
    have := bDim_len s1 s2 s h2
    simp [this]

/-- Soundness of one dimension: if NumPy accepts the extents at run time, and an unknown extent
is not 1 unless the other one is too, the result is NumPy's. -/
theorem bDim_sound {A : SymAlg} {e1 e2 e : A.E} (h : bDim A e1 e2 = some e) (ρ : A.Env) {z : Int}
    (hz : npDim (A.eval ρ e1) (A.eval ρ e2) = some z)
    (h1 : A.isConst e1 = false → A.isConst e2 = false → A.eval ρ e1 = 1 → A.eval ρ e2 = 1) :
    A.eval ρ e = z := by
  unfold bDim at h
  split at h
  · rename_i he; cases h; subst he; simp [npDim] at hz; exact hz
  split at h
  · rename_i he; cases h; subst he; rw [A.eval_one, npDim_one_left] at hz; cases hz; rfl
  split at h
  · rename_i he; cases h; subst he; rw [A.eval_one, npDim_one_right] at hz; cases hz; rfl
  split at h
  · rename_i n1 n2 n3 hc; cases h
    have hc1 : A.isConst e1 = true := by simp at hc; exact hc.1
    have : A.eval ρ e1 ≠ 1 := fun h => n2 (A.const_canon _ _ hc1 A.const_one (fun σ => by
      rw [A.const_sound _ hc1 σ ρ, h, A.eval_one]))
    rcases npDim_cases hz with ⟨_, h⟩ | ⟨h, _⟩ | ⟨_, h⟩
    · exact h.symm
    · contradiction
    · exact h.symm
  split at h
  · rename_i n1 n2 n3 _ hc; cases h
    have hc1 : A.isConst e2 = true := by simp at hc; exact hc.1
    have : A.eval ρ e2 ≠ 1 := fun h => n3 (A.const_canon _ _ hc1 A.const_one (fun σ => by
      rw [A.const_sound _ hc1 σ ρ, h, A.eval_one]))
    rcases npDim_cases hz with ⟨h, h'⟩ | ⟨_, h⟩ | ⟨h, _⟩
    · rw [h', h]
    · exact h.symm
    · contradiction
  split at h
  · rename_i hc; cases h
    simp at hc
    rcases npDim_cases hz with ⟨_, h⟩ | ⟨hb, h⟩ | ⟨_, h⟩
    · exact h.symm
    · rw [h, hb, h1 hc.1.2 hc.1.1 hb]
    · exact h.symm
  · cases h

/-- The unknown extents of a pair of aligned shapes are not 1 where the other one is not. -/
def Aligned1 (A : SymAlg) (ρ : A.Env) (e1 e2 : A.E) : Prop :=
  A.isConst e1 = false → A.isConst e2 = false → A.eval ρ e1 = 1 → A.eval ρ e2 = 1

theorem bZip_sound {A : SymAlg} (ρ : A.Env) : ∀ (s1 s2 r : List A.E) (z : List Int),
    bZip A s1 s2 = some r → npZip (s1.map (A.eval ρ)) (s2.map (A.eval ρ)) = some z →
    (∀ p ∈ s1.zip s2, Aligned1 A ρ p.1 p.2) → r.map (A.eval ρ) = z
  | [], s2, r, z, h, hz, _ => by simp [bZip] at h; simp [npZip] at hz; simp [← h, hz]
  | e :: s1, [], r, z, h, hz, _ => by simp [bZip] at h; simp [npZip] at hz; simp [← h, hz]
  | e1 :: s1, e2 :: s2, r, z, h, hz, ha => by
    simp only [bZip, Option.bind_eq_bind, Option.bind_eq_some_iff] at h
    obtain ⟨e, he, s, h2, h3⟩ := h
    simp only [Option.pure_def, Option.some.injEq] at h3
    simp only [List.map_cons, npZip, Option.bind_eq_bind, Option.bind_eq_some_iff] at hz
    obtain ⟨w, hw, t, ht, h4⟩ := hz
    simp only [Option.pure_def, Option.some.injEq] at h4
    subst h3; subst h4
    rw [List.map_cons, bDim_sound he ρ hw (ha (e1, e2) (by simp)),
      bZip_sound ρ s1 s2 s t h2 ht (fun p hp => ha p (by simp [hp]))]

theorem switchRank_arr {e : Num} {r : Nat} {o : Option Ord} {k : Int} {u : CTy}
    (h : switchRank (.arr e r o) k = some (.ty u)) : u.rank = k := by
  simp only [switchRank] at h
  by_cases h0 : k = 0
  · rw [if_pos h0] at h; cases h; exact h0.symm
  · rw [if_neg h0] at h
    by_cases h1 : k < 0
    · rw [if_pos h1] at h; cases h
    · rw [if_neg h1] at h
      by_cases h2 : 2 ≤ k ∧ (if k > 1 then o else none) = none
      · rw [if_pos h2] at h; cases h
      · rw [if_neg h2] at h; cases h; simp only [CTy.rank]; omega

/-- Dropping two or more levels of a nested container gives a type of too small a rank. -/
theorem switchRank_gap : ∀ (t : CTy) (k : Int) (tag : Nat), 2 ≤ 1 + t.rank - k →
    ∀ u, switchRank (.cont tag t) k = some (.ty u) → u.rank < k
  | t, k, tag, h, u, hu => by
    have hr : (CTy.cont tag t).rank = 1 + t.rank := rfl
    rw [switchRank] at hu
    by_cases h1 : ¬ k < (CTy.cont tag t).rank
    · rw [if_pos h1] at hu; cases hu
    · rw [if_neg h1, if_neg (by omega)] at hu
      match t, hu with
      | .scalar n, hu => cases hu
      | .arr e r o, hu => have := switchRank_arr hu; omega
      | .cont tag' t', hu =>
        have hr' : (CTy.cont tag' t').rank = 1 + t'.rank := rfl
        have := switchRank_gap t' (k - 1) tag' (by omega) u hu
        omega

end Verif.Types
