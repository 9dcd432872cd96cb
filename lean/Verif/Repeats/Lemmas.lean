import Verif.Repeats.Model

namespace Verif.Repeats
open Spec Model

variable {α : Type}

theorem copies_succ (l : List α) (n : Nat) : copies l (n + 1 : Nat) = l ++ copies l (n : Nat) := by
  simp [copies, List.replicate_succ]

theorem copies_length (l : List α) (n : Int) (h : 0 ≤ n) :
    ((copies l n).length : Int) = l.length * n := by
  obtain ⟨m, rfl⟩ := Int.eq_ofNat_of_zero_le h
  induction m with
  | zero => simp [copies]
  | succ m ih =>
    have := ih (by omega)
    rw [copies_succ, List.length_append]
    push_cast at this ⊢
    rw [this, Int.mul_add]
    omega

theorem shape_eq (e : Expr α) (h : NonNeg e) : shape e = (py e).length := by
  induction e with
  | elems l => rfl
  | cat a b iha ihb => simp [shape, py, iha h.1, ihb h.2]
  | rep a n lit iha => rw [shape, py, iha h.1, copies_length _ _ h.2]

theorem put_append (off : Int) (l m : List α) :
    put off (l ++ m) = put off l ++ put (off + l.length) m := by
  induction l generalizing off with
  | nil => simp [put]
  | cons x r ih =>
    simp only [List.cons_append, put, ih]
    congr 3
    simp
    omega

theorem put_copies (l : List α) (off : Int) (f : Int → List (Int × α))
    (hf : ∀ o, f o = put o l) (n : Nat) :
    ((List.range n).flatMap fun (i : Nat) => f (off + l.length * i)) = put off (copies l n) := by
  induction n with
  | zero => simp [copies, put]
  | succ n ih =>
    have hc : copies l ((n + 1 : Nat) : Int) = copies l (n : Nat) ++ l := by
      simp [copies, List.replicate_succ']
    rw [List.range_succ, List.flatMap_append, ih, hc, put_append]
    have := copies_length l (n : Int) (by omega)
    simp [hf, this]

/-- The stores are the elements, at their positions. -/
theorem stores_eq (e : Expr α) (h : NonNeg e) (off : Int) : stores e off = put off (py e) := by
  induction e generalizing off with
  | elems l => rfl
  | cat a b iha ihb =>
    rw [stores, iha h.1, ihb h.2, shape_eq a h.1, py, put_append]
  | rep a n lit iha =>
    obtain ⟨m, rfl⟩ := Int.eq_ofNat_of_zero_le h.2
    have := put_copies (py a) off (stores a) (iha h.1) m
    simp only [stores, shape_eq a h.1, py]
    split
    · simpa using this
    · rw [← List.flatMap_def]; simpa using this

theorem fold_put (l : List α) (pre : List (Option α)) (k : Nat) (h : k = l.length) :
    (put pre.length l).foldl store (.ok (pre ++ List.replicate k none)) =
      .ok (pre ++ l.map some) := by
  subst h
  induction l generalizing pre with
  | nil => simp [put]
  | cons x r ih =>
    have := ih (pre ++ [some x])
    simp only [put, List.foldl_cons, store]
    rw [if_pos (by simp; omega)]
    simp only [List.length_cons, List.replicate_succ, Int.toNat_natCast, List.set_append_right _ _ (Nat.le_refl _),
      Nat.sub_self, List.set_cons_zero]
    simpa using this

theorem readAll_some (l : List α) : readAll (l.map some) = .ok l := by
  induction l with
  | nil => rfl
  | cons x r ih => simp [readAll, ih]

theorem run_eq (e : Expr α) (h : NonNeg e) : run e = .ok (py e) := by
  unfold run
  rw [shape_eq e h, stores_eq e h]
  have := fold_put (py e) [] (py e).length rfl
  simp only [List.nil_append, List.length_nil] at this
  rw [if_neg (by omega)]
  simp only [Int.toNat_natCast]
  rw [show (0 : Int) = ((0 : Nat) : Int) from rfl, this]
  exact readAll_some _

end Verif.Repeats
