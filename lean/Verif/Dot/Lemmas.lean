import Verif.Dot.Model

/-!
# Dot products: lemmas
-/

namespace Verif.Dot.Lemmas
open Verif.Dot.Spec Verif.Dot.Model

theorem add_assoc' (a b c : Num) : (a.add b).add c = a.add (b.add c) := by
  simp only [Num.add, Num.mk.injEq]
  exact ⟨Rat.add_assoc _ _ _, Rat.add_assoc _ _ _⟩

theorem add_zero' (a : Num) : a.add .zero = a := by
  cases a
  simp [Num.add, Num.zero]

theorem zero_add' (a : Num) : Num.add .zero a = a := by
  cases a
  simp [Num.add, Num.zero]

/-- The loop adds the terms to the start value of the target. -/
theorem loop_eq (f : Fun) {conv : Num → Num} (hc : ∀ x y, conv ((conv x).add y) = conv (x.add y))
    (m : Mem) (t : Place) (a b : Vec) (s : Num) :
    ∀ n, (∀ i, i < n → a.place i ≠ t) → (∀ i, i < n → b.place i ≠ t) →
      loop f conv t a b n (store m t (conv s)) = store m t (conv (s.add (dot f m a b n))) := by
  intro n
  induction n with
  | zero => intro _ _; simp [loop, dot, add_zero']
  | succ n ih =>
    intro ha hb
    rw [loop, ih (fun i hi => ha i (by omega)) (fun i hi => hb i (by omega))]
    have h1 : (store m t (conv (s.add (dot f m a b n)))) (a.place n) = m (a.place n) := by
      simp [store, ha n (by omega)]
    have h2 : (store m t (conv (s.add (dot f m a b n)))) (b.place n) = m (b.place n) := by
      simp [store, hb n (by omega)]
    have h3 : (store m t (conv (s.add (dot f m a b n)))) t = conv (s.add (dot f m a b n)) := by
      simp [store]
    unfold step
    simp only [h1, h2, h3]
    have h4 : termC f (m (a.place n)) (m (b.place n)) = f.term (m (a.place n)) (m (b.place n)) := by
      cases f <;> rfl
    rw [h4, hc, add_assoc', dot]
    funext q
    by_cases hq : q = t <;> simp [store, hq]

theorem foldl_range (g : Nat → Num) (s : Num) (n : Nat) :
    ((List.range (n + 1)).map g).foldl Num.add s = (((List.range n).map g).foldl Num.add s).add (g n) := by
  rw [List.range_succ, List.map_append, List.foldl_append]
  rfl

theorem sum_eq_dot (f : Fun) (m : Mem) (a b : Vec) (n : Nat) :
    ((List.range n).map fun i => termF f (m (a.place i)) (m (b.place i))).foldl Num.add .zero = dot f m a b n := by
  induction n with
  | zero => rfl
  | succ n ih =>
    rw [foldl_range, ih, dot]
    cases f <;> rfl

end Verif.Dot.Lemmas
