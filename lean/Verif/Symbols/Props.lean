import Verif.Symbols.Lemmas

/-!
# C204 — conditions decided at translation

pyccel asks SymPy about the conditions of `if`.  A branch whose condition is found to be false is dropped, and a condition
that is found to be true is not tested.
-/

namespace Verif.Symbols.Props
open Verif.Symbols.Spec Verif.Symbols.Model Verif.Symbols.Lemmas

/-- The last name of a variable or an attribute (none for an element of a shape). -/
def lastName : Node → Option String
  | .var x => some x
  | .dot _ x => some x
  | .shape _ _ => none

/-- Different variables and attributes among `l` have different last names. -/
def Distinct (l : List Node) : Prop :=
  ∀ m ∈ l, ∀ n ∈ l, ∀ x, lastName m = some x → lastName n = some x → m = n

/-- The last names are among the used names. -/
def Used (l : List Node) (used : List String) : Prop := ∀ n ∈ l, ∀ x, lastName n = some x → x ∈ used

theorem lastName_eq (n : Node) : lastName n = nameOf n := by cases n <;> rfl

theorem good {l : List Node} {used : List String} (hd : Distinct l) (hu : Used l used) : Good (· ∈ l) used :=
  ⟨fun m n x hm hn h1 h2 => hd m hm n hn x (by rw [lastName_eq, h1]) (by rw [lastName_eq, h2]),
   fun n x hn h => hu n hn x (by rw [lastName_eq, h])⟩

/-- C204, the part that holds: if the variables and attributes in a condition have different names, and what SymPy finds
out is right, then the condition that is left has the value of the one in the program, for all values of the variables.
Missing: attributes of two objects with one name (`C204_attributes_violated`), floats (`C204_rounding_violated`). -/
theorem C204_condition_partial (fresh : List String → String) (hf : ∀ l, fresh l ∉ l) (f : ℚ → Option ℚ)
    (used : List String) (oracle : Cond String → Option Bool) (ho : Sound f oracle) (c : Cond Node)
    (hd : Distinct c.atoms) (hu : Used c.atoms used) (env : Node → ℚ) (v : Bool) (hv : c.eval f env = some v) :
    (visitCond fresh used oracle c).eval f env = some v := by
  unfold visitCond
  split
  · exact hv
  · rename_i r hr
    obtain ⟨s, st⟩ := r
    obtain ⟨hi, _, hval⟩ := cond_ok (f := f) hf (good hd hu) (fun _ h => h) (inv_nil _ used) hr
    obtain ⟨σ, hσ⟩ := exists_values hi env
    have key := hval env σ hσ
    rw [hv] at key
    split
    · rename_i h
      rw [ho s false h σ v key]; rfl
    · rename_i h
      rw [ho s true h σ v key]; rfl
    · exact hv

/-- SymPy's rule for equations: `Eq(a, a)` is true and `Ne(a, a)` is false; it says nothing about other conditions. -/
def same : Cond String → Option Bool
  | .rel .eq (.atom a) (.atom b) => if a = b then some true else none
  | .rel .ne (.atom a) (.atom b) => if a = b then some false else none
  | _ => none

theorem same_sound (f : ℚ → Option ℚ) : Sound f same := by
  intro s b h σ v hv
  unfold same at h
  split at h
  · split at h
    · rename_i e
      subst e
      simp only [Option.some.injEq] at h
      simp [Cond.eval, Arith.eval, Rel.test] at hv
      rw [← h, ← hv]
    · simp at h
  · split at h
    · rename_i e
      subst e
      simp only [Option.some.injEq] at h
      simp [Cond.eval, Arith.eval, Rel.test] at hv
      rw [← h, ← hv]
    · simp at h
  · simp at h

/-- A name that is longer than all in a list. -/
def long (l : List String) : String := String.ofList (List.replicate ((l.map String.length).foldr max 0 + 1) 'x')

theorem le_foldr_max : ∀ {l : List ℕ} {k : ℕ}, k ∈ l → k ≤ l.foldr max 0
  | a :: l, k, h => by
    rcases List.mem_cons.1 h with rfl | h
    · simp
    · have := le_foldr_max h
      simp only [List.foldr_cons]; omega

theorem long_fresh (l : List String) : long l ∉ l := by
  intro h
  have := le_foldr_max (List.mem_map.2 ⟨_, h, rfl⟩ : (long l).length ∈ l.map String.length)
  simp [long] at this

example : Sound (fun x => some x) same ∧ (∀ l, long l ∉ l) ∧
    Distinct (Cond.rel .eq (.atom (.var "n")) (.atom (.dot (.var "a") "x"))).atoms ∧
    Used (Cond.rel .eq (.atom (.var "n")) (.atom (.dot (.var "a") "x"))).atoms ["n", "x"] := by
  refine ⟨same_sound _, long_fresh, ?_, ?_⟩
  · intro m hm n hn x h1 h2
    simp [Cond.atoms, Arith.atoms] at hm hn
    rcases hm with rfl | rfl <;> rcases hn with rfl | rfl <;> simp_all [lastName]
    · exact absurd (h1.trans h2.symm) (by decide)
    · exact absurd (h1.trans h2.symm) (by decide)
  · intro n hn x h
    simp [Cond.atoms, Arith.atoms] at hn
    rcases hn with rfl | rfl <;> simp_all [lastName]

/-- `a.x` -/
def ax : Node := .dot (.var "a") "x"
/-- `b.x` -/
def bx : Node := .dot (.var "b") "x"

/-- C204 fails: `if a.x == b.x:`, for two objects of a class, is not tested: both attributes become the symbol `x`, so
SymPy finds the condition to be true (and `a.x != b.x` to be false, which drops the branch), although it is false when
the attributes differ. -/
theorem C204_attributes_violated (fresh : List String → String) (f : ℚ → Option ℚ) (used : List String) :
    Sound f same ∧
    visitCond fresh used same (.rel .eq (.atom ax) (.atom bx)) = .lit true ∧
    visitCond fresh used same (.rel .ne (.atom ax) (.atom bx)) = .lit false ∧
    ∃ env, (Cond.rel .eq (.atom ax) (.atom bx)).eval f env = some false ∧
      (Cond.rel .ne (.atom ax) (.atom bx)).eval f env = some true := by
  refine ⟨same_sound f, rfl, rfl, fun n => if n = ax then 1 else 0, ?_, ?_⟩
  · simp [Cond.eval, Arith.eval, Rel.test, ax, bx]
  · simp [Cond.eval, Arith.eval, Rel.test, ax, bx]

/-- `(a + b) - a`, which SymPy writes `b` -/
def cancel {α : Type} (a b : α) : Arith α := .sub (.add (.atom a) (.atom b)) (.atom a)

/-- SymPy's rules for sums: `(a + b) - a` is `b`. -/
def cancels : Cond String → Option Bool
  | .rel .eq (.sub (.add (.atom a) (.atom b)) (.atom c)) (.atom d) => if a = c ∧ b = d then some true else none
  | _ => none

theorem cancels_sound (f : ℚ → Option ℚ) : Sound f cancels := by
  intro s b h σ v hv
  unfold cancels at h
  split at h
  · split at h
    · rename_i e
      obtain ⟨rfl, rfl⟩ := e
      simp only [Option.some.injEq] at h
      simp [Cond.eval, Arith.eval, Rel.test] at hv
      rw [← h, ← hv]
    · simp at h
  · simp at h

/-- C204 fails: `if (a + b) - a == b:` is not tested, as SymPy's numbers are exact, although it is false for the floats
`a = 2.0**53` and `b = 1.0`. -/
theorem C204_rounding_violated (fresh : List String → String) (f : ℚ → Option ℚ) (used : List String) :
    Sound f cancels ∧
    visitCond fresh used cancels (.rel .eq (cancel (.var "a") (.var "b")) (.atom (.var "b"))) = .lit true ∧
    ∃ env : Node → ℚ, env (.var "a") = 2 ^ 53 ∧ env (.var "b") = 1 ∧
      Arith.compare Verif.Floats.fl env .eq (cancel (.var "a") (.var "b")) (.atom (.var "b")) = some false := by
  refine ⟨cancels_sound f, rfl, fun n => if n = .var "a" then 2 ^ 53 else 1, by simp, by simp, ?_⟩
  have h1 : Verif.Floats.fl (9007199254740992 + 1) = 9007199254740992 := by decide +kernel
  have h2 : Verif.Floats.fl (9007199254740992 - 9007199254740992) = 0 := by decide +kernel
  simp only [Arith.compare, cancel, Arith.feval, Option.bind_some, Option.map_some, if_true, Node.var.injEq,
    show ("b" = "a") = False by simp, if_false, show (2 : ℚ) ^ 53 = 9007199254740992 by norm_num, h1, h2, Rel.test]
  rfl

/-- C204, sizes: the size of a comprehension over `range(start, stop)` that SymPy sees has the value of `stop - start`
when every symbol is replaced by what the map has for it, under the same condition on names.
Missing: `C204_size_violated`. -/
theorem C204_size_partial (fresh : List String → String) (hf : ∀ l, fresh l ∉ l) (f : ℚ → Option ℚ)
    (used : List String) (start stop : Arith Node) (hd : Distinct (start.atoms ++ stop.atoms))
    (hu : Used (start.atoms ++ stop.atoms) used) (s : Arith String) (st : State)
    (h : rangeSize fresh used start stop = some (s, st)) (env : Node → ℚ) (σ : String → ℚ)
    (hσ : ∀ x n, back st.map x = some n → σ x = env n) :
    s.eval f σ = (Arith.sub stop start).eval f env := by
  simp only [rangeSize, Option.bind_eq_some_iff, Option.map_eq_some_iff, Prod.mk.injEq] at h
  obtain ⟨⟨s1, st1⟩, h1, ⟨s2, st2⟩, h2, rfl, rfl⟩ := h
  obtain ⟨i1, m1, v1⟩ := toSympy_ok (f := f) hf (good hd hu) (fun n hn => List.mem_append_left _ hn) (inv_nil _ used) h1
  obtain ⟨i2, m2, v2⟩ := toSympy_ok (f := f) hf (good hd hu) (fun n hn => List.mem_append_right _ hn) i1 h2
  have hσ' : ∀ p ∈ st2.map, σ p.1 = env p.2 := fun p hp => hσ p.1 p.2 (back_mem i2 hp)
  simp only [Arith.eval, v1 env σ (fun p hp => hσ' p (m2 p hp)), v2 env σ hσ']

example : Distinct ((Arith.lit 1 : Arith Node).atoms ++ (Arith.atom (Node.shape ax 0)).atoms) ∧
    Used ((Arith.lit 1 : Arith Node).atoms ++ (Arith.atom (Node.shape ax 0)).atoms) [] ∧
    ∃ s, rangeSize long [] (.lit 1) (.atom (.shape ax 0)) = some s := by
  refine ⟨?_, ?_, _, rfl⟩
  · intro m hm n hn x h1 h2
    simp [Arith.atoms] at hm hn
    simp [hm, hn]
  · intro n hn x h
    simp [Arith.atoms] at hn
    subst hn; simp [lastName] at h

/-- C204 fails: the size of a comprehension over `range(a.x, b.x)` is found to be `x - x`, which is `0`, whatever the
attributes are. -/
theorem C204_size_violated (fresh : List String → String) (f : ℚ → Option ℚ) (used : List String) :
    ∃ s st, rangeSize fresh used (.atom ax) (.atom bx) = some (s, st) ∧ (∀ σ, s.eval f σ = some 0) ∧
      ∃ env, (Arith.sub (.atom bx) (.atom ax)).eval f env = some 3 := by
  refine ⟨.sub (.atom "x") (.atom "x"), _, rfl, ?_, fun n => if n = ax then 0 else 3, ?_⟩
  · intro σ; simp [Arith.eval]
  · simp [Arith.eval, ax, bx]

end Verif.Symbols.Props
