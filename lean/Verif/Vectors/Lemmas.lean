import Verif.Vectors.Model

/-!
# Actions on the store

An assignment of array elements as a pure action that can fail, for reasons that do not depend on the
contents of the arrays; splitting and reordering such actions.
-/

namespace Verif.Vectors.Lemmas
open Spec Model

/-! ## Expressions -/

/-- Evaluation with a given meaning for the references. -/
def evalWith (W : World) (pos : LRef → Loc) (st : St) : LEx → Option Int
  | .lit z => some z
  | .ref r => read W st.σ (pos r)
  | .red g r => ((box (r.dims W)).mapM fun jx => read W st.σ (r.at W jx)).map g
  | .tmp k => some (st.t k)
  | .un f e => (evalWith W pos st e).map f
  | .bin f a b => do return f (← evalWith W pos st a) (← evalWith W pos st b)

theorem eval_eq (W : World) (env : Env) (st : St) (jx : List Nat) (e : LEx) :
    e.eval W env st jx = evalWith W (fun r => r.at W env jx) st e := by
  induction e with
  | un f e ih => simp [LEx.eval, evalWith, ih]
  | bin f a b iha ihb => simp [LEx.eval, evalWith, iha, ihb]
  | _ => simp [LEx.eval, evalWith]

theorem evalWith_map (W : World) (pos : LRef → Loc) (st : St) (f : LRef → LRef) (e : LEx) :
    evalWith W pos st (e.map f) = evalWith W (fun r => pos (f r)) st e := by
  induction e with
  | un f e ih => simp [LEx.map, evalWith, ih]
  | bin f a b iha ihb => simp [LEx.map, evalWith, iha, ihb]
  | _ => simp [LEx.map, evalWith]

theorem evalWith_congr (W : World) (p q : LRef → Loc) (st : St) (e : LEx)
    (h : ∀ r ∈ e.refs, p r = q r) : evalWith W p st e = evalWith W q st e := by
  induction e with
  | ref r => simp [evalWith, h r (by simp [LEx.refs])]
  | un f e ih => simp [evalWith, ih h]
  | bin f a b iha ihb =>
    simp only [evalWith]
    rw [iha fun r hr => h r (by simp [LEx.refs, hr]), ihb fun r hr => h r (by simp [LEx.refs, hr])]
  | _ => rfl

theorem refs_map (f : LRef → LRef) (e : LEx) : (e.map f).refs = e.refs.map f := by
  induction e with
  | un f e ih => simpa [LEx.map, LEx.refs] using ih
  | bin f a b iha ihb => simp [LEx.map, LEx.refs, iha, ihb]
  | _ => rfl

/-- The elements that are read. -/
def rd (W : World) (pos : LRef → Loc) : LEx → List Loc
  | .lit _ => []
  | .ref r => [pos r]
  | .red _ r => (box (r.dims W)).map (r.at W)
  | .tmp _ => []
  | .un _ e => rd W pos e
  | .bin _ a b => rd W pos a ++ rd W pos b

/-- The value, if all the elements exist. -/
def pval (W : World) (pos : LRef → Loc) (st : St) : LEx → Int
  | .lit z => z
  | .ref r => st.σ (pos r).1 (pos r).2
  | .red g r => g ((box (r.dims W)).map fun jx => st.σ (r.at W jx).1 (r.at W jx).2)
  | .tmp k => st.t k
  | .un f e => f (pval W pos st e)
  | .bin f a b => f (pval W pos st a) (pval W pos st b)

theorem mapM_some {α β : Type} (f : α → Option β) (g : α → β) (l : List α)
    (h : ∀ x ∈ l, f x = some (g x)) : l.mapM f = some (l.map g) := by
  induction l with
  | nil => rfl
  | cons a l ih =>
    rw [List.mapM_cons, h a (by simp), ih fun x hx => h x (by simp [hx])]
    rfl

theorem mapM_none {α β : Type} (f : α → Option β) (l : List α) (x : α) (hx : x ∈ l)
    (h : f x = none) : l.mapM f = none := by
  induction l with
  | nil => simp at hx
  | cons a l ih =>
    rw [List.mapM_cons]
    rcases List.mem_cons.1 hx with rfl | hx
    · rw [h]; rfl
    · rw [ih hx]
      cases f a <;> rfl

theorem read_some {W : World} {l : Loc} (h : Inside W l) (σ : Store) :
    Spec.read W σ l = some (σ l.1 l.2) := by
  simp [Spec.read, h]

theorem read_none {W : World} {l : Loc} (h : ¬ Inside W l) (σ : Store) :
    Spec.read W σ l = none := by
  simp [Spec.read, h]

theorem evalWith_some (W : World) (pos : LRef → Loc) (st : St) (e : LEx)
    (h : ∀ l ∈ rd W pos e, Inside W l) : evalWith W pos st e = some (pval W pos st e) := by
  induction e with
  | lit z => rfl
  | tmp k => rfl
  | ref r => exact read_some (h _ (by simp [rd])) _
  | red g r =>
    simp only [evalWith, pval]
    rw [mapM_some _ (fun jx => st.σ (r.at W jx).1 (r.at W jx).2)]
    · rfl
    · intro x hx
      exact read_some (h _ (by simp only [rd, List.mem_map]; exact ⟨x, hx, rfl⟩)) _
  | un f e ih => simp only [evalWith, pval, ih h]; rfl
  | bin f a b iha ihb =>
    simp only [evalWith, pval]
    rw [iha fun l hl => h l (by simp [rd, hl]), ihb fun l hl => h l (by simp [rd, hl])]
    rfl

theorem evalWith_none (W : World) (pos : LRef → Loc) (st : St) (e : LEx) (l : Loc)
    (hl : l ∈ rd W pos e) (h : ¬ Inside W l) : evalWith W pos st e = none := by
  induction e with
  | lit z => simp [rd] at hl
  | tmp k => simp [rd] at hl
  | ref r =>
    simp only [rd, List.mem_singleton] at hl
    subst hl
    exact read_none h _
  | red g r =>
    simp only [rd, List.mem_map] at hl
    obtain ⟨jx, hj, rfl⟩ := hl
    simp only [evalWith]
    rw [mapM_none _ _ jx hj (read_none h _)]
    rfl
  | un f e ih => simp only [evalWith]; rw [ih hl]; rfl
  | bin f a b iha ihb =>
    simp only [rd, List.mem_append] at hl
    simp only [evalWith]
    rcases hl with hl | hl
    · rw [iha hl]; rfl
    · rw [ihb hl]; cases evalWith W pos st a <;> rfl

theorem pval_congr (W : World) (pos : LRef → Loc) (e : LEx) (st st' : St) (ht : st.t = st'.t)
    (h : ∀ l ∈ rd W pos e, st.σ l.1 l.2 = st'.σ l.1 l.2) : pval W pos st e = pval W pos st' e := by
  induction e with
  | lit z => rfl
  | tmp k => simp [pval, ht]
  | ref r => exact h _ (by simp [rd])
  | red g r =>
    simp only [pval]
    congr 1
    apply List.map_congr_left
    intro x hx
    exact h _ (by simp only [rd, List.mem_map]; exact ⟨x, hx, rfl⟩)
  | un f e ih => simp only [pval, ih h]
  | bin f a b iha ihb =>
    simp only [pval]
    rw [iha fun l hl => h l (by simp [rd, hl]), ihb fun l hl => h l (by simp [rd, hl])]

/-! ## Actions -/

/-- An assignment, for every index: the element it writes, the elements it reads, and the value. -/
structure Act where
  tgt : List Nat → Loc
  src : List Nat → List Loc
  val : List Nat → St → Int
  local' : ∀ ix st st', st.t = st'.t → (∀ l ∈ src ix, st.σ l.1 l.2 = st'.σ l.1 l.2) →
    val ix st = val ix st'

/-- The action of an assignment with a given meaning for the references. -/
def act (W : World) (tgt : List Nat → Loc) (pos : List Nat → LRef → Loc) (e : List Nat → LEx) :
    Act where
  tgt := tgt
  src ix := rd W (pos ix) (e ix)
  val ix st := pval W (pos ix) st (e ix)
  local' ix st st' ht h := pval_congr W (pos ix) (e ix) st st' ht h

/-- All the elements exist. -/
def Fine (W : World) (A : Act) (ixs : List (List Nat)) : Prop :=
  ∀ ix ∈ ixs, Inside W (A.tgt ix) ∧ ∀ l ∈ A.src ix, Inside W l

/-- The store after values were stored that were computed in state `st`. -/
def after (A : Act) (st : St) (σ : Store) : List (List Nat) → Store
  | [] => σ
  | ix :: ixs => after A st (put σ (A.tgt ix) (A.val ix st)) ixs

open Classical in
/-- Evaluate for all these indices, then store. -/
noncomputable def chunk (W : World) (A : Act) (ixs : List (List Nat)) (st : St) : Option St :=
  if Fine W A ixs then some ⟨after A st st.σ ixs, st.t⟩ else none

theorem put_self (σ : Store) (l : Loc) (z : Int) : put σ l z l.1 l.2 = z := by simp [put]

theorem put_ne (σ : Store) (l l' : Loc) (z : Int) (h : l' ≠ l) :
    put σ l z l'.1 l'.2 = σ l'.1 l'.2 := by
  unfold put
  rw [if_neg]
  exact h

theorem put_comm (σ : Store) (l l' : Loc) (z z' : Int) (h : l ≠ l') :
    put (put σ l z) l' z' = put (put σ l' z') l z := by
  funext v k
  simp only [put]
  by_cases h1 : (v, k) = l
  · by_cases h2 : (v, k) = l'
    · exact absurd (h1.symm.trans h2) h
    · simp [h1, h]
  · simp [h1]

theorem after_append (A : Act) (st : St) (σ : Store) (xs ys : List (List Nat)) :
    after A st σ (xs ++ ys) = after A st (after A st σ xs) ys := by
  induction xs generalizing σ with
  | nil => rfl
  | cons x xs ih => simp only [List.cons_append, after, ih]

theorem after_other (A : Act) (st : St) (σ : Store) (xs : List (List Nat)) (l : Loc)
    (h : ∀ x ∈ xs, A.tgt x ≠ l) : after A st σ xs l.1 l.2 = σ l.1 l.2 := by
  induction xs generalizing σ with
  | nil => rfl
  | cons x xs ih =>
    simp only [after]
    rw [ih _ fun y hy => h y (by simp [hy]), put_ne]
    exact fun e => h x (by simp) e.symm

theorem after_congr (A : Act) (st st' : St) (σ : Store) (xs : List (List Nat))
    (h : ∀ x ∈ xs, A.val x st = A.val x st') : after A st σ xs = after A st' σ xs := by
  induction xs generalizing σ with
  | nil => rfl
  | cons x xs ih =>
    simp only [after, h x (by simp)]
    exact ih _ fun y hy => h y (by simp [hy])

theorem after_put (A : Act) (st : St) (σ : Store) (xs : List (List Nat)) (l : Loc) (z : Int)
    (h : ∀ x ∈ xs, A.tgt x ≠ l) : after A st (put σ l z) xs = put (after A st σ xs) l z := by
  induction xs generalizing σ with
  | nil => rfl
  | cons x xs ih =>
    simp only [after]
    rw [put_comm _ _ _ _ _ fun e => h x (by simp) e.symm]
    exact ih _ fun y hy => h y (by simp [hy])

theorem after_comm (A B : Act) (st st' : St) (σ : Store) (xs ys : List (List Nat))
    (h : ∀ x ∈ xs, ∀ y ∈ ys, A.tgt x ≠ B.tgt y) :
    after B st' (after A st σ xs) ys = after A st (after B st' σ ys) xs := by
  induction ys generalizing σ with
  | nil => rfl
  | cons y ys ih =>
    simp only [after]
    rw [← ih _ fun x hx y' hy => h x hx y' (by simp [hy]),
      after_put A st σ xs _ _ fun x hx => h x hx y (by simp)]

theorem fine_append (W : World) (A : Act) (xs ys : List (List Nat)) :
    Fine W A (xs ++ ys) ↔ Fine W A xs ∧ Fine W A ys := by
  simp only [Fine, List.mem_append]
  constructor
  · exact fun h => ⟨fun x hx => h x (.inl hx), fun x hx => h x (.inr hx)⟩
  · rintro ⟨h1, h2⟩ x (hx | hx)
    · exact h1 x hx
    · exact h2 x hx

/-- Two parts of an assignment can be done one after the other if the second does not read what the
first writes. -/
theorem chunk_append (W : World) (A : Act) (xs ys : List (List Nat)) (st : St)
    (h : ∀ x ∈ xs, ∀ y ∈ ys, A.tgt x ∉ A.src y) :
    chunk W A (xs ++ ys) st = (chunk W A xs st).bind (chunk W A ys) := by
  unfold chunk
  by_cases h1 : Fine W A xs
  · by_cases h2 : Fine W A ys
    · rw [if_pos ((fine_append ..).2 ⟨h1, h2⟩), if_pos h1, Option.bind_some, if_pos h2]
      rw [after_append]
      congr 2
      apply after_congr
      intro y hy
      refine A.local' _ _ _ (by rfl) ?_
      intro l hl
      exact (after_other A st st.σ xs l fun x hx e => h x hx y hy (e ▸ hl)).symm
    · rw [if_neg fun h => h2 ((fine_append ..).1 h).2, if_pos h1, Option.bind_some, if_neg h2]
  · rw [if_neg fun h => h1 ((fine_append ..).1 h).1, if_neg h1]
    rfl

/-- Assignments that do not touch each other's elements can be swapped. -/
theorem chunk_comm (W : World) (A B : Act) (xs ys : List (List Nat)) (st : St)
    (h : ∀ x ∈ xs, ∀ y ∈ ys, A.tgt x ≠ B.tgt y ∧ A.tgt x ∉ B.src y ∧ B.tgt y ∉ A.src x) :
    (chunk W A xs st).bind (chunk W B ys) = (chunk W B ys st).bind (chunk W A xs) := by
  unfold chunk
  by_cases h1 : Fine W A xs <;> by_cases h2 : Fine W B ys
  · rw [if_pos h1, if_pos h2, Option.bind_some, Option.bind_some, if_pos h1, if_pos h2]
    congr 2
    have e1 : after B ⟨after A st st.σ xs, st.t⟩ (after A st st.σ xs) ys =
        after B st (after A st st.σ xs) ys := by
      apply after_congr
      intro y hy
      refine B.local' _ _ _ (by rfl) ?_
      intro l hl
      exact after_other A st st.σ xs l fun x hx e => (h x hx y hy).2.1 (e ▸ hl)
    have e2 : after A ⟨after B st st.σ ys, st.t⟩ (after B st st.σ ys) xs =
        after A st (after B st st.σ ys) xs := by
      apply after_congr
      intro x hx
      refine A.local' _ _ _ (by rfl) ?_
      intro l hl
      exact after_other B st st.σ ys l fun y hy e => (h x hx y hy).2.2 (e ▸ hl)
    rw [e1, e2]
    exact after_comm A B st st st.σ xs ys fun x hx y hy => (h x hx y hy).1
  · rw [if_pos h1, if_neg h2, Option.bind_some, if_neg h2]; rfl
  · rw [if_neg h1, if_pos h2, Option.bind_some, if_neg h1]; rfl
  · rw [if_neg h1, if_neg h2]; rfl

/-- The monadic form of `chunk`. -/
theorem chunk_eq (W : World) (tgt : List Nat → Loc) (pos : List Nat → LRef → Loc) (e : List Nat → LEx)
    (ixs : List (List Nat)) (st : St) :
    (do let zs ← ixs.mapM fun ix => evalWith W (pos ix) st (e ix)
        let σ ← stores W st.σ ((ixs.map tgt).zip zs)
        return ({ st with σ := σ } : St)) = chunk W (act W tgt pos e) ixs st := by
  have hw : ∀ (xs : List (List Nat)) (σ : Store), (∀ x ∈ xs, Inside W (tgt x)) →
      stores W σ ((xs.map tgt).zip (xs.map fun ix => pval W (pos ix) st (e ix))) =
        some (after (act W tgt pos e) st σ xs) := by
    intro xs
    induction xs with
    | nil => intro σ _; rfl
    | cons x xs ih =>
      intro σ h
      simp only [List.map_cons, List.zip_cons_cons, stores, Spec.write, if_pos (h x (by simp)), after]
      exact ih _ fun y hy => h y (by simp [hy])
  have hn : ∀ (xs : List (List Nat)) (σ : Store), (¬ ∀ x ∈ xs, Inside W (tgt x)) →
      stores W σ ((xs.map tgt).zip (xs.map fun ix => pval W (pos ix) st (e ix))) = none := by
    intro xs
    induction xs with
    | nil => intro σ h; simp at h
    | cons x xs ih =>
      intro σ h
      simp only [List.map_cons, List.zip_cons_cons, stores, Spec.write]
      by_cases hx : Inside W (tgt x)
      · rw [if_pos hx]
        exact ih _ fun h' => h fun y hy => by
          rcases List.mem_cons.1 hy with rfl | hy
          · exact hx
          · exact h' y hy
      · rw [if_neg hx]; rfl
  unfold chunk
  by_cases h : ∀ ix ∈ ixs, ∀ l ∈ rd W (pos ix) (e ix), Inside W l
  · rw [mapM_some _ (fun ix => pval W (pos ix) st (e ix)) ixs
      fun ix hx => evalWith_some W (pos ix) st (e ix) (h ix hx)]
    by_cases h' : ∀ ix ∈ ixs, Inside W (tgt ix)
    · rw [if_pos (show Fine W (act W tgt pos e) ixs from fun ix hx => ⟨h' ix hx, h ix hx⟩)]
      simp [hw ixs st.σ h']
    · rw [if_neg fun hf => h' fun ix hx => (hf ix hx).1]
      simp [hn ixs st.σ h']
  · rw [if_neg fun hf => h fun ix hx => (hf ix hx).2]
    obtain ⟨ix, hx⟩ := Classical.not_forall.1 h
    obtain ⟨hx, h⟩ := Classical.not_imp.1 hx
    obtain ⟨l, hl⟩ := Classical.not_forall.1 h
    obtain ⟨hl, h⟩ := Classical.not_imp.1 hl
    rw [mapM_none _ ixs ix hx (evalWith_none W (pos ix) st (e ix) l hl h)]
    rfl

end Verif.Vectors.Lemmas
