import Verif.Vectors.Lemmas3

/-!
# Loops

The meaning of the trees `collect_loops` makes, and what `insert_fors` makes of them; a line in a
nest of loops of its own; fusing a line with the loops that are already there.
-/

namespace Verif.Vectors.Lemmas
open Spec Model

/-- A loop variable gets a value. -/
def upd (env : Env) (k i : Nat) : Env := fun j => if j = k then i else env j

mutual
/-- The loops of a tree; `lv` is the number of loops around it. -/
def trun (W : World) (lv : Nat) (env : Env) (st : St) : Tree → Option St
  | .item i => i.run W env st
  | .loop n b => loop (fun i st => frun W (lv + 1) (upd env lv i) st b) (n.val W.ρ) st
def frun (W : World) (lv : Nat) (env : Env) (st : St) : Forest → Option St
  | .nil => some st
  | .snoc f t => (frun W lv env st f).bind fun st => trun W lv env st t
end

/-! ## `insert_fors` -/

theorem run_append (W : World) (env : Env) (st : St) (cs ds : Codes) :
    (cs.append ds).run W env st = (cs.run W env st).bind fun st => ds.run W env st := by
  match cs with
  | .nil => simp [Codes.append, Codes.run]
  | .cons c cs =>
    simp only [Codes.append, Codes.run, Option.bind_assoc]
    congr 1
    funext st
    exact run_append W env st cs ds

theorem llocate_zero (W : World) (env : Env) (k : Nat) (ds : List Size) (ss : List LSub)
    (jx : List Nat) :
    llocate W env (ds.zip (ss.map (LSub.zero k))) jx = llocate W (upd env k 0) (ds.zip ss) jx := by
  induction ss generalizing ds jx with
  | nil => simp [llocate]
  | cons s ss ih =>
    cases ds with
    | nil => simp [llocate]
    | cons d ds =>
      cases s with
      | «at» n => simp only [List.map_cons, LSub.zero, List.zip_cons_cons, llocate, ih]
      | sl a b n =>
        cases jx with
        | nil => simp [LSub.zero, llocate]
        | cons j jx => simp only [List.map_cons, LSub.zero, List.zip_cons_cons, llocate, ih]
      | ix a b i =>
        simp only [List.map_cons, LSub.zero, List.zip_cons_cons, llocate, ih]
        congr 2
        cases i with
        | lit n => rfl
        | lvl n =>
          by_cases h : n = k
          · simp [h, Ix.val, upd]
          · simp [h, Ix.val, upd]

theorem llens_zero (k : Nat) (r : LRef) : llens (r.zero k).subs = llens r.subs := by
  simp only [LRef.zero]
  induction r.subs with
  | nil => rfl
  | cons s ss ih => cases s <;> simp [LSub.zero, llens, ih]

theorem at_zero (W : World) (env : Env) (k : Nat) (jx : List Nat) (r : LRef) :
    (r.zero k).at W env jx = r.at W (upd env k 0) jx := by
  simp only [LRef.at, Prod.mk.injEq]
  exact ⟨rfl, llocate_zero W env k _ r.subs _⟩

theorem dims_zero (W : World) (k : Nat) (r : LRef) : (r.zero k).dims W = r.dims W := by
  simp only [LRef.dims, LRef.shape, llens_zero]
  rfl

theorem eval_zero (W : World) (env : Env) (k : Nat) (st : St) (jx : List Nat) (e : LEx) :
    (e.map (·.zero k)).eval W env st jx = e.eval W (upd env k 0) st jx := by
  rw [eval_eq, eval_eq, evalWith_map]
  apply evalWith_congr
  intro r _
  exact at_zero W env k jx r

theorem conforms_zero (W : World) (k : Nat) (to : List Nat) (e : LEx) :
    Conforms W to (e.map (·.zero k)).refs ↔ Conforms W to e.refs := by
  simp only [Conforms, refs_map, List.forall_mem_map, dims_zero]

theorem item_zero (W : World) (env : Env) (k : Nat) (st : St) (i : Item) :
    (i.zero k).run W env st = i.run W (upd env k 0) st := by
  cases i with
  | tmp n g r => rfl
  | line l =>
    simp only [Item.zero, Item.run, Line.map, dims_zero, conforms_zero, eval_zero, at_zero]
  | tuple l es =>
    simp only [Item.zero, Item.run, dims_zero, List.length_map, List.forall_mem_map, conforms_zero,
      at_zero, List.mapM_map, Function.comp_def, eval_zero]

mutual
/-- All the loop variables are those of level `lv` or deeper. -/
def Deep (lv : Nat) : Code → Prop
  | .item _ => True
  | .for k _ b => lv ≤ k ∧ Deeps lv b
def Deeps (lv : Nat) : Codes → Prop
  | .nil => True
  | .cons c cs => Deep lv c ∧ Deeps lv cs
end

mutual
theorem deep_mono {a b : Nat} (h : a ≤ b) : (c : Code) → Deep b c → Deep a c
  | .item _, _ => trivial
  | .for _ _ cs, hd => ⟨Nat.le_trans h hd.1, deeps_mono h cs hd.2⟩
theorem deeps_mono {a b : Nat} (h : a ≤ b) : (cs : Codes) → Deeps b cs → Deeps a cs
  | .nil, _ => trivial
  | .cons c cs, hd => ⟨deep_mono h c hd.1, deeps_mono h cs hd.2⟩
end

mutual
theorem deep_zero (lv k : Nat) : (c : Code) → Deep lv c → Deep lv (c.zero k)
  | .item _, _ => trivial
  | .for _ _ cs, hd => ⟨hd.1, deeps_zero lv k cs hd.2⟩
theorem deeps_zero (lv k : Nat) : (cs : Codes) → Deeps lv cs → Deeps lv (cs.zero k)
  | .nil, _ => trivial
  | .cons c cs, hd => ⟨deep_zero lv k c hd.1, deeps_zero lv k cs hd.2⟩
end

theorem deeps_append (lv : Nat) (cs ds : Codes) (h : Deeps lv cs) (h' : Deeps lv ds) :
    Deeps lv (cs.append ds) := by
  match cs with
  | .nil => exact h'
  | .cons c cs => exact ⟨h.1, deeps_append lv cs ds h.2 h'⟩

mutual
theorem tfors_deep (lv : Nat) : (t : Tree) → Deeps lv (t.fors lv)
  | .item _ => ⟨trivial, trivial⟩
  | .loop n b => by
    rw [Tree.fors]
    have h := deeps_mono (Nat.le_succ lv) _ (ffors_deep (lv + 1) b)
    split
    · exact deeps_zero lv lv _ h
    · exact ⟨⟨Nat.le_refl _, h⟩, trivial⟩
theorem ffors_deep (lv : Nat) : (f : Forest) → Deeps lv (f.fors lv)
  | .nil => trivial
  | .snoc f t => deeps_append lv _ _ (ffors_deep lv f) (tfors_deep lv t)
end

theorem upd_comm (env : Env) (j k a b : Nat) (h : j ≠ k) :
    upd (upd env j a) k b = upd (upd env k b) j a := by
  funext q
  simp only [upd]
  by_cases h1 : q = k
  · subst h1
    simp [Ne.symm h]
  · simp [h1]

mutual
theorem code_zero (W : World) (k : Nat) (env : Env) (st : St) : (c : Code) → Deep (k + 1) c →
    (c.zero k).run W env st = c.run W (upd env k 0) st
  | .item i, _ => by simpa [Code.zero, Code.run] using item_zero W env k st i
  | .for j n b, hd => by
    simp only [Code.zero, Code.run]
    congr 1
    funext i st
    have := codes_zero W k (upd env j i) st b hd.2
    rw [upd_comm _ _ _ _ _ (by have := hd.1; omega)] at this
    exact this
theorem codes_zero (W : World) (k : Nat) (env : Env) (st : St) : (cs : Codes) → Deeps (k + 1) cs →
    (cs.zero k).run W env st = cs.run W (upd env k 0) st
  | .nil, _ => by simp [Codes.zero, Codes.run]
  | .cons c cs, hd => by
    simp only [Codes.zero, Codes.run]
    rw [code_zero W k env st c hd.1]
    congr 1
    funext st
    exact codes_zero W k env st cs hd.2
end

mutual
theorem tfors_run (W : World) (lv : Nat) (env : Env) (st : St) : (t : Tree) →
    (t.fors lv).run W env st = trun W lv env st t
  | .item i => by
    simp only [Tree.fors, Codes.run, Code.run, trun]
    cases i.run W env st <;> rfl
  | .loop n b => by
    rw [Tree.fors]
    split
    · rename_i h
      subst h
      rw [codes_zero W lv env st _ (ffors_deep (lv + 1) b), ffors_run W (lv + 1)]
      simp [trun, loop, Size.val]
    · simp only [Codes.run, Code.run, trun]
      have : (fun i st => (b.fors (lv + 1)).run W (fun j => if j = lv then i else env j) st) =
          fun i st => frun W (lv + 1) (upd env lv i) st b := by
        funext i st
        exact ffors_run W (lv + 1) (upd env lv i) st b
      rw [this]
      cases loop _ _ st <;> rfl
theorem ffors_run (W : World) (lv : Nat) (env : Env) (st : St) : (f : Forest) →
    (f.fors lv).run W env st = frun W lv env st f
  | .nil => by simp [Forest.fors, Codes.run, frun]
  | .snoc f t => by
    simp only [Forest.fors, run_append, frun]
    rw [ffors_run W lv env st f]
    congr 1
    funext st
    exact tfors_run W lv env st t
end

end Verif.Vectors.Lemmas
