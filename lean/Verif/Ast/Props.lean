import Verif.Ast.Search
/-!
# C33, C62: parent links of AST nodes, substitution
-/

namespace Verif.Ast
open Spec Relation

/-- The state of the graph is consistent. -/
structure Ok (h : Heap) : Prop where
  links : Links h.kids h.users h.stage h.dead
  unused : DeadUnused h.users h.dead
  exist : ∀ m, ∀ k ∈ h.kids m, k < h.size
  fresh : ∀ m, h.size ≤ m → h.kids m = [] ∧ h.users m = [] ∧ h.dead m = false

theorem Ok.good {h : Heap} (ho : Ok h) : Good h h.kids (fun _ _ => 0) := by
  refine ⟨?_, ho.unused, ?_, ?_⟩
  · intro c p
    by_cases hd : h.dead p = true
    · by_cases hs : h.stage c = h.stage p
      · simp only [hd, hs, and_self, if_true, Nat.add_zero]
        exact List.count_eq_zero.2 (ho.links.2.1 c p hd hs)
      · simp only [hs, and_false, if_false, Nat.add_zero]
        exact ho.links.2.2 c p hd hs
    · simp only [hd, false_and, if_false, Nat.add_zero]
      exact ho.links.1 c p (by simpa using hd)
  · intro c hc
    by_contra hlt
    exact hc (ho.fresh c (by omega)).2.1
  · intro c hc
    by_contra hlt
    rw [(ho.fresh c (by omega)).2.2] at hc
    cases hc

theorem Good.ok {h : Heap} (hg : Good h h.kids (fun _ _ => 0))
    (he : ∀ m, ∀ k ∈ h.kids m, k < h.size) (hf : ∀ m, h.size ≤ m → h.kids m = []) : Ok h := by
  refine ⟨⟨?_, ?_, ?_⟩, hg.deadUnused, he, ?_⟩
  · intro c p hd
    rw [hg.cnt]
    simp [hd]
  · intro c p hd hs
    rw [← List.count_eq_zero, hg.cnt]
    simp [hd, hs]
  · intro c p hd hs
    rw [hg.cnt]
    simp [hs]
  · intro m hm
    refine ⟨hf m hm, ?_, ?_⟩
    · by_contra hne
      have := hg.range m hne
      omega
    · by_contra hne
      have := hg.deadRange m (by simpa using hne)
      omega

/-- One edit of the AST. -/
inductive Op where
  /-- creation of a node with the given attributes and stage -/
  | create (ks : List Nat) (stage : Nat)
  /-- `CodeBlock.insert2body` -/
  | insert (p : Nat) (ks : List Nat)
  /-- assignment of an attribute (`FunctionDef.body = …`) -/
  | assign (p : Nat) (pre : List Nat) (old new : Nat) (post : List Nat)
  /-- `invalidate_node` -/
  | invalidate (c : Nat)
  /-- `substitute` -/
  | substitute (s : Subst) (root : Nat)

def Op.apply (h : Heap) : Op → Res
  | .create ks st => .ok (Ast.create h ks st)
  | .insert p ks => .ok (insertBack h p ks)
  | .assign p pre old new post => setAttr h p pre old new post
  | .invalidate c => Ast.invalidate h c
  | .substitute s root => Ast.substitute s h root

/-- The node exists and was not discarded. -/
def Usable (h : Heap) (n : Nat) : Prop := n < h.size ∧ h.dead n = false

instance (h : Heap) (n : Nat) : Decidable (Usable h n) := by unfold Usable; infer_instance

/-- How the code is expected to edit the AST. -/
def Op.Allowed (h : Heap) : Op → Prop
  | .create ks _ => ∀ k ∈ ks, Usable h k
  | .insert p ks => Usable h p ∧ ∀ k ∈ ks, Usable h k
  | .assign p pre old new post => Usable h p ∧ Usable h new ∧ h.kids p = pre ++ [old] ++ post ∧
      ¬ Reach h.kids old p ∧ ¬ Reach h.kids old new
  | .invalidate c => Usable h c ∧ h.users c = []
  | .substitute s root => Usable h root ∧ Acyclic h.kids ∧
      -- the root is not part of a replaced node
      (∀ o, s.rep o ≠ none → ¬ Reach h.kids o root) ∧
      ∀ o rs, s.rep o = some rs → ∀ q ∈ rs, Usable h q ∧
        -- no original inside a replacement
        (∀ o', s.rep o' ≠ none → ¬ Reach h.kids q o') ∧
        -- and, if unused nodes are discarded, no replacement inside an original
        (s.inv = true → ∀ o', s.rep o' ≠ none → ¬ Reach h.kids o' q)

theorem Setting.of_allowed {h : Heap} (ho : Ok h) {s : Subst} {root : Nat}
    (ha : Op.Allowed h (.substitute s root)) : Setting s h root ∧ Inv s h root h := by
  obtain ⟨h1, h2, h3, h4⟩ := ha
  refine ⟨⟨h2, ho.exist, h1.1, ?_, ?_, ?_, ?_⟩, ?_⟩
  · rintro ⟨o, h5, h6⟩; exact h3 o h5 h6
  · intro o rs hr q hq; exact (h4 o rs hr q hq).1.1
  · intro o rs hr q hq m hm
    by_contra hne
    exact (h4 o rs hr q hq).2.1 m hne hm
  · rintro hi o rs hr q hq ⟨o', h5, h6⟩
    exact (h4 o rs hr q hq).2.2 hi o' h5 h6
  · refine ⟨rfl, rfl, ho.good, ?_, ?_, ?_⟩
    · intro m
      exact ⟨[], h.kids m, rfl, rfl, fun _ => rfl⟩
    · intro m hm
      induction hm with
      | root => exact h1.2
      | @step m k _ hk _ ih =>
        by_contra hne
        have h5 := ho.unused k (by simpa using hne)
        have h6 := ho.links.1 k m ih
        rw [h5] at h6
        have := List.count_pos_iff.2 hk
        simp at h6
        omega
    · intro o rs hr q hq; exact (h4 o rs hr q hq).1.2

theorem substitute_ok {h : Heap} (ho : Ok h) {s : Subst} {root : Nat}
    (ha : Op.Allowed h (.substitute s root)) :
    ∃ h', Ast.substitute s h root = .ok h' ∧ Visited s h root root h h' := by
  obtain ⟨st, hj⟩ := Setting.of_allowed ho ha
  exact visit s h root st (h.size + 1) [] h root hj .root st.rootRange List.nodup_nil (by simp)
    (by simp) (by simp) (fun m _ => Or.inl rfl)

theorem Op.apply_ok {h : Heap} (ho : Ok h) (op : Op) (ha : op.Allowed h) :
    ∃ h', op.apply h = .ok h' ∧ Ok h' := by
  cases op with
  | create ks st =>
    refine ⟨_, rfl, ?_⟩
    obtain ⟨h1, h2, h3, h4, h5, h6⟩ := addUsers_spec ks h.size
      { h with size := h.size + 1, kids := put h.kids h.size ks, stage := put h.stage h.size st }
    have hfr := ho.fresh h.size (Nat.le_refl _)
    have hnk : ∀ m, h.size ∉ h.kids m := fun m hm => Nat.lt_irrefl _ (ho.exist m _ hm)
    have hg := ho.good
    have hnu : ∀ c, h.size ∉ h.users c := by
      intro c hm
      have := List.count_pos_iff.2 hm
      rw [hg.cnt, hfr.1] at this
      simp at this
    have hself : h.size ∉ ks := fun hm => Nat.lt_irrefl _ (ha _ hm).1
    have hgood : Good (Ast.create h ks st) (put h.kids h.size ks) (fun _ _ => 0) := by
      refine ⟨?_, ?_, ?_, ?_⟩
      · intro c p
        unfold Ast.create
        rw [h5, h3, h4]
        simp only [many]
        by_cases hp : p = h.size
        · subst hp
          simp [hfr.2.2, List.count_eq_zero.2 (hnu c)]
        · simp only [hp, if_false, put_ne _ _ hp, Nat.add_zero]
          by_cases hc : c = h.size
          · subst hc
            rw [hfr.2.1, List.count_eq_zero.2 (hnk p)]
            simp
          · simpa [put_ne _ _ hc] using hg.cnt c p
      · intro c hc
        unfold Ast.create at hc ⊢
        rw [h4] at hc
        by_contra hne
        rcases h6 c hne with h7 | h7
        · exact h7 (ho.unused c hc)
        · rw [(ha c h7).2] at hc; cases hc
      · intro c hc
        unfold Ast.create at hc ⊢
        rw [h1]
        dsimp only
        rcases h6 c hc with h7 | h7
        · have := hg.range c h7; omega
        · have := (ha c h7).1; omega
      · intro c hc
        unfold Ast.create at hc ⊢
        rw [h4] at hc
        rw [h1]
        have := hg.deadRange c hc
        dsimp only
        omega
    have hk : (Ast.create h ks st).kids = put h.kids h.size ks := h2
    have hs : (Ast.create h ks st).size = h.size + 1 := h1
    refine Good.ok (hk ▸ hgood) ?_ ?_
    · intro m k hkm
      rw [hk] at hkm
      rw [hs]
      by_cases hm : m = h.size
      · subst hm
        rw [put_same] at hkm
        have := (ha k hkm).1; omega
      · rw [put_ne _ _ hm] at hkm
        have := ho.exist m k hkm; omega
    · intro m hm
      rw [hs] at hm
      rw [hk, put_ne _ _ (by omega)]
      exact (ho.fresh m (by omega)).1
  | insert p ks =>
    obtain ⟨ha1, ha2⟩ := ha
    refine ⟨_, rfl, ?_⟩
    have hg := ho.good
    obtain ⟨h1, h2, h3, h4, h5, h6⟩ := addUsers_spec ks p
      { h with kids := put h.kids p (h.kids p ++ ks) }
    have hk : (insertBack h p ks).kids = put h.kids p (h.kids p ++ ks) := h2
    have hs : (insertBack h p ks).size = h.size := h1
    have hg1 : Good { h with kids := put h.kids p (h.kids p ++ ks) } h.kids (fun _ _ => 0) :=
      ⟨hg.cnt, hg.deadUnused, hg.range, hg.deadRange⟩
    have hg2 := addUsers_good hg1 ks p (fun k hk => (ha2 k hk).2) (fun k hk => (ha2 k hk).1)
    have hgood : Good (insertBack h p ks) (put h.kids p (h.kids p ++ ks)) (fun _ _ => 0) := by
      refine ⟨?_, hg2.deadUnused, hg2.range, hg2.deadRange⟩
      intro c q
      have := hg2.cnt c q
      rw [show (insertBack h p ks) = addUsers { h with kids := put h.kids p (h.kids p ++ ks) } ks p
        from rfl, this, h3, h4]
      by_cases hq : q = p
      · subst hq
        simp [ha1.2, many]
      · simp [put_ne _ _ hq, many, hq]
    refine Good.ok (hk ▸ hgood) ?_ ?_
    · intro m k hkm
      rw [hk] at hkm
      rw [hs]
      by_cases hm : m = p
      · subst hm
        rw [put_same, List.mem_append] at hkm
        rcases hkm with h7 | h7
        · exact ho.exist m k h7
        · exact (ha2 k h7).1
      · rw [put_ne _ _ hm] at hkm
        exact ho.exist m k hkm
    · intro m hm
      rw [hs] at hm
      have : m ≠ p := by
        rintro rfl
        have := ha1.1; omega
      rw [hk, put_ne _ _ this]
      exact (ho.fresh m hm).1
  | assign p pre old new post =>
    obtain ⟨ha1, ha2, ha3, ha4, ha5⟩ := ha
    have hg := ho.good
    have hg1 : Good h (put h.kids p (pre ++ post)) (one old p) := by
      refine ⟨?_, hg.deadUnused, hg.range, hg.deadRange⟩
      intro c q
      rw [hg.cnt]
      by_cases hq : q = p
      · subst hq
        simp only [ha1.2, Bool.false_eq_true, false_and, if_false, put_same, one, ha3,
          List.count_append, List.count_cons, List.count_nil, beq_iff_eq, and_true]
        by_cases hc : old = c
        · subst hc; simp; omega
        · simp [hc, Ne.symm hc]
      · simp [put_ne _ _ hq, one, hq]
    have hz : Zone h.kids (put h.kids p (pre ++ post)) (Reach h.kids old) (fun _ => False) := by
      refine ⟨fun m hm k hk => Or.inl (hm.tail hk), ?_, fun m _ h => h⟩
      intro m hm
      rw [put_ne]
      rintro rfl
      exact ha4 hm
    obtain ⟨h', e1, e2, e3, e4⟩ := removeUser_fine _ _ _ h hz old p true (one old p) hg1
      (fun m hm => hm.elim) (by simp [one]) (fun _ => Or.inl ReflTransGen.refl)
    have e3' := good_congr e3 (y := fun _ _ => 0) (by funext a b; omega)
    have hpl : h'.dead p = false := by
      by_contra hne
      rcases e4 p (by simpa using hne) with h7 | h7
      · rw [ha1.2] at h7; cases h7
      · exact ha4 h7
    have hnl : h'.dead new = false := by
      by_contra hne
      rcases e4 new (by simpa using hne) with h7 | h7
      · rw [ha2.2] at h7; cases h7
      · exact ha5 h7
    refine ⟨addUser { h' with kids := put h'.kids p (pre ++ [new] ++ post) } new p, ?_, ?_⟩
    · simp only [Op.apply, setAttr, e1]
    · have hg2 : Good { h' with kids := put h'.kids p (pre ++ [new] ++ post) }
          (put h.kids p (pre ++ post)) (fun _ _ => 0) :=
        ⟨e3'.cnt, e3'.deadUnused, e3'.range, e3'.deadRange⟩
      have hg3 := addUsers_good hg2 [new] p (by simpa using hnl)
        (by simp only [List.mem_singleton, forall_eq]; rw [e2.size]; exact ha2.1)
      have hgood : Good (addUser { h' with kids := put h'.kids p (pre ++ [new] ++ post) } new p)
          (put h.kids p (pre ++ [new] ++ post)) (fun _ _ => 0) := by
        refine ⟨?_, hg3.deadUnused, hg3.range, hg3.deadRange⟩
        intro c q
        have := hg3.cnt c q
        rw [show addUser { h' with kids := put h'.kids p (pre ++ [new] ++ post) } new p =
          addUsers { h' with kids := put h'.kids p (pre ++ [new] ++ post) } [new] p from rfl, this]
        by_cases hq : q = p
        · subst hq
          simp only [addUsers, addUser, List.foldl, hpl, Bool.false_eq_true, false_and, if_false,
            put_same, many, if_true, List.count_append, Nat.add_zero, Nat.zero_add]
          omega
        · simp [addUsers, addUser, put_ne _ _ hq, many, hq]
      have hk : (addUser { h' with kids := put h'.kids p (pre ++ [new] ++ post) } new p).kids =
          put h.kids p (pre ++ [new] ++ post) := by
        simp only [addUser]; rw [e2.kids]
      have hs : (addUser { h' with kids := put h'.kids p (pre ++ [new] ++ post) } new p).size =
          h.size := e2.size
      refine Good.ok (hk ▸ hgood) ?_ ?_
      · intro m k hkm
        rw [hk] at hkm
        rw [hs]
        by_cases hm : m = p
        · subst hm
          rw [put_same] at hkm
          have h8 := ho.exist m
          rw [ha3] at h8
          simp only [List.mem_append, List.mem_singleton] at hkm h8
          rcases hkm with (h7 | h7) | h7
          · exact h8 k (Or.inl (Or.inl h7))
          · rw [h7]; exact ha2.1
          · exact h8 k (Or.inr h7)
        · rw [put_ne _ _ hm] at hkm
          exact ho.exist m k hkm
      · intro m hm
        rw [hs] at hm
        have : m ≠ p := by
          rintro rfl
          have := ha1.1; omega
        rw [hk, put_ne _ _ this]
        exact (ho.fresh m hm).1
  | invalidate c =>
    obtain ⟨ha1, ha2⟩ := ha
    have hg := kill_good ho.good c ha2 ha1.2 ha1.1
    have hg' := good_congr hg (y := fun c' p' => 0 +
      many ((h.kids c).filter (fun k => h.stage k = h.stage c)) c c' p') rfl
    have h1 := each_fine (fun _ => True) (fun _ => False) h.kids c
      (fun h k => removeUser h k c true) (fun _ _ => 0) h.kids ?_
      ((h.kids c).filter (fun k => h.stage k = h.stage c)) { h with dead := put h.dead c true } rfl
      hg' (fun m hm => hm.elim) (fun m _ h => h) (fun k _ => Or.inl trivial)
    · have h2 := each_shrinks (fun h k => removeUser h k c true)
        (Heap.total { h with dead := put h.dead c true }) ?_
        ((h.kids c).filter (fun k => h.stage k = h.stage c)) _ (Nat.le_refl _) hg'.range
      · simp only [Op.apply, Ast.invalidate]
        cases hr : each (fun h k => removeUser h k c true)
          ((h.kids c).filter (fun k => h.stage k = h.stage c))
          { h with dead := put h.dead c true } with
        | assertion => rw [hr] at h1; exact h1.elim
        | timeout => rw [hr] at h2; exact h2.elim
        | ok h' =>
          rw [hr] at h1
          obtain ⟨hs, hgo, -⟩ := h1
          refine ⟨h', rfl, Good.ok ?_ ?_ ?_⟩
          · rw [hs.kids]; exact hgo
          · rw [hs.kids, hs.size]; exact ho.exist
          · rw [hs.kids, hs.size]; exact fun m hm => (ho.fresh m hm).1
      · intro h' k _ hr
        have := removeUserFuel_shrinks (h'.total + 1) h' k c true (by omega) hr
        unfold removeUser
        revert this
        generalize removeUserFuel (h'.total + 1) h' k c true = r
        intro this
        cases r with
        | assertion => trivial
        | timeout => exact this
        | ok h'' => exact ⟨by have := this.1; omega, this.2⟩
    · intro h' k x hk hg hpr hx hA
      have hz : Zone h'.kids h.kids (fun _ => True) (fun _ => False) :=
        ⟨fun _ _ _ _ => Or.inl trivial, fun m _ => by rw [hk], fun _ _ h => h⟩
      obtain ⟨h'', e1, e2, e3, e4⟩ := removeUser_fine _ _ _ h' hz k c true x hg hpr hx (fun _ => hA)
      simp only [e1]
      exact ⟨e2, e3, e4⟩
  | substitute s root =>
    obtain ⟨h', e1, e2⟩ := substitute_ok ho ha
    refine ⟨h', e1, Good.ok e2.inv.good ?_ ?_⟩
    · intro m k hk
      rw [e2.inv.size]
      rcases e2.changed m with h3 | ⟨-, h3⟩
      · rw [h3] at hk; exact ho.exist m k hk
      · rw [h3] at hk
        unfold Subst.on replaced at hk
        rw [List.mem_flatMap] at hk
        obtain ⟨w, hw, hk⟩ := hk
        split at hk
        · rw [List.mem_singleton] at hk; subst hk; exact ho.exist m k hw
        · cases hr : s.rep w with
          | none =>
            rw [hr] at hk
            simp only [Option.getD_none, List.mem_singleton] at hk
            subst hk; exact ho.exist m k hw
          | some rs =>
            rw [hr] at hk
            exact (ha.2.2.2 w rs hr k hk).1.1
    · intro m hm
      rw [e2.inv.size] at hm
      rcases e2.changed m with h3 | ⟨-, h3⟩
      · rw [h3]; exact (ho.fresh m hm).1
      · rw [h3, (ho.fresh m hm).1]; rfl

/-- A sequence of edits. -/
def run (h : Heap) : List Op → Res
  | [] => .ok h
  | op :: ops => match op.apply h with
    | .ok h' => run h' ops
    | r => r

/-- Every edit is made as expected. -/
def AllAllowed (h : Heap) : List Op → Prop
  | [] => True
  | op :: ops => op.Allowed h ∧ ∀ h', op.apply h = .ok h' → AllAllowed h' ops

theorem ok_empty : Ok Heap.empty := by
  refine ⟨⟨?_, ?_, ?_⟩, ?_, ?_, ?_⟩ <;> simp [Heap.empty, DeadUnused]

theorem run_ok : ∀ (ops : List Op) (h : Heap), Ok h → AllAllowed h ops →
    ∃ h', run h ops = .ok h' ∧ Ok h' := by
  intro ops
  induction ops with
  | nil => intro h ho _; exact ⟨h, rfl, ho⟩
  | cons op ops ih =>
    intro h ho ha
    obtain ⟨h', e1, e2⟩ := Op.apply_ok ho op ha.1
    obtain ⟨h'', e3, e4⟩ := ih h' e2 (ha.2 h' e1)
    refine ⟨h'', ?_, e4⟩
    rw [run, e1]
    exact e3

/-- **C33 (partial)**.  After any sequence of expected edits starting from nothing, no
internal assertion has failed, parent links agree with attributes and no discarded
node is in use.  Missing: edits which reuse a discarded node, or discard a node in
use, see the theorems `…_violated`. -/
theorem C33_history_partial (ops : List Op) (ha : AllAllowed Heap.empty ops) :
    ∃ h, run Heap.empty ops = .ok h ∧ Links h.kids h.users h.stage h.dead ∧
      DeadUnused h.users h.dead := by
  obtain ⟨h, h1, h2⟩ := run_ok ops Heap.empty ok_empty ha
  exact ⟨h, h1, h2.links, h2.unused⟩

/-- The links mean what one expects: among nodes in use, `p` is recorded as a user
of `c` if and only if it holds it; and nodes in use hold no discarded node. -/
theorem C33_users_exact {h : Heap} (hl : Links h.kids h.users h.stage h.dead)
    (hu : DeadUnused h.users h.dead) (c p : Nat) (hp : h.dead p = false) :
    (p ∈ h.users c ↔ c ∈ h.kids p) ∧ (c ∈ h.kids p → h.dead c = false) := by
  have h1 : p ∈ h.users c ↔ c ∈ h.kids p := by
    rw [← List.count_pos_iff, ← List.count_pos_iff, hl.1 c p hp]
  refine ⟨h1, fun hc => ?_⟩
  by_contra hne
  have := hu c (by simpa using hne)
  have h2 := h1.2 hc
  rw [this] at h2
  cases h2

/-- `x`, `y`, `x + y`, `f(x + y, x)`, a block with it, and `z`. -/
def exPre : List Op :=
  [.create [] 0, .create [] 0, .create [0, 1] 0, .create [2, 0] 0, .create [3] 0, .create [] 0]

/-- `y` is replaced by `z`. -/
def exS : Subst := ⟨fun v => if v = 1 then some [5] else none, fun _ => false, true⟩

def Res.heap? : Res → Option Heap
  | .ok h => some h
  | _ => none

/-- Attributes, users and discarded nodes among the first `n` nodes. -/
def Res.view (n : Nat) (r : Res) : Option (List (List Nat) × List (List Nat) × List Bool) :=
  r.heap?.map fun h =>
    ((List.range n).map h.kids, (List.range n).map h.users, (List.range n).map h.dead)

example : (run Heap.empty (exPre ++ [.substitute exS 4])).view 6 =
    some ([[], [], [0, 5], [2, 0], [3], []], [[2, 3], [], [3], [4], [], [2]],
      [false, true, false, false, false, false]) := by decide

/-- The state after `exPre`. -/
def exHeap : Heap :=
  create (create (create (create (create (create Heap.empty [] 0) [] 0) [0, 1] 0) [2, 0] 0) [3] 0) [] 0

theorem exPre_allowed : AllAllowed Heap.empty exPre := by
  simp only [exPre, AllAllowed, Op.Allowed, Op.apply, Res.ok.injEq, forall_eq', and_true]
  exact ⟨by simp, by simp, by decide, by decide, by decide, by simp⟩

theorem exHeap_ok : Ok exHeap := by
  obtain ⟨h, h1, h2⟩ := run_ok exPre Heap.empty ok_empty exPre_allowed
  have : h = exHeap := (Res.ok.inj h1).symm
  exact this ▸ h2

theorem reach_le {kids : Nat → List Nat} (hk : ∀ m, ∀ k ∈ kids m, k < m) {a b : Nat}
    (h : Reach kids a b) : b ≤ a := by
  induction h with
  | refl => exact Nat.le_refl _
  | tail _ h1 ih => have := hk _ _ h1; omega

theorem reach_leaf {kids : Nat → List Nat} {a b : Nat} (hk : kids a = []) (h : Reach kids a b) :
    b = a := by
  rcases ReflTransGen.cases_head h with h1 | ⟨c, h1, -⟩
  · exact h1.symm
  · rw [hk] at h1; cases h1

theorem acyclic_of_lt {kids : Nat → List Nat} (hk : ∀ m, ∀ k ∈ kids m, k < m) : Acyclic kids := by
  intro x y hy hr
  have := hk x y hy
  have := reach_le hk hr
  omega

theorem exHeap_lt : ∀ m, ∀ k ∈ exHeap.kids m, k < m := by
  intro m k hk
  by_cases hm : m < 6
  · have : ∀ m < 6, ∀ k ∈ exHeap.kids m, k < m := by decide
    exact this m hm k hk
  · rw [(exHeap_ok.fresh m (by simpa [exHeap, create, addUsers, addUser, Heap.empty] using hm)).1] at hk
    cases hk

theorem exS_allowed : Op.Allowed exHeap (.substitute exS 4) := by
  have horig : ∀ o, exS.rep o ≠ none → o = 1 := by
    intro o ho
    by_contra hne
    simp [exS, hne] at ho
  refine ⟨by decide, acyclic_of_lt exHeap_lt, ?_, ?_⟩
  · intro o ho hr
    have := reach_le exHeap_lt hr
    rw [horig o ho] at this
    omega
  · intro o rs hrs q hq
    have ho := horig o (by rw [hrs]; simp)
    subst ho
    simp only [exS, if_true, Option.some.injEq] at hrs
    subst hrs
    rw [List.mem_singleton] at hq
    subst hq
    refine ⟨by decide, ?_, ?_⟩
    · intro o' ho' hr
      have := reach_leaf (by decide) hr
      rw [horig o' ho'] at this
      omega
    · intro _ o' ho' hr
      rw [horig o' ho'] at hr
      have := reach_leaf (by decide) hr
      omega

theorem exOps_allowed : AllAllowed Heap.empty (exPre ++ [.substitute exS 4]) := by
  simp only [exPre, List.cons_append, List.nil_append, AllAllowed, Op.apply, Res.ok.injEq,
    forall_eq', implies_true, and_true]
  refine ⟨by simp [Op.Allowed], by simp [Op.Allowed], ?_, ?_, ?_, by simp [Op.Allowed], exS_allowed⟩ <;>
    (unfold Op.Allowed; decide)

/-- **C33 is violated** when a node in use is discarded: printing `x //= y` turns the
statement (node 2, held by the block 3) into `x = x // y` and invalidates it.  The
block still holds it, the operands no longer know it as a user, and printing the
block again fails with an `AssertionError`. -/
theorem C33_augassign_violated :
    ∃ h h', run Heap.empty [.create [] 0, .create [] 0, .create [0, 1] 0, .create [2] 0,
        .create [0, 1] 0, .create [0, 4] 0] = .ok h ∧
      invalidate h 2 = .ok h' ∧ h'.dead 2 = true ∧ 2 ∈ h'.kids 3 ∧ h'.users 2 = [3] ∧
      2 ∉ h'.users 0 ∧ 0 ∈ h'.kids 2 ∧
      invalidate (create (create h' [0, 1] 0) [0, 6] 0) 2 = .assertion := by
  refine ⟨_, _, rfl, rfl, by decide, by decide, by decide, by decide, by decide, rfl⟩

/-- **C33 is violated** by assigning the body a function already has: the block is
discarded and then used again; its statements no longer know it. -/
theorem C33_assign_same_violated :
    ∃ h h', run Heap.empty [.create [] 0, .create [0] 0, .create [1] 0] = .ok h ∧
      setAttr h 2 [] 1 1 [] = .ok h' ∧ 2 ∈ h'.users 1 ∧ h'.dead 1 = true ∧ 0 ∈ h'.kids 1 ∧
      h'.users 0 = [] := by
  refine ⟨_, _, rfl, rfl, by decide, by decide, by decide, by decide⟩

/-- **C33 is violated** when a replacement is part of another original: in
`f(g(h(x)), y)` the simultaneous substitution of `g(h(x))` by `a` and `y` by `h(x)`
discards `h(x)` before using it; `x` no longer knows it as a user. -/
theorem C33_reused_violated :
    ∃ h h', run Heap.empty [.create [] 0, .create [0] 0, .create [1] 0, .create [] 0,
        .create [2, 3] 0, .create [] 0] = .ok h ∧
      substitute ⟨fun v => if v = 2 then some [5] else if v = 3 then some [1] else none,
        fun _ => false, true⟩ h 4 = .ok h' ∧
      h'.kids 4 = [5, 1] ∧ h'.dead 1 = true ∧ 0 ∈ h'.kids 1 ∧ h'.users 0 = [] := by
  refine ⟨_, _, rfl, rfl, by decide, by decide, by decide, by decide⟩

/-! ## Searches -/

/-- **C33, searches**: `get_attribute_nodes` finds exactly the nodes of the searched
type that can be reached without passing through another such node or an excluded
one, even in cyclic graphs. -/
theorem C33_get_attribute_nodes (h : Heap) (hr : ∀ m, ∀ k ∈ h.kids m, k < h.size)
    (isT excluded : Nat → Bool) (n x : Nat) (hn : n < h.size) :
    x ∈ getAttributeNodes h isT excluded (h.size + 1) [] n ↔ Found h.kids isT excluded n x := by
  rw [found_avoid]
  exact search_exact h.kids isT excluded h.size _ hr (getAttributeNodes_step h isT excluded)
    (h.size + 1) [] n x hn List.nodup_nil (by simp) (by simp)

/-- **C33, searches**: the same for `get_user_nodes`. -/
theorem C33_get_user_nodes (h : Heap) (hr : ∀ m, ∀ k ∈ h.users m, k < h.size)
    (isT excluded : Nat → Bool) (n x : Nat) (hn : n < h.size) :
    x ∈ getUserNodes h isT excluded (h.size + 1) [] n ↔ Found h.users isT excluded n x := by
  rw [found_avoid]
  exact search_exact h.users isT excluded h.size _ hr (getUserNodes_step h isT excluded)
    (h.size + 1) [] n x hn List.nodup_nil (by simp) (by simp)

/-- **C33, searches**: `p.is_user_of(c)` holds exactly when `p` is an ancestor of `c`. -/
theorem C33_is_user_of (h : Heap) (hr : ∀ m, ∀ k ∈ h.users m, k < h.size)
    (excluded : Nat → Bool) (p c : Nat) (hc : c < h.size) :
    isUserOf h p excluded (h.size + 1) [] c = true ↔ Above h.users excluded p c := by
  rw [above_found, found_avoid]
  have := search_exact h.users (fun v => v == p) (fun v => !(v == p || !excluded v)) h.size
    (fun f stack n => if isUserOf h p excluded f stack n then [p] else []) hr ?_
    (h.size + 1) [] c p hc List.nodup_nil (by simp) (by simp)
  · rw [← this]
    split
    · rename_i h1; simp [h1]
    · rename_i h1; simp [h1]
  · intro f stack n x
    have := isUserOf_step h p excluded f stack n
    constructor
    · intro hx
      split at hx
      · rename_i h1
        rw [List.mem_singleton] at hx
        subst hx
        obtain ⟨h2, v, h3, h4, h5⟩ := this.1 h1
        refine ⟨h2, v, h3, by rw [h4]; rfl, ?_⟩
        rcases h5 with h5 | ⟨h5, h6⟩
        · exact Or.inl ⟨by simp [h5], h5.symm⟩
        · exact Or.inr ⟨by simp [h5], by simp [h6]⟩
      · cases hx
    · rintro ⟨h2, v, h3, h4, h5⟩
      have hx : x = p := by
        rcases h5 with ⟨h5, h6⟩ | ⟨h5, h6⟩
        · rw [h6]; simpa using h5
        · split at h6
          · simpa using h6
          · cases h6
      subst hx
      rw [if_pos (this.2 ⟨h2, v, h3, by rwa [Bool.not_eq_false'] at h4, ?_⟩)]
      · simp
      · rcases h5 with ⟨h5, h6⟩ | ⟨h5, h6⟩
        · exact Or.inl h6.symm
        · refine Or.inr ⟨by simpa using h5, ?_⟩
          split at h6
          · rename_i h7; exact h7
          · cases h6

/-- **C33**: in a consistent graph without discarded nodes, `p.is_user_of(c)` tells
whether `c` occurs in the tree below `p`. -/
theorem C33_is_user_of_below (h : Heap) (ho : Ok h) (hd : ∀ m, h.dead m = false) (p c : Nat)
    (hc : c < h.size) :
    isUserOf h p (fun _ => false) (h.size + 1) [] c = true ↔
      TransGen (fun a b => b ∈ h.kids a) p c := by
  have hiff : ∀ a b, b ∈ h.users a ↔ a ∈ h.kids b := fun a b =>
    (C33_users_exact ho.links ho.unused a b (hd b)).1
  rw [C33_is_user_of h ?_ _ p c hc]
  · constructor
    · intro ha
      induction ha with
      | here h1 => exact TransGen.single ((hiff _ _).1 h1)
      | there h1 _ _ ih => 
        exact (ih (by
          have h3 : _ ∈ h.kids _ := (hiff _ _).1 h1
          by_contra hlt
          rw [(ho.fresh _ (by omega)).1] at h3
          cases h3)).tail ((hiff _ _).1 h1)
    · intro ht
      induction ht with
      | single h1 => exact .here ((hiff _ _).2 h1)
      | tail _ h1 ih =>
        refine .there ((hiff _ _).2 h1) rfl (ih ?_)
        by_contra hlt
        rw [(ho.fresh _ (by omega)).1] at h1
        cases h1
  · intro m k hk
    by_contra hlt
    have := (hiff m k).1 hk
    rw [(ho.fresh k (by omega)).1] at this
    cases this

example : ∀ m, exHeap.dead m = false := fun _ => rfl
example : isUserOf exHeap 4 (fun _ => false) 7 [] 1 = true ∧
    isUserOf exHeap 1 (fun _ => false) 7 [] 4 = false := by decide
example : getAttributeNodes exHeap (fun n => n < 2) (fun _ => false) 7 [] 4 = [0, 1, 0] := by decide
example : getUserNodes exHeap (fun n => n = 3) (fun _ => false) 7 [] 1 = [3] := by decide

/-! ## C62: substitution -/

/-- **C62 (partial)**.  `substitute` replaces every occurrence of the originals in
the tree below the root, excluded nodes apart, and changes nothing else.
Missing: replacements which contain an original (`C62_shared_violated`). -/
theorem C62_substitute_partial {h : Heap} (ho : Ok h) (s : Subst) (root : Nat)
    (ha : Op.Allowed h (.substitute s root)) :
    ∃ h', substitute s h root = .ok h' ∧ h'.size = h.size ∧ ∀ m,
      (Inside h.kids (fun k => s.excluded k = true ∨ s.rep k ≠ none) root m →
        h'.kids m = replaced s.rep s.excluded (h.kids m)) ∧
      (¬ Inside h.kids (fun k => s.excluded k = true ∨ s.rep k ≠ none) root m →
        h'.kids m = h.kids m) := by
  obtain ⟨h', e1, e2⟩ := substitute_ok ho ha
  refine ⟨h', e1, e2.inv.size, fun m => ⟨e2.done m, fun hm => ?_⟩⟩
  rcases e2.changed m with h3 | ⟨h3, -⟩
  · exact h3
  · exact absurd h3 hm

/-- **C62 is violated** for shared nodes: in `f(g(x), g(x))`, both arguments being the
same node, exchanging `x` and `y` leaves `g(x)` as it was. -/
theorem C62_shared_violated :
    ∃ h h', run Heap.empty [.create [] 0, .create [] 0, .create [0] 0, .create [2, 2] 0,
        .create [1] 0] = .ok h ∧
      substitute ⟨fun v => if v = 0 then some [1] else if v = 1 then some [0] else none,
        fun _ => false, false⟩ h 3 = .ok h' ∧
      replaced (fun v => if v = 0 then some [1] else if v = 1 then some [0] else none)
        (fun _ => false) (h.kids 2) = [1] ∧ h'.kids 2 = [0] := by
  refine ⟨_, _, rfl, rfl, by decide, by decide⟩

/-- **C62 is violated** for shared nodes: in the same `f(g(x), g(x))`, replacing `x` by
`s(x)` makes `s(x)` its own argument: the tree has become cyclic. -/
theorem C62_cyclic_violated :
    ∃ h h', run Heap.empty [.create [] 0, .create [0] 0, .create [1, 1] 0, .create [0] 0] = .ok h ∧
      substitute ⟨fun v => if v = 0 then some [3] else none, fun _ => false, false⟩ h 2 = .ok h' ∧
      h'.kids 1 = [3] ∧ h'.kids 3 = [3] := by
  refine ⟨_, _, rfl, rfl, by decide, by decide⟩

end Verif.Ast
