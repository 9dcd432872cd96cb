import Verif.Ast.Lemmas
import Mathlib.Data.List.Nodup
import Mathlib.Data.List.Perm.Subperm
/-!
# `substitute`
-/

namespace Verif.Ast
open Spec Relation

/-- Nodes at which the substitution stops. -/
def Subst.stop (s : Subst) (k : Nat) : Prop := s.excluded k = true ∨ s.rep k ≠ none

/-- Replacement in a list of attributes. -/
def Subst.on (s : Subst) (l : List Nat) : List Nat := replaced s.rep s.excluded l

theorem on_append (s : Subst) (a b : List Nat) : s.on (a ++ b) = s.on a ++ s.on b := by
  simp [Subst.on, replaced]

theorem on_keep (s : Subst) {v : Nat} (h : ¬ s.stop v) : s.on [v] = [v] := by
  have : s.rep v = none := by
    by_contra hne
    exact h (Or.inr hne)
  simp [Subst.on, replaced, this]

theorem on_excluded (s : Subst) {v : Nat} (h : s.excluded v = true) : s.on [v] = [v] := by
  simp [Subst.on, replaced, h]

theorem on_original (s : Subst) {v : Nat} {rs : List Nat} (h : s.excluded v = false)
    (hr : s.rep v = some rs) : s.on [v] = rs := by
  simp [Subst.on, replaced, h, hr]

theorem mem_on_keep (s : Subst) {v : Nat} {l : List Nat} (h : ¬ s.stop v) (hv : v ∈ l) :
    v ∈ s.on l := by
  have : v ∈ s.on [v] := by rw [on_keep s h]; simp
  unfold Subst.on replaced at this ⊢
  simp only [List.mem_flatMap, List.mem_singleton] at this ⊢
  obtain ⟨a, rfl, ha⟩ := this
  exact ⟨a, hv, ha⟩

/-- No original can be reached. -/
def Clean (s : Subst) (h0 : Heap) (q : Nat) : Prop := ∀ m, Reach h0.kids q m → s.rep m = none

/-- Reached from an original. -/
def Below (s : Subst) (h0 : Heap) (m : Nat) : Prop := ∃ o, s.rep o ≠ none ∧ Reach h0.kids o m

theorem on_clean (s : Subst) {l : List Nat} (h : ∀ v ∈ l, s.rep v = none) : s.on l = l := by
  induction l with
  | nil => rfl
  | cons a l ih =>
    have e : a :: l = [a] ++ l := rfl
    rw [e, on_append, ih (fun v hv => h v (by simp [hv]))]
    congr 1
    have := h a (by simp)
    simp [Subst.on, replaced, this]

/-- The hypotheses of the substitution theorem. -/
structure Setting (s : Subst) (h0 : Heap) (root : Nat) : Prop where
  acyclic : Acyclic h0.kids
  kidsRange : ∀ m, ∀ k ∈ h0.kids m, k < h0.size
  rootRange : root < h0.size
  rootKept : ¬ Below s h0 root
  repRange : ∀ o rs, s.rep o = some rs → ∀ q ∈ rs, q < h0.size
  repClean : ∀ o rs, s.rep o = some rs → ∀ q ∈ rs, Clean s h0 q
  repKept : s.inv = true → ∀ o rs, s.rep o = some rs → ∀ q ∈ rs, ¬ Below s h0 q

/-- The invariant of the traversal. -/
structure Inv (s : Subst) (h0 : Heap) (root : Nat) (h : Heap) : Prop where
  size : h.size = h0.size
  stage : h.stage = h0.stage
  good : Good h h.kids (fun _ _ => 0)
  shape : ∀ m, ∃ d e, h0.kids m = d ++ e ∧ h.kids m = s.on d ++ e ∧
    (¬ Inside h0.kids s.stop root m → d = [])
  live : ∀ m, Inside h0.kids s.stop root m → h.dead m = false
  repLive : ∀ o rs, s.rep o = some rs → ∀ q ∈ rs, h.dead q = false

theorem Inv.kids_outside {s : Subst} {h0 : Heap} {root : Nat} {h : Heap} (hj : Inv s h0 root h)
    {m : Nat} (hm : ¬ Inside h0.kids s.stop root m) : h.kids m = h0.kids m := by
  obtain ⟨d, e, h1, h2, h3⟩ := hj.shape m
  rw [h3 hm] at h1 h2
  rw [h1, h2]
  rfl

theorem Inv.kids_clean {s : Subst} {h0 : Heap} {root : Nat} {h : Heap} (hj : Inv s h0 root h)
    {m : Nat} (hm : Clean s h0 m) : h.kids m = h0.kids m := by
  obtain ⟨d, e, h1, h2, -⟩ := hj.shape m
  rw [h1, h2, on_clean s]
  intro v hv
  exact hm v (ReflTransGen.single (by rw [h1]; simp [hv]))

theorem Clean.kid {s : Subst} {h0 : Heap} {q k : Nat} (h : Clean s h0 q) (hk : k ∈ h0.kids q) :
    Clean s h0 k := fun m hm => h m (ReflTransGen.head hk hm)

theorem inside_reach {kids : Nat → List Nat} {stop : Nat → Prop} {n m : Nat}
    (h : Inside kids stop n m) : Reach kids n m := by
  induction h with
  | root => exact ReflTransGen.refl
  | step _ hk _ ih => exact ReflTransGen.tail ih hk

theorem inside_trans {kids : Nat → List Nat} {stop : Nat → Prop} {a b c : Nat}
    (h1 : Inside kids stop a b) (h2 : Inside kids stop b c) : Inside kids stop a c := by
  induction h2 with
  | root => exact h1
  | step _ hk hs ih => exact .step ih hk hs

theorem inside_head {kids : Nat → List Nat} {stop : Nat → Prop} {n m : Nat}
    (h : Inside kids stop n m) : m = n ∨ ∃ v ∈ kids n, ¬ stop v ∧ Inside kids stop v m := by
  induction h with
  | root => exact Or.inl rfl
  | @step m k hi hk hs ih =>
    right
    rcases ih with rfl | ⟨v, hv, hvs, hvm⟩
    · exact ⟨k, hk, hs, .root⟩
    · exact ⟨v, hv, hvs, .step hvm hk hs⟩

theorem not_mem_of_cycle {kids : Nat → List Nat} (ha : Acyclic kids) {n m : Nat}
    (h : TransGen (fun a b => b ∈ kids a) m n) (h2 : Reach kids n m) : False := by
  obtain ⟨c, h3, h4⟩ := TransGen.head'_iff.1 h
  exact ha m c h3 (h4.trans h2)

theorem fuel_pos {f size n : Nat} {stack : List Nat} (hn : n < size)
    (hs : ∀ x ∈ stack, x < size) (hnd : stack.Nodup) (hns : n ∉ stack)
    (hf : size < f + stack.length) : 0 < f := by
  have h1 : (n :: stack).Nodup := List.nodup_cons.2 ⟨hns, hnd⟩
  have h2 : (n :: stack) ⊆ List.range size := by
    intro x hx
    rw [List.mem_range]
    rcases List.mem_cons.1 hx with rfl | hx
    · exact hn
    · exact hs x hx
  have h3 := (List.subperm_of_subset h1 h2).length_le
  simp at h3
  omega

/-- Visiting a node below which there is nothing to replace changes nothing. -/
theorem clean_noop (s : Subst) (h0 : Heap) (root : Nat) (st : Setting s h0 root) (h : Heap)
    (hj : Inv s h0 root h) : ∀ (f : Nat) (stack : List Nat) (q : Nat), Clean s h0 q →
      q < h0.size → stack.Nodup → (∀ x ∈ stack, x < h0.size) → h0.size < f + stack.length →
      (∀ x ∈ stack, ¬ Clean s h0 x ∨ TransGen (fun a b => b ∈ h0.kids a) x q) →
      substituteFuel s f stack h q = .ok h := by
  intro f
  induction f with
  | zero =>
    intro stack q hq hqs hnd hrange hf hst
    exfalso
    have hns : q ∉ stack := by
      intro hm
      rcases hst q hm with h1 | h1
      · exact h1 hq
      · exact not_mem_of_cycle st.acyclic h1 ReflTransGen.refl
    have := fuel_pos hqs hrange hnd hns hf
    omega
  | succ f ih =>
    intro stack q hq hqs hnd hrange hf hst
    have hns : q ∉ stack := by
      intro hm
      rcases hst q hm with h1 | h1
      · exact h1 hq
      · exact not_mem_of_cycle st.acyclic h1 ReflTransGen.refl
    rw [substituteFuel, if_neg hns, hj.kids_clean hq]
    have key : ∀ (l done : List Nat), (∀ k ∈ l, k ∈ h0.kids q) →
        substKids s (substituteFuel s f (q :: stack)) q done l h = .ok h := by
      intro l
      induction l with
      | nil => intro done _; rfl
      | cons v l ihl =>
        intro done hl
        rw [substKids]
        split
        · exact ihl _ (fun k hk => hl k (by simp [hk]))
        · have hv := hl v (by simp)
          have hrep : s.rep v = none := hq v (ReflTransGen.single hv)
          rw [hrep]
          simp only
          rw [ih (q :: stack) v (hq.kid hv) (st.kidsRange q v hv) (List.nodup_cons.2 ⟨hns, hnd⟩)
            (by intro x hx
                rcases List.mem_cons.1 hx with rfl | hx
                · exact hqs
                · exact hrange x hx)
            (by simp only [List.length_cons]; omega)
            (by intro x hx
                rcases List.mem_cons.1 hx with rfl | hx
                · exact Or.inr (TransGen.single hv)
                · rcases hst x hx with h1 | h1
                  · exact Or.inl h1
                  · exact Or.inr (h1.tail hv))]
          exact ihl _ (fun k hk => hl k (by simp [hk]))
    exact key _ [] (fun k hk => hk)

/-- Replacing one occurrence of an original. -/
theorem replace_one (s : Subst) (h0 : Heap) (root : Nat) (st : Setting s h0 root) (h : Heap)
    (hj : Inv s h0 root h) (n v : Nat) (d rest rs : List Nat)
    (hn : Inside h0.kids s.stop root n) (hk0 : h0.kids n = d ++ v :: rest)
    (hk : h.kids n = s.on d ++ v :: rest) (hx : s.excluded v = false) (hr : s.rep v = some rs) :
    ∃ h2, removeUser (addUsers h rs n) v n s.inv = .ok h2 ∧ h2.kids = h.kids ∧
      Inv s h0 root { h2 with kids := put h2.kids n (s.on d ++ rs ++ rest) } := by
  classical
  obtain ⟨a1, a2, a3, a4, a5, a6⟩ := addUsers_spec rs n h
  have hnl := hj.live n hn
  have hg1 := addUsers_good hj.good rs n (fun q hq => hj.repLive v rs hr q hq)
    (fun q hq => by rw [hj.size]; exact st.repRange v rs hr q hq)
  have hg2 : Good (addUsers h rs n) (put h.kids n (s.on d ++ rs ++ rest)) (one v n) := by
    refine ⟨?_, hg1.deadUnused, hg1.range, hg1.deadRange⟩
    intro c p
    rw [hg1.cnt, a3, a4]
    by_cases hp : p = n
    · subst hp
      simp only [hnl, Bool.false_eq_true, false_and, if_false, put_same, hk, many, one, if_true,
        List.count_append, List.count_cons, beq_iff_eq]
      by_cases hcv : v = c
      · subst hcv; simp; omega
      · simp [hcv, Ne.symm hcv]; omega
    · simp [put_ne _ _ hp, many, one, hp]
  have hW : ∀ k, Inside h0.kids s.stop root k → k ≠ root →
      ∃ m', Inside h0.kids s.stop root m' ∧ k ∈ (put h.kids n (s.on d ++ rs ++ rest)) m' := by
    intro k hk1 hk2
    cases hk1 with
    | root => exact absurd rfl hk2
    | @step m' _ hm' hkm hs =>
      refine ⟨m', hm', ?_⟩
      by_cases hmn : m' = n
      · subst hmn
        rw [put_same]
        rw [hk0] at hkm
        simp only [List.mem_append, List.mem_cons] at hkm ⊢
        rcases hkm with h1 | rfl | h1
        · exact Or.inl (Or.inl (mem_on_keep s hs h1))
        · exact absurd (Or.inr (by rw [hr]; simp)) hs
        · exact Or.inr h1
      · rw [put_ne _ _ hmn]
        obtain ⟨d', e', h1, h2, -⟩ := hj.shape m'
        rw [h1] at hkm
        rw [h2]
        simp only [List.mem_append] at hkm ⊢
        rcases hkm with h3 | h3
        · exact Or.inl (mem_on_keep s hs h3)
        · exact Or.inr h3
  have hvW : ¬ Inside h0.kids s.stop root v := by
    intro hv
    cases hv with
    | root => exact st.rootKept ⟨_, by rw [hr]; simp, ReflTransGen.refl⟩
    | step _ _ hs => exact hs (Or.inr (by rw [hr]; simp))
  have hz : Zone (addUsers h rs n).kids (put h.kids n (s.on d ++ rs ++ rest))
      (fun m => s.inv = true ∧ Below s h0 m ∧ ¬ Inside h0.kids s.stop root m)
      (Inside h0.kids s.stop root) := by
    refine ⟨?_, ?_, fun m hm => hm.2.2⟩
    · rintro m ⟨hi, ⟨o, ho, hom⟩, hmW⟩ k hkm
      rw [a2, hj.kids_outside hmW] at hkm
      have hbk : Below s h0 k := ⟨o, ho, hom.tail hkm⟩
      by_cases hkW : Inside h0.kids s.stop root k
      · right
        refine hW k hkW ?_
        rintro rfl
        exact st.rootKept hbk
      · exact Or.inl ⟨hi, hbk, hkW⟩
    · rintro m ⟨-, -, hmW⟩
      rw [a2, put_ne]
      rintro rfl
      exact hmW hn
  obtain ⟨h2, e1, e2, e3, e4⟩ := removeUser_fine _ _ _ _ hz v n s.inv (one v n) hg2
    (fun m hm => by rw [a4]; exact hj.live m hm) (by simp [one])
    (fun hi => Or.inl ⟨hi, ⟨v, by rw [hr]; simp, ReflTransGen.refl⟩, hvW⟩)
  have hkids : h2.kids = h.kids := e2.kids.trans a2
  refine ⟨h2, e1, hkids, ?_⟩
  refine ⟨?_, ?_, ?_, ?_, ?_, ?_⟩
  · dsimp only; rw [e2.size, a1, hj.size]
  · dsimp only; rw [e2.stage, a3, hj.stage]
  · have := good_congr e3 (y := fun _ _ => 0) (by funext a b; omega)
    refine ⟨?_, this.deadUnused, this.range, this.deadRange⟩
    intro c p
    rw [hkids]
    exact this.cnt c p
  · intro m
    dsimp only
    rw [hkids]
    by_cases hm : m = n
    · subst hm
      refine ⟨d ++ [v], rest, by simp [hk0], ?_, fun h => absurd hn h⟩
      rw [put_same, on_append, on_original s hx hr]
    · rw [put_ne _ _ hm]
      exact hj.shape m
  · intro m hm
    dsimp only
    by_contra hne
    rcases e4 m (by simpa using hne) with h3 | h3
    · rw [a4, hj.live m hm] at h3; cases h3
    · exact h3.2.2 hm
  · intro o rs' ho q hq
    dsimp only
    by_contra hne
    rcases e4 q (by simpa using hne) with h3 | h3
    · rw [a4, hj.repLive o rs' ho q hq] at h3; cases h3
    · exact st.repKept h3.1 o rs' ho q hq h3.2.1

/-- Effect of visiting `n`. -/
structure Visited (s : Subst) (h0 : Heap) (root n : Nat) (h h' : Heap) : Prop where
  inv : Inv s h0 root h'
  changed : ∀ m, h'.kids m = h.kids m ∨
    (Inside h0.kids s.stop n m ∧ h'.kids m = s.on (h0.kids m))
  done : ∀ m, Inside h0.kids s.stop n m → h'.kids m = s.on (h0.kids m)

theorem visit (s : Subst) (h0 : Heap) (root : Nat) (st : Setting s h0 root) :
    ∀ (f : Nat) (stack : List Nat) (h : Heap) (n : Nat), Inv s h0 root h →
      Inside h0.kids s.stop root n → n < h0.size → stack.Nodup → (∀ x ∈ stack, x < h0.size) →
      h0.size < f + stack.length → (∀ x ∈ stack, TransGen (fun a b => b ∈ h0.kids a) x n) →
      (∀ m, m ∉ stack → h.kids m = h0.kids m ∨ h.kids m = s.on (h0.kids m)) →
      ∃ h', substituteFuel s f stack h n = .ok h' ∧ Visited s h0 root n h h' := by
  intro f
  induction f with
  | zero =>
    intro stack h n hj hn hns hnd hrange hf hst hmid
    exfalso
    have hnot : n ∉ stack := fun hm => not_mem_of_cycle st.acyclic (hst n hm) ReflTransGen.refl
    have := fuel_pos hns hrange hnd hnot hf
    omega
  | succ f ih =>
    intro stack h n hj hn hns hnd hrange hf hst hmid
    have hnot : n ∉ stack := fun hm => not_mem_of_cycle st.acyclic (hst n hm) ReflTransGen.refl
    rw [substituteFuel, if_neg hnot]
    have hnd' : (n :: stack).Nodup := List.nodup_cons.2 ⟨hnot, hnd⟩
    have hrange' : ∀ x ∈ n :: stack, x < h0.size := by
      intro x hx
      rcases List.mem_cons.1 hx with rfl | hx
      · exact hns
      · exact hrange x hx
    have hf' : h0.size < f + (n :: stack).length := by simp only [List.length_cons]; omega
    have hst' : ∀ v ∈ h0.kids n, ∀ x ∈ n :: stack, TransGen (fun a b => b ∈ h0.kids a) x v := by
      intro v hv x hx
      rcases List.mem_cons.1 hx with rfl | hx
      · exact TransGen.single hv
      · exact (hst x hx).tail hv
    have hcycle : ∀ v ∈ h0.kids n, ¬ Inside h0.kids s.stop v n :=
      fun v hv hi => st.acyclic n v hv (inside_reach hi)
    have hup : ∀ v ∈ h0.kids n, ¬ s.stop v → ∀ m, Inside h0.kids s.stop v m →
        Inside h0.kids s.stop n m := fun v hv hs m hm => inside_trans (.step .root hv hs) hm
    -- first visit
    have loop1 : ∀ (rest d : List Nat) (h1 : Heap), Inv s h0 root h1 →
        h0.kids n = d ++ rest → h1.kids n = s.on d ++ rest →
        (∀ m, m ∉ n :: stack → h1.kids m = h0.kids m ∨ h1.kids m = s.on (h0.kids m)) →
        ∃ h', substKids s (substituteFuel s f (n :: stack)) n (s.on d) rest h1 = .ok h' ∧
          Inv s h0 root h' ∧ h'.kids n = s.on (h0.kids n) ∧
          (∀ m, m ≠ n → h'.kids m = h1.kids m ∨
            (Inside h0.kids s.stop n m ∧ h'.kids m = s.on (h0.kids m))) ∧
          (∀ v ∈ rest, ¬ s.stop v → ∀ m, Inside h0.kids s.stop v m →
            h'.kids m = s.on (h0.kids m)) := by
      intro rest
      induction rest with
      | nil =>
        intro d h1 hj1 hk0 hk1 _
        refine ⟨h1, rfl, hj1, ?_, fun m _ => Or.inl rfl, by simp⟩
        rw [hk1, hk0]; simp
      | cons v rest ihr =>
        intro d h1 hj1 hk0 hk1 hmid1
        rw [substKids]
        have hv : v ∈ h0.kids n := by rw [hk0]; simp
        by_cases hx : s.excluded v = true
        · rw [if_pos hx]
          have e : s.on d ++ [v] = s.on (d ++ [v]) := by rw [on_append, on_excluded s hx]
          obtain ⟨h', b1, b2, b3, b4, b5⟩ := ihr (d ++ [v]) h1 hj1 (by simp [hk0])
            (by rw [hk1, ← e]; simp) hmid1
          rw [e]
          refine ⟨h', b1, b2, b3, b4, ?_⟩
          intro w hw hs
          rcases List.mem_cons.1 hw with rfl | hw
          · exact absurd (Or.inl hx) hs
          · exact b5 w hw hs
        · rw [if_neg hx]
          have hx' : s.excluded v = false := by simpa using hx
          cases hr : s.rep v with
          | some rs =>
            obtain ⟨h2, c1, c2, c3⟩ := replace_one s h0 root st h1 hj1 n v d rest rs hn hk0 hk1 hx' hr
            simp only [c1]
            have e : s.on d ++ rs = s.on (d ++ [v]) := by rw [on_append, on_original s hx' hr]
            rw [e] at c3 ⊢
            obtain ⟨h', b1, b2, b3, b4, b5⟩ := ihr (d ++ [v]) _ c3 (by simp [hk0])
              (by simp) (by
                intro m hm
                dsimp only
                rw [put_ne _ _ (by rintro rfl; simp at hm), c2]
                exact hmid1 m hm)
            refine ⟨h', b1, b2, b3, ?_, ?_⟩
            · intro m hm
              have := b4 m hm
              dsimp only at this
              rw [put_ne _ _ hm, c2] at this
              exact this
            · intro w hw hs
              rcases List.mem_cons.1 hw with rfl | hw
              · exact absurd (Or.inr (by rw [hr]; simp)) hs
              · exact b5 w hw hs
          | none =>
            have hs : ¬ s.stop v := by
              rintro (h3 | h3)
              · exact hx h3
              · exact h3 hr
            obtain ⟨h2, c1, c2⟩ := ih (n :: stack) h1 v hj1 (.step hn hv hs)
              (st.kidsRange n v hv) hnd' hrange' hf' (hst' v hv) hmid1
            simp only [c1]
            have e : s.on d ++ [v] = s.on (d ++ [v]) := by rw [on_append, on_keep s hs]
            have hkn : h2.kids n = h1.kids n := by
              rcases c2.changed n with h3 | h3
              · exact h3
              · exact absurd h3.1 (hcycle v hv)
            obtain ⟨h', b1, b2, b3, b4, b5⟩ := ihr (d ++ [v]) h2 c2.inv (by simp [hk0])
              (by rw [hkn, hk1, ← e]; simp) (by
                intro m hm
                rcases c2.changed m with h3 | h3
                · rw [h3]; exact hmid1 m hm
                · exact Or.inr h3.2)
            rw [e]
            refine ⟨h', b1, b2, b3, ?_, ?_⟩
            · intro m hm
              rcases b4 m hm with h3 | h3
              · rcases c2.changed m with h4 | h4
                · exact Or.inl (h3.trans h4)
                · exact Or.inr ⟨hup v hv hs m h4.1, h3.trans h4.2⟩
              · exact Or.inr h3
            · intro w hw hsw m hm
              rcases List.mem_cons.1 hw with rfl | hw
              · by_cases hmn : m = n
                · subst hmn; exact b3
                · rcases b4 m hmn with h3 | h3
                  · rw [h3]; exact c2.done m hm
                  · exact h3.2
              · exact b5 w hw hsw m hm
    -- further visits
    have loop2 : ∀ (l done : List Nat) (h1 : Heap), Inv s h0 root h1 →
        h1.kids n = s.on (h0.kids n) →
        (∀ m, m ∉ n :: stack → h1.kids m = h0.kids m ∨ h1.kids m = s.on (h0.kids m)) →
        (∀ v ∈ l, s.excluded v = true ∨
          (Clean s h0 v ∧ v < h0.size ∧ ¬ Clean s h0 n) ∨ (v ∈ h0.kids n ∧ ¬ s.stop v)) →
        ∃ h', substKids s (substituteFuel s f (n :: stack)) n done l h1 = .ok h' ∧
          Inv s h0 root h' ∧ h'.kids n = s.on (h0.kids n) ∧
          (∀ m, m ≠ n → h'.kids m = h1.kids m ∨
            (Inside h0.kids s.stop n m ∧ h'.kids m = s.on (h0.kids m))) ∧
          (∀ v ∈ l, v ∈ h0.kids n → ¬ s.stop v → ∀ m, Inside h0.kids s.stop v m →
            h'.kids m = s.on (h0.kids m)) := by
      intro l
      induction l with
      | nil => intro done h1 hj1 hk1 _ _; exact ⟨h1, rfl, hj1, hk1, fun m _ => Or.inl rfl, by simp⟩
      | cons v l ihl =>
        intro done h1 hj1 hk1 hmid1 hl
        have hl' := fun w hw => hl w (List.mem_cons_of_mem v hw)
        rw [substKids]
        by_cases hx : s.excluded v = true
        · rw [if_pos hx]
          obtain ⟨h', b1, b2, b3, b4, b5⟩ := ihl (done ++ [v]) h1 hj1 hk1 hmid1 hl'
          refine ⟨h', b1, b2, b3, b4, ?_⟩
          intro w hw hwk hs
          rcases List.mem_cons.1 hw with rfl | hw
          · exact absurd (Or.inl hx) hs
          · exact b5 w hw hwk hs
        · rw [if_neg hx]
          by_cases hkeep : v ∈ h0.kids n ∧ ¬ s.stop v
          · obtain ⟨hv, hs⟩ := hkeep
            have hr : s.rep v = none := by
              by_contra hne
              exact hs (Or.inr hne)
            simp only [hr]
            obtain ⟨h2, c1, c2⟩ := ih (n :: stack) h1 v hj1 (.step hn hv hs)
              (st.kidsRange n v hv) hnd' hrange' hf' (hst' v hv) hmid1
            simp only [c1]
            have hkn : h2.kids n = h1.kids n := by
              rcases c2.changed n with h3 | h3
              · exact h3
              · exact absurd h3.1 (hcycle v hv)
            obtain ⟨h', b1, b2, b3, b4, b5⟩ := ihl (done ++ [v]) h2 c2.inv (by rw [hkn, hk1]) (by
                intro m hm
                rcases c2.changed m with h3 | h3
                · rw [h3]; exact hmid1 m hm
                · exact Or.inr h3.2) hl'
            refine ⟨h', b1, b2, b3, ?_, ?_⟩
            · intro m hm
              rcases b4 m hm with h3 | h3
              · rcases c2.changed m with h4 | h4
                · exact Or.inl (h3.trans h4)
                · exact Or.inr ⟨hup v hv hs m h4.1, h3.trans h4.2⟩
              · exact Or.inr h3
            · intro w hw hwk hsw m hm
              rcases List.mem_cons.1 hw with rfl | hw
              · by_cases hmn : m = n
                · subst hmn; exact b3
                · rcases b4 m hmn with h3 | h3
                  · rw [h3]; exact c2.done m hm
                  · exact h3.2
              · exact b5 w hw hwk hsw m hm
          · rcases hl v (by simp) with h3 | ⟨h3, h4, h5⟩ | h3
            · exact absurd h3 hx
            · have hr : s.rep v = none := h3 v ReflTransGen.refl
              simp only [hr]
              rw [clean_noop s h0 root st h1 hj1 f (n :: stack) v h3 h4 hnd' hrange' hf' ?_]
              · simp only
                obtain ⟨h', b1, b2, b3, b4, b5⟩ := ihl (done ++ [v]) h1 hj1 hk1 hmid1 hl'
                refine ⟨h', b1, b2, b3, b4, ?_⟩
                intro w hw hwk hs m hm
                rcases List.mem_cons.1 hw with rfl | hw
                · exact absurd ⟨hwk, hs⟩ hkeep
                · exact b5 w hw hwk hs m hm
              · intro x hxs
                left
                rcases List.mem_cons.1 hxs with rfl | hxs
                · exact h5
                · intro hc
                  apply h5
                  intro m hm
                  exact hc m ((hst x hxs).to_reflTransGen.trans hm)
            · exact absurd h3 hkeep
    have fin : ∀ h' : Heap, Inv s h0 root h' → h'.kids n = s.on (h0.kids n) →
        (∀ m, m ≠ n → h'.kids m = h.kids m ∨
            (Inside h0.kids s.stop n m ∧ h'.kids m = s.on (h0.kids m))) →
        (∀ v ∈ h0.kids n, ¬ s.stop v → ∀ m, Inside h0.kids s.stop v m →
            h'.kids m = s.on (h0.kids m)) → Visited s h0 root n h h' := by
      intro h' b2 b3 b4 b5
      refine ⟨b2, ?_, ?_⟩
      · intro m
        by_cases hm : m = n
        · subst hm; exact Or.inr ⟨.root, b3⟩
        · exact b4 m hm
      · intro m hm
        rcases inside_head hm with rfl | ⟨v, hv, hs, hvm⟩
        · exact b3
        · exact b5 v hv hs m hvm
    rcases hmid n hnot with h3 | h3
    · obtain ⟨h', b1, b2, b3, b4, b5⟩ := loop1 (h0.kids n) [] h hj rfl (by rw [h3]; rfl)
        (fun m hm => hmid m (fun h4 => hm (List.mem_cons_of_mem n h4)))
      refine ⟨h', ?_, fin h' b2 b3 b4 b5⟩
      rw [h3]
      exact b1
    · have hmem : ∀ v ∈ h0.kids n, ¬ s.stop v → v ∈ s.on (h0.kids n) :=
        fun v hv hs => mem_on_keep s hs hv
      obtain ⟨h', b1, b2, b3, b4, b5⟩ := loop2 (h.kids n) [] h hj h3
        (fun m hm => hmid m (fun h4 => hm (List.mem_cons_of_mem n h4))) (by
          intro v hv
          rw [h3] at hv
          unfold Subst.on replaced at hv
          rw [List.mem_flatMap] at hv
          obtain ⟨w, hw, hvw⟩ := hv
          split at hvw
          · rename_i hwx
            rw [List.mem_singleton] at hvw
            subst hvw
            exact Or.inl hwx
          · rename_i hwx
            cases hr : s.rep w with
            | none =>
              rw [hr] at hvw
              simp only [Option.getD_none, List.mem_singleton] at hvw
              subst hvw
              refine Or.inr (Or.inr ⟨hw, ?_⟩)
              rintro (h4 | h4)
              · exact hwx h4
              · exact h4 hr
            | some rs =>
              rw [hr] at hvw
              simp only [Option.getD_some] at hvw
              refine Or.inr (Or.inl ⟨st.repClean w rs hr v hvw, st.repRange w rs hr v hvw, ?_⟩)
              intro hc
              have := hc w (ReflTransGen.single hw)
              rw [hr] at this
              cases this)
      refine ⟨h', b1, fin h' b2 b3 b4 ?_⟩
      intro v hv hs
      exact b5 v (by rw [h3]; exact hmem v hv hs) hv hs

end Verif.Ast
