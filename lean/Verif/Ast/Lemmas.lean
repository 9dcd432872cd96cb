import Verif.Ast.Model
import Mathlib.Tactic.Linarith
/-!
# Invariant of the parent links
-/

namespace Verif.Ast
open Spec

@[simp] theorem put_same {α : Type} (f : Nat → α) (i : Nat) (a : α) : put f i a i = a := by
  simp [put]

theorem put_ne {α : Type} (f : Nat → α) {i j : Nat} (a : α) (h : j ≠ i) : put f i a j = f j := by
  simp [put, h]

/-- The invariant, with `K` for the attributes and `x c p` extra occurrences of `p`
among the users of `c`. -/
structure Good (h : Heap) (K : Nat → List Nat) (x : Nat → Nat → Nat) : Prop where
  cnt : ∀ c p, (h.users c).count p =
    (if h.dead p = true ∧ h.stage c = h.stage p then 0 else (K p).count c) + x c p
  deadUnused : ∀ c, h.dead c = true → h.users c = []
  range : ∀ c, h.users c ≠ [] → c < h.size
  deadRange : ∀ c, h.dead c = true → c < h.size

/-- What an operation on links may change. -/
structure Same (h h' : Heap) : Prop where
  size : h'.size = h.size
  kids : h'.kids = h.kids
  stage : h'.stage = h.stage
  dead : ∀ m, h.dead m = true → h'.dead m = true

theorem Same.refl (h : Heap) : Same h h := ⟨rfl, rfl, rfl, fun _ h => h⟩

theorem Same.trans {a b c : Heap} (h1 : Same a b) (h2 : Same b c) : Same a c :=
  ⟨h2.size.trans h1.size, h2.kids.trans h1.kids, h2.stage.trans h1.stage,
    fun m hm => h2.dead m (h1.dead m hm)⟩

/-- One extra occurrence. -/
def one (c p : Nat) : Nat → Nat → Nat := fun c' p' => if c' = c ∧ p' = p then 1 else 0

/-- Extra occurrences of `p`, one for each element of `l`. -/
def many (l : List Nat) (p : Nat) : Nat → Nat → Nat := fun c' p' => if p' = p then l.count c' else 0

theorem many_nil (p : Nat) : many [] p = fun _ _ => 0 := by
  funext c' p'; simp [many]

theorem many_cons (k : Nat) (l : List Nat) (p : Nat) :
    many (k :: l) p = fun c' p' => many l p c' p' + one k p c' p' := by
  funext c' p'
  simp only [many, one, List.count_cons, beq_iff_eq]
  by_cases h : p' = p
  · by_cases h2 : k = c'
    · simp [h, h2]
    · simp [h, h2, Ne.symm h2]
  · simp [h]

theorem good_congr {h : Heap} {K : Nat → List Nat} {x y : Nat → Nat → Nat} (hg : Good h K x)
    (e : x = y) : Good h K y := e ▸ hg

/-- Which nodes may be discarded: `A`, closed under attributes except for nodes held
by protected nodes `Pr`. -/
structure Zone (kids K : Nat → List Nat) (A Pr : Nat → Prop) : Prop where
  closed : ∀ m, A m → ∀ k ∈ kids m, A k ∨ ∃ m', Pr m' ∧ k ∈ K m'
  agree : ∀ m, A m → kids m = K m
  apart : ∀ m, A m → ¬ Pr m

/-- Result of an operation on links. -/
def Fine (A : Nat → Prop) (h : Heap) (K : Nat → List Nat) (x : Nat → Nat → Nat) : Res → Prop
  | .ok h' => Same h h' ∧ Good h' K x ∧ (∀ m, h'.dead m = true → h.dead m = true ∨ A m)
  | .assertion => False
  | .timeout => True

theorem each_fine (A Pr : Nat → Prop) (K : Nat → List Nat) (p : Nat)
    (f : Heap → Nat → Res) (x : Nat → Nat → Nat) (kids : Nat → List Nat)
    (hf : ∀ h k x, h.kids = kids → Good h K x → (∀ m, Pr m → h.dead m = false) → 0 < x k p →
      (A k ∨ ∃ m', Pr m' ∧ k ∈ K m') →
      Fine A h K (fun c' p' => x c' p' - one k p c' p') (f h k)) :
    ∀ (l : List Nat) (h : Heap), h.kids = kids →
      Good h K (fun c' p' => x c' p' + many l p c' p') →
      (∀ m, Pr m → h.dead m = false) → (∀ m, A m → ¬ Pr m) →
      (∀ k ∈ l, A k ∨ ∃ m', Pr m' ∧ k ∈ K m') → Fine A h K x (each f l h) := by
  intro l
  induction l with
  | nil =>
    intro h hk hg _ _ _
    refine ⟨Same.refl h, ?_, fun m hm => Or.inl hm⟩
    refine good_congr hg ?_
    funext c' p'
    simp [many_nil]
  | cons k l ih =>
    intro h hk hg hpr hap hl
    have h1 := hf h k _ hk hg hpr (by simp [many]) (hl k (by simp))
    simp only [each]
    cases hr : f h k with
    | assertion => rw [hr] at h1; exact h1.elim
    | timeout => trivial
    | ok h' =>
      rw [hr] at h1
      obtain ⟨hs, hg', hd⟩ := h1
      simp only
      have hpr' : ∀ m, Pr m → h'.dead m = false := by
        intro m hm
        by_contra hne
        rcases hd m (by simpa using hne) with h2 | h2
        · rw [hpr m hm] at h2; cases h2
        · exact hap m h2 hm
      have h2 := ih h' (by rw [hs.kids, hk]) (good_congr hg' (by
        funext c' p'
        rw [many_cons]
        dsimp only
        omega)) hpr' hap (fun k hk => hl k (by simp [hk]))
      cases hr2 : each f l h' with
      | assertion => rw [hr2] at h2; exact h2.elim
      | timeout => trivial
      | ok h'' =>
        rw [hr2] at h2
        obtain ⟨hs2, hg2, hd2⟩ := h2
        refine ⟨hs.trans hs2, hg2, fun m hm => ?_⟩
        rcases hd2 m hm with h3 | h3
        · exact hd m h3
        · exact Or.inr h3

theorem count_filter_stage (l : List Nat) (stage : Nat → Nat) (c k : Nat) :
    (l.filter (fun k => stage k = stage c)).count k =
      if stage k = stage c then l.count k else 0 := by
  induction l with
  | nil => simp
  | cons a l ih =>
    rw [List.filter_cons]
    split
    · rename_i h
      simp only [decide_eq_true_eq] at h
      rw [List.count_cons, ih, List.count_cons]
      by_cases hak : a = k
      · subst hak; simp [h]
      · simp [hak]
    · rename_i h
      simp only [decide_eq_true_eq] at h
      rw [ih, List.count_cons]
      by_cases hak : a = k
      · subst hak; simp [h]
      · simp [hak]

theorem kill_good {h : Heap} {K : Nat → List Nat} {x : Nat → Nat → Nat} (hg : Good h K x)
    (c : Nat) (hu : h.users c = []) (hd : h.dead c = false) (hc : c < h.size) :
    Good { h with dead := put h.dead c true } K
      (fun c' p' => x c' p' +
        many ((K c).filter (fun k => h.stage k = h.stage c)) c c' p') := by
  refine ⟨?_, ?_, hg.range, ?_⟩
  · intro c' p'
    rw [hg.cnt]
    simp only [many]
    by_cases hp : p' = c
    · subst hp
      rw [count_filter_stage]
      by_cases hs : h.stage c' = h.stage p'
      · simp [hd, hs]; omega
      · simp [hs]
    · simp [put_ne _ _ hp, hp]
  · intro m hm
    by_cases hmc : m = c
    · rw [hmc]; exact hu
    · simp only [put_ne _ _ hmc] at hm
      exact hg.deadUnused m hm
  · intro m hm
    by_cases hmc : m = c
    · rw [hmc]; exact hc
    · simp only [put_ne _ _ hmc] at hm
      exact hg.deadRange m hm

theorem removeUserFuel_fine (A Pr : Nat → Prop) (K kids : Nat → List Nat)
    (hz : Zone kids K A Pr) :
    ∀ (f : Nat) (h : Heap) (c p : Nat) (inv : Bool) (x : Nat → Nat → Nat),
      h.kids = kids → Good h K x → (∀ m, Pr m → h.dead m = false) → 0 < x c p →
      (inv = true → A c ∨ ∃ m', Pr m' ∧ c ∈ K m') →
      Fine A h K (fun c' p' => x c' p' - one c p c' p') (removeUserFuel f h c p inv) := by
  intro f
  induction f with
  | zero => intros; trivial
  | succ f ih =>
    intro h c p inv x hk hg hpr hx hA
    have hmem : p ∈ h.users c := by
      rw [← List.count_pos_iff, hg.cnt]
      omega
    have hcd : h.dead c = false := by
      by_contra hne
      have := hg.deadUnused c (by simpa using hne)
      rw [this] at hmem
      cases hmem
    rw [removeUserFuel, if_pos hmem]
    have hg1 : Good { h with users := put h.users c ((h.users c).erase p) } K
        (fun c' p' => x c' p' - one c p c' p') := by
      refine ⟨?_, ?_, ?_, hg.deadRange⟩
      · intro c' p'
        have h0 := hg.cnt c' p'
        simp only [one]
        by_cases hc : c' = c
        · subst hc
          by_cases hp : p' = p
          · subst hp
            simp only [put_same, List.count_erase_self, h0, and_self, if_true]
            omega
          · simp only [put_same, List.count_erase_of_ne hp, h0, hp, and_false, if_false]
            omega
        · simp only [put_ne _ _ hc, h0, hc, false_and, if_false]
          omega
      · intro m hm
        by_cases hmc : m = c
        · subst hmc
          simp only at hm
          rw [hcd] at hm; cases hm
        · simp only [put_ne _ _ hmc]
          exact hg.deadUnused m hm
      · intro m hm
        by_cases hmc : m = c
        · subst hmc
          exact hg.range m (List.ne_nil_of_mem hmem)
        · simp only [put_ne _ _ hmc] at hm
          exact hg.range m hm
    dsimp only
    split
    · rename_i hc
      obtain ⟨hc1, hc2⟩ := hc
      have hAc : A c := by
        rcases hA hc2 with h1 | ⟨m', hm1, hm2⟩
        · exact h1
        · exfalso
          -- a protected holder keeps `c` in use
          have h2 := hg1.cnt c m'
          dsimp only at h2
          rw [hc1] at h2
          simp only [List.count_nil, hpr m' hm1, Bool.false_eq_true, false_and, if_false] at h2
          have := List.count_pos_iff.2 hm2
          omega
      have hKc : h.kids c = K c := by rw [hk]; exact hz.agree c hAc
      have hg2 := kill_good hg1 c hc1 hcd (hg.range c (List.ne_nil_of_mem hmem))
      have := each_fine A Pr K c (fun h k => removeUserFuel f h k c true)
        (fun c' p' => x c' p' - one c p c' p') kids ?_
        ((K c).filter (fun k => h.stage k = h.stage c)) _ ?_ hg2 ?_ hz.apart ?_
      · simp only [hKc]
        revert this
        generalize each _ _ _ = r
        intro this
        cases r with
        | assertion => exact this
        | timeout => trivial
        | ok h' =>
          obtain ⟨hs, hg', hd⟩ := this
          refine ⟨⟨hs.size, hs.kids, hs.stage, ?_⟩, hg', ?_⟩
          · intro m hm
            apply hs.dead
            by_cases hmc : m = c
            · simp [hmc]
            · simpa [put_ne _ _ hmc] using hm
          · intro m hm
            rcases hd m hm with h3 | h3
            · by_cases hmc : m = c
              · exact Or.inr (hmc ▸ hAc)
              · left; simpa [put_ne _ _ hmc] using h3
            · exact Or.inr h3
      · intro h' k x' hk' hg' hpr' hx' hl'
        exact ih h' k c true x' hk' hg' hpr' hx' (fun _ => hl')
      · exact hk
      · intro m hm
        by_cases hmc : m = c
        · subst hmc; exact absurd hm (hz.apart _ hAc)
        · simpa [put_ne _ _ hmc] using hpr m hm
      · intro k hk'
        have := (List.mem_filter.1 hk').1
        rw [← hKc, hk] at this
        exact hz.closed c hAc k this
    · exact ⟨⟨rfl, rfl, rfl, fun m hm => hm⟩, hg1, fun m hm => Or.inl hm⟩

/-! ## Termination of the removal -/

theorem sum_put (l : List Nat) (hn : l.Nodup) (g : Nat → Nat) (c v : Nat) (hc : c ∈ l)
    (hv : v + 1 = g c) : (l.map (fun i => if i = c then v else g i)).sum + 1 = (l.map g).sum := by
  induction l with
  | nil => simp at hc
  | cons a l ih =>
    rw [List.nodup_cons] at hn
    simp only [List.map_cons, List.sum_cons]
    by_cases hac : a = c
    · subst hac
      have : l.map (fun i => if i = a then v else g i) = l.map g := by
        apply List.map_congr_left
        intro b hb
        rw [if_neg]
        rintro rfl
        exact hn.1 hb
      rw [this, if_pos rfl]
      omega
    · have := ih hn.2 (by simpa [Ne.symm hac] using hc)
      rw [if_neg hac]
      omega

theorem total_erase (h : Heap) (c p : Nat) (hc : c < h.size) (hp : p ∈ h.users c) :
    Heap.total { h with users := put h.users c ((h.users c).erase p) } + 1 = h.total := by
  unfold Heap.total
  rw [← sum_put (List.range h.size) List.nodup_range (fun i => (h.users i).length) c
    ((h.users c).erase p).length (List.mem_range.2 hc) ?_]
  · congr 2
    apply List.map_congr_left
    intro i _
    by_cases hi : i = c
    · subst hi; simp
    · simp [put_ne _ _ hi, hi]
  · rw [List.length_erase_of_mem hp]
    have := List.length_pos_of_mem hp
    omega

/-- Either the operation fails, or it does not add links. -/
def Shrinks (h : Heap) (strict : Nat) : Res → Prop
  | .ok h' => h'.total + strict ≤ h.total ∧ h'.size = h.size ∧ (∀ c, h'.users c ≠ [] → h.users c ≠ [])
  | .assertion => True
  | .timeout => False

theorem each_shrinks (f : Heap → Nat → Res) (b : Nat)
    (hf : ∀ h k, h.total ≤ b → (∀ c, h.users c ≠ [] → c < h.size) → Shrinks h 0 (f h k)) :
    ∀ (l : List Nat) (h : Heap), h.total ≤ b → (∀ c, h.users c ≠ [] → c < h.size) →
      Shrinks h 0 (each f l h) := by
  intro l
  induction l with
  | nil => intro h _ _; exact ⟨Nat.le_refl _, rfl, fun _ h => h⟩
  | cons k l ih =>
    intro h hb hr
    have h1 := hf h k hb hr
    simp only [each]
    cases hr1 : f h k with
    | assertion => trivial
    | timeout => rw [hr1] at h1; exact h1
    | ok h' =>
      rw [hr1] at h1
      obtain ⟨ha, hs, hu⟩ := h1
      have h2 := ih h' (by omega) (fun c hc => hs ▸ hr c (hu c hc))
      simp only
      cases hr2 : each f l h' with
      | assertion => trivial
      | timeout => rw [hr2] at h2; exact h2
      | ok h'' =>
        rw [hr2] at h2
        obtain ⟨ha2, hs2, hu2⟩ := h2
        exact ⟨by omega, hs2.trans hs, fun c hc => hu c (hu2 c hc)⟩

theorem removeUserFuel_shrinks : ∀ (f : Nat) (h : Heap) (c p : Nat) (inv : Bool),
    h.total < f → (∀ c, h.users c ≠ [] → c < h.size) →
      Shrinks h 1 (removeUserFuel f h c p inv) := by
  intro f
  induction f with
  | zero => intro h c p inv hf; omega
  | succ f ih =>
    intro h c p inv hf hr
    rw [removeUserFuel]
    split
    · rename_i hp
      have ht := total_erase h c p (hr c (List.ne_nil_of_mem hp)) hp
      have hu : ∀ m, (put h.users c ((h.users c).erase p)) m ≠ [] → h.users m ≠ [] := by
        intro m hm
        by_cases hmc : m = c
        · subst hmc; exact List.ne_nil_of_mem hp
        · simpa [put_ne _ _ hmc] using hm
      dsimp only
      split
      · have := each_shrinks (fun h k => removeUserFuel f h k c true) (h.total - 1) ?_
          ((h.kids c).filter (fun k => h.stage k = h.stage c))
          { h with users := put h.users c ((h.users c).erase p), dead := put h.dead c true } ?_ ?_
        · revert this
          generalize each _ _ _ = r
          intro this
          cases r with
          | assertion => trivial
          | timeout => exact this
          | ok h' =>
            obtain ⟨h1, h2, h3⟩ := this
            refine ⟨?_, h2, fun m hm => hu m (h3 m hm)⟩
            have h4 : Heap.total { h with users := put h.users c ((h.users c).erase p),
                                          dead := put h.dead c true } =
              Heap.total { h with users := put h.users c ((h.users c).erase p) } := rfl
            omega
        · intro h' k hb hr'
          have := ih h' k c true (by omega) hr'
          revert this
          generalize removeUserFuel f h' k c true = r
          intro this
          cases r with
          | assertion => trivial
          | timeout => exact this
          | ok h'' => exact ⟨by have := this.1; omega, this.2⟩
        · have h4 : Heap.total { h with users := put h.users c ((h.users c).erase p),
                                        dead := put h.dead c true } =
              Heap.total { h with users := put h.users c ((h.users c).erase p) } := rfl
          omega
        · intro m hm
          exact hr m (hu m hm)
      · exact ⟨by omega, rfl, hu⟩
    · trivial

/-- `removeUser` never exhausts its budget. -/
theorem removeUserFuel_terminates (h : Heap) (c p : Nat) (inv : Bool)
    (hr : ∀ c, h.users c ≠ [] → c < h.size) : removeUser h c p inv ≠ .timeout := by
  intro he
  have := removeUserFuel_shrinks (h.total + 1) h c p inv (by omega) hr
  unfold removeUser at he
  rw [he] at this
  exact this

/-- The outcome of `remove_user_node`, without budget. -/
theorem removeUser_fine (A Pr : Nat → Prop) (K : Nat → List Nat) (h : Heap)
    (hz : Zone h.kids K A Pr) (c p : Nat) (inv : Bool) (x : Nat → Nat → Nat)
    (hg : Good h K x) (hpr : ∀ m, Pr m → h.dead m = false) (hx : 0 < x c p)
    (hA : inv = true → A c ∨ ∃ m', Pr m' ∧ c ∈ K m') :
    ∃ h', removeUser h c p inv = .ok h' ∧ Same h h' ∧
      Good h' K (fun c' p' => x c' p' - one c p c' p') ∧
      (∀ m, h'.dead m = true → h.dead m = true ∨ A m) := by
  have h1 := removeUserFuel_fine A Pr K h.kids hz (h.total + 1) h c p inv x rfl hg hpr hx hA
  have h2 := removeUserFuel_terminates h c p inv hg.range
  unfold removeUser at h2 ⊢
  cases hr : removeUserFuel (h.total + 1) h c p inv with
  | ok h' => rw [hr] at h1; exact ⟨h', rfl, h1⟩
  | assertion => rw [hr] at h1; exact h1.elim
  | timeout => exact absurd hr h2

/-! ## Adding users -/

theorem addUsers_spec (cs : List Nat) (p : Nat) : ∀ h : Heap,
    (addUsers h cs p).size = h.size ∧ (addUsers h cs p).kids = h.kids ∧
    (addUsers h cs p).stage = h.stage ∧ (addUsers h cs p).dead = h.dead ∧
    (∀ c q, ((addUsers h cs p).users c).count q = (h.users c).count q + many cs p c q) ∧
    (∀ c, (addUsers h cs p).users c ≠ [] → h.users c ≠ [] ∨ c ∈ cs) := by
  induction cs with
  | nil => intro h; simp [addUsers, many]
  | cons k cs ih =>
    intro h
    obtain ⟨h1, h2, h3, h4, h5, h6⟩ := ih (addUser h k p)
    have e : addUsers h (k :: cs) p = addUsers (addUser h k p) cs p := rfl
    rw [e]
    refine ⟨h1, h2, h3, h4, ?_, ?_⟩
    · intro c q
      rw [h5, many_cons]
      dsimp only
      have : ((addUser h k p).users c).count q = (h.users c).count q + one k p c q := by
        unfold addUser one
        by_cases hc : c = k
        · subst hc
          simp only [put_same, List.count_append, List.count_cons, List.count_nil, beq_iff_eq,
            true_and, Nat.zero_add]
          simp [eq_comm]
        · simp [put_ne _ _ hc, hc]
      omega
    · intro c hc
      rcases h6 c hc with h7 | h7
      · by_cases hck : c = k
        · right; simp [hck]
        · left
          unfold addUser at h7
          simpa [put_ne _ _ hck] using h7
      · right; simp [h7]

theorem addUsers_good {h : Heap} {K : Nat → List Nat} {x : Nat → Nat → Nat} (hg : Good h K x)
    (cs : List Nat) (p : Nat) (hlive : ∀ c ∈ cs, h.dead c = false) (hsz : ∀ c ∈ cs, c < h.size) :
    Good (addUsers h cs p) K (fun c' p' => x c' p' + many cs p c' p') := by
  obtain ⟨h1, h2, h3, h4, h5, h6⟩ := addUsers_spec cs p h
  refine ⟨?_, ?_, ?_, ?_⟩
  · intro c q
    rw [h5, hg.cnt, h3, h4]
    omega
  · intro c hc
    rw [h4] at hc
    by_contra hne
    rcases h6 c hne with h7 | h7
    · exact h7 (hg.deadUnused c hc)
    · rw [hlive c h7] at hc; cases hc
  · intro c hc
    rw [h1]
    rcases h6 c hc with h7 | h7
    · exact hg.range c h7
    · exact hsz c h7
  · intro c hc
    rw [h4] at hc
    rw [h1]
    exact hg.deadRange c hc

end Verif.Ast
