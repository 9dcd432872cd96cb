import Verif.Vectors.Lemmas

/-!
# Inserting indices

A reference with indices in the place of its first slices stands for the element NumPy selects.
-/

namespace Verif.Vectors.Lemmas
open Spec Model

/-- The element that goes with an index of the remaining dimensions, with broadcasting. -/
def blocate (W : World) (env : Env) : List (Size × LSub) → List Nat → List Int
  | [], _ => []
  | (_, .at k) :: ds, jx => k :: blocate W env ds jx
  | (d, .ix a b i) :: ds, jx => offset W d a b (i.val env) :: blocate W env ds jx
  | (d, .sl a b n) :: ds, j :: jx => pick W d a b n j :: blocate W env ds jx
  | (_, .sl _ _ _) :: _, [] => []

/-- The same for references. -/
def atB (W : World) (env : Env) (ix : List Nat) (r : LRef) : Loc :=
  (r.var, blocate W env ((W.shape r.var).zip r.subs)
    (if r.trans then (lastOf r.rank ix).reverse else lastOf r.rank ix))

theorem blocate_lower (W : World) (env : Env) (ds : List Size) (ss : List Sub) (ix : List Nat) :
    blocate W env (ds.zip (ss.map lowerSub)) ix = locate W (ds.zip ss) ix := by
  induction ss generalizing ds ix with
  | nil => simp [blocate, locate]
  | cons s ss ih =>
    cases ds with
    | nil => simp [blocate, locate]
    | cons d ds =>
      cases s with
      | «at» k => simp [lowerSub, blocate, locate, ih]
      | sl a b n =>
        cases ix with
        | nil => simp [lowerSub, blocate, locate]
        | cons i ix => simp [lowerSub, blocate, locate, ih]

theorem llens_lower (ss : List Sub) : llens (ss.map lowerSub) = lens ss := by
  induction ss with
  | nil => rfl
  | cons s ss ih => cases s <;> simp [lowerSub, llens, lens, ih]

theorem rank_lower (t : Bool) (r : Ref) : (lowerRef t r).rank = r.shape.length := by
  simp [LRef.rank, lowerRef, llens_lower, Ref.shape]

theorem shape_lower (r : Ref) : (lowerRef false r).shape = r.shape := by
  simp [LRef.shape, lowerRef, llens_lower, Ref.shape]

theorem shape_lowerT (r : Ref) : (lowerRef true r).shape = r.shape.reverse := by
  simp [LRef.shape, lowerRef, llens_lower, Ref.shape]

theorem atB_lower (W : World) (env : Env) (ix : List Nat) (r : Ref) :
    atB W env ix (lowerRef false r) = r.at W ix := by
  simp only [atB, Ref.at, rank_lower]
  simp [lowerRef, blocate_lower]

theorem atB_lowerT (W : World) (env : Env) (ix : List Nat) (r : Ref) :
    atB W env ix (lowerRef true r) = r.atT W ix := by
  simp only [atB, Ref.atT, rank_lower]
  simp [lowerRef, blocate_lower]

theorem shape_length (r : LRef) : r.shape.length = r.rank := by
  unfold LRef.shape LRef.rank
  split <;> simp

/-- The slices start where `insert_index` thinks they do. -/
def LStarted (ss : List LSub) : Prop :=
  ∀ a b n, LSub.sl a b n ∈ ss → a = none → 0 ≤ b.getD 1

theorem started_lower {r : Ref} (h : r.Started) (t : Bool) : LStarted (lowerRef t r).subs := by
  intro a b n hm
  simp only [lowerRef, List.mem_map] at hm
  obtain ⟨s, hs, e⟩ := hm
  cases s with
  | «at» k => simp [lowerSub] at e
  | sl a' b' n' =>
    simp only [lowerSub, LSub.sl.injEq] at e
    obtain ⟨rfl, rfl, rfl⟩ := e
    exact h _ _ _ hs

theorem offset_eq (W : World) (d : Size) (a b : Option Int) (i : Nat)
    (h : a = none → 0 ≤ b.getD 1) : offset W d a b i = first (d.val W.ρ) a b + b.getD 1 * i := by
  unfold offset first
  cases a with
  | none =>
    have := h rfl
    rw [if_neg (by omega)]
  | some k => simp

theorem llens_fillAt (i : Ix) (p : Nat) (ss : List LSub) :
    llens (fillAt i p ss) = (llens ss).eraseIdx p := by
  induction ss generalizing p with
  | nil => cases p <;> rfl
  | cons s ss ih =>
    cases s with
    | «at» k => cases p <;> simp [fillAt, llens, ih]
    | ix a b j => cases p <;> simp [fillAt, llens, ih]
    | sl a b n => cases p <;> simp [fillAt, llens, ih]

theorem mem_fillAt {i : Ix} {p : Nat} {ss : List LSub} {a b : Option Int} {n : Size}
    (h : LSub.sl a b n ∈ fillAt i p ss) : LSub.sl a b n ∈ ss := by
  induction ss generalizing p with
  | nil => cases p <;> simp [fillAt] at h
  | cons s ss ih =>
    cases s with
    | sl a' b' n' =>
      cases p with
      | zero =>
        simp only [fillAt, List.mem_cons] at h
        rcases h with h | h
        · simp at h
        · simp [h]
      | succ p =>
        simp only [fillAt, List.mem_cons] at h
        rcases h with h | h
        · simp [h]
        · simp [ih h]
    | «at» k =>
      cases p <;> simp only [fillAt, List.mem_cons] at h <;> rcases h with h | h
      · simp at h
      · simp [ih h]
      · simp at h
      · simp [ih h]
    | ix a' b' j =>
      cases p <;> simp only [fillAt, List.mem_cons] at h <;> rcases h with h | h
      · simp at h
      · simp [ih h]
      · simp at h
      · simp [ih h]

theorem blocate_fillAt (W : World) (env : Env) (i : Ix) (p : Nat) (ss : List LSub)
    (ds : List Size) (jx : List Nat) (v : Nat) (n : Size) (hn : (llens ss)[p]? = some n)
    (h1 : n.val W.ρ = 1 → i.val env = 0) (h2 : n.val W.ρ ≠ 1 → i.val env = v) (hs : LStarted ss)
    (hp : p ≤ jx.length) :
    blocate W env (ds.zip (fillAt i p ss)) jx =
      blocate W env (ds.zip ss) (jx.take p ++ v :: jx.drop p) := by
  induction ss generalizing p ds jx with
  | nil => simp [llens] at hn
  | cons s ss ih =>
    cases ds with
    | nil => simp [blocate]
    | cons d ds =>
      have hs' : LStarted ss := fun a b n hm => hs a b n (by simp [hm])
      cases s with
      | «at» k =>
        have := ih p ds jx hn hs' hp
        cases p <;> simp_all [fillAt, blocate]
      | ix a b j =>
        have := ih p ds jx hn hs' hp
        cases p <;> simp_all [fillAt, blocate]
      | sl a b m =>
        cases p with
        | zero =>
          simp only [llens, List.getElem?_cons_zero, Option.some.injEq] at hn
          subst hn
          simp only [fillAt, List.zip_cons_cons, blocate, List.take_zero, List.nil_append,
            List.drop_zero]
          rw [offset_eq _ _ _ _ _ (hs a b m (by simp))]
          unfold pick
          by_cases hm : m.val W.ρ = 1
          · rw [if_pos hm, h1 hm]
          · rw [if_neg hm, h2 hm]
        | succ p =>
          cases jx with
          | nil => simp at hp
          | cons j jx =>
            simp only [fillAt, List.zip_cons_cons, blocate, List.take_succ_cons, List.cons_append,
              List.drop_succ_cons]
            rw [ih p ds jx (by simpa [llens] using hn) hs' (by simpa using hp)]

/-- A reference whose dimensions fit the ones `to`. -/
structure ROk (W : World) (to : List Size) (r : LRef) : Prop where
  started : LStarted r.subs
  rank : r.rank ≤ to.length
  shown : Shown W r.shape to
  fits : Broadcasts (r.dims W) (to.map (·.val W.ρ))

theorem drop_aligned {α : Type} (t : α) (to : List α) (n : Nat) (h : n ≤ to.length) :
    (t :: to).drop ((t :: to).length - n) = to.drop (to.length - n) := by
  rw [List.length_cons, show to.length + 1 - n = (to.length - n) + 1 by omega, List.drop_succ_cons]

theorem step_short (W : World) (env : Env) (d : Nat) (t : Size) (to : List Size) (r : LRef)
    (h : ROk W (t :: to) r) (hr : r.rank ≤ to.length) :
    insertIndex (to.length + 1) (.lvl d) r = r ∧ ROk W to r ∧
      ∀ jx : List Nat, jx.length = to.length → atB W env jx r = atB W env (env d :: jx) r := by
  refine ⟨by unfold insertIndex; rw [if_pos (by omega)], ⟨h.started, hr, ?_, ?_⟩, ?_⟩
  · intro p hp hv
    apply h.shown p _ hv
    rw [drop_aligned t to _ (by rw [shape_length]; exact hr)]
    exact hp
  · have hf := h.fits
    have hl : (r.dims W).length = r.rank := by simp [LRef.dims, shape_length]
    refine ⟨by rw [hl]; simpa using hr, fun p hp => hf.2 p ?_⟩
    rw [List.map_cons, drop_aligned _ _ _ (by rw [hl]; simpa using hr)]
    exact hp
  · intro jx hj
    have : lastOf r.rank (env d :: jx) = lastOf r.rank jx := by
      unfold lastOf
      rw [drop_aligned _ _ _ (by omega)]
    simp only [atB, this]

theorem lastOf_all (n : Nat) (ix : List Nat) (h : ix.length ≤ n) : lastOf n ix = ix := by
  unfold lastOf
  rw [Nat.sub_eq_zero_of_le h]
  rfl

theorem step_full (W : World) (env : Env) (d : Nat) (t : Size) (to : List Size) (r : LRef)
    (h : ROk W (t :: to) r) (hr : r.rank = to.length + 1) :
    ROk W to (insertIndex (to.length + 1) (.lvl d) r) ∧
      (insertIndex (to.length + 1) (.lvl d) r).shape = r.shape.tail ∧
      (insertIndex (to.length + 1) (.lvl d) r).trans = r.trans ∧
      (insertIndex (to.length + 1) (.lvl d) r).var = r.var ∧
      (env d < t.val W.ρ → ∀ jx : List Nat, jx.length = to.length →
        atB W env jx (insertIndex (to.length + 1) (.lvl d) r) = atB W env (env d :: jx) r) := by
  obtain ⟨n, rest, hsh⟩ : ∃ n rest, r.shape = n :: rest := by
    cases hc : r.shape with
    | nil => have := shape_length r; simp [hc] at this; omega
    | cons n rest => exact ⟨n, rest, rfl⟩
  have hlen : rest.length = to.length := by
    have := shape_length r
    rw [hsh] at this
    simp at this
    omega
  have hshown : n.val W.ρ = 1 → n = .lit 1 ∨ t.val W.ρ = 1 := by
    have := h.shown (n, t)
    rw [hsh] at this
    rw [show (t :: to).length - (n :: rest).length = 0 by simp [hlen]] at this
    simpa using this
  generalize hi : (if r.shape[r.rank - (to.length + 1)]? = some (.lit 1) then Ix.lit 0 else .lvl d) = i
  have hi0 : r.shape[r.rank - (to.length + 1)]? = some n := by
    rw [hr, Nat.sub_self, hsh]; rfl
  have h1 : env d < t.val W.ρ → n.val W.ρ = 1 → i.val env = 0 := by
    intro hd hv
    rw [hi0] at hi
    by_cases hl : n = .lit 1
    · rw [if_pos (by rw [hl])] at hi
      subst hi; rfl
    · rw [if_neg (by simpa using hl)] at hi
      subst hi
      rcases hshown hv with h | h
      · exact absurd h hl
      · simp only [Ix.val]; omega
  have h2 : n.val W.ρ ≠ 1 → i.val env = env d := by
    intro hv
    rw [hi0] at hi
    rw [if_neg (by rintro h; simp at h; subst h; exact hv rfl)] at hi
    subst hi; rfl
  have hins : insertIndex (to.length + 1) (.lvl d) r =
      { r with subs := fillAt i (if r.trans then to.length else 0) r.subs } := by
    unfold insertIndex
    rw [if_neg (by omega)]
    simp only [hi]
    cases r.trans
    · simp [hr]
    · simp only [if_true, hr]
      congr 2
      omega
  rw [hins]
  have hshape : LRef.shape { r with subs := fillAt i (if r.trans then to.length else 0) r.subs } =
      r.shape.tail := by
    unfold LRef.shape
    simp only [llens_fillAt]
    have hrl : (llens r.subs).length = to.length + 1 := hr
    cases r.trans
    · simp only [Bool.false_eq_true, if_false]
      cases llens r.subs with
      | nil => rfl
      | cons a l => rfl
    · simp only [if_true]
      generalize llens r.subs = l at hrl
      rw [List.tail_reverse, List.dropLast_eq_take, List.eraseIdx_eq_take_drop_succ,
        List.drop_of_length_le (by omega), hrl]
      simp
  refine ⟨⟨?_, ?_, ?_, ?_⟩, hshape, rfl, rfl, ?_⟩
  · exact fun a b m hm => h.started a b m (mem_fillAt hm)
  · rw [← shape_length, hshape, hsh]; simp [hlen]
  · rw [hshape, hsh]
    intro p hp hv
    apply h.shown p _ hv
    rw [hsh]
    simp only [List.tail_cons, hlen, Nat.sub_self, List.drop_zero] at hp
    simp only [List.length_cons, hlen, Nat.sub_self, List.drop_zero, List.zip_cons_cons,
      List.mem_cons]
    exact .inr hp
  · have hf := h.fits
    unfold LRef.dims at hf ⊢
    rw [hshape, hsh]
    rw [hsh] at hf
    refine ⟨by simp [hlen], fun p hp => hf.2 p ?_⟩
    simp only [List.tail_cons, List.length_map, hlen, Nat.sub_self, List.drop_zero] at hp
    simp only [List.map_cons, List.length_cons, List.length_map, hlen, Nat.sub_self, List.drop_zero,
      List.zip_cons_cons, List.mem_cons]
    exact .inr hp
  · intro hd jx hj
    have hrk : LRef.rank { r with subs := fillAt i (if r.trans then to.length else 0) r.subs } =
        to.length := by
      rw [← shape_length, hshape, hsh]; simp [hlen]
    unfold atB
    rw [hrk, hr, lastOf_all _ _ (by omega), lastOf_all _ _ (by simp [hj])]
    simp only [Prod.mk.injEq, true_and]
    have hfirst : (llens r.subs)[if r.trans then to.length else 0]? = some n := by
      have hrl : (llens r.subs).length = to.length + 1 := hr
      have := hsh
      unfold LRef.shape at this
      cases ht : r.trans <;> simp only [ht, Bool.false_eq_true, if_false, if_true] at this ⊢
      · rw [this]; rfl
      · rw [← List.reverse_inj] at this
        simp only [List.reverse_reverse, List.reverse_cons] at this
        rw [this, List.getElem?_append_right (by simp [hlen])]
        simp [hlen]
    rw [blocate_fillAt W env i _ r.subs (W.shape r.var) _ (env d) n hfirst (h1 hd) h2 h.started
      (by split <;> simp [hj])]
    congr 1
    cases r.trans
    · simp
    · simp only [if_true, List.reverse_cons]
      rw [List.take_of_length_le (by simp [hj]), List.drop_of_length_le (by simp [hj])]

end Verif.Vectors.Lemmas
