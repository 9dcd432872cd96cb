import Verif.Loops.Model
import Verif.IntMath.Lemmas
/-! Helper lemmas for the loop properties. -/
namespace Verif.Loops
open Spec Verif.IntMath Verif.IntMath.Spec

/-- The test that a range continues at value `x`. -/
def inR (b s x : Int) : Prop := (0 < s ∧ x < b) ∨ (s < 0 ∧ b < x)

theorem isRange_nil {a b s : Int} (h : IsRange a b s []) : ¬ inR b s a := by
  intro hc
  have := (h 0 a).2 ⟨by simp, hc⟩
  simp at this

theorem isRange_cons {a b s x : Int} {xs : List Int} (h : IsRange a b s (x :: xs)) :
    x = a ∧ inR b s a ∧ IsRange (a + s) b s xs := by
  have h0 := (h 0 x).1 (by simp)
  have hx : x = a := by simpa using h0.1
  subst hx
  refine ⟨rfl, h0.2, ?_⟩
  intro k v
  have := h (k + 1) v
  simp only [List.getElem?_cons_succ] at this
  rw [this]
  have e : x + s * ((k + 1 : Nat) : Int) = x + s + s * (k : Int) := by push_cast; ring
  rw [e]

theorem cCond_eq {σ : Type} (v : Var σ) (r : Range σ) (s : σ) (hk : r.step.val s ≠ 0) :
    cCond v r s = true ↔ inR (r.stop s) (r.step.val s) (v.get s) := by
  unfold cCond inR
  cases hst : r.step with
  | lit k => simp only [hst, Step.val] at *; simp; omega
  | neg k =>
    simp only [hst, Step.val] at *
    have : -(k : Int) < 0 := by omega
    rw [if_pos this]; simp only [decide_eq_true_eq]; omega
  | expr e =>
    simp only [hst, Step.val] at *
    split <;> simp <;> omega

theorem doCount_zero {a b s : Int} (hs : s ≠ 0) (h : ¬ inR b s a) :
    doCount a (if 0 < s then b - 1 else b + 1) s = 0 := by
  unfold doCount inR at *
  obtain ⟨f1, f2, f3, f4, f5⟩ := trunc_facts ((if 0 < s then b - 1 else b + 1) - a + s) s hs
  generalize ((if 0 < s then b - 1 else b + 1) - a + s).tdiv s = q at *
  generalize ((if 0 < s then b - 1 else b + 1) - a + s).tmod s = t at *
  have : q ≤ 0 := by
    by_contra hq
    split at f1
    · have : 1 * s ≤ q * s := Int.mul_le_mul_of_nonneg_right (by omega) (by omega)
      omega
    · have : q * s ≤ 1 * s := Int.mul_le_mul_of_nonpos_right (by omega) (by omega)
      omega
  omega

theorem doCount_succ {a b s : Int} (hs : s ≠ 0) (h : inR b s a) :
    doCount a (if 0 < s then b - 1 else b + 1) s
      = doCount (a + s) (if 0 < s then b - 1 else b + 1) s + 1 := by
  unfold doCount
  rcases h with ⟨h1, h2⟩ | ⟨h1, h2⟩
  · rw [if_pos h1]
    have e : b - 1 - a + s = (b - 1 - (a + s) + s) + 1 * s := by ring
    obtain ⟨x, hx⟩ : ∃ x, x = b - 1 - (a + s) + s := ⟨_, rfl⟩
    have hx0 : 0 ≤ x := by omega
    rw [e, ← hx, Int.tdiv_eq_ediv_of_nonneg (by omega), Int.tdiv_eq_ediv_of_nonneg hx0,
      Int.add_mul_ediv_right _ _ hs]
    have := Int.ediv_nonneg hx0 (b := s) (by omega)
    omega
  · rw [if_neg (by omega)]
    have e : b + 1 - a + s = -((-(b + 1 - (a + s) + s)) + 1 * (-s)) := by ring
    obtain ⟨x, hx⟩ : ∃ x, x = -(b + 1 - (a + s) + s) := ⟨_, rfl⟩
    obtain ⟨t, ht⟩ : ∃ t, t = -s := ⟨_, rfl⟩
    have hx0 : 0 ≤ x := by omega
    have e2 : b + 1 - (a + s) + s = -x := by omega
    have e3 : s = -t := by omega
    rw [e, e2, e3]
    simp only [neg_neg, Int.neg_tdiv, Int.tdiv_neg]
    rw [Int.tdiv_eq_ediv_of_nonneg (by omega), Int.tdiv_eq_ediv_of_nonneg hx0,
      Int.add_mul_ediv_right _ _ (by omega)]
    have := Int.ediv_nonneg hx0 (b := t) (by omega)
    omega

theorem fStop_eq {σ : Type} (r : Range σ) (s : σ) (hk : r.step.val s ≠ 0) :
    fStop r s = if 0 < r.step.val s then r.stop s - 1 else r.stop s + 1 := by
  unfold fStop
  rcases r with ⟨a, b, st⟩
  cases st with
  | lit k =>
    have : (0 : Int) < (Step.lit (σ := σ) k).val s := by simp only [Step.val] at *; omega
    simp only [this, if_true]
  | neg k =>
    have : ¬ (0 : Int) < (Step.neg (σ := σ) k).val s := by simp only [Step.val] at *; omega
    simp only [this, if_false]
  | expr e => rfl

/-- The elements of a range exist and its length is characterised by the iteration count. -/
theorem isRange_length {a b s : Int} (hs : s ≠ 0) {l : List Int} (h : IsRange a b s l) :
    l.length = doCount a (if 0 < s then b - 1 else b + 1) s := by
  induction l generalizing a with
  | nil => rw [doCount_zero hs (isRange_nil h)]; rfl
  | cons x xs ih =>
    obtain ⟨_, h2, h3⟩ := isRange_cons h
    rw [doCount_succ hs h2, ← ih h3]; rfl

theorem ceilDiv_eq_doCount (a b s : Int) (hs : s ≠ 0)
    (hdir : (0 < s ∧ a ≤ b) ∨ (s < 0 ∧ b ≤ a)) :
    ceilDiv (b - a) s = (doCount a (if 0 < s then b - 1 else b + 1) s : Int) := by
  unfold ceilDiv doCount
  rcases hdir with ⟨h1, h2⟩ | ⟨h1, h2⟩
  · simp only [h1, if_true]
    obtain ⟨f1, f2, f3, f4, f5⟩ := trunc_facts (b - 1 - a + s) s (by omega)
    have f2 := f2 (by omega)
    generalize (b - 1 - a + s).tdiv s = q at *
    generalize (b - 1 - a + s).tmod s = t at *
    have hq : 0 ≤ q := by
      by_contra hneg
      have : q * s ≤ (-1) * s := Int.mul_le_mul_of_nonneg_right (by omega) (by omega)
      omega
    have e : -(b - a) = (s - 1 - t) + s * (-q) := by
      have : s * (-q) = -(q * s) := by ring
      rw [this]; omega
    rw [e, Int.add_mul_ediv_left _ _ (by omega), Int.ediv_eq_zero_of_lt (by omega) (by omega)]
    omega
  · have hn : ¬ 0 < s := by omega
    simp only [hn, if_false]
    obtain ⟨f1, f2, f3, f4, f5⟩ := trunc_facts (b + 1 - a + s) s (by omega)
    have f3 := f3 (by omega)
    generalize (b + 1 - a + s).tdiv s = q at *
    generalize (b + 1 - a + s).tmod s = t at *
    have hq : 0 ≤ q := by
      by_contra hneg
      have : (-1) * s ≤ q * s := Int.mul_le_mul_of_nonpos_right (by omega) (by omega)
      omega
    have e : b - a = (t - s - 1) + (-s) * (-q) := by
      have : (-s) * (-q) = q * s := by ring
      rw [this]; omega
    rw [e, Int.add_mul_ediv_left _ _ (by omega), Int.ediv_eq_zero_of_lt (by omega) (by omega)]
    omega

theorem foldr_sum (l : List Int) (f : Int → List (List Int)) :
    (l.map fun x => some ((f x).length : Int)).foldr
      (fun x acc => x.bind fun a => acc.map (a + ·)) (some 0)
      = some ((l.flatMap f).length : Int) := by
  induction l with
  | nil => rfl
  | cons x xs ih => simp [ih]

theorem minList_le {n : Nat} {l : List Nat} (h : n ∈ l) : minList l ≤ n := by
  induction l with
  | nil => cases h
  | cons x xs ih =>
    cases xs with
    | nil => simp at h; simp [minList, h]
    | cons y ys =>
      simp only [minList]
      rcases List.mem_cons.1 h with rfl | h
      · exact Nat.min_le_left _ _
      · exact Nat.le_trans (Nat.min_le_right _ _) (ih h)

theorem minList_mem {l : List Nat} (h : l ≠ []) : minList l ∈ l := by
  induction l with
  | nil => exact absurd rfl h
  | cons x xs ih =>
    cases xs with
    | nil => simp [minList]
    | cons y ys =>
      simp only [minList]
      rcases Nat.le_total x (minList (y :: ys)) with hle | hle
      · rw [Nat.min_eq_left hle]; simp
      · rw [Nat.min_eq_right hle]; exact List.mem_cons_of_mem _ (ih (by simp))

theorem zip_heads {α : Type} (ls : List (List α)) (h : ∀ l ∈ ls, l ≠ []) :
    (ls.mapM fun l => l[0]?) = some (ls.filterMap List.head?) := by
  induction ls with
  | nil => rfl
  | cons l ls ih =>
    cases l with
    | nil => exact absurd rfl (h [] (by simp))
    | cons x xs =>
      rw [List.mapM_cons, ih (fun l hl => h l (by simp [hl]))]
      simp

theorem mapM_tails {α : Type} (ls : List (List α)) (k : Nat) (h : ∀ l ∈ ls, l ≠ []) :
    (ls.mapM fun l => l[k + 1]?) = ((ls.map List.tail).mapM fun l => l[k]?) := by
  induction ls with
  | nil => rfl
  | cons l ls ih =>
    cases l with
    | nil => exact absurd rfl (h [] (by simp))
    | cons x xs =>
      rw [List.map_cons, List.mapM_cons, List.mapM_cons, ih (fun l hl => h l (by simp [hl]))]
      simp

theorem minList_tails {α : Type} (ls : List (List α)) (hne : ls ≠ []) (h : ∀ l ∈ ls, l ≠ []) :
    minList (ls.map List.length) = minList ((ls.map List.tail).map List.length) + 1 := by
  induction ls with
  | nil => exact absurd rfl hne
  | cons l ls ih =>
    have hl := h l (by simp)
    have hlen : l.length = l.tail.length + 1 := by cases l with
      | nil => exact absurd rfl hl
      | cons => rfl
    cases ls with
    | nil => simpa [minList] using hlen
    | cons m ms =>
      have := ih (by simp) (fun l hl => h l (by simp [hl]))
      simp only [List.map_cons, minList] at *
      omega

theorem zip_aux {α : Type} (fuel : Nat) (ls : List (List α)) (hne : ls ≠ [])
    (hf : ∀ l ∈ ls, l.length ≤ fuel) :
    (List.range (minList (ls.map List.length))).map (fun (k : Nat) => ls.mapM fun l => l[k]?)
      = (pyZip fuel ls).map some := by
  induction fuel generalizing ls with
  | zero =>
    have : minList (ls.map List.length) = 0 := by
      have hm := minList_mem (l := ls.map List.length) (by simpa using hne)
      obtain ⟨l, hl, he⟩ := List.mem_map.1 hm
      have := hf l hl; omega
    simp [this, pyZip]
  | succ fuel ih =>
    unfold pyZip
    by_cases hany : ls.any (·.isEmpty) = true
    · simp only [hany, if_true, List.map_nil]
      obtain ⟨l, hl, he⟩ := List.any_eq_true.1 hany
      have : minList (ls.map List.length) ≤ 0 := by
        apply minList_le; rw [List.mem_map]
        exact ⟨l, hl, by simpa using he⟩
      have : minList (ls.map List.length) = 0 := by omega
      simp [this]
    · have hall : ∀ l ∈ ls, l ≠ [] := by
        intro l hl he; apply hany; rw [List.any_eq_true]; exact ⟨l, hl, by simp [he]⟩
      simp only [hany, if_false, List.map_cons]
      rw [minList_tails ls hne hall, List.range_succ_eq_map]
      simp only [List.map_cons, List.map_map]
      rw [zip_heads ls hall]
      have := ih (ls.map List.tail) (by simpa using hne) (by
        intro l hl; obtain ⟨m, hm, rfl⟩ := List.mem_map.1 hl
        have := hf m hm; simp; omega)
      simp only [List.map_map] at this
      simp only [Bool.false_eq_true, if_false, List.map_cons]
      rw [← this]
      congr 1
      apply List.map_congr_left
      intro k _
      exact mapM_tails ls k hall

theorem foldl_min (l : List Int) (z : Int) :
    (l.foldl Red.min.op z ∈ l ∨ l.foldl Red.min.op z = z) ∧
    (l.foldl Red.min.op z ≤ z ∧ ∀ x ∈ l, l.foldl Red.min.op z ≤ x) := by
  induction l generalizing z with
  | nil => simp
  | cons x xs ih =>
    simp only [List.foldl_cons]
    obtain ⟨h1, h2, h3⟩ := ih (Red.min.op z x)
    have hop : Red.min.op z x ≤ z ∧ Red.min.op z x ≤ x ∧
        (Red.min.op z x = z ∨ Red.min.op z x = x) := by
      simp only [Red.op]; split <;> omega
    refine ⟨?_, by omega, ?_⟩
    · rcases h1 with h1 | h1
      · left; exact List.mem_cons_of_mem _ h1
      · rcases hop.2.2 with h | h
        · right; omega
        · left; rw [h1, h]; simp
    · intro y hy
      rcases List.mem_cons.1 hy with rfl | hy
      · omega
      · exact h3 y hy

theorem foldl_max (l : List Int) (z : Int) :
    (l.foldl Red.max.op z ∈ l ∨ l.foldl Red.max.op z = z) ∧
    (z ≤ l.foldl Red.max.op z ∧ ∀ x ∈ l, x ≤ l.foldl Red.max.op z) := by
  induction l generalizing z with
  | nil => simp
  | cons x xs ih =>
    simp only [List.foldl_cons]
    obtain ⟨h1, h2, h3⟩ := ih (Red.max.op z x)
    have hop : z ≤ Red.max.op z x ∧ x ≤ Red.max.op z x ∧
        (Red.max.op z x = z ∨ Red.max.op z x = x) := by
      simp only [Red.op]; split <;> omega
    refine ⟨?_, by omega, ?_⟩
    · rcases h1 with h1 | h1
      · left; exact List.mem_cons_of_mem _ h1
      · rcases hop.2.2 with h | h
        · right; omega
        · left; rw [h1, h]; simp
    · intro y hy
      rcases List.mem_cons.1 hy with rfl | hy
      · omega
      · exact h3 y hy

/-- Python's state, with another value in the loop variable if the loop ends normally. -/
def afterLoop {σ : Type} (v : Var σ) (body : σ → σ × Ctl) (l : List Int) (s : σ) (x : Int) : σ :=
  if breaks v body l s then pyFor v body l s else v.set (pyFor v body l s) x

theorem afterLoop_next {σ : Type} {v : Var σ} {body : σ → σ × Ctl} {x : Int} {xs : List Int} {s s1 : σ}
    (h : body (v.set s x) = (s1, .next)) (y : Int) :
    afterLoop v body (x :: xs) s y = afterLoop v body xs s1 y := by
  simp [afterLoop, breaks, pyFor, h]

theorem afterLoop_or {σ : Type} (v : Var σ) (body : σ → σ × Ctl) (l : List Int) (s : σ) (y : Int) :
    afterLoop v body l s y = pyFor v body l s ∨ ∃ x, afterLoop v body l s y = v.set (pyFor v body l s) x := by
  unfold afterLoop
  split
  · exact Or.inl rfl
  · exact Or.inr ⟨y, rfl⟩

/-- In Python the variable has the last element. -/
theorem pyFor_last {σ : Type} (v : Var σ) (body : σ → σ × Ctl)
    (hbody : ∀ t, v.get (body t).1 = v.get t) (b k : Int) (l : List Int) (a : Int) (hl : IsRange a b k l)
    (s : σ) (hn : l ≠ []) (hb : breaks v body l s = false) :
    v.get (pyFor v body l s) = a + k * l.length - k := by
  induction l generalizing a s with
  | nil => exact absurd rfl hn
  | cons x xs ih =>
    obtain ⟨rfl, _, htl⟩ := isRange_cons hl
    have hg := hbody (v.set s x)
    rw [v.get_set] at hg
    cases hc : body (v.set s x) with
    | mk s1 ctl =>
      rw [hc] at hg
      cases ctl with
      | brk => simp [breaks, hc] at hb
      | next =>
        simp only [breaks, hc] at hb
        simp only [pyFor, hc]
        cases xs with
        | nil => simp only [pyFor, List.length_cons, List.length_nil]; rw [hg]; simp
        | cons y ys =>
          rw [ih (x + k) htl s1 (by simp) hb]
          simp only [List.length_cons]; push_cast; ring

theorem cLoop_range {σ : Type} (v : Var σ) (r : Range σ) (body : σ → σ × Ctl)
    (b k : Int) (hk : k ≠ 0) (P : σ → Prop)
    (hP : ∀ s, P s → r.stop s = b ∧ r.step.val s = k)
    (hPset : ∀ s x, P s → P (v.set s x))
    (hPbody : ∀ s, P s → P (body s).1 ∧ v.get (body s).1 = v.get s)
    (l : List Int) (a : Int) (hl : IsRange a b k l) (hov : ∀ x ∈ l, InRange 64 (x + k))
    (s : σ) (hs : P s) :
    ∃ N s', (∀ fuel ≥ N, cLoop v r body fuel (v.set s a) = .fin s') ∧
      s' = afterLoop v body l s (a + k * l.length) := by
  induction l generalizing a s with
  | nil =>
    refine ⟨1, v.set s a, ?_, by simp [afterLoop, breaks, pyFor]⟩
    intro fuel hf
    obtain ⟨n, rfl⟩ : ∃ n, fuel = n + 1 := ⟨fuel - 1, by omega⟩
    have hPs := hP _ (hPset s a hs)
    have hc : ¬ (cCond v r (v.set s a) = true) := by
      rw [cCond_eq v r _ (by rw [hPs.2]; exact hk), hPs.1, hPs.2, v.get_set]
      exact isRange_nil hl
    simp [cLoop, hc]
  | cons x xs ih =>
    obtain ⟨rfl, hin, htl⟩ := isRange_cons hl
    have hPs := hP _ (hPset s x hs)
    have hc : cCond v r (v.set s x) = true := by
      rw [cCond_eq v r _ (by rw [hPs.2]; exact hk), hPs.1, hPs.2, v.get_set]
      exact hin
    obtain ⟨hb1, hb2⟩ := hPbody _ (hPset s x hs)
    rw [v.get_set] at hb2
    cases hbody : body (v.set s x) with
    | mk s1 ctl =>
      rw [hbody] at hb1 hb2
      cases ctl with
      | brk =>
        refine ⟨1, s1, ?_, ?_⟩
        · intro fuel hf
          obtain ⟨n, rfl⟩ : ∃ n, fuel = n + 1 := ⟨fuel - 1, by omega⟩
          simp [cLoop, hc, hbody]
        · simp [afterLoop, breaks, pyFor, hbody]
      | next =>
        obtain ⟨N, s', hN, hs'⟩ := ih (x + k) htl (fun y hy => hov y (by simp [hy])) s1 hb1
        refine ⟨N + 1, s', ?_, ?_⟩
        · intro fuel hf
          obtain ⟨n, rfl⟩ : ∃ n, fuel = n + 1 := ⟨fuel - 1, by omega⟩
          have hP1 := hP _ hb1
          have hov' : InRange 64 (x + k) := hov x (by simp)
          simp only [cLoop, hc, if_true, hbody]
          rw [hb2, hP1.2, chk_some hov']
          exact hN n (by omega)
        · rw [hs', afterLoop_next hbody]
          congr 1; simp; ring

theorem doLoop_range {σ : Type} (v : Var σ) (body : σ → σ × Ctl) (b k : Int)
    (hbody : ∀ t, v.get (body t).1 = v.get t) (l : List Int) (a : Int) (hl : IsRange a b k l)
    (s : σ) :
    doLoop v k body l.length (v.set s a) = afterLoop v body l s (a + k * l.length) := by
  induction l generalizing a s with
  | nil => simp [doLoop, afterLoop, breaks, pyFor]
  | cons x xs ih =>
    obtain ⟨rfl, _, htl⟩ := isRange_cons hl
    have hg := hbody (v.set s x)
    rw [v.get_set] at hg
    cases hb : body (v.set s x) with
    | mk s1 ctl =>
      rw [hb] at hg
      cases ctl with
      | brk => simp [doLoop, afterLoop, breaks, pyFor, hb]
      | next =>
        have := ih (x + k) htl s1
        rw [afterLoop_next hb]
        simp only [List.length_cons, doLoop, hb, hg, this]
        congr 1; push_cast; ring

theorem afterLoop_iff {σ : Type} (v : Var σ) (body : σ → σ × Ctl)
    (hbody : ∀ t, v.get (body t).1 = v.get t) (hset : ∀ t, v.set t (v.get t) = t) (b k : Int) (hk : k ≠ 0)
    (l : List Int) (a : Int) (hl : IsRange a b k l) (s : σ) :
    afterLoop v body l s (a + k * l.length) = pyFor v body l s ↔
      (breaks v body l s = true ∨ (l = [] ∧ v.get s = a)) := by
  unfold afterLoop
  cases hb : breaks v body l s with
  | true => simp
  | false =>
    simp only [Bool.false_eq_true, if_false, false_or]
    constructor
    · intro h
      have hg := congrArg v.get h
      rw [v.get_set] at hg
      by_cases hn : l = []
      · subst hn
        refine ⟨rfl, ?_⟩
        simpa [pyFor] using hg.symm
      · rw [pyFor_last v body hbody b k l a hl s hn hb] at hg
        omega
    · rintro ⟨rfl, h⟩
      have : a + k * (([] : List Int).length : Int) = v.get s := by simp [h]
      rw [this]
      exact hset s

end Verif.Loops
