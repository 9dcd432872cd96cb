import Verif.ArrayCalls.Model

namespace Verif.ArrayCalls.Lemmas
open Verif.ArrayCalls.Spec Verif.ArrayCalls.Model

variable {H : Type} (M : Sem H)

/-- The state after the waiting assignments. -/
def pre : List (Nat × Nat × Nat) → St H → St H
  | [], s => s
  | (n, k, x) :: l, s =>
    let r := M.arr k x s.heap
    pre l { s with heap := r.2, tmp := fun y => if y = n then r.1 else s.tmp y }

theorem pre_append (l m : List (Nat × Nat × Nat)) (s : St H) : pre M (l ++ m) s = pre M m (pre M l s) := by
  induction l generalizing s with
  | nil => rfl
  | cons a l ih => obtain ⟨n, k, x⟩ := a; exact ih _

theorem pre_loc (l : List (Nat × Nat × Nat)) (s : St H) : (pre M l s).loc = s.loc := by
  induction l generalizing s with
  | nil => rfl
  | cons a l ih => obtain ⟨n, k, x⟩ := a; exact ih _

theorem pre_tmp (l : List (Nat × Nat × Nat)) (s : St H) (m : Nat) (h : ∀ a ∈ l, a.1 ≠ m) :
    (pre M l s).tmp m = s.tmp m := by
  induction l generalizing s with
  | nil => rfl
  | cons a l ih =>
    obtain ⟨n, k, x⟩ := a
    have h1 := h (n, k, x) (by simp)
    have h2 := ih { s with heap := (M.arr k x s.heap).2, tmp := fun y => if y = n then (M.arr k x s.heap).1 else s.tmp y }
      (fun a ha => h a (by simp [ha]))
    refine h2.trans ?_
    show (if m = n then _ else _) = _
    rw [if_neg (fun e => h1 e.symm)]

theorem run_before (n : Nat) (l : List (Nat × Nat × Nat)) (p : P) (s : St H) :
    run M n (before l p) s = run M n p (pre M l s) := by
  induction l generalizing s with
  | nil => rfl
  | cons a l ih => obtain ⟨m, k, x⟩ := a; exact ih _

theorem visit_le (e : E) (n : Nat) : n ≤ (visit e n).2.2 := by
  induction e generalizing n with
  | bin o a b iha ihb => exact Nat.le_trans (iha n) (ihb _)
  | and a b iha ihb => exact Nat.le_trans (iha n) (ihb _)
  | or a b iha ihb => exact Nat.le_trans (iha n) (ihb _)
  | tern c a b ihc iha ihb => exact Nat.le_trans (iha n) (Nat.le_trans (ihc _) (ihb _))
  | scal k a ih => exact ih n
  | arr k x => exact Nat.le_succ n
  | _ => exact Nat.le_refl n

theorem visit_names (e : E) (n : Nat) : ∀ a ∈ (visit e n).1, n ≤ a.1 := by
  induction e generalizing n with
  | bin o a b iha ihb | and a b iha ihb | or a b iha ihb =>
    intro c hc
    rcases List.mem_append.1 hc with h | h
    · exact iha n c h
    · exact Nat.le_trans (visit_le a n) (ihb _ c h)
  | tern c a b ihc iha ihb =>
    intro d hd
    have h1 := visit_le a n
    have h2 := visit_le c (visit a n).2.2
    rcases List.mem_append.1 hd with h | h
    · exact iha n d h
    · rcases List.mem_append.1 h with h | h
      · exact Nat.le_trans h1 (ihc _ d h)
      · exact Nat.le_trans h1 (Nat.le_trans h2 (ihb _ d h))
  | scal k a ih => exact ih n
  | arr k x =>
    intro a ha
    simp only [visit, List.mem_singleton] at ha
    subst ha
    exact Nat.le_refl n
  | _ => intro a ha; simp [visit] at ha

theorem visit_plain (e : E) (h : Plain e) (n : Nat) : visit e n = ([], e, n) := by
  induction e generalizing n with
  | bin o a b iha ihb | and a b iha ihb | or a b iha ihb => simp [visit, iha h.1, ihb h.2]
  | tern c a b ihc iha ihb => simp [visit, ihc h.1, iha h.2.1, ihb h.2.2]
  | scal k a ih => simp [visit, ih h]
  | arr k x => exact h.elim
  | _ => rfl

/-- A user's expression does not see the temporaries. -/
theorem eval_source (e : E) (h : Source e) (s t : St H) (hl : s.loc = t.loc) (hh : s.heap = t.heap) :
    eval M e s = eval M e t := by
  induction e generalizing s t with
  | bin o a b iha ihb =>
    have h1 := iha h.1 s t hl hh
    have h2 := ihb h.2 { s with heap := (eval M a s).2 } { t with heap := (eval M a t).2 } hl (by rw [h1])
    simp only [eval]
    rw [h2, h1]
  | and a b iha ihb =>
    have h1 := iha h.1 s t hl hh
    have h2 := ihb h.2 { s with heap := (eval M a s).2 } { t with heap := (eval M a t).2 } hl (by rw [h1])
    simp only [eval]
    rw [h2, h1]
  | or a b iha ihb =>
    have h1 := iha h.1 s t hl hh
    have h2 := ihb h.2 { s with heap := (eval M a s).2 } { t with heap := (eval M a t).2 } hl (by rw [h1])
    simp only [eval]
    rw [h2, h1]
  | tern c a b ihc iha ihb =>
    have h1 := ihc h.1 s t hl hh
    have h2 := iha h.2.1 { s with heap := (eval M c s).2 } { t with heap := (eval M c t).2 } hl (by rw [h1])
    have h3 := ihb h.2.2 { s with heap := (eval M c s).2 } { t with heap := (eval M c t).2 } hl (by rw [h1])
    simp only [eval]
    rw [h2, h3, h1]
  | scal k a ih => simp only [eval]; rw [ih h s t hl hh]
  | tmp n => exact h.elim
  | lit z => simp only [eval]; rw [hh]
  | loc x => simp only [eval]; rw [hh, hl]
  | elem x => simp only [eval]; rw [hh]
  | arr k x => simp only [eval]; rw [hh]

/-- What is left of a steady expression sees only variables and its own temporaries. -/
theorem eval_steady (e : E) (h : Steady e) (hs : Source e) (n : Nat) (s t : St H) (hl : s.loc = t.loc)
    (ht : ∀ m, m < (visit e n).2.2 → s.tmp m = t.tmp m) :
    (eval M (visit e n).2.1 s).1 = (eval M (visit e n).2.1 t).1 ∧ (eval M (visit e n).2.1 s).2 = s.heap := by
  induction e generalizing s t n with
  | bin o a b iha ihb =>
    have hab := visit_le b (visit a n).2.2
    have h1 := iha h.1 hs.1 n s t hl (fun m hm => ht m (Nat.lt_of_lt_of_le hm hab))
    have h2 := ihb h.2 hs.2 (visit a n).2.2 { s with heap := (eval M (visit a n).2.1 s).2 }
      { t with heap := (eval M (visit a n).2.1 t).2 } hl ht
    simp only [visit, eval]
    exact ⟨by rw [h1.1, h2.1], h2.2.trans h1.2⟩
  | and a b iha ihb =>
    have hab := visit_le b (visit a n).2.2
    have h1 := iha h.1 hs.1 n s t hl (fun m hm => ht m (Nat.lt_of_lt_of_le hm hab))
    have h2 := ihb h.2 hs.2 (visit a n).2.2 { s with heap := (eval M (visit a n).2.1 s).2 }
      { t with heap := (eval M (visit a n).2.1 t).2 } hl ht
    simp only [visit, eval]
    rw [← h1.1]
    by_cases hz : (eval M (visit a n).2.1 s).1 = 0
    · rw [if_pos hz, if_pos hz]; exact h1
    · rw [if_neg hz, if_neg hz]; exact ⟨h2.1, h2.2.trans h1.2⟩
  | or a b iha ihb =>
    have hab := visit_le b (visit a n).2.2
    have h1 := iha h.1 hs.1 n s t hl (fun m hm => ht m (Nat.lt_of_lt_of_le hm hab))
    have h2 := ihb h.2 hs.2 (visit a n).2.2 { s with heap := (eval M (visit a n).2.1 s).2 }
      { t with heap := (eval M (visit a n).2.1 t).2 } hl ht
    simp only [visit, eval]
    rw [← h1.1]
    by_cases hz : (eval M (visit a n).2.1 s).1 = 0
    · rw [if_pos hz, if_pos hz]; exact ⟨h2.1, h2.2.trans h1.2⟩
    · rw [if_neg hz, if_neg hz]; exact h1
  | tern c a b ihc iha ihb =>
    have hac := visit_le c (visit a n).2.2
    have hcb := visit_le b (visit c (visit a n).2.2).2.2
    have h1 := ihc h.1 hs.1 (visit a n).2.2 s t hl (fun m hm => ht m (Nat.lt_of_lt_of_le hm hcb))
    have h2 := iha h.2.1 hs.2.1 n { s with heap := (eval M (visit c (visit a n).2.2).2.1 s).2 }
      { t with heap := (eval M (visit c (visit a n).2.2).2.1 t).2 } hl
      (fun m hm => ht m (Nat.lt_of_lt_of_le hm (Nat.le_trans hac hcb)))
    have h3 := ihb h.2.2 hs.2.2 (visit c (visit a n).2.2).2.2 { s with heap := (eval M (visit c (visit a n).2.2).2.1 s).2 }
      { t with heap := (eval M (visit c (visit a n).2.2).2.1 t).2 } hl ht
    simp only [visit, eval]
    rw [← h1.1]
    by_cases hz : (eval M (visit c (visit a n).2.2).2.1 s).1 = 0
    · rw [if_pos hz, if_pos hz]; exact ⟨h3.1, h3.2.trans h1.2⟩
    · rw [if_neg hz, if_neg hz]; exact ⟨h2.1, h2.2.trans h1.2⟩
  | scal k a => exact h.elim
  | elem x => exact h.elim
  | tmp m => exact hs.elim
  | lit z => exact ⟨rfl, rfl⟩
  | loc x => exact ⟨congrFun hl x, rfl⟩
  | arr k x => exact ⟨ht n (Nat.lt_succ_self n), rfl⟩

/-- Moving the calls that come first changes neither the value nor the arrays. -/
theorem visit_ok (e : E) (hf : First e) (hs : Source e) (n : Nat) (s : St H) :
    eval M (visit e n).2.1 (pre M (visit e n).1 s) = eval M e s := by
  induction e generalizing s n with
  | bin o a b iha ihb =>
    have h1 := iha hf.1 hs.1 n s
    simp only [visit, eval, pre_append]
    rcases hf.2.2 with hp | hp
    · rw [visit_plain b hp]
      simp only [pre]
      rw [h1]
      have h2 := eval_source M b hs.2 { pre M (visit a n).1 s with heap := (eval M a s).2 }
        { s with heap := (eval M a s).2 } (pre_loc M _ _) rfl
      rw [h2]
    · have hst := eval_steady M a hp hs.1 n (pre M (visit b (visit a n).2.2).1 (pre M (visit a n).1 s))
        (pre M (visit a n).1 s) (pre_loc M _ _)
        (fun m hm => pre_tmp M _ _ m (fun c hc e => by
          have := visit_names b (visit a n).2.2 c hc
          omega))
      have hst2 := (eval_steady M a hp hs.1 n (pre M (visit a n).1 s) (pre M (visit a n).1 s) rfl (fun _ _ => rfl)).2
      rw [h1] at hst hst2
      rw [hst.1, hst.2]
      have h2 := ihb hf.2.1 hs.2 (visit a n).2.2 (pre M (visit a n).1 s)
      have h3 := eval_source M b hs.2 (pre M (visit a n).1 s) { s with heap := (eval M a s).2 } (pre_loc M _ _) hst2.symm
      have h4 : ({ pre M (visit b (visit a n).2.2).1 (pre M (visit a n).1 s) with
          heap := (pre M (visit b (visit a n).2.2).1 (pre M (visit a n).1 s)).heap } : St H)
          = pre M (visit b (visit a n).2.2).1 (pre M (visit a n).1 s) := rfl
      rw [h4, h2, h3]
  | and a b iha ihb =>
    have h1 := iha hf.1 hs.1 n s
    simp only [visit, eval, pre_append]
    rw [visit_plain b hf.2]
    have h2 := eval_source M b hs.2 { pre M (visit a n).1 s with heap := (eval M a s).2 }
      { s with heap := (eval M a s).2 } (pre_loc M _ _) rfl
    simp only [pre, h1, h2]
  | or a b iha ihb =>
    have h1 := iha hf.1 hs.1 n s
    simp only [visit, eval, pre_append]
    rw [visit_plain b hf.2]
    have h2 := eval_source M b hs.2 { pre M (visit a n).1 s with heap := (eval M a s).2 }
      { s with heap := (eval M a s).2 } (pre_loc M _ _) rfl
    simp only [pre, h1, h2]
  | tern c a b ihc iha ihb =>
    have h1 := ihc hf.1 hs.1 n s
    simp only [visit, visit_plain a hf.2.1, visit_plain b hf.2.2, List.append_nil, List.nil_append, eval]
    have h2 := eval_source M a hs.2.1 { pre M (visit c n).1 s with heap := (eval M c s).2 }
      { s with heap := (eval M c s).2 } (pre_loc M _ _) rfl
    have h3 := eval_source M b hs.2.2 { pre M (visit c n).1 s with heap := (eval M c s).2 }
      { s with heap := (eval M c s).2 } (pre_loc M _ _) rfl
    simp only [h1, h2, h3]
  | scal k a ih => simp only [visit, eval]; rw [ih hf hs n s]
  | tmp m => exact hs.elim
  | lit z => rfl
  | loc x => rfl
  | elem x => rfl
  | arr k x => simp [visit, eval, pre]

theorem visitRhs_first (e : E) (hf : First e) (n : Nat) : visitRhs e n = visit e n := by
  cases e with
  | tern c a b => simp [visitRhs, visit_plain a hf.2.1]
  | _ => rfl

/-- States that look the same. -/
def Same (s t : St H) : Prop := s.loc = t.loc ∧ s.heap = t.heap

theorem map_seen {a b : Option (St H)} (h : a.map seen = b.map seen) :
    (a = none ∧ b = none) ∨ ∃ s t, a = some s ∧ b = some t ∧ Same s t := by
  cases a <;> cases b <;> simp [seen] at h ⊢
  exact h

theorem loop_same (c d : St H → Bool × St H) (b f : St H → Option (St H))
    (hc : ∀ s t, Same s t → (c s).1 = (d t).1 ∧ Same (c s).2 (d t).2)
    (hb : ∀ s t, Same s t → (b s).map seen = (f t).map seen) (n : Nat) (s t : St H) (h : Same s t) :
    (loop c b n s).map seen = (loop d f n t).map seen := by
  induction n generalizing s t with
  | zero => rfl
  | succ n ih =>
    have h1 := hc s t h
    simp only [loop]
    rw [← h1.1]
    cases (c s).1
    · simp only [Bool.false_eq_true, if_false, Option.map_some, seen]; rw [h1.2.1, h1.2.2]
    · simp only [if_true]
      rcases map_seen (hb _ _ h1.2) with ⟨h2, h3⟩ | ⟨u, v, h2, h3, h4⟩
      · rw [h2, h3]; rfl
      · rw [h2, h3]; exact ih u v h4

theorem run_trans (p : P) (hp : Orderly p) (k n : Nat) (s t : St H) (h : Same s t) :
    (run M k (translate p n).1 s).map seen = (run M k p t).map seen := by
  induction p generalizing n s t with
  | skip => simp only [translate, run, Option.map_some, seen]; rw [h.1, h.2]
  | assign x e =>
    simp only [translate, visitRhs_first e hp.2, run_before, run, Option.map_some, seen]
    rw [visit_ok M e hp.2 hp.1, pre_loc, eval_source M e hp.1 s t h.1 h.2, h.1]
  | store x e =>
    simp only [translate, visitRhs_first e hp.2, run_before, run, Option.map_some, seen]
    rw [visit_ok M e hp.2 hp.1, pre_loc, eval_source M e hp.1 s t h.1 h.2, h.1]
  | seq p q ihp ihq =>
    simp only [translate, run]
    rcases map_seen (ihp hp.1 n s t h) with ⟨h2, h3⟩ | ⟨u, v, h2, h3, h4⟩
    · rw [h2, h3]; rfl
    · rw [h2, h3]; exact ihq hp.2 _ u v h4
  | ite c p q ihp ihq =>
    simp only [translate, run_before, run]
    rw [visit_ok M c hp.2.1 hp.1, eval_source M c hp.1 s t h.1 h.2]
    by_cases hz : (eval M c t).1 = 0
    · rw [if_pos hz, if_pos hz]
      exact ihq hp.2.2.2 _ _ _ ⟨(pre_loc M _ _).trans h.1, rfl⟩
    · rw [if_neg hz, if_neg hz]
      exact ihp hp.2.2.1 _ _ _ ⟨(pre_loc M _ _).trans h.1, rfl⟩
  | «elif» c p d q r ihp ihq ihr =>
    obtain ⟨hc, hcf, hd, hdp, hp, hq, hr⟩ := hp
    simp only [translate, visit_plain d hdp, List.append_nil, run_before, run]
    rw [visit_ok M c hcf hc, eval_source M c hc s t h.1 h.2]
    have hd2 := eval_source M d hd { pre M (visit c n).1 s with heap := (eval M c t).2 } { t with heap := (eval M c t).2 }
      ((pre_loc M _ _).trans h.1) rfl
    rw [hd2]
    by_cases hz : (eval M c t).1 = 0
    · rw [if_pos hz, if_pos hz]
      by_cases hy : (eval M d { t with heap := (eval M c t).2 }).1 = 0
      · rw [if_pos hy, if_pos hy]
        exact ihr hr _ _ _ ⟨(pre_loc M _ _).trans h.1, rfl⟩
      · rw [if_neg hy, if_neg hy]
        exact ihq hq _ _ _ ⟨(pre_loc M _ _).trans h.1, rfl⟩
    · rw [if_neg hz, if_neg hz]
      exact ihp hp _ _ _ ⟨(pre_loc M _ _).trans h.1, rfl⟩
  | «while» c p ih =>
    simp only [translate, visit_plain c hp.2.1, before, run]
    refine loop_same _ _ _ _ (fun u v huv => ?_) (fun u v huv => ih hp.2.2 _ u v huv) k s t h
    have h1 := eval_source M c hp.1 u v huv.1 huv.2
    exact ⟨by simp only; rw [h1], huv.1, by simp only; rw [h1]⟩
  | pick x c k a l b => exact hp.elim
  | hoist m j x => exact hp.elim

end Verif.ArrayCalls.Lemmas
