import Verif.Layout.Model

namespace Verif.Layout.Model
open Spec

/-- A dimension of a view as pyccel's Fortran arrays have it. -/
def fd (d : Dim) : FDim := ⟨0, d.len, d.stride⟩

/-! ## Reversal -/

theorem fAddr_append {a b : List FDim} {i j : List Int} (h : a.length = i.length) :
    fAddr (a ++ b) (i ++ j) = (fAddr a i).bind (fun x => (fAddr b j).map (fun y => x + y)) := by
  induction a generalizing i with
  | nil =>
    cases i with
    | nil => simp [fAddr]
    | cons => simp at h
  | cons d ds ih =>
    cases i with
    | nil => simp at h
    | cons k ks =>
      simp only [List.cons_append, fAddr]
      by_cases hk : d.lb ≤ k ∧ k < d.lb + d.ext
      · simp only [hk, and_self, if_true]
        rw [ih (by simpa using h)]
        cases h1 : fAddr ds ks with
        | none => simp
        | some x =>
          cases h2 : fAddr b j with
          | none => simp
          | some y => simp [Int.add_assoc]
      · simp [hk]

theorem fAddr_reverse {a : List FDim} {i : List Int} (h : a.length = i.length) :
    fAddr a.reverse i.reverse = fAddr a i := by
  induction a generalizing i with
  | nil =>
    cases i with
    | nil => rfl
    | cons => simp at h
  | cons d ds ih =>
    cases i with
    | nil => simp at h
    | cons k ks =>
      simp only [List.reverse_cons]
      have h' : ds.length = ks.length := by simpa using h
      rw [fAddr_append (by simpa using h'), ih h']
      simp only [fAddr]
      by_cases hk : d.lb ≤ k ∧ k < d.lb + d.ext
      · simp only [hk, and_self, if_true]
        cases fAddr ds ks with
        | none => simp
        | some x => simp [Int.add_comm]
      · simp only [hk, if_false]
        cases fAddr ds ks <;> simp

theorem fSelect_append {a b : List FDim} {i j : List FSub} (h : a.length = i.length) :
    fSelect (a ++ b) (i ++ j) =
      (fSelect a i).bind (fun x => (fSelect b j).map (fun y => (x.1 + y.1, x.2 ++ y.2))) := by
  induction a generalizing i with
  | nil =>
    cases i with
    | nil => simp [fSelect]
    | cons => simp at h
  | cons d ds ih =>
    cases i with
    | nil => simp at h
    | cons k ks =>
      have ih := ih (i := ks) (by simpa using h)
      cases k with
      | «at» k =>
        simp only [List.cons_append, fSelect]
        by_cases hk : d.lb ≤ k ∧ k < d.lb + d.ext
        · simp only [hk, and_self, if_true]
          rw [ih]
          cases h1 : fSelect ds ks with
          | none => simp
          | some x =>
            cases h2 : fSelect b j with
            | none => simp
            | some y => simp [Int.add_assoc]
        · simp [hk]
      | tri lo hi st =>
        simp only [List.cons_append, fSelect]
        split
        · rw [ih]
          cases h1 : fSelect ds ks with
          | none => simp
          | some x =>
            cases h2 : fSelect b j with
            | none => simp
            | some y => simp [Int.add_assoc]
        · simp

theorem fSelect_reverse {a : List FDim} {i : List FSub} (h : a.length = i.length) :
    fSelect a.reverse i.reverse = (fSelect a i).map (fun r => (r.1, r.2.reverse)) := by
  induction a generalizing i with
  | nil =>
    cases i with
    | nil => rfl
    | cons => simp at h
  | cons d ds ih =>
    cases i with
    | nil => simp at h
    | cons k ks =>
      simp only [List.reverse_cons]
      have h' : ds.length = ks.length := by simpa using h
      rw [fSelect_append (by simpa using h'), ih h']
      cases k with
      | «at» k =>
        simp only [fSelect]
        by_cases hk : d.lb ≤ k ∧ k < d.lb + d.ext
        · simp only [hk, and_self, if_true]
          cases fSelect ds ks with
          | none => simp
          | some x => simp [Int.add_comm]
        · simp only [hk, if_false]
          cases fSelect ds ks <;> simp
      | tri lo hi st =>
        simp only [fSelect]
        split
        · cases fSelect ds ks with
          | none => simp
          | some x => simp [Int.add_comm]
        · cases fSelect ds ks <;> simp

theorem rebase_map (n : Nat) (l : List FDim) (h : l.length = n) :
    rebase (List.replicate n 0) l = some (l.map (fun d => { d with lb := 0 })) := by
  induction l generalizing n with
  | nil => subst h; rfl
  | cons d ds ih =>
    cases n with
    | zero => simp at h
    | succ n =>
      simp only [List.replicate, rebase]
      rw [ih n (by simpa using h)]
      rfl

/-! ## Elements and sections -/

theorem fAddr_map (ds : List Dim) (is : List Nat) :
    fAddr (ds.map fd) (is.map Int.ofNat) = addr ds is := by
  induction ds generalizing is with
  | nil => cases is <;> rfl
  | cons d ds ih =>
    cases is with
    | nil => rfl
    | cons i is =>
      simp only [List.map_cons, fAddr, addr, fd, ih]
      by_cases h : i < d.len
      · have : ((0 : Int) ≤ Int.ofNat i ∧ Int.ofNat i < 0 + (d.len : Int)) := by
          constructor
          · exact Int.natCast_nonneg i
          · simpa using h
        simp [h]
      · have : ¬ ((0 : Int) ≤ Int.ofNat i ∧ Int.ofNat i < 0 + (d.len : Int)) := by
          intro h'
          apply h
          simpa using h'.2
        simp [h]

theorem cAddr_map (ds : List Dim) (is : List Nat) :
    cAddr ds (is.map Int.ofNat) = addr ds is := by
  induction ds generalizing is with
  | nil => cases is <;> rfl
  | cons d ds ih =>
    cases is with
    | nil => rfl
    | cons i is =>
      simp only [List.map_cons, cAddr, addr, ih]
      by_cases h : i < d.len
      · simp [h]
      · simp [h]

theorem tri_sl {a b s : Nat} (h : a ≤ b) (hs : 0 < s) :
    triCount a ((b : Int) - 1) s = (b - a + s - 1) / s := by
  have e : ((b : Int) - 1 - a + s) = ((b - a + s - 1 : Nat) : Int) := by omega
  unfold triCount
  rw [e, ← Int.natCast_ediv, Int.toNat_natCast]

theorem tri_all (n : Nat) : triCount 0 (0 + (n : Int) - 1) 1 = n := by
  unfold triCount
  have : (0 + (n : Int) - 1 - 0 + 1) / 1 = n := by omega
  rw [this, Int.toNat_natCast]

theorem fSelect_map {ds : List Dim} {ss : List Sub} (hl : ds.length = ss.length)
    {r : Int × List Dim} (h : select ds ss = some r) :
    ∃ q, fSelect (ds.map fd) (ss.map fSub) = some (r.1, q) ∧
      q.map (fun d => { d with lb := 0 }) = r.2.map fd := by
  induction ds generalizing ss r with
  | nil =>
    cases ss with
    | nil =>
      simp only [select, Option.some.injEq] at h
      subst h
      exact ⟨[], rfl, rfl⟩
    | cons => simp at hl
  | cons d ds ih =>
    cases ss with
    | nil => simp at hl
    | cons k ks =>
      have hl' : ds.length = ks.length := by simpa using hl
      cases k with
      | «at» i =>
        simp only [select] at h
        split at h
        · rename_i hi
          obtain ⟨r', hr', rfl⟩ := Option.map_eq_some_iff.mp h
          obtain ⟨q, hq, hq2⟩ := ih hl' hr'
          refine ⟨q, ?_, hq2⟩
          have : ((0 : Int) ≤ (i : Int) ∧ (i : Int) < 0 + (d.len : Int)) := by omega
          simp [fSelect, fSub, fd, hi] at hq ⊢
          rw [hq]
        · simp at h
      | all =>
        simp only [select] at h
        obtain ⟨r', hr', rfl⟩ := Option.map_eq_some_iff.mp h
        obtain ⟨q, hq, hq2⟩ := ih hl' hr'
        refine ⟨⟨1, d.len, 1 * d.stride⟩ :: q, ?_, ?_⟩
        · simp only [List.map_cons, fSelect, fSub, fd, Option.getD_none, tri_all]
          have : (0 : Int) < 1 ∧ (d.len = 0 ∨ (0 : Int) ≤ 0 ∧ 0 + (d.len : Int) - 1 < 0 + d.len) := by
            omega
          simp only [this, if_true]
          rw [hq]
          simp
        · simp [hq2, fd]
      | sl a b s =>
        simp only [select] at h
        split at h
        · rename_i hi
          obtain ⟨r', hr', rfl⟩ := Option.map_eq_some_iff.mp h
          obtain ⟨q, hq, hq2⟩ := ih hl' hr'
          refine ⟨⟨1, (b - a + s - 1) / s, s * d.stride⟩ :: q, ?_, ?_⟩
          · simp only [List.map_cons, fSelect, fSub, fd, Option.getD_some]
            rw [tri_sl hi.1 hi.2.2]
            have : (0 : Int) < s ∧ ((b - a + s - 1) / s = 0 ∨
                (0 : Int) ≤ (a : Int) ∧ (b : Int) - 1 < 0 + d.len) := by
              refine ⟨by omega, ?_⟩
              right
              omega
            simp only [this, if_true]
            rw [hq]
            simp
          · simp [hq2, fd]
        · simp at h

theorem cSelect_map {ds : List Dim} {ss : List Sub} (hl : ds.length = ss.length) :
    cSelect ds (ss.map cSub) = select ds ss := by
  induction ds generalizing ss with
  | nil =>
    cases ss with
    | nil => rfl
    | cons => simp at hl
  | cons d ds ih =>
    cases ss with
    | nil => simp at hl
    | cons k ks =>
      have ih := ih (ss := ks) (by simpa using hl)
      cases k with
      | «at» i =>
        simp only [List.map_cons, cSub, cSelect, select, ih]
        by_cases h : i < d.len
        · have : (0 : Int) ≤ (i : Int) ∧ (i : Int) < d.len := by omega
          simp [h]
        · have : ¬ ((0 : Int) ≤ (i : Int) ∧ (i : Int) < d.len) := by omega
          simp [h]
      | all => simp only [List.map_cons, cSub, cSelect, select, ih]
      | sl a b s =>
        simp only [List.map_cons, cSub, cSelect, select, ih]
        by_cases h : a ≤ b ∧ b ≤ d.len ∧ 0 < s
        · have h' : (0 : Int) ≤ (a : Int) ∧ (a : Int) ≤ b ∧ (b : Int) ≤ d.len ∧ (0 : Int) < s := by
            omega
          rw [if_pos h, if_pos h']
          have e : ((b : Int) - a + s - 1) = ((b - a + s - 1 : Nat) : Int) := by omega
          rw [e, ← Int.natCast_ediv, Int.toNat_natCast]
        · have h' : ¬ ((0 : Int) ≤ (a : Int) ∧ (a : Int) ≤ b ∧ (b : Int) ≤ d.len ∧ (0 : Int) < s) := by
            omega
          rw [if_neg h, if_neg h']

theorem select_all (ds : List Dim) : select ds (List.replicate ds.length .all) = some (0, ds) := by
  induction ds with
  | nil => rfl
  | cons d ds ih => simp [List.replicate, select, ih]

theorem select_pad (ds : List Dim) (ss : List Sub) (h : ss.length ≤ ds.length) :
    select ds (pad ds.length ss) = select ds ss := by
  induction ds generalizing ss with
  | nil =>
    cases ss with
    | nil => rfl
    | cons => simp at h
  | cons d ds ih =>
    cases ss with
    | nil =>
      have := select_all (d :: ds)
      simpa [pad, select] using this
    | cons k ks =>
      have h' : ks.length ≤ ds.length := by simpa using h
      have e : pad (d :: ds).length (k :: ks) = k :: pad ds.length ks := by
        simp [pad]
      rw [e]
      cases k <;> simp only [select, ih ks h']

theorem length_pad (n : Nat) (ss : List Sub) (h : ss.length ≤ n) : (pad n ss).length = n := by
  simp [pad]; omega

theorem select_length {ds : List Dim} {ss : List Sub} {r : Int × List Dim}
    (h : select ds ss = some r) : r.2.length = subRank ds.length ss := by
  induction ds generalizing ss r with
  | nil =>
    cases ss with
    | nil =>
      simp only [select, Option.some.injEq] at h
      subst h; rfl
    | cons => simp [select] at h
  | cons d ds ih =>
    cases ss with
    | nil =>
      simp only [select, Option.some.injEq] at h
      subst h; rfl
    | cons k ks =>
      have hc : ∀ {ds : List Dim} {ks : List Sub} {r : Int × List Dim}, select ds ks = some r →
          ks.countP isAt ≤ ds.length := by
        intro ds
        induction ds with
        | nil =>
          intro ks r h
          cases ks with
          | nil => simp
          | cons => simp [select] at h
        | cons d ds ih =>
          intro ks r h
          cases ks with
          | nil => simp
          | cons k ks =>
            cases k with
            | «at» i =>
              simp only [select] at h
              split at h
              · obtain ⟨r', hr', -⟩ := Option.map_eq_some_iff.mp h
                have := ih hr'
                simp [List.countP_cons, isAt]; exact this
              · simp at h
            | all =>
              simp only [select] at h
              obtain ⟨r', hr', -⟩ := Option.map_eq_some_iff.mp h
              have := ih hr'
              simp [isAt] at this ⊢; omega
            | sl a b s =>
              simp only [select] at h
              split at h
              · obtain ⟨r', hr', -⟩ := Option.map_eq_some_iff.mp h
                have := ih hr'
                simp [isAt] at this ⊢; omega
              · simp at h
      cases k with
      | «at» i =>
        simp only [select] at h
        split at h
        · obtain ⟨r', hr', rfl⟩ := Option.map_eq_some_iff.mp h
          have := ih hr'
          have := hc hr'
          simp [subRank, List.countP_cons, isAt] at *
          omega
        · simp at h
      | all =>
        simp only [select] at h
        obtain ⟨r', hr', rfl⟩ := Option.map_eq_some_iff.mp h
        have := ih hr'
        have := hc hr'
        simp [subRank, List.countP_cons, isAt] at *
        omega
      | sl a b s =>
        simp only [select] at h
        split at h
        · obtain ⟨r', hr', rfl⟩ := Option.map_eq_some_iff.mp h
          have := ih hr'
          have := hc hr'
          simp [subRank, List.countP_cons, isAt] at *
          omega
        · simp at h

/-! ## Layouts -/

theorem prod_append (s t : List Nat) : prod (s ++ t) = prod s * prod t := by
  induction s with
  | nil => simp [prod]
  | cons n ns ih => simp [prod, ih, Nat.mul_assoc]

theorem prod_reverse (s : List Nat) : prod s.reverse = prod s := by
  induction s with
  | nil => rfl
  | cons n ns ih => simp [prod_append, prod, ih, Nat.mul_comm]

theorem colMajor_append (k : Nat) (s t : List Nat) :
    colMajor k (s ++ t) = colMajor k s ++ colMajor (k * prod s) t := by
  induction s generalizing k with
  | nil => simp [colMajor, prod]
  | cons n ns ih => simp [colMajor, prod, ih, Nat.mul_assoc]

theorem rowMajor_eq (s : List Nat) : rowMajor s = (colMajor 1 s.reverse).reverse := by
  induction s with
  | nil => rfl
  | cons n ns ih =>
    simp [rowMajor, colMajor_append, ih, colMajor, prod_reverse]

theorem colMajor_len (k : Nat) (s : List Nat) : (colMajor k s).map (·.len) = s := by
  induction s generalizing k with
  | nil => rfl
  | cons n ns ih => simp [colMajor, ih]

theorem rowMajor_len (s : List Nat) : (rowMajor s).map (·.len) = s := by
  induction s with
  | nil => rfl
  | cons n ns ih => simp [rowMajor, ih]

theorem layout_len (o : Order) (s : List Nat) : (layout o s).map (·.len) = s := by
  cases o
  · exact rowMajor_len s
  · exact colMajor_len 1 s

theorem layout_length (o : Order) (s : List Nat) : (layout o s).length = s.length := by
  rw [← List.length_map (f := fun d : Dim => d.len), layout_len]

theorem fAlloc_eq (k : Nat) (s : List Nat) :
    fAlloc k (s.map (fun (n : Nat) => ((0 : Int), (n : Int) - 1))) = (colMajor k s).map fd := by
  induction s generalizing k with
  | nil => rfl
  | cons n ns ih =>
    have e : ((n : Int) - 1 - 0 + 1).toNat = n := by omega
    simp only [List.map_cons, fAlloc, colMajor, e, ih, fd]

theorem revUnlessF_map {α β : Type} (f : α → β) (o : Option Order) (l : List α) :
    (revUnlessF o l).map f = revUnlessF o (l.map f) := by
  unfold revUnlessF; split <;> simp

theorem length_revUnlessF {α : Type} (o : Option Order) (l : List α) :
    (revUnlessF o l).length = l.length := by
  unfold revUnlessF; split <;> simp

theorem revUnlessF_revUnlessF {α : Type} (o : Option Order) (l : List α) :
    revUnlessF o (revUnlessF o l) = l := by
  unfold revUnlessF; split <;> simp

theorem reverse_short {α : Type} {l : List α} (h : l.length < 2) : l.reverse = l := by
  match l, h with
  | [], _ => rfl
  | [a], _ => rfl

theorem revUnlessF_short {α : Type} {l : List α} (o : Option Order) (h : l.length < 2) :
    revUnlessF o l = l := by
  unfold revUnlessF; split
  · rfl
  · exact reverse_short h

theorem layout_short (o o' : Order) {s : List Nat} (h : s.length < 2) :
    layout o s = layout o' s := by
  match s, h with
  | [], _ => cases o <;> cases o' <;> rfl
  | [a], _ => cases o <;> cases o' <;> simp [layout, rowMajor, colMajor, prod]

theorem alloc_layout (o : Order) (s : List Nat) :
    fAlloc 1 ((revUnlessF (mkTy s.length (some o)).order s).map
      (fun (n : Nat) => ((0 : Int), (n : Int) - 1))) =
    revUnlessF (mkTy s.length (some o)).order ((layout o s).map fd) := by
  rw [fAlloc_eq]
  by_cases h : s.length < 2
  · rw [revUnlessF_short _ h, revUnlessF_short _ (by simpa [layout_length] using h)]
    rw [layout_short o .F h]
    rfl
  · cases o
    · simp [mkTy, h, revUnlessF, layout, rowMajor_eq]
    · simp [mkTy, h, revUnlessF, layout]

theorem cLayout_eq (o : Order) (s : List Nat) :
    cLayout (decide ((mkTy s.length (some o)).order = some .F)) s = layout o s := by
  by_cases h : s.length < 2
  · rw [layout_short o .C h]
    simp [mkTy, h, cLayout, layout]
  · cases o <;> simp [mkTy, h, cLayout, layout]

end Verif.Layout.Model
