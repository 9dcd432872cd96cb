import Verif.Wrapper.Lemmas6

/-!
# Calls of compiled functions from Python: numbers of references
-/

namespace Verif.Wrapper.Lemmas
open Spec Model

theorem size_of_obj {h : Heap} {i : Id} {o : Obj} (e : h.obj i = some o) : h.size i = o.refs.length := by
  unfold Heap.size; rw [e]; rfl

theorem argsLeak_eq {h : Heap} {sig : List Arg} {is : List Id} (ht : AllTyped h sig is) :
    argsLeak h sig is = lostArgs h sig is := by
  induction sig generalizing is with
  | nil => cases is <;> rfl
  | cons k ks ih =>
    cases is with
    | nil => exact ht.elim
    | cons i is =>
      have h2 := ih ht.2
      have h1 := ht.1
      simp only [argsLeak, lostArgs, List.zip_cons_cons, List.map_cons, List.sum_cons] at *
      rw [h2]
      congr 1
      cases k with
      | atom t => rfl
      | _ =>
        obtain ⟨xs, hx, _⟩ := h1
        simp [checkLeak, castLeak, items, hx, lostArg, size_of_obj hx, Obj.refs] <;> omega

mutual
theorem resLeak_eq (t : ResTy) (c : CRes) : resLeak t c = lostRes t c := by
  match t, c with
  | .pack ts, .pack cs => simp only [resLeak, lostRes]; exact ressLeak_eq ts cs
  | .set _, .seq _ => simp only [resLeak, lostRes]
  | .dict _ _, .dict _ => simp only [resLeak, lostRes]
  | .atom _, .atom _ | .atom _, .seq _ | .atom _, .dict _ | .atom _, .pack _ => simp only [resLeak, lostRes]
  | .list _, .atom _ | .list _, .seq _ | .list _, .dict _ | .list _, .pack _ => simp only [resLeak, lostRes]
  | .tuple _, .atom _ | .tuple _, .seq _ | .tuple _, .dict _ | .tuple _, .pack _ =>
    simp only [resLeak, lostRes]
  | .set _, .atom _ | .set _, .dict _ | .set _, .pack _ => simp only [resLeak, lostRes]
  | .dict _ _, .atom _ | .dict _ _, .seq _ | .dict _ _, .pack _ => simp only [resLeak, lostRes]
  | .pack _, .atom _ | .pack _, .seq _ | .pack _, .dict _ => simp only [resLeak, lostRes]
theorem ressLeak_eq (ts : ResTys) (cs : CRess) : ressLeak ts cs = lostRess ts cs := by
  match ts, cs with
  | .nil, .nil | .nil, .cons _ _ | .cons _ _, .nil => simp only [ressLeak, lostRess]
  | .cons t ts, .cons c cs => simp only [ressLeak, lostRess]; rw [resLeak_eq t c, ressLeak_eq ts cs]
end

theorem backLeak_eq (L : Lang) (sig : List Arg) (out : List CVal) : backLeak L sig out = lostBack L sig out := by
  induction sig generalizing out with
  | nil => cases out <;> rfl
  | cons k ks ih =>
    cases out with
    | nil => rfl
    | cons c cs =>
      have := ih cs
      simp only [backLeak, lostBack, List.zip_cons_cons, List.map_cons, List.sum_cons] at *
      rw [this]
      congr 1
      cases L <;> cases k <;> cases c <;> simp [Arg.shared]
      all_goals (rename_i f _; cases f <;> simp)

theorem lost_eq {L : Lang} {h : Heap} {sig : List Arg} {is : List Id} (ht : AllTyped h sig is)
    (res : Option ResTy) (out : List CVal × CRes) :
    argsLeak h sig is + outLeak res out.2 + backLeak L sig out.1 = lost L h sig is res out := by
  unfold lost
  rw [argsLeak_eq ht, backLeak_eq]
  cases res with
  | none => rfl
  | some t => simp [outLeak, resLeak_eq]

mutual
theorem simple_lost (t : ResTy) (c : CRes) (h : t.simple = true) : lostRes t c = 0 := by
  match t, c with
  | .pack ts, .pack cs => simp only [lostRes]; exact simples_lost ts cs (by simpa [ResTy.simple] using h)
  | .set _, _ => simp [ResTy.simple] at h
  | .dict _ _, _ => simp [ResTy.simple] at h
  | .atom _, .atom _ | .atom _, .seq _ | .atom _, .dict _ | .atom _, .pack _ => simp only [lostRes]
  | .list _, .atom _ | .list _, .seq _ | .list _, .dict _ | .list _, .pack _ => simp only [lostRes]
  | .tuple _, .atom _ | .tuple _, .seq _ | .tuple _, .dict _ | .tuple _, .pack _ => simp only [lostRes]
  | .pack _, .atom _ | .pack _, .seq _ | .pack _, .dict _ => simp only [lostRes]
theorem simples_lost (ts : ResTys) (cs : CRess) (h : ts.simple = true) : lostRess ts cs = 0 := by
  match ts, cs with
  | .nil, .nil | .nil, .cons _ _ | .cons _ _, .nil => simp only [lostRess]
  | .cons t ts, .cons c cs =>
    simp only [ResTys.simple, Bool.and_eq_true] at h
    simp only [lostRess]; rw [simple_lost t c h.1, simples_lost ts cs h.2]
end

theorem lost_simple {L : Lang} {h : Heap} {sig : List Arg} {is : List Id} {res : Option ResTy}
    (hs : ∀ k ∈ sig, ∃ t, k = .atom t) (hr : ∀ t, res = some t → t.simple) (out : List CVal × CRes) :
    lost L h sig is res out = 0 := by
  have h1 : lostArgs h sig is = 0 := by
    induction sig generalizing is with
    | nil => rfl
    | cons k ks ih =>
      cases is with
      | nil => rfl
      | cons i is =>
        obtain ⟨t, rfl⟩ := hs k List.mem_cons_self
        have := ih (is := is) (fun k hk => hs k (List.mem_cons_of_mem _ hk))
        simp only [lostArgs, List.zip_cons_cons, List.map_cons, List.sum_cons, lostArg] at *
        rw [this]
  have h2 : lostBack L sig out.1 = 0 := by
    obtain ⟨out, _⟩ := out
    simp only
    induction sig generalizing out is with
    | nil => rfl
    | cons k ks ih =>
      cases out with
      | nil => rfl
      | cons c cs =>
        obtain ⟨t, rfl⟩ := hs k List.mem_cons_self
        have := ih (is := []) (fun k hk => hs k (List.mem_cons_of_mem _ hk)) (by simp [lostArgs]) cs
        simp only [lostBack, List.zip_cons_cons, List.map_cons, List.sum_cons] at *
        rw [this]
        cases c <;> simp [Arg.shared]
  unfold lost
  rw [h1, h2]
  cases res with
  | none => rfl
  | some t => simp [simple_lost t out.2 (hr t rfl)]

theorem safe_nn {h : Heap} {ext : List Id} (s : Safe h ext) : NN h := fun i => by
  have := s i; unfold net; omega

theorem safe_lt {h : Heap} {ext : List Id} (s : Safe h ext) {i : Id} (hi : i ∈ ext) : i < h.length := by
  apply lt_of_rc
  have := s i
  have := List.count_pos_iff.2 hi
  omega

theorem Step.safe {h h' : Heap} {l ext : List Id} {r : Id} (s : Step h h' (r :: l)) (hs : Safe h ext) :
    Safe h' (r :: ext) := fun i => by
  have h1 := s i
  have h2 := hs i
  unfold net at h1
  simp only [List.count_cons] at *
  omega

theorem Step.exact {h h' : Heap} {l ext : List Id} {r : Id} (s : Step h h' (r :: l)) (hs : Exact h ext) :
    Exact h' (r :: l ++ ext) := fun i => by
  have h1 := s i
  have h2 := hs i
  unfold net at h1
  simp only [List.count_cons, List.count_append, List.cons_append] at *
  omega

theorem exact_unique {h : Heap} {l ext : List Id} {r : Id} (a : Exact h (r :: l ++ ext))
    (b : Exact h (r :: ext)) : l = [] := by
  cases l with
  | nil => rfl
  | cons x l =>
    have h1 := a x
    have h2 := b x
    simp only [List.count_cons, List.count_append, List.cons_append, beq_self_eq_true, if_true] at *
    omega

theorem call_fail {L : Lang} {sig : List Arg} {h : Heap} {is : List Id} (n : NN h)
    (hi : ∀ i ∈ is, i < h.length) (hv : castVals L h sig is = some none) :
    ∃ h' m, ∀ res g, call L sig res g h is = some (h', .typeError m) := by
  obtain ⟨h1, e1, k1, s1⟩ := castArgs_spec (L := L) (ks := sig) (is := is) n hi
  refine ⟨(raiseTypeError h1).1, (raiseTypeError h1).2, fun res g => ?_⟩
  unfold call
  simp [e1, hv]

/-- A check of the reference counts of a given heap. -/
def exactB (h : Heap) (ext : List Id) : Bool :=
  (List.range h.length).all (fun i => decide ((h.uses i + ext.count i : Int) = h.rc i)) &&
    (h.flatMap (fun c => c.obj.refs) ++ ext).all (fun i => decide (i < h.length))

theorem exact_of {h : Heap} {ext : List Id} (e : exactB h ext = true) : Exact h ext := by
  unfold exactB at e
  simp only [Bool.and_eq_true, List.all_eq_true, decide_eq_true_eq, List.mem_range] at e
  intro i
  by_cases hi : i < h.length
  · exact e.1 i hi
  · have h1 : i ∉ h.flatMap (fun c => c.obj.refs) := fun hm => hi (e.2 i (List.mem_append_left _ hm))
    have h2 : i ∉ ext := fun hm => hi (e.2 i (List.mem_append_right _ hm))
    rw [rc_out (Nat.le_of_not_lt hi), Heap.uses, List.count_eq_zero.2 h1, List.count_eq_zero.2 h2]
    rfl

theorem exact_safe {h : Heap} {ext : List Id} (e : Exact h ext) : Safe h ext := fun i => by
  rw [e i]; exact Int.le_refl _

theorem le_sum {l : List Nat} {n : Nat} (hn : n ∈ l) : n ≤ l.sum := by
  induction l with
  | nil => cases hn
  | cons a l ih =>
    rw [List.sum_cons]
    cases hn with
    | head => omega
    | tail _ h => have := ih h; omega

end Verif.Wrapper.Lemmas
