import Verif.Comps.Lemmas2
namespace Verif.Comps.Lemmas
open Verif.Comps.Spec Verif.Comps.Model

/-! What generated statements leave alone, whatever the comprehension -/

/-- Only variables of `xs` and the sequence `lhs` change. -/
def Frame (lhs : Nat) (xs : List Nat) (s s' : St) : Prop :=
  (∀ y, y ∉ xs → s'.vars y = s.vars y) ∧ ∀ t, t ≠ lhs → s'.mem.seqs t = s.mem.seqs t

theorem Frame.refl {lhs : Nat} {xs : List Nat} {s : St} : Frame lhs xs s s := ⟨fun _ _ => rfl, fun _ _ => rfl⟩

theorem Frame.trans {lhs : Nat} {xs : List Nat} {s s1 s2 : St} (h1 : Frame lhs xs s s1) (h2 : Frame lhs xs s1 s2) :
    Frame lhs xs s s2 :=
  ⟨fun y hy => by rw [h2.1 y hy, h1.1 y hy], fun t ht => by rw [h2.2 t ht, h1.2 t ht]⟩

theorem Frame.put {lhs : Nat} {xs : List Nat} {s : St} {x : Nat} {v : Int} (hx : x ∈ xs) : Frame lhs xs s (s.put x v) :=
  ⟨fun y hy => by simp only [St.put]; exact upd_ne _ _ _ (fun h : y = x => hy (by rw [h]; exact hx)), fun _ _ => rfl⟩

theorem Frame.mono {lhs : Nat} {xs ys : List Nat} {s s1 : St} (h1 : Frame lhs xs s s1) (h : ∀ y ∈ xs, y ∈ ys) :
    Frame lhs ys s s1 := ⟨fun y hy => h1.1 y (fun hc => hy (h y hc)), h1.2⟩

theorem cRange_frame {lhs : Nat} {xs : List Nat} {x : Nat} (hx : x ∈ xs) {b st : Expr} {body : St → Option St}
    (hb : ∀ s s', body s = some s' → Frame lhs xs s s') (n : Nat) (s s' : St)
    (h : cRange x b st body n s = some s') : Frame lhs xs s s' := by
  induction n generalizing s with
  | zero => cases h
  | succ n ih =>
    simp only [cRange] at h
    split at h
    · cases h
    · cases h; exact Frame.refl
    · cases h1 : body s with
      | none => rw [h1] at h; cases h
      | some s1 =>
        rw [h1] at h
        simp only [Option.bind_some] at h
        cases h2 : ev s1 st with
        | none => rw [h2] at h; cases h
        | some d =>
          rw [h2] at h
          exact ((hb s s1 h1).trans (Frame.put hx)).trans (ih _ h)

/-- A C loop over `range` ends when its condition is false. -/
theorem cRange_end {x : Nat} {b st : Expr} {body : St → Option St} (n : Nat) (s s' : St)
    (h : cRange x b st body n s = some s') : more x b st s' = some false := by
  induction n generalizing s with
  | zero => cases h
  | succ n ih =>
    simp only [cRange] at h
    split at h
    · cases h
    · next hm => cases h; exact hm
    · cases h1 : body s with
      | none => rw [h1] at h; cases h
      | some s1 =>
        rw [h1] at h
        simp only [Option.bind_some] at h
        cases h2 : ev s1 st with
        | none => rw [h2] at h; cases h
        | some d => rw [h2] at h; exact ih _ h

theorem cSeq_frame {lhs : Nat} {xs : List Nat} {x l : Nat} (hx : x ∈ xs) {body : St → Option St}
    (hb : ∀ s s', body s = some s' → Frame lhs xs s s') (n k : Nat) (s s' : St)
    (h : cSeq x l body n k s = some s') : Frame lhs xs s s' := by
  induction n generalizing k s with
  | zero => cases h
  | succ n ih =>
    simp only [cSeq] at h
    split at h
    · cases h; exact Frame.refl
    · next v _ =>
      cases h1 : body (s.put x v) with
      | none => rw [h1] at h; cases h
      | some s1 =>
        rw [h1] at h
        exact ((Frame.put hx).trans (hb _ s1 h1)).trans (ih _ _ h)

theorem fRange_frame {lhs : Nat} {xs : List Nat} {x : Nat} (hx : x ∈ xs) {d : Int} {body : St → Option St}
    (hb : ∀ s s', body s = some s' → Frame lhs xs s s') (n : Nat) (s s' : St)
    (h : fRange x d body n s = some s') : Frame lhs xs s s' := by
  induction n generalizing s with
  | zero => cases h; exact Frame.refl
  | succ n ih =>
    simp only [fRange] at h
    cases h1 : body s with
    | none => rw [h1] at h; cases h
    | some s1 =>
      rw [h1] at h
      exact ((hb s s1 h1).trans (Frame.put hx)).trans (ih _ h)

/-- Where the variable of a Fortran loop ends. -/
theorem fRange_end {x : Nat} {d : Int} {body : St → Option St} (hb : ∀ s s', body s = some s' → s'.vars x = s.vars x)
    (n : Nat) (s s' : St) (h : fRange x d body n s = some s') : s'.vars x = s.vars x + n * d := by
  induction n generalizing s with
  | zero => cases h; simp
  | succ n ih =>
    simp only [fRange] at h
    cases h1 : body s with
    | none => rw [h1] at h; cases h
    | some s1 =>
      rw [h1] at h
      rw [ih _ h]
      simp only [St.put, upd_same, hb s s1 h1]
      rw [Int.natCast_add, Int.add_mul]; omega

theorem fSeq_frame {lhs : Nat} {xs : List Nat} {x l : Nat} (hx : x ∈ xs) {body : St → Option St}
    (hb : ∀ s s', body s = some s' → Frame lhs xs s s') (n k : Nat) (s s' : St)
    (h : fSeq x l body n k s = some s') : Frame lhs xs s s' := by
  induction n generalizing k s with
  | zero => cases h; exact Frame.refl
  | succ n ih =>
    simp only [fSeq] at h
    split at h
    · cases h
    · next v _ =>
      cases h1 : body (s.put x v) with
      | none => rw [h1] at h; cases h
      | some s1 =>
        rw [h1] at h
        exact ((Frame.put hx).trans (hb _ s1 h1)).trans (ih _ _ h)

theorem guardC_frame {lhs : Nat} {xs : List Nat} {conds : List Expr} {body : St → Option St}
    (hb : ∀ s s', body s = some s' → Frame lhs xs s s') (s s' : St) (h : guardC conds body s = some s') : Frame lhs xs s s' := by
  simp only [guardC] at h
  split at h
  · cases h
  · exact hb s s' h
  · cases h; exact Frame.refl

theorem guardF_frame {lhs : Nat} {xs : List Nat} {conds : List Expr} {body : St → Option St}
    (hb : ∀ s s', body s = some s' → Frame lhs xs s s') (s s' : St) (h : guardF conds body s = some s') : Frame lhs xs s s' := by
  simp only [guardF] at h
  split at h
  · cases h
  · exact hb s s' h
  · cases h; exact Frame.refl

theorem runC_frame (k : Kind) (lhs : Nat) (e : Expr) (fuel : Nat) (cs : List Clause) (s s' : St)
    (h : runC k lhs e fuel cs s = some s') : Frame lhs (targets cs) s s' := by
  induction cs generalizing s s' with
  | nil =>
    simp only [runC] at h
    obtain ⟨v, _, h⟩ := bind_some h
    obtain ⟨m, hm, h⟩ := bind_some h
    cases h
    exact ⟨fun _ _ => rfl, emit_seqs hm⟩
  | cons c cs ih =>
    have hb : ∀ s s', guardC c.conds (runC k lhs e fuel cs) s = some s' → Frame lhs (targets (c :: cs)) s s' :=
      guardC_frame fun s s' h => (ih s s' h).mono (fun y hy => by simp [targets] at hy ⊢; right; exact hy)
    cases hi : c.iter with
    | range a b st =>
      simp only [runC, hi] at h
      obtain ⟨a, _, h⟩ := bind_some h
      exact (Frame.put (by simp [targets])).trans (cRange_frame (by simp [targets]) hb _ _ _ h)
    | seq l =>
      simp only [runC, hi] at h
      exact cSeq_frame (by simp [targets]) hb _ _ _ _ h

theorem runF_frame (k : Kind) (lhs : Nat) (e : Expr) (cs : List Clause) (s s' : St)
    (h : runF k lhs e cs s = some s') : Frame lhs (targets cs) s s' := by
  induction cs generalizing s s' with
  | nil =>
    simp only [runF] at h
    obtain ⟨v, _, h⟩ := bind_some h
    obtain ⟨m, hm, h⟩ := bind_some h
    cases h
    exact ⟨fun _ _ => rfl, emit_seqs hm⟩
  | cons c cs ih =>
    have hb : ∀ s s', guardF c.conds (runF k lhs e cs) s = some s' → Frame lhs (targets (c :: cs)) s s' :=
      guardF_frame fun s s' h => (ih s s' h).mono (fun y hy => by simp [targets] at hy ⊢; right; exact hy)
    cases hi : c.iter with
    | range a b st =>
      simp only [runF, hi] at h
      split at h
      · cases h
      obtain ⟨a, _, h⟩ := bind_some h
      obtain ⟨b, _, h⟩ := bind_some h
      obtain ⟨d, _, h⟩ := bind_some h
      split at h
      · cases h
      exact (Frame.put (by simp [targets])).trans (fRange_frame (by simp [targets]) hb _ _ _ h)
    | seq l =>
      simp only [runF, hi] at h
      split at h
      · cases h
      exact fSeq_frame (by simp [targets]) hb _ _ _ _ h

/-! Arrays changed in place -/

theorem eval_env {env env' : Nat → Option Int} {q : Nat → List Int} (he : ∀ x v, env x = some v → env' x = some v)
    {e : Expr} {v : Int} (h : eval env q e = some v) : eval env' q e = some v := by
  induction e generalizing v with
  | num n => exact h
  | var x => exact he x v h
  | len t => exact h
  | elt t e ih =>
    obtain ⟨i, h1, h2⟩ := bind_some h
    simp only [eval, ih h1]; exact h2
  | add a b iha ihb =>
    obtain ⟨i, h1, h2⟩ := bind_some h; obtain ⟨j, h3, h4⟩ := bind_some h2
    simp only [eval, iha h1, ihb h3]; exact h4
  | sub a b iha ihb =>
    obtain ⟨i, h1, h2⟩ := bind_some h; obtain ⟨j, h3, h4⟩ := bind_some h2
    simp only [eval, iha h1, ihb h3]; exact h4
  | mul a b iha ihb =>
    obtain ⟨i, h1, h2⟩ := bind_some h; obtain ⟨j, h3, h4⟩ := bind_some h2
    simp only [eval, iha h1, ihb h3]; exact h4

theorem ahead_eval {env : Nat → Option Int} {q q' : Nat → List Int} {l x k : Nat} (hx : env x = some (k : Int))
    (hq : ∀ t, t ≠ l → q' t = q t) (hlen : (q' l).length = (q l).length) (hk : ∀ j, k ≤ j → (q' l)[j]? = (q l)[j]?)
    {e : Expr} (h : e.Ahead l x) : eval env q' e = eval env q e := by
  induction e with
  | num n => rfl
  | var x => rfl
  | len t =>
    by_cases ht : t = l
    · subst ht; simp only [eval, hlen]
    · simp only [eval, hq t ht]
  | elt t e ih =>
    simp only [Expr.Ahead] at h
    split at h
    · next ht =>
      subst ht
      rcases h with h | ⟨j, h⟩
      · subst h
        simp only [eval, hx, Option.bind_eq_bind, Option.bind_some, Int.toNat_natCast, hk k (Nat.le_refl k)]
      · subst h
        have h3 : ((k : Int) + (j : Int)).toNat = k + j := by omega
        simp only [eval, hx, Option.bind_eq_bind, Option.bind_some, Option.pure_def, h3, hk (k + j) (by omega)]
    · next ht => simp only [eval, ih h, hq t ht]
  | add a b iha ihb => simp only [eval, iha h.1, ihb h.2]
  | sub a b iha ihb => simp only [eval, iha h.1, ihb h.2]
  | mul a b iha ihb => simp only [eval, iha h.1, ihb h.2]

/-- The values of the element in a loop over one range. -/
def elemVals (q : Nat → List Int) (e : Expr) (env : Nat → Option Int) (x : Nat) : List Int → Option (List Int) :=
  joinVals fun v => do
    if ← holds (upd env x (some v)) q [] then vals q e [] (upd env x (some v)) else return []

theorem elemVals_cons {q : Nat → List Int} {e : Expr} {env : Nat → Option Int} {x : Nat} {v : Int} {vs ws : List Int}
    (h : elemVals q e env x (v :: vs) = some ws) :
    ∃ w ws', eval (upd env x (some v)) q e = some w ∧ elemVals q e env x vs = some ws' ∧ ws = w :: ws' := by
  obtain ⟨a, b, h1, h2, rfl⟩ := joinVals_cons h
  simp only [holds, Option.bind_eq_bind, Option.bind_some, if_true, vals, Option.map_eq_some_iff] at h1
  obtain ⟨w, hw, rfl⟩ := h1
  exact ⟨w, b, hw, h2, rfl⟩

/-- The state in iteration `k`: the first `k` elements are new, the others old. -/
structure Mid (lhs x : Nat) (q : Nat → List Int) (vars : Nat → Int) (k : Nat) (done : List Int) (s : St) : Prop where
  vs : ∀ y, y ≠ x → s.vars y = vars y
  at_ : s.vars x = k
  off : ∀ t, t ≠ lhs → s.mem.seqs t = q t
  cur : s.mem.seqs lhs = done ++ (q lhs).drop k
  len : done.length = k
  cnt : s.mem.cnt = k

theorem Mid.elem {lhs x : Nat} {q : Nat → List Int} {vars : Nat → Int} {k : Nat} {done : List Int} {s : St}
    (h : Mid lhs x q vars k done s) (hk : k < (q lhs).length) {e : Expr} (he : e.Ahead lhs x) {env : Nat → Option Int}
    (henv : ∀ y v, env y = some v → vars y = v) {w : Int}
    (hw : eval (upd env x (some (k : Int))) q e = some w) :
    ∃ m, emit .array lhs w s.mem = some m ∧ ev s e = some w ∧
      Mid lhs x q vars (k + 1) (done ++ [w]) ((⟨s.vars, m⟩ : St).put x ((k : Int) + 1)) := by
  have hl : (s.mem.seqs lhs).length = (q lhs).length := by
    rw [h.cur, List.length_append, List.length_drop, h.len]; omega
  have hev : ev s e = some w := by
    have h1 : eval (upd env x (some (k : Int))) s.mem.seqs e = some w := by
      rw [ahead_eval (upd_same _ _ _) h.off hl ?_ he]; exact hw
      intro j hj
      rw [h.cur, List.getElem?_append_right (by rw [h.len]; exact hj), h.len, List.getElem?_drop]
      congr 1; omega
    refine eval_env (fun y v hy => ?_) h1
    by_cases hyx : y = x
    · subst hyx; rw [upd_same] at hy; rw [h.at_]; exact hy
    · rw [upd_ne _ _ _ hyx] at hy; rw [h.vs y hyx, henv y v hy]
  have hcnt : s.mem.cnt < (s.mem.seqs lhs).length := by rw [h.cnt, hl]; exact hk
  refine ⟨⟨upd s.mem.seqs lhs ((s.mem.seqs lhs).set s.mem.cnt w), s.mem.cnt + 1⟩, by simp only [emit, if_pos hcnt], hev, ?_⟩
  refine ⟨fun y hy => ?_, by simp [St.put], fun t ht => ?_, ?_, by simp [h.len], by simp [St.put, h.cnt]⟩
  · simp only [St.put]; rw [upd_ne _ _ _ hy, h.vs y hy]
  · simp only [St.put]; rw [upd_ne _ _ _ ht, h.off t ht]
  · simp only [St.put, upd_same]
    rw [h.cur, h.cnt, List.set_append_right k w (by rw [h.len]; exact Nat.le_refl _), h.len, Nat.sub_self, List.append_assoc]
    congr 1
    rw [List.drop_eq_getElem_cons hk]
    simp only [List.set_cons_zero, List.singleton_append]

theorem take_all {l : List Int} {a : List Int} (k : Nat) (h : l.length = k) : a ++ l.drop k = a := by
  rw [List.drop_eq_nil_of_le (by omega), List.append_nil]

/-- One iteration of the loop that changes the array. -/
theorem Mid.body {lhs x : Nat} {q : Nat → List Int} {vars : Nat → Int} {k : Nat} {done : List Int} {s : St}
    (h : Mid lhs x q vars k done s) (hk : k < (q lhs).length) {e : Expr} (he : e.Ahead lhs x) {env : Nat → Option Int}
    (henv : ∀ y v, env y = some v → vars y = v) {w : Int} (hw : eval (upd env x (some (k : Int))) q e = some w)
    {body : St → Option St} (hb : ∀ s, body s = (ev s e).bind fun v => (emit .array lhs v s.mem).bind fun m => some { s with mem := m }) :
    ∃ s1, body s = some s1 ∧ s1.vars x = k ∧ (∀ y, y ≠ x → s1.vars y = vars y) ∧ (∀ t, t ≠ lhs → s1.mem.seqs t = q t) ∧
      (s1.mem.seqs lhs).length = (q lhs).length ∧ Mid lhs x q vars (k + 1) (done ++ [w]) (s1.put x ((k : Int) + 1)) := by
  obtain ⟨m, h1, h2, h3⟩ := h.elem hk he henv hw
  refine ⟨⟨s.vars, m⟩, by rw [hb, h2]; simp [h1], h.at_, h.vs, fun t ht => h3.off t ht, ?_, h3⟩
  have : m.seqs lhs = (done ++ [w]) ++ (q lhs).drop (k + 1) := h3.cur
  rw [show (⟨s.vars, m⟩ : St).mem.seqs lhs = m.seqs lhs from rfl, this, List.length_append, List.length_drop, List.length_append, h.len]
  simp; omega

theorem fRange_inplace {lhs x : Nat} {q : Nat → List Int} {vars : Nat → Int} {e : Expr} (he : e.Ahead lhs x)
    {env : Nat → Option Int} (henv : ∀ y v, env y = some v → vars y = v) {body : St → Option St}
    (hb : ∀ s, body s = (ev s e).bind fun v => (emit .array lhs v s.mem).bind fun m => some { s with mem := m })
    (n k : Nat) (hn : k + n = (q lhs).length) (done rest : List Int) (hv : elemVals q e env x (steps n k 1) = some rest)
    (s : St) (hs : Mid lhs x q vars k done s) :
    ∃ s', fRange x 1 body n s = some s' ∧ s'.mem.seqs lhs = done ++ rest := by
  induction n generalizing k done rest s with
  | zero =>
    simp only [steps, elemVals, joinVals, Option.some.injEq] at hv
    refine ⟨s, rfl, ?_⟩
    rw [hs.cur, ← hv, take_all k (by omega), List.append_nil]
  | succ n ih =>
    obtain ⟨w, rest', hw, hv', rfl⟩ := elemVals_cons hv
    obtain ⟨s1, h1, hx, _, _, _, h2⟩ := hs.body (by omega) he henv hw hb
    have := ih (k + 1) (by omega) (done ++ [w]) rest' (by rw [show (((k + 1 : Nat) : Int)) = (k : Int) + 1 by omega]; exact hv') _ h2
    obtain ⟨s', h3, h4⟩ := this
    refine ⟨s', ?_, by rw [h4]; simp⟩
    simp only [fRange, h1, Option.bind_some, hx]
    exact h3

theorem cRange_inplace {lhs x : Nat} {q : Nat → List Int} {vars : Nat → Int} {e : Expr} (he : e.Ahead lhs x)
    {env : Nat → Option Int} (henv : ∀ y v, env y = some v → vars y = v) {body : St → Option St}
    (hb : ∀ s, body s = (ev s e).bind fun v => (emit .array lhs v s.mem).bind fun m => some { s with mem := m })
    {b : Expr} (hbound : ∀ s : St, (∀ y, y ≠ x → s.vars y = vars y) → (∀ t, t ≠ lhs → s.mem.seqs t = q t) →
      (s.mem.seqs lhs).length = (q lhs).length → ev s b = some ((q lhs).length : Int))
    (n k : Nat) (hn : k + n = (q lhs).length) (done rest : List Int) (hv : elemVals q e env x (steps n k 1) = some rest)
    (s : St) (hs : Mid lhs x q vars k done s) (N : Nat) (hN : n + 1 ≤ N) :
    ∃ s', cRange x b (.num 1) body N s = some s' ∧ s'.mem.seqs lhs = done ++ rest := by
  have hlen : (s.mem.seqs lhs).length = (q lhs).length := by
    rw [hs.cur, List.length_append, List.length_drop, hs.len]; omega
  have hm : more x b (.num 1) s = some (decide ((k : Int) < ((q lhs).length : Int))) := by
    simp only [more, hbound s hs.vs hs.off hlen, hs.at_]; rfl
  obtain ⟨N, rfl⟩ : ∃ M, N = M + 1 := ⟨N - 1, by omega⟩
  induction n generalizing k done rest s N with
  | zero =>
    simp only [steps, elemVals, joinVals, Option.some.injEq] at hv
    refine ⟨s, ?_, ?_⟩
    · rw [decide_eq_false (by omega)] at hm
      simp only [cRange, hm]
    · rw [hs.cur, ← hv, take_all k (by omega), List.append_nil]
  | succ n ih =>
    obtain ⟨w, rest', hw, hv', rfl⟩ := elemVals_cons hv
    obtain ⟨s1, h1, hx, _, _, _, h2⟩ := hs.body (by omega) he henv hw hb
    obtain ⟨N, rfl⟩ : ∃ M, N = M + 1 := ⟨N - 1, by omega⟩
    have hlen2 : ((s1.put x ((k : Int) + 1)).mem.seqs lhs).length = (q lhs).length := by
      rw [h2.cur, List.length_append, List.length_drop, h2.len]; omega
    have hm2 : more x b (.num 1) (s1.put x ((k : Int) + 1)) = some (decide (((k + 1 : Nat) : Int) < ((q lhs).length : Int))) := by
      simp only [more, hbound _ h2.vs h2.off hlen2, h2.at_]; rfl
    have := ih (k + 1) (by omega) (done ++ [w]) rest' (by rw [show (((k + 1 : Nat) : Int)) = (k : Int) + 1 by omega]; exact hv') _ h2 hlen2 hm2 N (by omega)
    obtain ⟨s', h3, h4⟩ := this
    refine ⟨s', ?_, by rw [h4]; simp⟩
    rw [decide_eq_true (by omega)] at hm
    rw [cRange, hm]
    simp only [h1, Option.bind_some, hx]
    exact h3

end Verif.Comps.Lemmas
