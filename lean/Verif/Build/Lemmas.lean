import Verif.Build.Model
/-!
# Lemmas on the registry and the pipeline
-/

namespace Verif.Build

open Verif.Build.Spec

/-! ## The registry -/

/-- The messages of a map. -/
def flat (m : List (String × List Report)) : List Entry :=
  m.flatMap fun p => p.2.map fun r => ⟨p.1, r⟩

theorem flat_cons (p : String × List Report) (m : List (String × List Report)) :
    flat (p :: m) = (p.2.map fun r => (⟨p.1, r⟩ : Entry)) ++ flat m := rfl

theorem flat_filter_none {f : String} {m : List (String × List Report)} (h : f ∉ m.map (·.1)) :
    (flat m).filter (fun x => x.file = f) = [] := by
  rw [List.filter_eq_nil_iff]
  intro x hx
  obtain ⟨p, hp, hx⟩ := List.mem_flatMap.1 hx
  obtain ⟨r, _, rfl⟩ := List.mem_map.1 hx
  simp only [decide_eq_true_eq]
  intro e
  exact h (List.mem_map.2 ⟨p, hp, e⟩)

theorem own_filter (g f : String) (rs : List Report) :
    (rs.map fun r => (⟨g, r⟩ : Entry)).filter (fun x => x.file = f) =
      if g = f then rs.map (fun r => ⟨g, r⟩) else [] := by
  split
  · next h => exact List.filter_eq_self.2 (by intro x hx; obtain ⟨r, _, rfl⟩ := List.mem_map.1 hx; simp [h])
  · next h =>
    rw [List.filter_eq_nil_iff]
    intro x hx; obtain ⟨r, _, rfl⟩ := List.mem_map.1 hx; simp [h]

theorem addInfo_keys (f : String) (r : Report) (m : List (String × List Report)) :
    (addInfo f r m).map (·.1) = if f ∈ m.map (·.1) then m.map (·.1) else m.map (·.1) ++ [f] := by
  induction m with
  | nil => simp [addInfo]
  | cons p m ih =>
    obtain ⟨g, rs⟩ := p
    rw [addInfo]
    split
    · next h => subst h; simp
    · next h =>
      rw [List.map_cons, ih]
      by_cases hf : f ∈ m.map (·.1)
      · have h2 : f ∈ ((g, rs) :: m).map (·.1) := by simp only [List.map_cons, List.mem_cons]; exact Or.inr hf
        rw [if_pos hf, if_pos h2]; simp
      · have h2 : f ∉ ((g, rs) :: m).map (·.1) := by
          simp only [List.map_cons, List.mem_cons]
          rintro (h3 | h3)
          · exact h h3.symm
          · exact hf h3
        rw [if_neg hf, if_neg h2]; simp

theorem addInfo_flat (f g : String) (r : Report) (m : List (String × List Report))
    (hn : (m.map (·.1)).Nodup) :
    (flat (addInfo f r m)).filter (fun x => x.file = g) =
      (flat m).filter (fun x => x.file = g) ++ if f = g then [⟨f, r⟩] else [] := by
  induction m with
  | nil =>
    simp only [addInfo, flat, List.flatMap_cons, List.flatMap_nil, List.append_nil, List.map_cons,
      List.map_nil, List.filter_nil, List.nil_append, List.filter_cons]
    by_cases h : f = g <;> simp [h]
  | cons p m ih =>
    obtain ⟨k, rs⟩ := p
    rw [List.map_cons, List.nodup_cons] at hn
    rw [addInfo]
    split
    · next h =>
      subst h
      rw [flat_cons, flat_cons, List.filter_append, List.filter_append, own_filter, own_filter]
      by_cases hg : k = g
      · subst hg
        rw [flat_filter_none hn.1]
        simp
      · simp [hg]
    · rw [flat_cons, flat_cons, List.filter_append, List.filter_append, ih hn.2, List.append_assoc]

/-- The registry holds what the specification says. -/
structure Agrees (e : Errors) (l : Log) : Prop where
  mode : e.mode = l.mode
  target : e.target = l.target
  nodup : (e.map.map (·.1)).Nodup
  byFile : ∀ f, e.printed.filter (fun x => x.file = f) = l.entries.filter (fun x => x.file = f)

theorem agrees_next {e : Errors} {l : Log} (h : Agrees e l) (op : Op) :
    Agrees (e.next op) (l.next op) := by
  obtain ⟨h1, h2, h3, h4⟩ := h
  cases op with
  | reset => exact ⟨h1, rfl, List.nodup_nil, fun f => rfl⟩
  | setTarget f => exact ⟨h1, rfl, h3, h4⟩
  | setMode m => exact ⟨rfl, h2, h3, h4⟩
  | report r =>
    have hf : e.filename r = (r.file.or l.target).getD "" := by
      rw [Errors.filename, h2]; cases r.file <;> simp
    simp only [Errors.next, Log.next, visible, ← h1]
    by_cases hv : (e.mode == .user && r.sev == .internal) = true
    · simp only [Errors.report, hv, if_true, Bool.not_true]
      exact ⟨h1, h2, h3, h4⟩
    · rw [Errors.report, if_neg hv]
      rw [Bool.not_eq_true] at hv
      simp only [hv, Bool.not_false, if_true]
      refine ⟨rfl, h2, ?_, fun f => ?_⟩
      · simp only [addInfo_keys]
        split
        · exact h3
        · next hk =>
          refine List.nodup_append.2 ⟨h3, by simp, ?_⟩
          rintro a ha b hb rfl
          rw [List.mem_singleton.1 hb] at ha
          exact hk ha
      · rw [Errors.printed]
        refine (addInfo_flat _ f r e.map h3).trans ?_
        simp only
        rw [List.filter_append, ← h4 f, ← hf]
        refine congrArg _ ?_
        by_cases h : e.filename r = f <;> simp [h]

theorem agrees_after (h : List Op) : Agrees (Errors.after h) (Log.after h) := by
  have key : ∀ (h : List Op) (e : Errors) (l : Log), Agrees e l →
      Agrees (h.foldl Errors.next e) (h.foldl Log.next l) := by
    intro h
    induction h with
    | nil => intro e l h; exact h
    | cons op h ih => intro e l he; exact ih _ _ (agrees_next he op)
  exact key h {} {} ⟨rfl, rfl, List.nodup_nil, fun f => rfl⟩

theorem Agrees.mem {e : Errors} {l : Log} (h : Agrees e l) (x : Entry) :
    x ∈ e.printed ↔ x ∈ l.entries := by
  have := h.byFile x.file
  have h1 : x ∈ e.printed.filter (fun y => y.file = x.file) ↔ x ∈ e.printed := by simp
  have h2 : x ∈ l.entries.filter (fun y => y.file = x.file) ↔ x ∈ l.entries := by simp
  rw [← h1, this, h2]

theorem Agrees.perm {e : Errors} {l : Log} (h : Agrees e l) : e.printed.Perm l.entries := by
  rw [List.perm_iff_count]
  intro x
  have h1 : ∀ y : List Entry, y.count x = (y.filter fun z => z.file = x.file).count x := by
    intro y
    rw [List.count_filter]
    simp
  rw [h1, h1 l.entries, h.byFile]

theorem hasErrors_iff (e : Errors) : e.hasErrors = true ↔ ∃ x ∈ e.printed, x.isError := by
  simp only [Errors.hasErrors, Errors.printed, List.any_eq_true, List.mem_flatMap, List.mem_map]
  constructor
  · rintro ⟨p, hp, r, hr, h⟩
    exact ⟨⟨p.1, r⟩, ⟨p, hp, r, hr, rfl⟩, by simpa [Entry.isError] using h⟩
  · rintro ⟨x, ⟨p, hp, r, hr, rfl⟩, h⟩
    exact ⟨p, hp, r, hr, by simpa [Entry.isError] using h⟩

theorem hasWarnings_iff (e : Errors) :
    e.hasWarnings = true ↔ ∃ x ∈ e.printed, x.report.sev = .warning := by
  simp only [Errors.hasWarnings, Errors.printed, List.any_eq_true, List.mem_flatMap, List.mem_map]
  constructor
  · rintro ⟨p, hp, r, hr, h⟩
    exact ⟨⟨p.1, r⟩, ⟨p, hp, r, hr, rfl⟩, by simpa using h⟩
  · rintro ⟨x, ⟨p, hp, r, hr, rfl⟩, h⟩
    exact ⟨p, hp, r, hr, by simpa using h⟩

theorem numMessages_eq (e : Errors) : e.numMessages = e.printed.length := by
  rw [Errors.numMessages, Errors.printed, List.length_flatMap]
  simp

/-! ## What a report does to the registry -/

theorem mem_addInfo (f : String) (r : Report) (m : List (String × List Report)) (x : Entry) :
    x ∈ flat (addInfo f r m) ↔ x ∈ flat m ∨ x = ⟨f, r⟩ := by
  induction m with
  | nil => simp [addInfo, flat]
  | cons p m ih =>
    obtain ⟨g, rs⟩ := p
    rw [addInfo]
    split
    · next h => subst h; simp only [flat_cons, List.mem_append, List.map_append, List.map_cons,
        List.map_nil, List.mem_singleton]; constructor <;> (intro h; rcases h with (h | h) | h <;> simp [h])
    · simp only [flat_cons, List.mem_append, ih, or_assoc]

theorem report_mono (e : Errors) (r : Report) (h : e.hasErrors = true) :
    (e.report r).1.hasErrors = true := by
  rw [hasErrors_iff] at h ⊢
  obtain ⟨x, hx, he⟩ := h
  refine ⟨x, ?_, he⟩
  unfold Errors.report
  split
  · exact hx
  · exact (mem_addInfo _ _ _ _).2 (Or.inl hx)

theorem report_mode (e : Errors) (r : Report) : (e.report r).1.mode = e.mode := by
  unfold Errors.report; split <;> rfl

/-- Whatever raises is an error in the list. -/
theorem report_raises (e : Errors) (r : Report) (h : (e.report r).2 = true) :
    (e.report r).1.hasErrors = true := by
  rw [hasErrors_iff]
  by_cases hv : (e.mode == .user && r.sev == .internal) = true
  · rw [Errors.report, if_pos hv] at h; cases h
  · rw [Errors.report, if_neg hv] at h ⊢
    refine ⟨⟨_, r⟩, (mem_addInfo _ _ _ _).2 (Or.inr rfl), ?_⟩
    simp only [blocker] at h
    intro hw
    have hw : r.sev = .warning := hw
    rw [hw] at h
    simp at h

theorem report_fatal (e : Errors) (r : Report) (h : r.sev = .fatal) : (e.report r).2 = true := by
  have hv : ¬ (e.mode == .user && r.sev == .internal) = true := by rw [h]; cases e.mode <;> decide
  rw [Errors.report, if_neg hv]
  simp [blocker, h]

/-! ## Actions -/

mutual
/-- No `PyccelError` is raised other than by a report. -/
def Act.reported : Act → Bool
  | .report _ => true
  | .raisePyccel => false
  | .raiseNotImplemented => true
  | .raiseOther => true
  | .visit as => allReported as
  termination_by structural a => a
/-- The same for a list. -/
def allReported : List Act → Bool
  | [] => true
  | a :: as => a.reported && allReported as
  termination_by structural as => as
end

theorem handler_mono (e : Errors) (x : Raised) (h : e.hasErrors = true) :
    (handler e x).1.hasErrors = true := by
  cases x with
  | ok => exact h
  | pyccel => exact h
  | notImplemented => exact report_mono _ _ h
  | other =>
    simp only [handler]
    split
    · exact report_mono _ _ h
    · exact h

theorem handler_mode (e : Errors) (x : Raised) : (handler e x).1.mode = e.mode := by
  cases x with
  | ok => rfl
  | pyccel => rfl
  | notImplemented => exact report_mode _ _
  | other => simp only [handler]; split <;> first | exact report_mode _ _ | rfl

theorem acts_cons (e : Errors) (a : Act) (as : List Act) :
    acts e (a :: as) = andThen (act e a) fun e => acts e as := by rw [acts]

mutual
theorem act_mono (e : Errors) (a : Act) (h : e.hasErrors = true) : (act e a).1.hasErrors = true := by
  match a with
  | .report r => rw [act]; exact report_mono _ _ h
  | .raisePyccel => rw [act]; exact h
  | .raiseNotImplemented => rw [act]; exact h
  | .raiseOther => rw [act]; exact h
  | .visit as => rw [act]; exact handler_mono _ _ (acts_mono e as h)
theorem acts_mono (e : Errors) (as : List Act) (h : e.hasErrors = true) :
    (acts e as).1.hasErrors = true := by
  match as with
  | [] => rw [acts]; exact h
  | a :: as =>
    rw [acts_cons]
    have h1 := act_mono e a h
    unfold andThen
    split
    · exact acts_mono _ as h1
    · exact h1
end

mutual
theorem act_mode (e : Errors) (a : Act) : (act e a).1.mode = e.mode := by
  match a with
  | .report r => rw [act]; exact report_mode _ _
  | .raisePyccel => rw [act]
  | .raiseNotImplemented => rw [act]
  | .raiseOther => rw [act]
  | .visit as => rw [act]; exact (handler_mode _ _).trans (acts_mode e as)
theorem acts_mode (e : Errors) (as : List Act) : (acts e as).1.mode = e.mode := by
  match as with
  | [] => rw [acts]
  | a :: as =>
    rw [acts_cons]
    have h1 := act_mode e a
    unfold andThen
    split
    · exact (acts_mode _ as).trans h1
    · exact h1
end

mutual
/-- A `PyccelError` leaves a message. -/
theorem act_pyccel (e : Errors) (a : Act) (hr : a.reported = true) (h : (act e a).2 = .pyccel) :
    (act e a).1.hasErrors = true := by
  match a with
  | .report r =>
    rw [act] at h ⊢
    refine report_raises e r ?_
    by_cases hb : (e.report r).2 = true
    · exact hb
    · simp only [hb] at h; cases h
  | .raisePyccel => rw [Act.reported] at hr; cases hr
  | .raiseNotImplemented => rw [act] at h; cases h
  | .raiseOther => rw [act] at h; cases h
  | .visit as =>
    rw [Act.reported] at hr
    rw [act] at h ⊢
    have hp := acts_pyccel e as hr
    generalize acts e as = t at *
    obtain ⟨e', x⟩ := t
    cases x with
    | ok => cases h
    | pyccel => exact hp rfl
    | notImplemented => exact report_raises _ _ (report_fatal _ _ rfl)
    | other =>
      simp only [handler] at h ⊢
      split
      · exact report_raises _ _ (report_fatal _ _ rfl)
      · next hm => rw [if_neg hm] at h; cases h
theorem acts_pyccel (e : Errors) (as : List Act) (hr : allReported as = true)
    (h : (acts e as).2 = .pyccel) : (acts e as).1.hasErrors = true := by
  match as with
  | [] => rw [acts] at h; cases h
  | a :: as =>
    rw [allReported, Bool.and_eq_true] at hr
    rw [acts_cons] at h ⊢
    have h1 := act_pyccel e a hr.1
    generalize act e a = t at *
    obtain ⟨e', x⟩ := t
    cases x with
    | ok => exact acts_pyccel _ as hr.2 h
    | pyccel => exact h1 rfl
    | notImplemented => cases h
    | other => cases h
end

/-- In user mode a visitor lets only a `PyccelError` through. -/
theorem handler_user (e : Errors) (x : Raised) (hm : e.mode = .user) :
    (handler e x).2 = .ok ∨ (handler e x).2 = .pyccel := by
  cases x with
  | ok => exact Or.inl rfl
  | pyccel => exact Or.inr rfl
  | notImplemented => exact Or.inr rfl
  | other => simp only [handler, hm]; exact Or.inr rfl

/-- Exceptions are raised inside a visitor only. -/
def Act.inside : Act → Bool
  | .raiseNotImplemented => false
  | .raiseOther => false
  | _ => true

theorem act_inside (e : Errors) (a : Act) (ha : a.inside = true) (hm : e.mode = .user) :
    (act e a).2 = .ok ∨ (act e a).2 = .pyccel := by
  cases a with
  | report r => rw [act]; by_cases h : (e.report r).2 = true <;> simp [h]
  | raisePyccel => rw [act]; exact Or.inr rfl
  | raiseNotImplemented => cases ha
  | raiseOther => cases ha
  | visit as => rw [act]; exact handler_user _ _ ((acts_mode e as).trans hm)

theorem acts_inside (as : List Act) : ∀ (e : Errors), (∀ a ∈ as, a.inside = true) →
    e.mode = .user → (acts e as).2 = .ok ∨ (acts e as).2 = .pyccel := by
  induction as with
  | nil => intro e _ _; rw [acts]; exact Or.inl rfl
  | cons a as ih =>
    intro e ha hm
    rw [acts_cons]
    have h1 := act_inside e a (ha a (by simp)) hm
    have h2 := act_mode e a
    generalize act e a = t at *
    obtain ⟨e', x⟩ := t
    rcases h1 with h1 | h1
    · rw [show x = .ok from h1]
      exact ih e' (fun b hb => ha b (by simp [hb])) (h2.trans hm)
    · rw [show x = .pyccel from h1]
      exact Or.inr rfl

/-! ## Stages -/

/-- A stage either goes on with longer lists of stages, or ends everything. -/
theorem stage_cases (w : World) (k : Stage) (s : St) (cont : St → St × Out) :
    (∃ e, stage w k s cont = cont ⟨e, s.begun ++ [k], s.done ++ [k]⟩ ∧
      acts s.errors (w k) = (e, .ok)) ∨
    (∃ e, stage w k s cont = (⟨e, s.begun ++ [k], s.done⟩, .pyccelError) ∧
      acts s.errors (w k) = (e, .pyccel)) ∨
    (∃ e x, stage w k s cont = (⟨e, s.begun ++ [k], s.done⟩, .otherError) ∧
      acts s.errors (w k) = (e, x) ∧ x ≠ .ok ∧ x ≠ .pyccel) := by
  unfold stage
  generalize acts s.errors (w k) = t
  obtain ⟨e, x⟩ := t
  cases x with
  | ok => exact Or.inl ⟨e, rfl, rfl⟩
  | pyccel => exact Or.inr (Or.inl ⟨e, rfl, rfl⟩)
  | notImplemented => exact Or.inr (Or.inr ⟨e, _, rfl, rfl, by simp, by simp⟩)
  | other => exact Or.inr (Or.inr ⟨e, _, rfl, rfl, by simp, by simp⟩)

/-- What can be said of the end: success, or an error is recorded, or there is a traceback. -/
def Fine (want : List Stage) (r : St × Out) : Prop :=
  match r.2 with
  | .ok => r.1.done = want ∨ r.1.errors.hasErrors = true
  | .pyccelError => r.1.errors.hasErrors = true
  | .otherError => True

theorem stage_fine {want : List Stage} (w : World) (k : Stage) (s : St) (cont : St → St × Out)
    (hw : allReported (w k) = true)
    (h : ∀ e, Fine want (cont ⟨e, s.begun ++ [k], s.done ++ [k]⟩)) :
    Fine want (stage w k s cont) := by
  rcases stage_cases w k s cont with ⟨e, h1, _⟩ | ⟨e, h1, h2⟩ | ⟨e, x, h1, _⟩
  · rw [h1]; exact h e
  · rw [h1]
    have := acts_pyccel s.errors (w k) hw
    rw [h2] at this
    exact this rfl
  · rw [h1]; exact trivial

theorem check_fine {want : List Stage} (s : St) (cont : St → St × Out)
    (h : Fine want (cont s)) : Fine want (check s cont) := by
  unfold check
  split
  · assumption
  · exact h

theorem execute_fine (o : Options) (w : World) (e : Errors) (ho : o.syntaxOnly = false)
    (hw : ∀ k, allReported (w k) = true) : Fine (wanted o) (execute o w e) := by
  unfold execute
  refine stage_fine _ _ _ _ (hw _) fun e => check_fine _ _ (stage_fine _ _ _ _ (hw _) fun e =>
    check_fine _ _ ?_)
  simp only [wanted, ho, Bool.false_eq_true, if_false]
  split
  · exact Or.inl rfl
  · refine stage_fine _ _ _ _ (hw _) fun e => check_fine _ _ ?_
    split
    · exact stage_fine _ _ _ _ (hw _) fun e => Or.inl rfl
    · refine stage_fine _ _ _ _ (hw _) fun e => ?_
      split
      · exact Or.inl rfl
      · refine stage_fine _ _ _ _ (hw _) fun e => ?_
        have key : ∀ (s : St) want, s.done ++ [.wrapping, .wrapperPrinting, .library] = want →
            Fine want (createSharedLibrary w s fun s => check s fun s => (s, .ok)) := by
          rintro s _ rfl
          unfold createSharedLibrary
          refine stage_fine _ _ _ _ (hw _) fun e => ?_
          split
          · next he =>
            show Fine _ (check _ _)
            rw [check, if_pos he]
            exact he
          · refine stage_fine _ _ _ _ (hw _) fun e => ?_
            split
            · exact trivial
            · refine stage_fine _ _ _ _ (hw _) fun e => check_fine _ _ (Or.inl ?_)
              simp
        split
        · next hp => simp only; exact stage_fine _ _ _ _ (hw _) fun e => key _ _ rfl
        · next hp => exact key _ _ rfl

/-- The stages that are begun. -/
def Within (want : List Stage) (r : St × Out) : Prop := r.1.begun <+: want

theorem stage_within {want : List Stage} (w : World) (k : Stage) (s : St) (cont : St → St × Out)
    (hk : s.begun ++ [k] <+: want)
    (h : ∀ e, Within want (cont ⟨e, s.begun ++ [k], s.done ++ [k]⟩)) :
    Within want (stage w k s cont) := by
  rcases stage_cases w k s cont with ⟨e, h1, _⟩ | ⟨e, h1, h2⟩ | ⟨e, x, h1, _⟩ <;> rw [h1]
  · exact h e
  · exact hk
  · exact hk

theorem check_within {want : List Stage} (s : St) (cont : St → St × Out)
    (hs : s.begun <+: want) (h : Within want (cont s)) : Within want (check s cont) := by
  unfold check
  split
  · exact hs
  · exact h

theorem execute_within (o : Options) (w : World) (e : Errors) (ho : o.syntaxOnly = false) :
    Within (wanted o) (execute o w e) := by
  obtain ⟨so, se, co, st, la, pr⟩ := o
  subst ho
  unfold execute
  refine stage_within _ _ _ _ ?_ fun e => check_within _ _ ?_ (stage_within _ _ _ _ ?_ fun e =>
    check_within _ _ ?_ ?_)
  iterate 4 (cases se <;> cases st <;> cases la <;> cases co <;> cases pr <;> exact ⟨_, rfl⟩)
  simp only
  by_cases h1 : (se || st) = true
  · rw [if_pos h1]
    simp only [wanted, h1]; exact ⟨_, rfl⟩
  · rw [if_neg h1]
    simp only [wanted, h1]
    refine stage_within _ _ _ _ ?_ fun e => check_within _ _ ?_ ?_
    iterate 2 (cases la <;> cases co <;> cases pr <;> exact ⟨_, rfl⟩)
    by_cases h2 : la = .python
    · simp only [h2, ↓reduceIte]
      exact stage_within _ _ _ _ ⟨_, rfl⟩ fun e => ⟨_, rfl⟩
    · simp only [h2, ↓reduceIte]
      refine stage_within _ _ _ _ (by cases co <;> cases pr <;> exact ⟨_, rfl⟩) fun e => ?_
      by_cases h3 : co = true
      · simp only [h3, ↓reduceIte]; exact ⟨_, rfl⟩
      · simp only [h3, ↓reduceIte, Bool.false_eq_true]
        refine stage_within _ _ _ _ ?_ fun e => ?_
        · cases pr <;> exact ⟨_, rfl⟩
        have key : ∀ (s : St) want, s.begun ++ [.wrapping, .wrapperPrinting, .library] = want →
            Within want (createSharedLibrary w s fun s => check s fun s => (s, .ok)) := by
          rintro s _ rfl
          unfold createSharedLibrary
          refine stage_within _ _ _ _ (by simp) fun e => ?_
          split
          · exact check_within _ _ (by simp) (by simp [Within])
          · refine stage_within _ _ _ _ (by simp) fun e => ?_
            split
            · simp [Within]
            · exact stage_within _ _ _ _ (by simp) fun e => check_within _ _ (by simp) (by simp [Within])
        cases pr with
        | true =>
          simp only [↓reduceIte]
          exact stage_within _ _ _ _ (by simp) fun e => key _ _ rfl
        | false => exact key _ _ rfl

/-- A stage in user mode ends in order. -/
theorem stage_noTrace (w : World) (k : Stage) (s : St) (cont : St → St × Out)
    (hm : s.errors.mode = .user) (hi : ∀ a ∈ w k, a.inside = true)
    (h : ∀ e, e.mode = .user → acts s.errors (w k) = (e, .ok) →
      (cont ⟨e, s.begun ++ [k], s.done ++ [k]⟩).2 ≠ .otherError) :
    (stage w k s cont).2 ≠ .otherError := by
  have h1 := acts_inside (w k) s.errors hi hm
  have h2 := acts_mode s.errors (w k)
  rcases stage_cases w k s cont with ⟨e, h3, h4⟩ | ⟨e, h3, h4⟩ | ⟨e, x, h3, h4, h5, h6⟩
  · rw [h3]; rw [h4] at h2; exact h e (h2.trans hm) h4
  · rw [h3]; simp
  · rw [h4] at h1
    rcases h1 with h1 | h1
    · exact absurd h1 h5
    · exact absurd h1 h6

theorem check_noTrace (s : St) (cont : St → St × Out)
    (h : s.errors.hasErrors = false → (cont s).2 ≠ .otherError) :
    (check s cont).2 ≠ .otherError := by
  unfold check
  split
  · simp
  · next hs => exact h (by simpa using hs)

theorem execute_noTrace (o : Options) (w : World) (e : Errors) (he : e.mode = .user)
    (hi : ∀ k, ∀ a ∈ w k, a.inside = true)
    (hp : ∀ e, e.hasErrors = false → (acts e (w .wrapperPrinting)).1.hasErrors = false) :
    (execute o w e).2 ≠ .otherError := by
  unfold execute
  refine stage_noTrace _ _ _ _ he (hi _) fun e he _ => check_noTrace _ _ fun _ =>
    stage_noTrace _ _ _ _ he (hi _) fun e he _ => check_noTrace _ _ fun _ => ?_
  split
  · simp
  · refine stage_noTrace _ _ _ _ he (hi _) fun e he _ => check_noTrace _ _ fun _ => ?_
    split
    · exact stage_noTrace _ _ _ _ he (hi _) fun e he _ => by simp
    · refine stage_noTrace _ _ _ _ he (hi _) fun e he _ => ?_
      split
      · simp
      · refine stage_noTrace _ _ _ _ he (hi _) fun e he _ => ?_
        have key : ∀ (s : St), s.errors.mode = .user →
            (createSharedLibrary w s fun s => check s fun s => (s, .ok)).2 ≠ .otherError := by
          intro s hs
          unfold createSharedLibrary
          refine stage_noTrace _ _ _ _ hs (hi _) fun e he _ => ?_
          split
          · exact check_noTrace _ _ fun _ => by simp
          · next hb =>
            refine stage_noTrace _ _ _ _ he (hi _) fun e' he' hacts => ?_
            have := hp e (by simpa using hb)
            rw [hacts] at this
            split
            · next hb' => rw [this] at hb'; cases hb'
            · exact stage_noTrace _ _ _ _ he' (hi _) fun e he _ => check_noTrace _ _ fun _ => by simp
        split
        · exact stage_noTrace _ _ _ _ he (hi _) fun e he _ => key _ he
        · exact key _ he

end Verif.Build
