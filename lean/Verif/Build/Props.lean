import Verif.Build.Lemmas
/-!
# Error messages, exit status, outputs: properties
-/

namespace Verif.Build

open Verif.Build.Spec

/-! ## C53: the registry of errors -/

/-- **C53**.  After any history of reports, resets, changes of the current file and of the mode,
`has_errors` is true if and only if one of the messages since the last reset is worse than a
warning; the same for `has_warnings`. -/
theorem C53_has_errors (h : List Op) :
    ((Errors.after h).hasErrors = true ↔ ∃ x ∈ (Log.after h).entries, x.isError) ∧
    ((Errors.after h).hasWarnings = true ↔
      ∃ x ∈ (Log.after h).entries, x.report.sev = .warning) := by
  have ha := agrees_after h
  rw [hasErrors_iff, hasWarnings_iff]
  exact ⟨⟨fun ⟨x, h1, h2⟩ => ⟨x, (ha.mem x).1 h1, h2⟩, fun ⟨x, h1, h2⟩ => ⟨x, (ha.mem x).2 h1, h2⟩⟩,
    ⟨fun ⟨x, h1, h2⟩ => ⟨x, (ha.mem x).1 h1, h2⟩, fun ⟨x, h1, h2⟩ => ⟨x, (ha.mem x).2 h1, h2⟩⟩⟩

/-- **C53**.  No message is lost, none is printed twice: the printed messages are those since the
last reset, each as often as it was reported, and those about one file are printed in the order in
which they came. -/
theorem C53_printed (h : List Op) :
    (Errors.after h).printed.Perm (Log.after h).entries ∧
    (Errors.after h).numMessages = (Log.after h).entries.length ∧
    ∀ f, (Errors.after h).printed.filter (fun x => x.file = f) =
      (Log.after h).entries.filter (fun x => x.file = f) := by
  have ha := agrees_after h
  exact ⟨ha.perm, by rw [numMessages_eq, ha.perm.length_eq], ha.byFile⟩

/-- **C53**.  A report raises an exception if and only if it is fatal, or, in developer mode, if it
is an error and is not reported from a `raise` line. -/
theorem C53_raises (h : List Op) (r : Report) :
    ((Errors.after h).report r).2 = true ↔
      r.sev = .fatal ∨ ((Log.after h).mode = .developer ∧ r.sev ≠ .warning ∧ r.raising = false) := by
  have hm := (agrees_after h).mode
  rw [← hm]
  generalize Errors.after h = e
  unfold Errors.report
  cases hs : r.sev <;> cases hm : e.mode <;> cases hr : r.raising <;> simp [blocker, hs, hr]

/-! ## C64: the exit status -/

/-- Everything that ends a stage with a `PyccelError` is reported. -/
def Reported (w : World) : Prop := ∀ k, allReported (w k) = true

/-- **C64** (partial).  If no stage raises a `PyccelError` without a report, the command
(other than with `--syntax-only`, see C65) ends with status 0 if and only if all stages that the
options ask for are completed, no error is printed, and there is no traceback. -/
theorem C64_status_partial (o : Options) (w : World) (e : Errors) (ho : o.syntaxOnly = false)
    (hw : Reported w) :
    (compile o w e).status = 0 ↔
      (compile o w e).done = wanted o ∧ (∀ x ∈ (compile o w e).printed, ¬ x.isError) ∧
      (compile o w e).traceback = false := by
  have hf := execute_fine o w e ho hw
  unfold compile
  generalize execute o w e = r at hf
  obtain ⟨s, out⟩ := r
  have hno : ∀ {b : Bool}, b = s.errors.hasErrors → b = false →
      ∀ x ∈ s.errors.printed, ¬ x.isError := by
    rintro b rfl hb x hx he
    have := (hasErrors_iff s.errors).2 ⟨x, hx, he⟩
    rw [hb] at this; cases this
  have hyes : (∀ x ∈ s.errors.printed, ¬ x.isError) → s.errors.hasErrors = false := by
    intro h
    rw [← Bool.not_eq_true, hasErrors_iff]
    rintro ⟨x, h1, h2⟩
    exact h x h1 h2
  cases out with
  | ok =>
    simp only [Fine] at hf
    simp only [console]
    cases hb : s.errors.hasErrors with
    | true =>
      simp only [if_true, Nat.one_ne_zero, false_iff]
      rintro ⟨_, h2, _⟩
      rw [hyes h2] at hb; cases hb
    | false =>
      simp only [Bool.false_eq_true, if_false, true_iff]
      rw [hb] at hf
      exact ⟨hf.resolve_right (by simp), hno rfl hb, trivial⟩
  | pyccelError =>
    simp only [Fine] at hf
    simp only [console, hf, if_true, Nat.one_ne_zero, false_iff]
    rintro ⟨_, h2, _⟩
    rw [hyes h2] at hf; cases hf
  | otherError => simp [console]

/-- **C64**.  Whatever the stages do, in every mode and with all options: a status other than 0 is
explained by an error message or a traceback, and with an error message or a traceback the status
is not 0. -/
theorem C64_status_explained (o : Options) (w : World) (e : Errors) :
    (compile o w e).status ≠ 0 ↔
      (compile o w e).traceback = true ∨ ∃ x ∈ (compile o w e).printed, x.isError := by
  unfold compile
  generalize execute o w e = r
  obtain ⟨s, out⟩ := r
  have key : (if s.errors.hasErrors = true then 1 else 0) ≠ 0 ↔
      ∃ x ∈ s.errors.printed, x.isError := by
    rw [← hasErrors_iff]; split <;> simp_all
  cases out with
  | ok => simp only [console, Bool.false_eq_true, false_or]; exact key
  | pyccelError => simp only [console, Bool.false_eq_true, false_or]; exact key
  | otherError => simp [console]

/-- **C64** (partial).  In user mode there is no traceback, so that a failure is explained by an error
message, if exceptions that are no `PyccelError` are raised in visitors only (not by the compiler,
say) and no error is found when the wrapper is printed. -/
theorem C64_message_partial (o : Options) (w : World) (e : Errors) (he : e.mode = .user)
    (hi : ∀ k, ∀ a ∈ w k, a.inside = true)
    (hp : ∀ e, e.hasErrors = false → (acts e (w .wrapperPrinting)).1.hasErrors = false) :
    (compile o w e).traceback = false ∧
    ((compile o w e).status ≠ 0 → ∃ x ∈ (compile o w e).printed, x.isError) := by
  have h : (compile o w e).traceback = false := by
    have := execute_noTrace o w e he hi hp
    unfold compile console
    split
    · next h => exact absurd h this
    · rfl
  refine ⟨h, fun hs => ?_⟩
  rcases (C64_status_explained o w e).1 hs with h' | h'
  · rw [h] at h'; cases h'
  · exact h'

/-- The report of `r` raises an exception in mode `m` (see `C53_raises`). -/
def raises (m : Mode) (r : Report) : Prop :=
  r.sev = .fatal ∨ (m = .developer ∧ r.sev ≠ .warning ∧ r.raising = false)

mutual
/-- No exception is raised in the action, at whatever depth. -/
def quiet (m : Mode) : Act → Prop
  | .report r => ¬raises m r
  | .raisePyccel => False
  | .raiseNotImplemented => False
  | .raiseOther => False
  | .visit as => quiets m as
  termination_by structural a => a
/-- No exception is raised in any of the actions. -/
def quiets (m : Mode) : List Act → Prop
  | [] => True
  | a :: as => quiet m a ∧ quiets m as
  termination_by structural as => as
end

theorem report_raises_iff (e : Errors) (r : Report) : (e.report r).2 = true ↔ raises e.mode r := by
  unfold Errors.report raises
  cases hs : r.sev <;> cases hm : e.mode <;> cases hr : r.raising <;> simp [blocker, hs, hr]

mutual
theorem act_quiet (e : Errors) (a : Act) : (act e a).2 = .ok ↔ quiet e.mode a := by
  cases a with
  | report r =>
    rw [act, quiet, ← report_raises_iff]
    cases (e.report r).2 <;> simp
  | raisePyccel => simp [act, quiet]
  | raiseNotImplemented => simp [act, quiet]
  | raiseOther => simp [act, quiet]
  | visit as =>
    rw [act, quiet, ← acts_quiet e as]
    generalize acts e as = t
    obtain ⟨e', x⟩ := t
    cases x <;> simp [handler]
    split <;> simp
  termination_by structural a
theorem acts_quiet (e : Errors) (as : List Act) : (acts e as).2 = .ok ↔ quiets e.mode as := by
  cases as with
  | nil => simp [acts, quiets]
  | cons a as =>
    have h1 := act_quiet e a
    have h2 := acts_quiet (act e a).1 as
    rw [act_mode] at h2
    rw [acts, quiets, ← h1, ← h2]
    generalize act e a = t at *
    obtain ⟨e', x⟩ := t
    cases x <;> simp [andThen]
  termination_by structural as
end

/-- The stages that are completed are those in which nothing is raised. -/
def Honest (m : Mode) (w : World) (s : St) : Prop :=
  s.errors.mode = m ∧ (∀ k ∈ s.done, quiets m (w k)) ∧ ∀ k ∈ s.begun, quiets m (w k) → k ∈ s.done

theorem stage_honest {m : Mode} {w : World} {k : Stage} {s : St} {cont : St → St × Out}
    (hs : Honest m w s) (hc : ∀ s', Honest m w s' → Honest m w (cont s').1) :
    Honest m w (stage w k s cont).1 := by
  obtain ⟨h1, h2, h3⟩ := hs
  have hq := acts_quiet s.errors (w k)
  have hm := acts_mode s.errors (w k)
  rw [h1] at hq hm
  unfold stage
  generalize acts s.errors (w k) = t at *
  obtain ⟨e, x⟩ := t
  have bad : x ≠ .ok → ∀ j ∈ s.begun ++ [k], quiets m (w j) → j ∈ s.done := by
    intro hx j hj hjq
    rcases List.mem_append.mp hj with hj | hj
    · exact h3 j hj hjq
    · simp at hj; subst hj; exact absurd (hq.mpr hjq) hx
  cases x with
  | ok =>
    refine hc _ ⟨hm, ?_, ?_⟩
    · intro j hj
      rcases List.mem_append.mp hj with hj | hj
      · exact h2 j hj
      · simp at hj; subst hj; exact hq.mp rfl
    · intro j hj hjq
      rcases List.mem_append.mp hj with hj | hj
      · exact List.mem_append_left _ (h3 j hj hjq)
      · exact List.mem_append_right _ hj
  | _ => exact ⟨hm, h2, bad (by simp)⟩

theorem check_honest {m : Mode} {w : World} {s : St} {cont : St → St × Out}
    (hs : Honest m w s) (hc : Honest m w (cont s).1) : Honest m w (check s cont).1 := by
  unfold check; split
  · exact hs
  · exact hc

theorem execute_honest (o : Options) (w : World) (e : Errors) : Honest e.mode w (execute o w e).1 := by
  unfold execute
  simp only
  refine stage_honest ⟨rfl, by simp, by simp⟩ fun s hs => check_honest hs (stage_honest hs fun s hs =>
    check_honest hs ?_)
  split
  · exact hs
  refine stage_honest hs fun s hs => check_honest hs ?_
  split
  · exact stage_honest hs fun s hs => hs
  refine stage_honest hs fun s hs => ?_
  split
  · exact hs
  refine stage_honest hs fun s hs => ?_
  have key : ∀ s, Honest e.mode w s →
      Honest e.mode w (createSharedLibrary w s fun s => check s fun s => (s, .ok)).1 := by
    intro s hs
    unfold createSharedLibrary
    refine stage_honest hs fun s hs => ?_
    split
    · exact check_honest hs hs
    refine stage_honest hs fun s hs => ?_
    split
    · exact hs
    exact stage_honest hs fun s hs => check_honest hs hs
  split
  · exact stage_honest hs fun s hs => key s hs
  · exact key s hs

/-- **C64**.  Of the stages that are begun those are completed in which nothing is raised: no exception
of whatever kind is swallowed, in user and in developer mode.  (With `C64_status_partial`: with status
0 nothing was raised in any stage.) -/
theorem C64_completed (o : Options) (w : World) (e : Errors) (k : Stage) (hk : k ∈ (compile o w e).begun) :
    k ∈ (compile o w e).done ↔ quiets e.mode (w k) := by
  have h := execute_honest o w e
  unfold compile console at *
  obtain ⟨_, h2, h3⟩ := h
  split at hk
  · exact ⟨h2 k, h3 k hk⟩
  · exact ⟨h2 k, h3 k hk⟩

example : ¬quiets .developer [.visit [.raiseOther]] ∧
    (compile {} (fun k => if k = .semantic then [.visit [.raiseOther]] else [])
      { mode := .developer }).done = [.syntactic] := by
  refine ⟨by simp [quiets, quiet], by decide +kernel⟩

/-- **C64**.  What the command does and shows does not depend on messages of earlier runs in the same
process. -/
theorem C64_fresh (o : Options) (w : World) (e e' : Errors) (h : e.mode = e'.mode) :
    compile o w e = compile o w e' := by
  have : e.reset = e'.reset := by
    cases e; cases e'; simp only at h; subst h; rfl
  unfold compile execute
  rw [this]

example : ({ map := [("a.py", [⟨none, .error, "message", false⟩])] } : Errors).hasErrors = true := by decide

/-- A function in the semantic stage whose shapes do not fit: `broadcast` raises a `PyccelError`, and
nobody reports it. -/
def wrongShapes : World := fun k => if k = .semantic then [.visit [.visit [.raisePyccel]]] else []

/-- **C64** fails for shapes that do not fit (`numpy.where`, `arctan2`, `linspace`): the command ends
with status 0, prints nothing, and produces nothing. -/
theorem C64_status_violated : compile {} wrongShapes {} =
    ⟨0, [], false, [.syntactic, .semantic], [.syntactic]⟩ := by decide +kernel

/-- An error that is found when the wrapper is printed. -/
def wrapperError : World := fun k =>
  if k = .wrapperPrinting then [.visit [.report ⟨none, .error, "message", false⟩]] else []

/-- **C64** (messages) fails for errors that are found when the wrapper is printed: the message is not
shown, there is a traceback of a `TypeError` instead (`create_shared_library` returns `None`). -/
theorem C64_message_violated :
    (compile {} wrapperError {}).printed = [] ∧ (compile {} wrapperError {}).traceback = true ∧
    (execute {} wrapperError {}).1.errors.hasErrors = true := by decide +kernel

/-! ## C65: stages -/

/-- **C65** (partial).  Without `--syntax-only`, the stages that are begun are the first ones of those
that the options ask for. -/
theorem C65_stages_partial (o : Options) (w : World) (e : Errors) (ho : o.syntaxOnly = false) :
    (compile o w e).begun <+: wanted o := by
  have h := execute_within o w e ho
  unfold compile console
  split <;> exact h

/-- **C65** fails for `--syntax-only`: all the other stages are done as well. -/
theorem C65_stages_violated :
    (compile { syntaxOnly := true } (fun _ => []) {}).done =
      [.syntactic, .semantic, .codegen, .dependencies, .compilation, .wrapping, .wrapperPrinting,
        .library] ∧
    wanted { syntaxOnly := true } = [.syntactic] := by decide +kernel

/-! ## C66: the source file -/

/-- **C66** (partial).  With `--output` and another folder the Python file that is translated to
Python is kept. -/
theorem C66_source_kept_partial (source : Path) (output : String) (h : output ≠ source.folder)
    (p : Path) (hp : pythonTarget source (some output) = some p) : p ≠ source := by
  rintro rfl
  simp only [pythonTarget, Bool.false_eq_true, if_false, Option.some.injEq] at hp
  have := congrArg Path.folder hp
  exact h this

/-- **C66** fails without `--output`: whatever the file is, it is overwritten by its translation. -/
theorem C66_source_kept_violated (source : Path) : pythonTarget source none = some source := rfl

/-! ## C67: parallel `epyccel` -/

/-- What a parallel call should do: if the module is built every process gets it (or nothing, if it is
not to be broadcast); if not, every process raises the exception. -/
def parallelSpec (bcast : Bool) (o : SeqOut) (root other : RankOut) : Prop :=
  match o with
  | .built m => root = .module m ∧ other = if bcast then .module m else .nothing
  | .pyccelError x => root = .raises x ∧ other = .raises x
  | .otherError x => root = .raises x ∧ other = .raises x

/-- **C67** (partial).  So it is, except for errors that Pyccel finds in the code. -/
theorem C67_parallel_partial (bcast : Bool) (o : SeqOut) (ho : ∀ x, o ≠ .pyccelError x) :
    parallelSpec bcast o (rootRank bcast o).2 (otherRank bcast (rootRank bcast o).1) := by
  cases o with
  | built m => cases bcast <;> exact ⟨rfl, rfl⟩
  | pyccelError x => exact absurd rfl (ho x)
  | otherError x => exact ⟨rfl, rfl⟩

/-- **C67** fails for every error that Pyccel finds: the root process raises it before the first
broadcast, the other processes wait for ever. -/
theorem C67_parallel_violated (bcast : Bool) (x : String) :
    otherRank bcast (rootRank bcast (.pyccelError x)).1 = .waits := rfl

/-! ## The hypotheses can be met -/

/-- A history. -/
def exHistory : List Op :=
  [.report ⟨none, .error, "old", false⟩, .reset, .setTarget "a.py",
   .report ⟨none, .warning, "w1", false⟩, .report ⟨some "b.py", .error, "e1", false⟩,
   .report ⟨none, .internal, "hidden", false⟩, .report ⟨none, .warning, "w2", false⟩]

example : (Errors.after exHistory).printed =
    [⟨"a.py", ⟨none, .warning, "w1", false⟩⟩, ⟨"a.py", ⟨none, .warning, "w2", false⟩⟩,
      ⟨"b.py", ⟨some "b.py", .error, "e1", false⟩⟩] := by decide +kernel
example : (Errors.after exHistory).hasErrors = true := by decide +kernel
example : (Log.after exHistory).entries.length = 3 := by decide +kernel

/-- A file with an error in its second function, found in the semantic stage. -/
def exWorld : World := fun k =>
  if k = .semantic then [.visit [.visit [.report ⟨some "f.py", .warning, "w", false⟩],
    .visit [.report ⟨some "f.py", .error, "e", false⟩, .raiseNotImplemented]]] else []

example : Reported exWorld := by intro k; cases k <;> decide +kernel
example : ∀ k, ∀ a ∈ exWorld k, a.inside = true := by
  intro k; cases k <;> simp [exWorld, Act.inside]
example : (compile {} exWorld {}).status = 1 := by decide +kernel
example : (compile {} exWorld {}).printed.length = 3 := by decide +kernel
/-- A file without errors. -/
example : compile { isProgram := true } (fun _ => []) {} =
    ⟨0, [], false, wanted { isProgram := true }, wanted { isProgram := true }⟩ := by decide +kernel
example : Reported fun _ => [] := fun _ => rfl

end Verif.Build
