import Verif.Link.Lemmas

/-!
# Compiling and linking: the properties
-/

namespace Verif.Link
open Spec Model

/-! ## C150: object files -/

/-- C150: the object files on a command line are those of the objects that are reached through objects
which have object files themselves. -/
theorem C150_files_iff (o : Obj) (x : Name) : x ∈ files o ↔ ∃ e, Chain o e ∧ e.name = x :=
  mem_files x o

/-- C150: nothing is linked that is not needed. -/
theorem C150_only_needed (o : Obj) (x : Name) (h : x ∈ files o) :
    ∃ e, Needs o e ∧ e.file = true ∧ e.name = x := by
  obtain ⟨e, he, hx⟩ := (mem_files x o).1 h
  exact ⟨e, (chain_needs he).1, (chain_needs he).2, hx⟩

/-- C150: everything that is needed is linked, for the objects that pyccel makes. -/
theorem C150_complete (o e : Obj) (ho : Made o) (h : Needs o e) (he : e.file = true) :
    e.name ∈ files o :=
  (mem_files _ o).2 ⟨e, needs_chain h he fun _ hd hf _ he => header_needs he (made_needs hd ho) hf, rfl⟩

/-- A module that needs `math` (2), which needs the headers of `stc` (3), and another module (4) which
needs `math` too. -/
def sampleObj : Obj :=
  .mk 1 true [] [.mk 2 true [10] [.mk 3 false [] []], .mk 4 true [] [.mk 2 true [10] [.mk 3 false [] []]]]

/-- Hypotheses of C150_complete. -/
example : Made sampleObj ∧ Needs sampleObj (.mk 2 true [10] [.mk 3 false [] []]) ∧ files sampleObj = [2, 4, 2] := by
  have h3 : Made (.mk 3 false [] []) := .header (by simp) (by simp)
  have h2 : Made (.mk 2 true [10] [.mk 3 false [] []]) := .object (by simpa using h3)
  have h4 : Made (.mk 4 true [] [.mk 2 true [10] [.mk 3 false [] []]]) := .object (by simpa using h2)
  refine ⟨.object (by simpa using ⟨h2, h4⟩), .indirect (d := .mk 4 true [] [.mk 2 true [10] [.mk 3 false [] []]]) (by simp [sampleObj, Obj.deps])
    (.direct (by simp [Obj.deps])), rfl⟩

/-- C150: the condition on headers cannot be dropped: an object file that is needed by an object without
a file is not linked. -/
theorem C150_condition :
    Needs (.mk 1 true [] [.mk 2 false [] [.mk 3 true [] []]]) (.mk 3 true [] []) ∧
    files (.mk 1 true [] [.mk 2 false [] [.mk 3 true [] []]]) = [] :=
  ⟨.indirect (d := .mk 2 false [] [.mk 3 true [] []]) (by simp [Obj.deps]) (.direct (by simp [Obj.deps])), rfl⟩

/-! ## C151: libraries -/

/-- C151: every library that is given is on the command line, once. -/
theorem C151_libraries (config : List Name) (o : Obj) :
    (libFlags config o).Nodup ∧ ∀ x, x ∈ libFlags config o ↔ x ∈ allLibs o ∨ x ∈ config :=
  ⟨nodup_firsts _, fun x => by simp [libFlags, mem_firsts]⟩

/-- C151: if the libraries given for every object are in the order that a linker requires, then linking
succeeds, if every symbol used is defined in one of them and no library that occurs several times is
used by another library. -/
theorem C151_links_partial (w : World) (config : List Name) (o : Obj) (W : Sym → Prop)
    (hc : Ordered w config) (ho : Ordered w o.libs) (hd : ∀ d, Needs o d → Ordered w d.libs)
    (hW : ∀ s, W s → ∃ b, b ∈ allLibs o ++ config ∧ s ∈ w.defs b)
    (H : ∀ a s r b, s ∈ w.defs a → r ∈ w.uses s → r ∈ w.defs b → b = a ∨ (allLibs o ++ config).count b ≤ 1) :
    Links w (libFlags config o) W (fun _ => False) := by
  apply links_of_ordered
  · exact ordered_firsts w _ (ordered_append w _ _ (ordered_all w o ho hd) hc)
      (fun a _ s hs r hr b _ hb => H a s r b hs hr hb)
  · intro s hs
    obtain ⟨b, hb, h⟩ := hW s hs
    exact .inr ⟨b, (mem_firsts _ b).2 hb, h⟩

/-- C151: without the removal of duplicates, linking would succeed in all cases. -/
theorem C151_duplicates (w : World) (config : List Name) (o : Obj) (W : Sym → Prop)
    (hc : Ordered w config) (ho : Ordered w o.libs) (hd : ∀ d, Needs o d → Ordered w d.libs)
    (hW : ∀ s, W s → ∃ b, b ∈ allLibs o ++ config ∧ s ∈ w.defs b) :
    Links w (allLibs o ++ config) W (fun _ => False) :=
  links_of_ordered w _ _ _ (ordered_append w _ _ (ordered_all w o ho hd) hc)
    fun s hs => .inr (hW s hs)

/-- BLAS (1) defines `dot` (11) and `gemm` (12), LAPACK (2) defines `solve` (21), which uses `gemm`. -/
def blasLapack : World where
  defs a := if a = 1 then [11, 12] else if a = 2 then [21] else []
  uses s := if s = 21 then [12] else []

/-- A module with `--libs blas` that imports a stub file with the libraries `lapack,blas`. -/
def sampleLibs : Obj := .mk 0 true [1] [.mk 5 false [2, 1] []]

/-- Hypotheses of C151_links_partial: the same module without `--libs`. -/
example : Ordered blasLapack [2, 1] ∧ libFlags [] (.mk 0 true [] [.mk 5 false [2, 1] []]) = [2, 1] ∧
    Links blasLapack (libFlags [] (.mk 0 true [] [.mk 5 false [2, 1] []])) (fun s => s = 11 ∨ s = 21) (fun _ => False) := by
  have ho : Ordered blasLapack [2, 1] := by
    intro pre a post e s hs r hr
    by_cases h : s = 21
    · subst h
      simp [blasLapack] at hr
      subst hr
      match pre, e with
      | [], e =>
        simp at e
        obtain ⟨rfl, rfl⟩ := e
        exact .inr ⟨1, by simp, by simp [blasLapack]⟩
      | [_], e =>
        simp at e
        obtain ⟨_, rfl, _⟩ := e
        exact .inl (by simp [blasLapack])
      | _ :: _ :: p, e => simp at e
    · simp [blasLapack, h] at hr
  refine ⟨ho, by decide, ?_⟩
  have : libFlags [] (.mk 0 true [] [.mk 5 false [2, 1] []]) = [2, 1] := by decide
  rw [this]
  refine links_of_ordered _ _ _ _ ho ?_
  rintro s (rfl | rfl)
  · exact .inr ⟨1, by simp, by simp [blasLapack]⟩
  · exact .inr ⟨2, by simp, by simp [blasLapack]⟩

/-- C151 fails: the command has `-lblas -llapack`, and `gemm` is undefined; with the libraries as they
were given (`-lblas -llapack -lblas`) linking succeeds. -/
theorem C151_violated :
    allLibs sampleLibs = [1, 2, 1] ∧ libFlags [] sampleLibs = [1, 2] ∧
    Links blasLapack [1, 2, 1] (fun s => s = 11 ∨ s = 21) (fun _ => False) ∧
    ¬ Links blasLapack [1, 2] (fun s => s = 11 ∨ s = 21) (fun _ => False) := by
  have h21 : ∀ (W D : Sym → Prop), W 21 → ¬ D 21 → Taken blasLapack 2 W D 21 := fun W D h1 h2 =>
    .used (by simp [blasLapack]) h1 h2
  have t1 : ∀ s, Taken blasLapack 1 (fun s => s = 11 ∨ s = 21) (fun _ => False) s → s = 11 := by
    intro s h
    induction h with
    | used h1 h2 _ =>
      simp [blasLapack] at h1
      rcases h2 with h2 | h2
      · exact h2
      · subst h2; simp at h1
    | again ht h1 _ _ ih => subst ih; simp [blasLapack] at h1
  have d2 : ∀ W D s, Taken blasLapack 2 W D s → s = 21 := by
    intro W D s h
    cases h with
    | used h1 _ _ => simpa [blasLapack] using h1
    | again _ _ h1 _ => simpa [blasLapack] using h1
  refine ⟨by decide, by decide, ?_, ?_⟩
  · refine links_of_ordered _ _ _ _ ?_ ?_
    · intro pre a post e s hs r hr
      by_cases h : s = 21
      · subst h
        simp [blasLapack] at hr
        subst hr
        match pre, e with
        | [], e => simp at e; obtain ⟨rfl, rfl⟩ := e; exact .inl (by simp [blasLapack])
        | [_], e => simp at e; obtain ⟨_, rfl, rfl⟩ := e; exact .inr ⟨1, by simp, by simp [blasLapack]⟩
        | [_, _], e => simp at e; obtain ⟨_, _, rfl, _⟩ := e; exact .inl (by simp [blasLapack])
        | _ :: _ :: _ :: p, e => simp at e
      · simp [blasLapack, h] at hr
    · rintro s (rfl | rfl)
      · exact .inr ⟨1, by simp, by simp [blasLapack]⟩
      · exact .inr ⟨2, by simp, by simp [blasLapack]⟩
  · intro h
    simp only [Links] at h
    have := h 12 (.inr ⟨21, h21 _ _ (.inl (.inr rfl)) (by
      rintro (h | h)
      · exact h
      · exact absurd (t1 _ h) (by decide)), by simp [blasLapack]⟩)
    rcases this with (h | h) | h
    · exact h
    · exact absurd (t1 _ h) (by decide)
    · exact absurd (d2 _ _ _ h) (by decide)

/-! ## C152: options of the compiler -/

/-- C152: an option of the user counts for a module if and only if no default sets the same thing to
another value. -/
theorem C152_module_iff (user dbg rel gen tools : List Flag) (debug : Bool) (g v : Nat)
    (hv : effective user g = some v) :
    effective (flags (userFlags user false) debug dbg rel gen tools) g = wanted user ((if debug then dbg else rel) ++ gen ++ tools) g ↔
      effective ((if debug then dbg else rel) ++ gen ++ tools) g = none ∨
      effective ((if debug then dbg else rel) ++ gen ++ tools) g = some v := by
  have : flags (userFlags user false) debug dbg rel gen tools = user ++ ((if debug then dbg else rel) ++ gen ++ tools) := by
    simp [flags, userFlags]
  rw [this, effective_append, wanted, hv]
  cases effective ((if debug then dbg else rel) ++ gen ++ tools) g <;> simp

/-- C152: an option of the user about which the defaults say nothing counts. -/
theorem C152_module_partial (user dbg rel gen tools : List Flag) (debug : Bool) (g v : Nat)
    (hv : effective user g = some v) (h : ∀ f ∈ dbg ++ rel ++ gen ++ tools, f.1 ≠ g) :
    effective (flags (userFlags user false) debug dbg rel gen tools) g = some v := by
  have hn : effective ((if debug then dbg else rel) ++ gen ++ tools) g = none := by
    rw [effective_none]
    intro f hf
    apply h f
    cases debug <;> simp at hf ⊢ <;> grind
  rw [(C152_module_iff user dbg rel gen tools debug g v hv).2 (.inl hn), wanted, hv]

/-- Hypotheses of C152_module_partial: `-march` (3) with `-O3` (1) and `-fPIC` (2). -/
example : effective [(3, 7)] 3 = some 7 ∧ (∀ f ∈ ([(1, 0)] ++ [(1, 3)] ++ [(2, 1)] ++ [] : List Flag), f.1 ≠ 3) ∧
    effective (flags (userFlags [(3, 7)] false) false [(1, 0)] [(1, 3)] [(2, 1)] []) 3 = some 7 := by decide

/-- C152 fails: `--flags -O0` has no effect, because `-O3` follows. -/
theorem C152_violated :
    effective (flags (userFlags [(1, 0)] false) false [(1, 0)] [(1, 3)] [(2, 1)] []) 1 = some 3 ∧
    wanted [(1, 0)] ([(1, 3)] ++ [(2, 1)] ++ []) 1 = some 0 := by decide

/-- C152 fails: the options of the user are not used for the program of a file, whatever they are. -/
theorem C152_violated_program (user user' dbg rel gen tools : List Flag) (debug : Bool) :
    flags (userFlags user true) debug dbg rel gen tools = flags (userFlags user' true) debug dbg rel gen tools := rfl

/-! ## C153: folders -/

/-- C153: a file is found in the same folder whatever the order in which Python goes through the set, if
and only if it is in one of the folders only, or in none. -/
theorem C153_order_iff (has : Name → Bool) (given : List Name) :
    (∀ order, IsOrder given order → found has order = found has given.eraseDups) ↔
      ∀ a ∈ given, ∀ b ∈ given, has a = true → has b = true → a = b := by
  constructor
  · intro h a ha b hb
    exact unique_of_found has given.eraseDups h a (by simpa using ha) b (by simpa using hb)
  · intro h order ho
    exact found_unique has _ _ ho fun a ha b hb => h a (by simpa using ha) b (by simpa using hb)

/-- C153: the folder is one of those given, and it contains the file; a file that is in one of the folders
is found. -/
theorem C153_found_partial (has : Name → Bool) (given order : List Name) (ho : IsOrder given order) :
    (∀ x, found has order = some x → x ∈ given ∧ has x = true) ∧
    ((∃ x ∈ given, has x = true) → ∃ x, found has order = some x) := by
  constructor
  · intro x h
    have := found_some h
    exact ⟨by simpa using ho.mem_iff.1 this.1, this.2⟩
  · rintro ⟨x, hx, h⟩
    cases hf : found has order with
    | some y => exact ⟨y, rfl⟩
    | none => exact absurd h (List.find?_eq_none.1 hf x (ho.mem_iff.2 (by simpa using hx)))

/-- C153 fails: with `--include a b`, where both folders contain the file, the one in `b` can be taken. -/
theorem C153_violated :
    IsOrder [1, 2] [2, 1] ∧ found (fun _ => true) [1, 2] = some 1 ∧ found (fun _ => true) [2, 1] = some 2 := by
  refine ⟨?_, rfl, rfl⟩
  unfold IsOrder
  decide

/-! ## C154: object files of libraries -/

/-- C154: if the clock advances between any two events and the options are always the same, then the
object file that is linked has been compiled from the contents of the source and with these options,
after every history. -/
theorem C154_fresh_partial (o t0 t : Nat) (c : Nat) (h : List Event)
    (ht : Ticks t0 (h ++ [.use o t])) (ho : SameOpts o h) :
    ∃ b, (run ⟨c, t0, none⟩ (h ++ [.use o t])).built = some b ∧ b.src = source c h ∧ b.opts = o := by
  obtain ⟨n, hi, _, _⟩ := run_inv o t0 ⟨c, t0, none⟩ h
    ⟨Nat.le_refl _, fun b hb => by cases hb⟩ (ticks_left t0 h _ ht) ho
  obtain ⟨b, h1, h2, h3⟩ := use_fresh o n t _ hi
  refine ⟨b, ?_, ?_, h3⟩
  · rw [← h1, run, List.foldl_append]; rfl
  · rw [h2, run_src]

/-- Hypotheses of C154_fresh_partial. -/
example : Ticks 0 [.use 1 3, .write 8 5, .use 1 7, .upgrade 9 2, .use 1 10] ∧
    SameOpts 1 [.use 1 3, .write 8 5, .use 1 7, .upgrade 9 2] ∧
    (run ⟨7, 0, none⟩ [.use 1 3, .write 8 5, .use 1 7, .upgrade 9 2, .use 1 10]).built = some ⟨9, 1, 10⟩ := by
  simp [Ticks, SameOpts]
  decide

/-- C154 fails: the library is not compiled again when the options or the compiler change. -/
theorem C154_violated_options :
    (run ⟨7, 0, none⟩ [.use 1 3, .use 2 5]).built = some ⟨7, 1, 3⟩ := by decide

/-- C154 fails: a source that is written at the time that the object file has is not compiled again. -/
theorem C154_violated_time :
    (run ⟨7, 0, none⟩ [.use 1 3, .write 8 3, .use 1 5]).built = some ⟨7, 1, 3⟩ := by decide

end Verif.Link
