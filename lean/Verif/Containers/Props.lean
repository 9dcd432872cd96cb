import Verif.Containers.Lemmas3

/-!
# Lists, sets, dictionaries and managed pointers: properties C38–C41
-/

namespace Verif.Containers
open Spec Model

variable {α : Type}

/-! ## C38: lists -/

/-- C38 (insert): `l.insert(i, x)` leaves what Python leaves, in C and in Fortran, for all lists
that fit into memory and all 64-bit indices. -/
theorem C38_insert (l : List α) (i : Int) (x : α) (hl : (l.length : Int) < 2 ^ 63)
    (h1 : -2 ^ 63 ≤ i) (h2 : i < 2 ^ 63) :
    (∃ r, cInsert l i x = .ok r ∧ Inserted l i x r) ∧
    (∃ r, fInsert l i x = .ok r ∧ Inserted l i x r) :=
  ⟨⟨_, cInsert_eq l i x hl h1 h2, inserted_at l i x⟩, ⟨_, fInsert_eq l i x hl h1 h2, inserted_at l i x⟩⟩

example : cInsert [1, 2, 3] (-1) 9 = .ok [1, 2, 9, 3] ∧ fInsert [1, 2, 3] (-9) 9 = .ok [9, 1, 2, 3] ∧
    fInsert [1, 2, 3] 7 9 = .ok [1, 2, 3, 9] := by decide

/-- C38 (pop, part): `l.pop(i)` returns and leaves what Python's does, in C and in Fortran, when the
index is left out, is a literal, or is not negative.  Missing: an index that is another expression
and has a negative value, see `C38_pop_violated`; indices for which Python raises IndexError, see
`C38_pop_raises_violated`. -/
theorem C38_pop_partial (l : List α) (i : Idx) (v : α) (r : List α)
    (hi : ∀ k, i = .dyn k → 0 ≤ k) (h : Popped l i.value v r) :
    cPop l i = .ok (v, r) ∧ fPop l i = .ok (v, r) := by
  cases i with
  | absent => exact ⟨pull_ok l v r h, pull_ok l v r h⟩
  | lit k =>
    simp only [Idx.value] at h
    have key : pullElem l (if k < 0 then l.length + k else k) = .ok (v, r) := by
      by_cases hk : k < 0
      · rw [if_pos hk]
        obtain ⟨h0, h⟩ := (popped_front hk).mp h
        exact pullElem_ok l _ v r (by omega) h
      · rw [if_neg hk]; exact pullElem_ok l k v r (by omega) h
    refine ⟨key, ?_⟩
    rw [fPop, show (l.length : Int) - -k = l.length + k by omega]
    exact key
  | dyn k => exact ⟨pullElem_ok l k v r (hi k rfl) h, pullElem_ok l k v r (hi k rfl) h⟩

example : Popped [5, 6, 7] (-2) 6 [5, 7] ∧ cPop [5, 6, 7] (.lit (-2)) = .ok (6, [5, 7]) ∧
    fPop [5, 6, 7] (.lit (-2)) = .ok (6, [5, 7]) := by
  have h : Popped [5, 6, 7] (Idx.value (.lit (-2))) 6 [5, 7] :=
    popped_pullElem [5, 6, 7] 1 6 (-2) (by decide) (by decide)
  exact ⟨h, C38_pop_partial _ _ _ _ (by simp) h⟩

/-- C38 fails: with a negative index that is not a literal, `l.pop(i)` is undefined in C and in
Fortran, whatever Python does. -/
theorem C38_pop_violated (l : List α) (i : Int) (hi : i < 0) :
    cPop l (.dyn i) = .ub ∧ fPop l (.dyn i) = .ub :=
  ⟨pullElem_ub l i (.inl hi), pullElem_ub l i (.inl hi)⟩

example : Popped [5, 6, 7] (-1) 7 [5, 6] := popped_pullElem [5, 6, 7] 2 7 (-1) (by decide) (by decide)

/-- C38 fails: where Python raises IndexError, the generated code is undefined, for all lists and
all indices. -/
theorem C38_pop_raises_violated (l : List α) (i : Idx) (h : ∀ v r, ¬Popped l i.value v r) :
    cPop l i = .ub ∧ fPop l i = .ub := by
  cases i with
  | absent => exact ⟨pull_ub l h, pull_ub l h⟩
  | lit k =>
    simp only [Idx.value] at h
    have key : pullElem l (if k < 0 then l.length + k else k) = .ub := by
      by_cases hk : k < 0
      · rw [if_pos hk]
        refine pullElem_ub l _ ?_
        by_cases h0 : (l.length : Int) + k < 0
        · exact .inl h0
        · refine .inr (fun v r hp => h v r ((popped_front hk).mpr ⟨by omega, hp⟩))
      · rw [if_neg hk]; exact pullElem_ub l k (.inr h)
    refine ⟨key, ?_⟩
    rw [fPop, show (l.length : Int) - -k = l.length + k by omega]
    exact key
  | dyn k => exact ⟨pullElem_ub l k (.inr h), pullElem_ub l k (.inr h)⟩

example : ∀ v r, ¬Popped [5, 6] (3 : Int) v r := by
  intro v r h
  obtain ⟨p, hp, hv, _⟩ := h.ok
  have : p = 3 := by simp [addr] at hp; omega
  subst this
  simp at hv

/-- C38 (reverse): in Fortran `l.reverse()` leaves the list in the opposite order. -/
theorem C38_reverse (l : List α) : fReverse l 1 l.length = .ok l.reverse := by
  have := fReverse_eq l [] [] l (by simp) rfl
  simpa using this

example : fReverse [1, 2, 3, 4, 5] 1 5 = .ok [5, 4, 3, 2, 1] := C38_reverse [1, 2, 3, 4, 5]

/-- C38 (min, max): `min(l)` and `max(l)` of a list that is not empty are what Python's are, for
every comparison in which no element is less than itself — also for floats with NaN, where Python's
result depends on the order of the elements. -/
theorem C38_min_max (less : α → α → Bool) (hirr : ∀ x, less x x = false) (a : α) (t : List α) :
    cMin less (a :: t) = .ok (least less a t) ∧ fMin less (a :: t) = .ok (least less a t) ∧
    cMax less (a :: t) = .ok (least (fun x y => less y x) a t) ∧
    fMax less (a :: t) = .ok (least (fun x y => less y x) a t) := by
  have h1 : scan less a (a :: t) = least less a t := by rw [scan_eq, least, hirr]; rfl
  have h2 : scan (fun x b => less b x) a (a :: t) = least (fun x y => less y x) a t := by
    rw [scan_eq, least, hirr]; rfl
  exact ⟨congrArg Out.ok h1, congrArg Out.ok h1, congrArg Out.ok h2, congrArg Out.ok h2⟩

/-- C38 (min, max of integers): the result is an element of the list, and no element is smaller
(greater). -/
theorem C38_min_max_int (l : List Int) (hl : l ≠ []) :
    (∃ m ∈ l, cMin (fun x y => decide (x < y)) l = .ok m ∧ fMin (fun x y => decide (x < y)) l = .ok m ∧
      ∀ x ∈ l, m ≤ x) ∧
    (∃ m ∈ l, cMax (fun x y => decide (x < y)) l = .ok m ∧ fMax (fun x y => decide (x < y)) l = .ok m ∧
      ∀ x ∈ l, x ≤ m) := by
  cases l with
  | nil => exact absurd rfl hl
  | cons a t =>
    obtain ⟨h1, h2, h3, h4⟩ := C38_min_max (fun x y : Int => decide (x < y)) (by simp) a t
    refine ⟨⟨_, least_mem _ a t, h1, h2, ?_⟩, ⟨_, least_mem _ a t, h3, h4, ?_⟩⟩
    · intro x hx
      have := least_le (fun x y : Int => decide (x < y))
        (by intro x y z; simp; omega) (by intro x y; simp; omega) a t x hx
      simpa using this
    · intro x hx
      have := least_le (fun x y : Int => decide (y < x))
        (by intro x y z; simp; omega) (by intro x y; simp; omega) a t x hx
      simpa using this

example : cMin (fun x y : Int => decide (x < y)) [4, 2, 7, 2] = .ok 2 ∧
    fMax (fun x y : Int => decide (x < y)) [4, 2, 7, 2] = .ok 7 := by decide

/-- C38 (extend): `l.extend(m)` for two lists, in both languages, and `l.extend(l)` in Fortran leave
what Python leaves. -/
theorem C38_extend (l m : List α) :
    extend l m = l ++ m ∧ fExtendSelf l 0 l.length = .ok (l ++ l) := by
  refine ⟨extend_eq l m, ?_⟩
  have := fExtendSelf_eq l l 0 (by simp) (by simp) []
  simpa using this

example : fExtendSelf [1, 2, 3] 0 3 = .ok [1, 2, 3, 1, 2, 3] := (C38_extend [1, 2, 3] []).2

/-- C38 (extend with itself in C, part): right as long as the buffer has room for the result.
Missing: `C38_extend_self_violated`. -/
theorem C38_extend_self_partial (cap : Nat) (l : List α) (h : 2 * l.length ≤ cap) :
    cExtendSelf cap false l l = .ok (l ++ l) := cExtendSelf_room cap l l (by omega)

example : cExtendSelf 4 false [1, 2] [1, 2] = .ok [1, 2, 1, 2] :=
  C38_extend_self_partial 4 [1, 2] (by decide)

/-- C38 fails: `l.extend(l)` in C is undefined for every list that has no room for the result but
for its last element (the iterator is not looked at after that one): the buffer of the list moves
while the list is read. -/
theorem C38_extend_self_violated (cap : Nat) (l : List α) (h1 : l.length ≤ cap)
    (h2 : cap + 1 < 2 * l.length) : cExtendSelf cap false l l = .ub := by
  have key : ∀ (m k : List α), k.length ≤ cap → cap + 1 < k.length + m.length →
      cExtendSelf cap false k m = .ub := by
    intro m
    induction m with
    | nil => intro k _ _; simp at *; omega
    | cons x m ih =>
      intro k hk hm
      simp only [List.length_cons] at hm
      rw [cExtendSelf, if_neg (by simp)]
      by_cases he : k.length = cap
      · rw [if_pos he, decide_eq_true he]
        cases m with
        | nil => simp at hm; omega
        | cons y m => rw [cExtendSelf]; rfl
      · rw [if_neg he, decide_eq_false he]
        exact ih _ (by simp; omega) (by simp; omega)
  exact key l l h1 (by omega)

example : cExtendSelf 2 false [1, 2] [1, 2] = .ub := C38_extend_self_violated 2 [1, 2] (by decide) (by decide)

/-- C38 (extend with a list display, part): right when the elements do not depend on the list that
is extended.  Missing: `C38_extend_display_violated`. -/
theorem C38_extend_display_partial (l : List α) (es : List (List α → α)) (xs : List α)
    (h : ∀ s, es.map (fun e => e s) = xs) : extendLit l es = l ++ xs := by
  have := extendLit_eq l es xs (fun t => h (l ++ t)) []
  simpa using this

example : extendLit [5] [fun _ => 3, fun _ => 4] = [5, 3, 4] :=
  C38_extend_display_partial [5] _ [3, 4] (by intro s; rfl)

/-- C38 fails: after `a.extend([len(a), len(a)])` with `a = [5]` Python has `[5, 1, 1]` and the
generated code `[5, 1, 2]`. -/
theorem C38_extend_display_violated :
    ∃ (l : List Nat) (es : List (List Nat → Nat)), extendLit l es ≠ l ++ es.map (fun e => e l) :=
  ⟨[5], [List.length, List.length], by decide⟩

/-! ## C39: sets -/

section
variable [DecidableEq α]

/-- C39 (update): in both languages `d.update(…)`, `d.intersection_update(…)`, `d.difference_update(…)`
and the operators `|=`, `&=`, `-=` end, whatever the order in which the elements are visited, never
with undefined behaviour; the target then has the elements that Python's has, also if it is among
the arguments or an argument is repeated; no element is there twice; no other variable changes. -/
theorem C39_update (env : Nat → List α) (op : SetOp) (d : Nat) (ts : List Nat) (hd : (env d).Nodup) :
    ((∃ o, CExec env (.update op d ts) o) ∧ (∃ o, FExec env (.update op d ts) o)) ∧
    ∀ o, CExec env (.update op d ts) o ∨ FExec env (.update op d ts) o →
      ∃ env', o = .ok env' ∧ (∀ v, v ≠ d → env' v = env v) ∧ (env' d).Nodup ∧
        ∀ x, x ∈ env' d ↔ SetStmt.result env x (.update op d ts) := by
  obtain ⟨e, he⟩ := updates_exist op env d ts
  refine ⟨⟨⟨_, .update op d ts e he⟩, ⟨_, .update op d ts e he⟩⟩, ?_⟩
  rintro o (h | h)
  · cases h with
    | update _ _ _ env' h => exact ⟨env', rfl, updates_spec hd h⟩
  · cases h with
    | update _ _ _ env' h => exact ⟨env', rfl, updates_spec hd h⟩

/-- `a.difference_update(a)`, `a.intersection_update(b, a)`. -/
example : ∃ env' : Nat → List Nat, CExec (fun v => if v = 0 then [1, 2, 3] else [3, 4])
      (.update .inter 0 [1, 0]) (.ok env') ∧ (∀ x, x ∈ env' 0 ↔ x = 3) ∧ env' 1 = [3, 4] := by
  have h := C39_update (α := Nat) (fun v => if v = 0 then [1, 2, 3] else [3, 4]) .inter 0 [1, 0] (by decide)
  obtain ⟨o, ho⟩ := h.1.1
  obtain ⟨env', rfl, h1, _, h3⟩ := h.2 o (.inl ho)
  refine ⟨env', ho, fun x => ?_, h1 1 (by decide)⟩
  rw [h3 x]
  simp only [SetStmt.result, SetOp.mem, List.map_cons, List.map_nil, List.forall_mem_cons]
  simp
  omega

/-- C39: the loops over a set that erase elements of it end, whatever is erased and however the
erasures change the order of the elements: there is no infinite sequence of turns. -/
theorem C39_terminates (erases : List α → α → Bool) (f : Nat → List α × List α) :
    ∃ n, ¬Turn erases (f n) (f (n + 1)) := by
  have key : ∀ c, Acc (fun b a => Turn erases a b) c → ∀ f : Nat → List α × List α, f 0 = c →
      ∃ n, ¬Turn erases (f n) (f (n + 1)) := by
    intro c hc
    induction hc with
    | intro c _ ih =>
      intro f hf
      by_cases h : Turn erases (f 0) (f 1)
      · obtain ⟨n, hn⟩ := ih (f 1) (hf ▸ h) (fun k => f (k + 1)) rfl
        exact ⟨n + 1, hn⟩
      · exact ⟨0, h⟩
  exact key _ (turn_acc erases (f 0)) f rfl

example : Turn (fun _ x => decide (x = 1)) ([], [1, 2]) ([], [2]) :=
  .erase [] 1 [2] [] [] [2] (by decide) (by simp) (by simp)

/-- C39 (assignment in Fortran, part): `d = s.union(…)`, `d = s.intersection(…)`, `d = s.difference(…)`
and the operators give `d` the elements that Python's has, when `d` is not among the arguments (it
may be `s`).  Missing: `C39_assign_inter_violated` and those that follow. -/
theorem C39_assign_fortran_partial (env : Nat → List α) (op : SetOp) (first : Bool) (d s : Nat)
    (ts : List Nat) (hs : (env s).Nodup) (hd : d ∉ ts) :
    (∃ o, FExec env (.assign op first d s ts) o) ∧
    ∀ o, FExec env (.assign op first d s ts) o →
      ∃ env', o = .ok env' ∧ (∀ v, v ≠ d → env' v = env v) ∧ (env' d).Nodup ∧
        ∀ x, x ∈ env' d ↔ SetStmt.result env x (.assign op first d s ts) := by
  constructor
  · obtain ⟨e, he⟩ := updates_exist op (put env d (env s)) d ts
    exact ⟨_, .assign op first d s ts _ e (.refl _) he⟩
  · rintro o h
    cases h with
    | assign _ _ _ _ _ r env' hr h =>
      have hn : (put env d r d).Nodup := by rw [put_same]; exact hr.nodup_iff.mpr hs
      obtain ⟨h1, h2, h3⟩ := updates_spec hn h
      refine ⟨env', rfl, fun v hv => by rw [h1 v hv, put_other hv], h2, fun x => ?_⟩
      rw [h3 x, put_same, mem_congr hr.mem_iff]
      have : ts.map (put env d r) = ts.map env :=
        List.map_congr_left fun t ht => put_other (fun e => hd (e ▸ ht))
      rw [this]; rfl

example : ∃ env' : Nat → List Nat, FExec (fun v => if v = 0 then [1, 2, 3] else [3, 4])
      (.assign .diff false 0 0 [1]) (.ok env') ∧ (∀ x, x ∈ env' 0 ↔ x = 1 ∨ x = 2) := by
  have h := C39_assign_fortran_partial (α := Nat) (fun v => if v = 0 then [1, 2, 3] else [3, 4])
    .diff false 0 0 [1] (by decide) (by decide)
  obtain ⟨o, ho⟩ := h.1
  obtain ⟨env', rfl, _, _, h3⟩ := h.2 o ho
  refine ⟨env', ho, fun x => ?_⟩
  rw [h3 x]
  simp only [SetStmt.result, SetOp.mem, List.map_cons, List.map_nil, List.forall_mem_cons]
  simp
  omega

/-- C39 (assignment in C, part): the same, when `d` gets its first value or is not among the sets on
the right-hand side.  Missing: `C39_assign_inter_violated` and those that follow. -/
theorem C39_assign_c_partial (env : Nat → List α) (op : SetOp) (first : Bool) (d s : Nat)
    (ts : List Nat) (hs : (env s).Nodup) (hd : d ∉ ts) (hf : first = true ∨ s ≠ d) :
    (∃ o, CExec env (.assign op first d s ts) o) ∧
    ∀ o, CExec env (.assign op first d s ts) o →
      ∃ env', o = .ok env' ∧ (∀ v, v ≠ d → env' v = env v) ∧ (env' d).Nodup ∧
        ∀ x, x ∈ env' d ↔ SetStmt.result env x (.assign op first d s ts) := by
  have hsrc : (if first then env else put env d []) s = env s := by
    rcases hf with rfl | hf
    · rfl
    · cases first
      · exact put_other hf
      · rfl
  constructor
  · by_cases hop : op = .union
    · subst hop
      exact ⟨_, .union d s ts first _ (hf.imp_right fun h => ⟨h, hd⟩) (.refl _)⟩
    · obtain ⟨e, he⟩ := updates_exist op (put env d (env s)) d ts
      exact ⟨_, .assign op hop first d s ts _ e (by rw [hsrc]) he⟩
  · rintro o h
    cases h with
    | union _ _ _ _ r _ hr =>
      refine ⟨_, rfl, fun v hv => put_other hv, by rw [put_same]; exact hr.nodup_iff.mpr (nodup_unionAll hs _),
        fun x => ?_⟩
      rw [put_same, hr.mem_iff, mem_unionAll]; rfl
    | dropped _ _ _ h =>
      rcases h with rfl | h
      · rcases hf with hf | hf
        · cases hf
        · exact absurd rfl hf
      · exact absurd h hd
    | assign _ _ _ _ _ _ r env' hr h =>
      rw [hsrc] at hr
      have hn : (put env d r d).Nodup := by rw [put_same]; exact hr.nodup_iff.mpr hs
      obtain ⟨h1, h2, h3⟩ := updates_spec hn h
      refine ⟨env', rfl, fun v hv => by rw [h1 v hv, put_other hv], h2, fun x => ?_⟩
      rw [h3 x, put_same, mem_congr hr.mem_iff]
      have : ts.map (put env d r) = ts.map env :=
        List.map_congr_left fun t ht => put_other (fun e => hd (e ▸ ht))
      rw [this]; rfl

example : ∃ env' : Nat → List Nat, CExec (fun v => if v = 0 then [1, 2, 3] else [3, 4])
      (.assign .union true 2 0 [1]) (.ok env') ∧ (∀ x, x ∈ env' 2 ↔ x = 1 ∨ x = 2 ∨ x = 3 ∨ x = 4) := by
  have h := C39_assign_c_partial (α := Nat) (fun v => if v = 0 then [1, 2, 3] else [3, 4])
    .union true 2 0 [1] (by decide) (by decide) (.inl rfl)
  obtain ⟨o, ho⟩ := h.1
  obtain ⟨env', rfl, _, _, h3⟩ := h.2 o ho
  refine ⟨env', ho, fun x => ?_⟩
  rw [h3 x]
  simp only [SetStmt.result, SetOp.mem, List.map_cons, List.map_nil]
  simp
  omega

/-- C39 fails: `a = a & b`, and `a = a - b`, in C leave `a` empty: the variable is cleared before its
value is copied.  For all sets `a` and all arguments, among which `a` may be. -/
theorem C39_assign_self_violated (env : Nat → List α) (op : SetOp) (hop : op ≠ .union) (d : Nat)
    (ts : List Nat) (o : Out (Nat → List α)) (h : CExec env (.assign op false d d ts) o) :
    ∃ env', o = .ok env' ∧ env' d = [] := by
  cases h with
  | union => exact absurd rfl hop
  | dropped => exact absurd rfl hop
  | assign _ _ _ _ _ _ r env' hr h =>
    have hr : r = [] := by
      rw [if_neg (by simp), put_same] at hr; exact List.perm_nil.mp hr
    subst hr
    obtain ⟨_, _, h3⟩ := updates_spec (by rw [put_same]; exact .nil) h
    refine ⟨env', rfl, ?_⟩
    rw [List.eq_nil_iff_forall_not_mem]
    intro x hx
    have := (h3 x).mp hx
    rw [put_same] at this
    cases op with
    | union => exact hop rfl
    | inter => exact absurd this.1 (by simp)
    | diff => exact absurd this.1 (by simp)

/-- Python has `{2}` after `a = a & b` with `a = {1, 2}`, `b = {2, 3}`. -/
example : SetStmt.result (fun v => if v = 0 then [1, 2] else [2, 3]) 2 (.assign .inter false 0 0 [1]) ∧
    ∃ o, CExec (fun v => if v = 0 then [1, 2] else [2, 3]) (.assign .inter false 0 0 [1]) o := by
  refine ⟨by simp [SetStmt.result, SetOp.mem], ?_⟩
  obtain ⟨e, he⟩ := updates_exist (α := Nat) .inter
    (put (fun v => if v = 0 then [1, 2] else [2, 3]) 0 []) 0 [1]
  exact ⟨_, .assign .inter (by decide) false 0 0 [1] [] e (by simp [put]) he⟩

/-- C39 fails: `a = a | b` and `a = b | a` are undefined in C: the variable is dropped before the
union is taken.  For all sets. -/
theorem C39_assign_union_violated (env : Nat → List α) (d s : Nat) (ts : List Nat) (hd : s = d ∨ d ∈ ts)
    (o : Out (Nat → List α)) (h : CExec env (.assign .union false d s ts) o) : o = .ub := by
  cases h with
  | union _ _ _ _ r h =>
    rcases h with h | ⟨h1, h2⟩
    · cases h
    · rcases hd with hd | hd
      · exact absurd hd h1
      · exact absurd hd h2
  | dropped => rfl
  | assign _ hop => exact absurd rfl hop

example : CExec (fun v => if v = 0 then [1, 2] else [2, 3]) (.assign .union false 0 0 [1]) .ub :=
  .dropped 0 0 [1] (.inl rfl)

/-- C39 fails: `a = b | a` in Fortran leaves `b` in `a`: the target is overwritten before it is
read. -/
theorem C39_assign_union_fortran_violated (env : Nat → List α) (first : Bool) (d s : Nat)
    (hs : (env s).Nodup) (o : Out (Nat → List α)) (h : FExec env (.assign .union first d s [d]) o) :
    ∃ env', o = .ok env' ∧ ∀ x, x ∈ env' d ↔ x ∈ env s := by
  cases h with
  | assign _ _ _ _ _ r env' hr h =>
    obtain ⟨_, _, h3⟩ := updates_spec (by rw [put_same]; exact hr.nodup_iff.mpr hs) h
    refine ⟨env', rfl, fun x => ?_⟩
    rw [h3 x, put_same, mem_congr hr.mem_iff]
    simp only [SetOp.mem, List.map_cons, List.map_nil, put_same]
    simp [hr.mem_iff]

/-- Python has 1 in `a` after `a = b | a` with `a = {1, 2}`, `b = {2, 3}`. -/
example : SetStmt.result (fun v => if v = 0 then [1, 2] else [2, 3]) 1 (.assign .union false 0 1 [0]) := by
  simp [SetStmt.result, SetOp.mem]

/-- C39 fails: `a = b & a` leaves `b` in `a`, and `a = b - a` leaves `a` empty, in both languages and
for all sets. -/
theorem C39_assign_inter_violated (env : Nat → List α) (first : Bool) (d s : Nat) (hds : s ≠ d)
    (hs : (env s).Nodup) (o : Out (Nat → List α)) :
    (FExec env (.assign .inter first d s [d]) o ∨ CExec env (.assign .inter first d s [d]) o →
      ∃ env', o = .ok env' ∧ ∀ x, x ∈ env' d ↔ x ∈ env s) ∧
    (FExec env (.assign .diff first d s [d]) o ∨ CExec env (.assign .diff first d s [d]) o →
      ∃ env', o = .ok env' ∧ env' d = []) := by
  have hsrc : (if first then env else put env d []) s = env s := by
    cases first
    · exact put_other hds
    · rfl
  have k1 : ∀ r env', r.Perm (env s) → Updates .inter d (put env d r) [d] env' →
      ∀ x, x ∈ env' d ↔ x ∈ env s := by
    intro r env' hr h x
    obtain ⟨_, _, h3⟩ := updates_spec (by rw [put_same]; exact hr.nodup_iff.mpr hs) h
    rw [h3 x, put_same, mem_congr hr.mem_iff]
    simp [SetOp.mem, put_same, hr.mem_iff]
  have k2 : ∀ r env', r.Perm (env s) → Updates .diff d (put env d r) [d] env' → env' d = [] := by
    intro r env' hr h
    obtain ⟨_, _, h3⟩ := updates_spec (by rw [put_same]; exact hr.nodup_iff.mpr hs) h
    rw [List.eq_nil_iff_forall_not_mem]
    intro x hx
    have := (h3 x).mp hx
    rw [put_same] at this
    exact this.2 r (by simp [put_same]) this.1
  constructor
  · rintro (h | h)
    · cases h with
      | assign _ _ _ _ _ r env' hr h => exact ⟨env', rfl, k1 r env' hr h⟩
    · cases h with
      | assign _ _ _ _ _ _ r env' hr h => exact ⟨env', rfl, k1 r env' (hsrc ▸ hr) h⟩
  · rintro (h | h)
    · cases h with
      | assign _ _ _ _ _ r env' hr h => exact ⟨env', rfl, k2 r env' hr h⟩
    · cases h with
      | assign _ _ _ _ _ _ r env' hr h => exact ⟨env', rfl, k2 r env' (hsrc ▸ hr) h⟩

/-- Python has 3 in `a` after `a = b - a` with `a = {1, 2}`, `b = {2, 3}`, and not after `a = b & a`. -/
example : SetStmt.result (fun v => if v = 0 then [1, 2] else [2, 3]) 3 (.assign .diff false 0 1 [0]) ∧
    ¬SetStmt.result (fun v => if v = 0 then [1, 2] else [2, 3]) 3 (.assign .inter false 0 1 [0]) := by
  simp [SetStmt.result, SetOp.mem]

/-- C39 (isdisjoint): in both languages, also for a set and itself. -/
theorem C39_isdisjoint (s t : List α) :
    (cDisjoint false s t = true ↔ ∀ x, ¬(x ∈ s ∧ x ∈ t)) ∧
    (fDisjoint s t = true ↔ ∀ x, ¬(x ∈ s ∧ x ∈ t)) ∧
    (cDisjoint true s s = true ↔ s = []) := by
  refine ⟨?_, ?_, ?_⟩
  · unfold cDisjoint
    split
    · rw [noneIn_iff]; exact ⟨fun h x hx => h x hx.1 hx.2, fun h x hx hy => h x ⟨hx, hy⟩⟩
    · rw [if_neg (by simp), noneIn_iff]
      exact ⟨fun h x hx => h x hx.2 hx.1, fun h x hx hy => h x ⟨hy, hx⟩⟩
  · unfold fDisjoint
    split
    · rw [noneIn_iff]; exact ⟨fun h x hx => h x hx.2 hx.1, fun h x hx hy => h x ⟨hy, hx⟩⟩
    · rw [noneIn_iff]; exact ⟨fun h x hx => h x hx.1 hx.2, fun h x hx hy => h x ⟨hx, hy⟩⟩
  · unfold cDisjoint
    rw [if_neg (by omega), if_pos rfl, noneIn_iff, List.eq_nil_iff_forall_not_mem]
    exact ⟨fun h x hx => h x hx hx, fun h x hx => absurd hx (h x)⟩

example : cDisjoint false [1, 2, 3] [4, 5] = true ∧ fDisjoint [1, 2, 3] [4, 3] = false := by decide

/-- C39 (pop, part): `s.pop()` of a set that is not empty returns an element and leaves exactly the
others.  Missing: `C39_pop_violated`. -/
theorem C39_pop_partial (s : List α) (hn : s.Nodup) (h : s ≠ []) :
    ∃ x r, setPop s = .ok (x, r) ∧ x ∈ s ∧ r.Nodup ∧ ∀ y, y ∈ r ↔ y ∈ s ∧ y ≠ x := by
  cases s with
  | nil => exact absurd rfl h
  | cons x r =>
    obtain ⟨h1, h2⟩ := List.nodup_cons.mp hn
    refine ⟨x, r, rfl, by simp, h2, fun y => ⟨fun hy => ⟨by simp [hy], fun e => h1 (e ▸ hy)⟩, ?_⟩⟩
    rintro ⟨hy, hne⟩
    exact (List.mem_cons.mp hy).resolve_left hne

example : setPop [3, 1, 2] = .ok (3, [1, 2]) := rfl

/-- C39 fails: `s.pop()` of an empty set, which raises KeyError in Python, is undefined. -/
theorem C39_pop_violated : setPop ([] : List α) = .ub := rfl

/-- C39 (discard, remove; part): the element is removed, the others stay.  Missing: for `remove`,
`C39_remove_violated`. -/
theorem C39_discard_partial (s : List α) (hn : s.Nodup) (x : α) :
    (discard s x).Nodup ∧ ∀ y, y ∈ discard s x ↔ y ∈ s ∧ y ≠ x := by
  refine ⟨hn.filter _, fun y => ?_⟩
  simp [Model.discard]

example : discard [3, 1, 2] 1 = [3, 2] := by decide

/-- C39 fails: `s.remove(x)` of an element that is not there, which raises KeyError in Python, goes
on as if nothing had happened, for all sets. -/
theorem C39_remove_violated (s : List α) (x : α) (h : x ∉ s) : discard s x = s := by
  rw [Model.discard, List.filter_eq_self]
  intro y hy
  simp only [ne_eq, decide_not, Bool.not_eq_eq_eq_not, Bool.not_true, decide_eq_false_iff_not]
  exact fun e => h (e ▸ hy)

end

/-- C39 (min, max): of a set of integers in whatever order the elements are visited (C), and of one
that is visited in increasing order (Fortran). -/
theorem C39_min_max (s : List Int) (hs : s ≠ []) :
    (∃ m ∈ s, cMin (fun x y => decide (x < y)) s = .ok m ∧ ∀ x ∈ s, m ≤ x) ∧
    (∃ m ∈ s, cMax (fun x y => decide (x < y)) s = .ok m ∧ ∀ x ∈ s, x ≤ m) ∧
    (s.Pairwise (· < ·) →
      (∃ m ∈ s, fSetMin s = .ok m ∧ ∀ x ∈ s, m ≤ x) ∧ (∃ m ∈ s, fSetMax s = .ok m ∧ ∀ x ∈ s, x ≤ m)) := by
  obtain ⟨⟨m, hm, h1, _, h2⟩, ⟨k, hk, h3, _, h4⟩⟩ := C38_min_max_int s hs
  refine ⟨⟨m, hm, h1, h2⟩, ⟨k, hk, h3, h4⟩, fun hp => ⟨?_, ?_⟩⟩
  · cases s with
    | nil => exact absurd rfl hs
    | cons a t =>
      refine ⟨a, by simp, rfl, fun x hx => ?_⟩
      rcases List.mem_cons.mp hx with rfl | hx
      · exact Int.le_refl _
      · exact Int.le_of_lt ((List.pairwise_cons.mp hp).1 x hx)
  · have hl := List.dropLast_concat_getLast hs
    refine ⟨s.getLast hs, List.getLast_mem hs, by rw [fSetMax, List.getLast?_eq_some_getLast hs], fun x hx => ?_⟩
    rw [← hl] at hx hp
    rcases List.mem_append.mp hx with hx | hx
    · exact Int.le_of_lt ((List.pairwise_append.mp hp).2.2 x hx _ (by simp))
    · simp at hx; omega

example : cMin (fun x y => decide (x < y)) [3, -1, 2] = .ok (-1 : Int) ∧ fSetMax [-1, 2, 3] = .ok (3 : Int) := by
  decide

/-! ## C40: dictionaries -/

section
variable {K V : Type} [DecidableEq K]

/-- The operations of a history after which Python has something to say and which the generated
code supports: no `popitem`, and assignments only to keys that are there. -/
def Plain (d : List (K × V)) : List (DictOp K V) → Prop
  | [] => True
  | o :: os => o ≠ .popitem ∧ (∀ k w, o = .setItem k w → (value d k).isSome) ∧
    ∀ v d', python d o = some (v, d') → Plain d' os

/-- C40 (part): in every history of operations in which Python raises nothing, in every order in
which the pairs may be stored, the generated code returns what Python returns and leaves the same
pairs.  Missing: `popitem` (`C40_popitem_partial`, `C40_popitem_violated`), assignment to a new key
(`C40_new_key_violated`), and KeyError (`C40_missing_key_violated`). -/
theorem C40_history_partial (d m : List (K × V)) (hd : (d.map (·.1)).Nodup) (hm : m.Perm d)
    (os : List (DictOp K V)) (hos : Plain d os) (vs : List (Val K V)) (d' : List (K × V))
    (h : pythons d os = some (vs, d')) :
    (∃ r, DictRun m os r) ∧
    ∀ r, DictRun m os r → ∃ m', r = .ok (vs, m') ∧ m'.Perm d' ∧ (d'.map (·.1)).Nodup := by
  induction os generalizing d m vs d' with
  | nil =>
    simp only [pythons, Option.some.injEq, Prod.mk.injEq] at h
    obtain ⟨rfl, rfl⟩ := h
    refine ⟨⟨_, .nil m⟩, fun r hr => ?_⟩
    cases hr
    exact ⟨m, rfl, hm, hd⟩
  | cons o os ih =>
    obtain ⟨h1, h2, h3⟩ := hos
    simp only [pythons, Option.bind_eq_bind, Option.pure_def, Option.bind_eq_some_iff] at h
    obtain ⟨⟨v, d1⟩, hp, ⟨ws, d2⟩, hq, he⟩ := h
    simp only [Option.some.injEq, Prod.mk.injEq] at he
    obtain ⟨rfl, rfl⟩ := he
    obtain ⟨m1, hs, hm1, hd1⟩ := dictStep_ok hd hm hp h1 h2
    refine ⟨?_, ?_⟩
    · obtain ⟨r, hr⟩ := (ih d1 m1 hd1 hm1 (h3 v d1 hp) ws d2 hq).1
      exact ⟨_, .step hs (.refl _) hr⟩
    · intro r hr
      cases hr with
      | ub _ _ _ h => rw [hs] at h; cases h
      | @step _ m' m'' _ _ v' r' h hp' hr =>
        rw [hs] at h
        cases h
        obtain ⟨m3, rfl, h5, h6⟩ := (ih d1 m'' hd1 (hp'.trans hm1) (h3 v d1 hp) ws d2 hq).2 r' hr
        exact ⟨m3, rfl, h5, h6⟩

/-- `d = {1: 10, 2: 20}; d.pop(1); d[2] = 5; d.get(1, 7); d.pop(2)` -/
example : Plain [(1, 10), (2, 20)] [.pop 1, .setItem 2 5, .get 1 7, .pop 2] ∧
    pythons [(1, 10), (2, 20)] [.pop 1, .setItem 2 5, .get 1 7, .pop 2] =
      some ([.value 10, .nothing, .value 7, .value 5], []) := by
  refine ⟨⟨by decide, by (intro k w h; cases h), ?_⟩, by decide⟩
  intro v d h
  obtain ⟨rfl, rfl⟩ : v = .value 10 ∧ d = [(2, 20)] := by
    have : python [(1, 10), (2, 20)] (.pop 1) = some (.value 10, [(2, 20)]) := by decide
    rw [this] at h; cases h; exact ⟨rfl, rfl⟩
  refine ⟨by decide, by (intro k w h; cases h; decide), ?_⟩
  intro v d h
  refine ⟨by decide, by (intro k w h; cases h), ?_⟩
  intro v d h
  exact ⟨by decide, by (intro k w h; cases h), fun _ _ _ => trivial⟩

/-- C40 (popitem, part): `d.popitem()` of a dictionary that is not empty returns one of its pairs and
removes exactly that.  Missing: that it is the last one, see `C40_popitem_violated`. -/
theorem C40_popitem_partial (d m : List (K × V)) (hd : (d.map (·.1)).Nodup) (hm : m.Perm d) (h : d ≠ []) :
    ∃ k v m', dictStep m .popitem = .ok (.pair k v, m') ∧ (k, v) ∈ d ∧ m'.Perm (without d k) := by
  cases m with
  | nil => exact absurd (List.nil_perm.mp hm) h
  | cons p m =>
    refine ⟨p.1, p.2, m, rfl, hm.mem_iff.mp (by simp), ?_⟩
    have hk : Keys (p :: m) := Keys.perm (d := d) hd hm
    have h1 : without (p :: m) p.1 = m := by
      rw [without, List.filter_cons_of_neg (by simp), List.filter_eq_self]
      intro q hq
      have := (List.nodup_cons.mp hk).1
      simp only [ne_eq, decide_not, Bool.not_eq_eq_eq_not, Bool.not_true, decide_eq_false_iff_not]
      intro e
      refine this ?_
      have := List.mem_map_of_mem (f := (·.1)) hq
      rw [e] at this
      exact this
    rw [← h1]
    exact hm.filter _

example : dictStep [(2, 20), (1, 10)] .popitem = .ok (.pair 2 20, [(1, 10)]) := rfl

/-- C40 fails: `d.popitem()` does not return the pair that was inserted last, as Python's does, but
the first one in the order of the table. -/
theorem C40_popitem_violated :
    ∃ (d m : List (Nat × Nat)), m.Perm d ∧ python d .popitem = some (.pair 2 20, [(1, 10)]) ∧
      dictStep m .popitem = .ok (.pair 1 10, [(2, 20)]) :=
  ⟨[(1, 10), (2, 20)], [(1, 10), (2, 20)], .refl _, by decide, rfl⟩

/-- C40 fails: `d[k] = v` with a key that is not there, which adds it in Python, is undefined, for
all dictionaries, keys and values. -/
theorem C40_new_key_violated (d m : List (K × V)) (hd : (d.map (·.1)).Nodup) (hm : m.Perm d) (k : K) (v : V)
    (h : value d k = none) :
    dictStep m (.setItem k v) = .ub ∧ python d (.setItem k v) = some (.nothing, d ++ [(k, v)]) := by
  refine ⟨?_, by simp [python, h]⟩
  rw [dictStep, look_eq, value_perm hd hm, h]

example : value [(1, 10)] 2 = none := by decide

/-- C40 fails: where Python raises KeyError the generated code is undefined, in all states. -/
theorem C40_missing_key_violated (d m : List (K × V)) (hd : (d.map (·.1)).Nodup) (hm : m.Perm d)
    (o : DictOp K V) (h : python d o = none) : dictStep m o = .ub := dictStep_ub hd hm h

example : python [(1, 10)] (.pop 2) = none ∧ python [(1, 10)] (.item 2) = none := by decide

end

/-! ## C41: managed pointers -/

/-- C41 (part): in every history of operations that uses handles as they are meant to be used
(`Spec.use`), nothing undefined happens; every object is freed at most once; it has been freed once,
or exactly one variable is responsible for it.  So if no variable is responsible for anything at the
end, every object has been freed exactly once.  Missing: histories that misuse a handle, see
`C41_steal_violated` and those that follow. -/
theorem C41_partial (os : List PtrOp) (u : Nat → Use) (h : uses (fun _ => .empty) os = some u) :
    ∃ s, Heap.start.run os = .ok s ∧
      (∀ o, o < s.next → s.freed o = 1 ∨ (s.freed o = 0 ∧
        ∃ g, u g = .owner ∧ s.var g = some ⟨some o, true⟩ ∧
          ∀ k, u k = .owner → s.var k = some ⟨some o, true⟩ → k = g)) ∧
      ((∀ g, u g ≠ .owner) → ∀ o, o < s.next → s.freed o = 1) := by
  obtain ⟨s, hs, hf⟩ := fits_run fits_start h
  refine ⟨s, hs, fun o ho => ?_, fun hn o ho => ?_⟩
  · rcases hf.freed o ho with h1 | ⟨h1, g, hg, hv⟩
    · exact .inl h1
    · exact .inr ⟨h1, g, hg, hv, fun k hk hkv => hf.one k g o hk hg hkv hv⟩
  · rcases hf.freed o ho with h1 | ⟨_, g, hg, _⟩
    · exact h1
    · exact absurd hg (hn g)

/-- Two objects; an alias; one moved to another variable; all dropped. -/
example : ∃ u, uses (fun _ => .empty)
      [.make 0, .clone 1 0, .make 2, .steal 3 0, .drop 1, .drop 2, .drop 3] = some u ∧
    (∀ g, u g ≠ .owner) ∧
    ∃ s, Heap.start.run [.make 0, .clone 1 0, .make 2, .steal 3 0, .drop 1, .drop 2, .drop 3] = .ok s ∧
      s.next = 2 ∧ s.freed 0 = 1 ∧ s.freed 1 = 1 := by
  refine ⟨_, rfl, ?_, _, rfl, rfl, rfl, rfl⟩
  intro g
  simp only
  repeat' split
  all_goals simp_all

/-- C41: dropping a handle that is not responsible for its object frees nothing, in every state. -/
theorem C41_alias_drop (s : Heap) (g : Nat) (p : Option Nat) (h : s.var g = some ⟨p, false⟩) :
    s.step (.drop g) = .ok s := by rw [Heap.step, h]; cases p <;> rfl

example : ∃ s, Heap.start.run [.make 0, .clone 1 0] = .ok s ∧ s.var 1 = some ⟨some 0, false⟩ := ⟨_, rfl, rfl⟩

/-- C41 fails: `steal` leaves the handle it takes the object from responsible for it, so that
dropping both frees the object twice. -/
theorem C41_steal_violated :
    ∃ s, Heap.start.run [.make 0, .steal 1 0, .drop 0, .drop 1] = .ok s ∧ s.freed 0 = 2 :=
  ⟨_, rfl, rfl⟩

/-- C41 fails: dropping a responsible handle twice frees its object twice: in every state, `drop`
leaves the handle as it was. -/
theorem C41_drop_twice_violated (s : Heap) (g o : Nat) (h : s.var g = some ⟨some o, true⟩) :
    ∃ s', s.run [.drop g, .drop g] = .ok s' ∧ s'.freed o = s.freed o + 2 := by
  refine ⟨(s.free o).free o, ?_, by simp [Heap.free]⟩
  have h' : (s.free o).var g = some ⟨some o, true⟩ := h
  simp [Heap.run, Heap.step, h, h']

example : ∃ s, Heap.start.run [.make 0] = .ok s ∧ s.var 0 = some ⟨some 0, true⟩ := ⟨_, rfl, rfl⟩

/-- C41 fails: assigning to a handle that is responsible for an object leaks the object: every
handle is dropped at the end, and object 0 is never freed.  (What `x = lst.pop()` twice in a program
becomes.) -/
theorem C41_overwrite_violated :
    ∃ s, Heap.start.run [.make 0, .make 1, .steal 2 0, .steal 2 1, .drop 2] = .ok s ∧
      s.freed 0 = 0 ∧ s.freed 1 = 1 :=
  ⟨_, rfl, rfl, rfl⟩

end Verif.Containers
