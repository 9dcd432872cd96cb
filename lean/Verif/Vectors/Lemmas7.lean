import Verif.Vectors.Lemmas6

/-!
# Blocks
-/

namespace Verif.Vectors.Lemmas
open Spec Model

/-! ## NumPy -/

theorem numpy_set {W : World} {σ σ' : Store} {lhs : Ref} {rhs : Ex}
    (h : numpy W σ (.set lhs rhs) = some σ') : rhs.Fits W (lhs.dims W) := by
  rw [numpy] at h
  split at h
  · assumption
  · simp at h

theorem fits_of {W : World} {σ σ' : Store} {b : List Stmt} (h : numpys W σ b = some σ') {lhs : Ref}
    {rhs : Ex} (hm : Stmt.set lhs rhs ∈ b) : rhs.Fits W (lhs.dims W) := by
  induction b generalizing σ with
  | nil => simp at hm
  | cons s b ih =>
    rw [numpys] at h
    obtain ⟨σ1, h1, h2⟩ := Option.bind_eq_some_iff.1 h
    simp only [List.mem_cons] at hm
    rcases hm with rfl | hm
    · exact numpy_set h1
    · exact ih h2 hm

/-- NumPy's assignment as an action; the temporaries stay. -/
theorem numpy_chunk (W : World) (lhs : Ref) (rhs : Ex) (e : LEx) (st : St) (σ' : Store)
    (he : ∀ pos, evalWith W pos st e = evalWith W pos st (lowerEx rhs))
    (h : numpy W st.σ (.set lhs rhs) = some σ') :
    chunk W (stmtAct W lhs e) (box (lhs.dims W)) st = some ⟨σ', st.t⟩ := by
  rw [numpy, if_pos (numpy_set h)] at h
  obtain ⟨zs, h1, h2⟩ := Option.bind_eq_some_iff.1 h
  unfold stmtAct
  rw [← chunk_eq]
  have : ((box (lhs.dims W)).mapM fun ix => evalWith W (fun r => atB W (fun _ => 0) ix r) st e) =
      some zs := by
    rw [← h1]
    apply mapM_congr
    intro ix _
    rw [he, eval_lower W (fun _ => 0) st.σ st.t]
  rw [this]
  simp only [Option.bind_eq_bind, Option.bind_some]
  rw [h2]
  rfl

/-! ## Assignments that need no loop -/

theorem line_run (W : World) (hv : Bool) (F : Var → Bool) (lhs : Ref) (rhs : Ex) (env : Env) (st : St)
    (σ' : Store) (hs : lhs.Started) (hcl : rhs.Clear W lhs.shape)
    (hc : compatible hv F (Line.refs ⟨lowerRef false lhs, lowerEx rhs⟩) = true)
    (hn : numpy W st.σ (.set lhs rhs) = some σ') :
    (Item.line ⟨lowerRef false lhs, lowerEx rhs⟩).run W env st = some ⟨σ', st.t⟩ := by
  have hf := numpy_set hn
  rw [← numpy_chunk W lhs rhs (lowerEx rhs) st σ' (fun _ => rfl) hn]
  have hsh : (lowerRef false lhs).shape = lhs.shape := shape_lower lhs
  have hd : (lowerRef false lhs).dims W = lhs.dims W := by
    simp [LRef.dims, Ref.dims, hsh]
  have := run_line W hv F ⟨lowerRef false lhs, lowerEx rhs⟩
    (by
      intro r hr
      simp only [hsh]
      simp only [Line.refs, List.mem_cons] at hr
      rcases hr with rfl | hr
      · exact rok_self W lhs hs
      · exact rok_lower W lhs.shape rhs hcl hf.1 r hr)
    (.inl hc) env st (lowerEx rhs) (fun r => r)
    (by
      have := map_id ⟨lowerRef false lhs, lowerEx rhs⟩
      simp only [Line.map, Line.mk.injEq] at this
      exact this.2.symm)
    (fun ix => lhs.at W ix) (fun ix r => atB W (fun _ => 0) ix r) (fun jx => jx)
    (by intro jx _; simp only; rw [atB_lower])
    (by
      intro jx _ r hr
      obtain ⟨b, r0, rfl⟩ := refs_lower hr
      exact atB_env ..)
  rw [this]
  simp only [hd, List.map_id']
  rfl

/-! ## Assignments element by element -/

theorem chunk_congr (W : World) (A B : Act) (ixs : List (List Nat)) (st : St)
    (h : ∀ ix ∈ ixs, A.tgt ix = B.tgt ix ∧ A.src ix = B.src ix ∧ ∀ st, A.val ix st = B.val ix st) :
    chunk W A ixs st = chunk W B ixs st := by
  have hf : Fine W A ixs ↔ Fine W B ixs := by
    unfold Fine
    constructor
    · intro hA ix hi
      rw [← (h ix hi).1, ← (h ix hi).2.1]
      exact hA ix hi
    · intro hA ix hi
      rw [(h ix hi).1, (h ix hi).2.1]
      exact hA ix hi
  have ha : ∀ σ, after A st σ ixs = after B st σ ixs := by
    clear hf
    induction ixs with
    | nil => intro σ; rfl
    | cons ix ixs ih =>
      intro σ
      simp only [after]
      rw [ih fun j hj => h j (by simp [hj]), (h ix (by simp)).1, (h ix (by simp)).2.2]
  unfold chunk
  by_cases hA : Fine W A ixs
  · rw [if_pos hA, if_pos (hf.1 hA), ha]
  · rw [if_neg hA, if_neg fun hB => hA (hf.2 hB)]

theorem mapM_range' {α β : Type} (l : List α) (f : α → Option β) (g : Nat → Option β) (k : Nat)
    (h : ∀ i e, l[i]? = some e → g (k + i) = f e) : (List.range' k l.length).mapM g = l.mapM f := by
  induction l generalizing k with
  | nil => rfl
  | cons a l ih =>
    rw [List.length_cons, List.range'_succ, List.mapM_cons, List.mapM_cons,
      ih (k + 1) (fun i e hi => by
        have := h (i + 1) e (by simpa using hi)
        rw [← this]; congr 1; omega), show g k = f a from h 0 a rfl]

theorem mapM_map' {α β γ : Type} (l : List α) (f : α → β) (g : β → Option γ) :
    (l.map f).mapM g = l.mapM fun x => g (f x) := by
  induction l with
  | nil => rfl
  | cons a l ih => rw [List.map_cons, List.mapM_cons, List.mapM_cons, ih]

/-- `lhs[j] = l[j]` for index `[j]`. -/
def elemAct (W : World) (lhs : Ref) (l : List Ex) : Act :=
  act W (fun ix => lhs.at W ix) (fun _ r => atB W (fun _ => 0) [] r)
    fun ix => lowerEx (l[ix.headD 0]?.getD (.lit 0))

theorem dims_one {W : World} {lhs : Ref} {n : Nat} (h : lhs.dims W = [n]) :
    ∃ s, lhs.shape = [s] ∧ s.val W.ρ = n := by
  unfold Ref.dims at h
  match hs : lhs.shape, h with
  | [s], h => exact ⟨s, rfl, by simpa using h⟩

theorem elem_target (W : World) (env : Env) (lhs : Ref) (n j : Nat) (hs : lhs.Started)
    (hd : lhs.dims W = [n]) (hj : j < n) :
    ROk W [] (insertIndex lhs.shape.length (.lit j) (lowerRef false lhs)) ∧
    (insertIndex lhs.shape.length (.lit j) (lowerRef false lhs)).shape = [] ∧
    atB W env [] (insertIndex lhs.shape.length (.lit j) (lowerRef false lhs)) = lhs.at W [j] := by
  obtain ⟨s, hs1, hs2⟩ := dims_one hd
  have hr : (lowerRef false lhs).rank = 1 := by rw [rank_lower, hs1]; rfl
  have hll : llens (lowerRef false lhs).subs = [s] := by
    have := shape_lower lhs
    rw [hs1] at this
    simpa [LRef.shape, lowerRef] using this
  have hi : ∃ i : Ix, insertIndex lhs.shape.length (.lit j) (lowerRef false lhs) =
      { lowerRef false lhs with subs := fillAt i 0 (lowerRef false lhs).subs } ∧
      (s.val W.ρ = 1 → i.val env = 0) ∧ (s.val W.ρ ≠ 1 → i.val env = j) := by
    unfold insertIndex
    rw [hr, hs1, if_neg (by simp), shape_lower, hs1]
    have ht : (lowerRef false lhs).trans = false := rfl
    simp only [ht]
    refine ⟨if ([s] : List Size)[1 - [s].length]? = some (.lit 1) then .lit 0 else .lit j, rfl, ?_, ?_⟩
    · intro h1
      have : j = 0 := by omega
      split <;> simp [Ix.val, this]
    · intro h1
      rw [if_neg]
      · rfl
      · simp only [List.length_cons, List.length_nil, Nat.sub_self, List.getElem?_cons_zero,
          Option.some.injEq]
        rintro rfl
        exact h1 rfl
  obtain ⟨i, e, h1, h2⟩ := hi
  rw [e]
  have hsh : LRef.shape { lowerRef false lhs with subs := fillAt i 0 (lowerRef false lhs).subs } = [] := by
    have ht : (lowerRef false lhs).trans = false := rfl
    simp only [LRef.shape, ht, llens_fillAt, hll]
    rfl
  refine ⟨⟨?_, ?_, ?_, ?_⟩, hsh, ?_⟩
  · intro a b n hm
    exact started_lower hs false a b n (mem_fillAt hm)
  · rw [← shape_length, hsh]; exact Nat.le_refl _
  · rw [hsh]; intro p hp; simp at hp
  · unfold LRef.dims; rw [hsh]; exact ⟨Nat.le_refl _, by intro p hp; simp at hp⟩
  · rw [← atB_lower W env [j] lhs]
    have := blocate_fillAt W env i 0 (lowerRef false lhs).subs (W.shape lhs.var) [] j s
      (by rw [hll]; rfl) h1 h2 (started_lower hs false) (Nat.zero_le _)
    unfold atB
    have hrk : LRef.rank { lowerRef false lhs with subs := fillAt i 0 (lowerRef false lhs).subs } = 0 := by
      rw [← shape_length, hsh]; rfl
    rw [hrk, hr]
    have ht : (lowerRef false lhs).trans = false := rfl
    simp only [ht]
    refine Prod.ext rfl ?_
    have hv : (lowerRef false lhs).var = lhs.var := rfl
    simpa [lastOf, hv] using this

theorem same_nil {α : Type} [DecidableEq α] {l : List α} (h : l = []) : same l = true := by
  subst h; rfl

theorem compatible_scalar (hv : Bool) (F : Var → Bool) (rs : List LRef) (h : ∀ r ∈ rs, r.rank = 0) :
    compatible hv F rs = true := by
  unfold compatible
  cases hv
  · simpa using h
  · simp only [if_true, Bool.and_eq_true]
    constructor
    · apply same_nil
      rw [List.map_eq_nil_iff, List.filter_eq_nil_iff]
      intro r hr
      simp [h r hr]
    · apply same_nil
      rw [List.filterMap_eq_nil_iff]
      intro r hr
      simp [order, h r hr]

theorem elem_lines (W : World) (hv : Bool) (F : Var → Bool) (lhs : Ref) (l : List Ex) (hs : lhs.Started)
    (hd : lhs.dims W = [l.length]) (hc : ∀ e ∈ l, e.Clear W []) (hf : ∀ e ∈ l, e.Fits W [])
    (hset : ∀ i j, i < j → ∀ e, l[j]? = some e → lhs.at W [i] ∉ e.reads W [] ++ e.reduced W)
    (es : List Ex) (j : Nat) (he : ∀ i e, es[i]? = some e → l[j + i]? = some e) (a : Acc) :
    ∃ a', addLines hv F a (elemLines lhs j es) = some a' ∧
      (es ≠ [] → ∃ f m, a'.result = .snoc f (.item m)) ∧ ∀ env st,
      frun W 0 env st a'.result = (frun W 0 env st a.result).bind
        (chunk W (elemAct W lhs l) ((List.range' j es.length).map fun i => [i])) := by
  induction es generalizing j a with
  | nil =>
    refine ⟨a, rfl, by simp, fun env st => ?_⟩
    cases frun W 0 env st a.result with
    | none => rfl
    | some st => simp [chunk, Fine, after]
  | cons e es ih =>
    have hlj : l[j]? = some e := by simpa using he 0 e rfl
    have hj : j < l.length := by
      rcases Nat.lt_or_ge j l.length with h | h
      · exact h
      · rw [List.getElem?_eq_none h] at hlj; simp at hlj
    have hel : e ∈ l := List.mem_of_getElem? hlj
    have hrefs : ∀ r ∈ (lowerEx e).refs, ROk W [] r :=
      rok_lower W [] e (hc e hel) (by simpa using (hf e hel).1)
    have hcomp : compatible hv F (Line.refs ⟨insertIndex lhs.shape.length (.lit j) (lowerRef false lhs),
        lowerEx e⟩) = true := by
      apply compatible_scalar
      intro r hr
      simp only [Line.refs, List.mem_cons] at hr
      rcases hr with rfl | hr
      · rw [← shape_length, (elem_target W (fun _ => 0) lhs _ j hs hd hj).2.1]; rfl
      · exact Nat.le_zero.1 (hrefs r hr).rank
    let a1 : Acc := ⟨a.result.snoc (.item (.line ⟨insertIndex lhs.shape.length (.lit j) (lowerRef false lhs),
        lowerEx e⟩)), 0, a.tmps⟩
    obtain ⟨a', h1, h2, h3⟩ := ih (j + 1) (fun i x hi => by
      have := he (i + 1) x (by simpa using hi)
      rwa [show j + 1 + i = j + (i + 1) by omega]) a1
    refine ⟨a', ?_, ?_, ?_⟩
    · simp only [elemLines, addLines, addLine]
      rw [if_pos hcomp]
      exact h1
    · intro _
      cases es with
      | nil =>
        simp only [elemLines, addLines, Option.some.injEq] at h1
        subst h1
        exact ⟨_, _, rfl⟩
      | cons e' es => exact h2 (by simp)
    · intro env st
      rw [h3]
      simp only [a1, frun, trun, Option.bind_assoc]
      congr 1
      funext st
      have := run_line W hv F ⟨insertIndex lhs.shape.length (.lit j) (lowerRef false lhs), lowerEx e⟩
        (by
          simp only [(elem_target W (fun _ => 0) lhs _ j hs hd hj).2.1]
          intro r hr
          simp only [Line.refs, List.mem_cons] at hr
          rcases hr with rfl | hr
          · exact (elem_target W (fun _ => 0) lhs _ j hs hd hj).1
          · exact hrefs r hr)
        (.inl hcomp) env st (lowerEx e) (fun r => r)
        (by
          have := map_id ⟨lowerRef false lhs, lowerEx e⟩
          simp only [Line.map, Line.mk.injEq] at this
          exact this.2.symm)
        (fun ix => lhs.at W ix) (fun _ r => atB W (fun _ => 0) [] r) (fun _ => [j])
        (by
          intro jx hjx
          simp only [LRef.dims, (elem_target W (fun _ => 0) lhs _ j hs hd hj).2.1, List.map_nil, box,
            List.mem_singleton] at hjx
          subst hjx
          exact (elem_target W env lhs _ j hs hd hj).2.2.symm)
        (by
          intro jx hjx r hr
          simp only [LRef.dims, (elem_target W (fun _ => 0) lhs _ j hs hd hj).2.1, List.map_nil, box,
            List.mem_singleton] at hjx
          subst hjx
          obtain ⟨b, r0, rfl⟩ := refs_lower hr
          exact atB_env ..)
      rw [this]
      simp only [LRef.dims, (elem_target W (fun _ => 0) lhs _ j hs hd hj).2.1, List.map_nil, box,
        List.map_cons]
      rw [chunk_congr W _ (elemAct W lhs l) [[j]] st (by
        intro ix hix
        simp only [List.mem_singleton] at hix
        subst hix
        simp [elemAct, act, hlj])]
      rw [← chunk_append]
      · simp [List.range'_succ]
      · intro x hx y hy
        simp only [List.mem_singleton] at hx
        subst hx
        simp only [List.mem_map, List.mem_range'_1] at hy
        obtain ⟨i, hi, rfl⟩ := hy
        obtain ⟨x, hx⟩ : ∃ x, es[i - (j + 1)]? = some x :=
          ⟨es[i - (j + 1)]'(by omega), List.getElem?_eq_getElem (by omega)⟩
        have hli : l[i]? = some x := by
          have := he (i - (j + 1) + 1) x (by simpa using hx)
          rwa [show j + (i - (j + 1) + 1) = i by omega] at this
        intro hm
        refine hset j i (by omega) x hli (rd_lower W (fun _ => 0) [] x _ ?_)
        simpa [elemAct, act, hli] using hm

theorem numpy_elems {W : World} {σ σ' : Store} {list : Bool} {lhs : Ref} {e₀ : Ex} {es : List Ex}
    (h : numpy W σ (.elems list lhs e₀ es) = some σ') :
    lhs.dims W = [es.length + 1] ∧ ∀ e ∈ e₀ :: es, e.Fits W [] := by
  rw [numpy] at h
  split at h
  · assumption
  · simp at h

theorem numpy_elems_chunk (W : World) (list : Bool) (lhs : Ref) (e₀ : Ex) (es : List Ex) (st : St)
    (σ' : Store) (h : numpy W st.σ (.elems list lhs e₀ es) = some σ') :
    chunk W (elemAct W lhs (e₀ :: es)) ((List.range' 0 (e₀ :: es).length).map fun i => [i]) st =
      some ⟨σ', st.t⟩ := by
  have hx := numpy_elems h
  rw [numpy, if_pos hx] at h
  obtain ⟨zs, h1, h2⟩ := Option.bind_eq_some_iff.1 h
  unfold elemAct
  rw [← chunk_eq, mapM_map', mapM_range' (e₀ :: es) (Ex.eval W st.σ [])]
  · rw [h1]
    simp only [Option.bind_eq_bind, Option.bind_some, List.map_map]
    rw [List.range_eq_range'] at h2
    have : (List.map ((fun ix => Ref.at W lhs ix) ∘ fun i => [i]) (List.range' 0 (e₀ :: es).length)) =
        (List.range' 0 (es.length + 1)).map fun j => lhs.at W [j] := rfl
    rw [this, h2]
    rfl
  · intro i e hi
    simp only [Nat.zero_add, List.headD_cons, hi, Option.getD_some]
    exact (eval_lower W (fun _ => 0) st.σ st.t [] e).symm

theorem dims_lower (W : World) {e : Ex} {r : LRef} (h : r ∈ (lowerEx e).refs) :
    ∃ s ∈ e.shapes, r.dims W = s.map (·.val W.ρ) := by
  induction e with
  | lit z => simp [lowerEx, LEx.refs] at h
  | red g r => simp [lowerEx, LEx.refs] at h
  | un f e ih => exact ih h
  | bin f a b iha ihb =>
    simp only [lowerEx, LEx.refs, List.mem_append] at h
    rcases h with h | h
    · obtain ⟨s, hs, e⟩ := iha h
      exact ⟨s, by simp [Ex.shapes, hs], e⟩
    · obtain ⟨s, hs, e⟩ := ihb h
      exact ⟨s, by simp [Ex.shapes, hs], e⟩
  | ref r0 =>
    simp only [lowerEx, LEx.refs, List.mem_singleton] at h
    subst h
    exact ⟨r0.shape, by simp [Ex.shapes], by simp [LRef.dims, shape_lower]⟩
  | tr r0 =>
    simp only [lowerEx, LEx.refs, List.mem_singleton] at h
    subst h
    exact ⟨r0.shape.reverse, by simp [Ex.shapes], by simp [LRef.dims, shape_lowerT]⟩

theorem tuple_run (W : World) (list : Bool) (lhs : Ref) (e₀ : Ex) (es : List Ex) (env : Env) (st : St)
    (σ' : Store) (h : numpy W st.σ (.elems list lhs e₀ es) = some σ') :
    (Item.tuple (lowerRef false lhs) ((e₀ :: es).map lowerEx)).run W env st = some ⟨σ', st.t⟩ := by
  have hx := numpy_elems h
  rw [numpy, if_pos hx] at h
  obtain ⟨zs, h1, h2⟩ := Option.bind_eq_some_iff.1 h
  have hd : (lowerRef false lhs).dims W = lhs.dims W := by
    simp [LRef.dims, Ref.dims, shape_lower]
  have hok : ∀ e ∈ e₀ :: es, ∀ r ∈ (lowerEx e).refs, r.dims W = [] := by
    intro e he r hr
    obtain ⟨s, hs, hrs⟩ := dims_lower W hr
    rw [hrs]
    exact List.length_eq_zero_iff.1 (Nat.le_zero.1 ((hx.2 e he).1 s hs).1)
  rw [Item.run, if_pos]
  · rw [mapM_map']
    have : ((e₀ :: es).mapM fun e => LEx.eval W env st [] (lowerEx e)) = some zs := by
      rw [← h1]
      apply mapM_congr
      intro e he
      rw [eval_eq, eval_lower W env st.σ st.t]
      apply evalWith_congr
      intro r hr
      exact at_eq W env r [] (.inl (hok e he r hr))
    rw [this]
    simp only [Option.bind_eq_bind, Option.bind_some, List.length_map, List.length_cons]
    have ht : ((List.range (es.length + 1)).map fun j => LRef.at W env [j] (lowerRef false lhs)) =
        (List.range (es.length + 1)).map fun j => lhs.at W [j] := by
      apply List.map_congr_left
      intro j hj
      simp only [List.mem_range] at hj
      rw [at_eq W env _ _ (.inr _), atB_lower]
      rw [hd, hx.1]
      simpa [box] using hj
    rw [ht, h2]
    rfl
  · refine ⟨by rw [hd, hx.1]; simp, ?_⟩
    intro e he
    simp only [List.mem_map] at he
    obtain ⟨e, he, rfl⟩ := he
    intro r hr
    exact .inl (hok e he r hr)

/-! ## Blocks -/

/-- The lines that may join `m` in its loops can be swapped with its later iterations. -/
def Pending (W : World) (hv : Bool) (F : Var → Bool) (b : List Stmt) (m : Line) (pre : List Size) :
    Prop :=
  ∀ lhs rhs, Stmt.set lhs rhs ∈ b.takeWhile fusable →
    Late W (descend hv F lhs.shape.length 0 ⟨lowerRef false lhs, lowerEx rhs⟩).2
      (lhs.shape.take (descend hv F lhs.shape.length 0 ⟨lowerRef false lhs, lowerEx rhs⟩).1) m pre

theorem pending_tail {W : World} {hv : Bool} {F : Var → Bool} {s : Stmt} {b : List Stmt} {m : Line}
    {pre : List Size} (hs : fusable s = true) (h : Pending W hv F (s :: b) m pre) :
    Pending W hv F b m pre := by
  intro lhs rhs hm
  exact h lhs rhs (by rw [List.takeWhile_cons_of_pos hs]; exact List.mem_cons_of_mem _ hm)

theorem src_reads (W : World) (lhs : Ref) (rhs : Ex) (n : Nat) (ix : List Nat) (l : Loc)
    (h : l ∈ (stmtAct W lhs (extract (lowerEx rhs) n).1).src ix) : l ∈ rhs.reads W ix := by
  obtain ⟨r, hr, rfl⟩ := extract_rd W _ (lowerEx rhs) n l h
  rw [← reads_lower W (fun _ => 0) ix rhs]
  exact List.mem_map.2 ⟨r, hr, rfl⟩

theorem takeWhile_sub {α : Type} {p : α → Bool} {l : List α} {a : α} (h : a ∈ l.takeWhile p) :
    a ∈ l ∧ p a = true := by
  induction l with
  | nil => simp at h
  | cons b l ih =>
    rw [List.takeWhile_cons] at h
    split at h
    · rename_i hb
      simp only [List.mem_cons] at h
      rcases h with rfl | h
      · exact ⟨by simp, hb⟩
      · exact ⟨List.mem_cons_of_mem _ (ih h).1, (ih h).2⟩
    · simp at h

theorem flast_item (Q : Line → List Size → Prop) (f : Forest) (i : Item) :
    flast Q [] (f.snoc (.item i)) := by
  rw [flast, tall]; exact .inr rfl

theorem flast_extend (Q : Line → List Size → Prop) (f : Forest) (is : List Item)
    (h : is.isEmpty = false) : flast Q [] (extend f is) := by
  induction is generalizing f with
  | nil => simp at h
  | cons i is ih =>
    rw [extend]
    cases is with
    | nil => exact flast_item ..
    | cons j is => exact ih _ rfl

theorem within_nil (W : World) (env : Env) : Within W env 0 [] := by
  intro q s hq; simp at hq

/-- An assignment in loops. -/
theorem loop_run (W : World) (hv : Bool) (F : Var → Bool) (lhs : Ref) (rhs : Ex) (n : Nat) (env : Env)
    (st : St) (σ' : Store) (hs : lhs.Started) (hc : rhs.Clear W lhs.shape)
    (hset : Settled W (.set lhs rhs)) (he : ∀ pos, evalWith W pos st (extract (lowerEx rhs) n).1 =
      evalWith W pos st (lowerEx rhs))
    (hn : numpy W st.σ (.set lhs rhs) = some σ') :
    nestRun W (descend hv F lhs.shape.length 0 ⟨lowerRef false lhs, (extract (lowerEx rhs) n).1⟩).2 0
      env (lhs.shape.take
        (descend hv F lhs.shape.length 0 ⟨lowerRef false lhs, (extract (lowerEx rhs) n).1⟩).1) st =
      some ⟨σ', st.t⟩ := by
  have hl := lineOf_descend W hv F lhs rhs n hs hc (numpy_set hn)
  have := nest_chunk W lhs _ _ _ hl
    (fun ix hi jx hj hb hm => hset ix hi jx hj hb (src_reads W lhs rhs n jx _ hm)) [] _ rfl env
    (within_nil W env)
  rw [List.length_nil] at this
  rw [this, List.map_take, show lhs.shape.map (·.val W.ρ) = lhs.dims W from rfl,
    List.take_append_drop]
  rw [← numpy_chunk W lhs rhs _ st σ' he hn]
  congr 1
  simp [envs]

theorem addStmts_run (W : World) (hv : Bool) (F : Var → Bool) (env : Env) (st0 : St) (b : List Stmt)
    (a a' : Acc) (h : addStmts hv F a b = some a') (st : St) (σ' : Store)
    (hrun : frun W 0 env st0 a.result = some st) (hn : numpys W st.σ b = some σ')
    (hfree : Free W b) (hclear : ∀ s ∈ b, s.Clear W)
    (hlast : flast (Pending W hv F b) [] a.result) :
    ∃ st', frun W 0 env st0 a'.result = some st' ∧ st'.σ = σ' := by
  induction b generalizing a st with
  | nil =>
    simp only [addStmts, Option.some.injEq] at h
    subst h
    simp only [numpys, Option.some.injEq] at hn
    exact ⟨st, hrun, hn⟩
  | cons s b ih =>
    rw [addStmts] at h
    obtain ⟨a1, h1, h2⟩ := Option.bind_eq_some_iff.1 h
    rw [numpys] at hn
    have hn0 : numpys W st.σ (s :: b) = some σ' := by rw [numpys]; exact hn
    obtain ⟨σ1, hn1, hn2⟩ := Option.bind_eq_some_iff.1 hn
    have hcs := hclear s (by simp)
    rw [Free] at hfree
    have hcl : ∀ s ∈ b, s.Clear W := fun s hs => hclear s (List.mem_cons_of_mem _ hs)
    cases s with
    | elems list lhs e₀ es =>
      rw [Stmt.Clear] at hcs
      rw [addStmt] at h1
      split at h1
      · obtain ⟨a2, h3, rfl⟩ := Option.map_eq_some_iff.1 h1
        have hx := numpy_elems hn1
        obtain ⟨a3, h4, h5, h6⟩ := elem_lines W hv F lhs (e₀ :: es) hcs.1 (by simpa using hx.1) hcs.2
          hx.2 hfree.1 (e₀ :: es) 0 (by simp) { a with cur := 0 }
        rw [h3] at h4
        obtain rfl := Option.some.inj h4
        obtain ⟨f, m, hfm⟩ := h5 (by simp)
        refine ih _ h2 ⟨σ1, st.t⟩ ?_ hn2 hfree.2.2 hcl ?_
        · simp only [h6, hrun, Option.bind_some]
          exact numpy_elems_chunk W list lhs e₀ es st σ1 hn1
        · simp only [hfm]
          exact flast_item ..
      · simp only [Option.some.injEq] at h1
        subst h1
        refine ih _ h2 ⟨σ1, st.t⟩ ?_ hn2 hfree.2.2 hcl (flast_item ..)
        simp only [frun, hrun, Option.bind_some, trun]
        exact tuple_run W list lhs e₀ es env st σ1 hn1
    | set lhs rhs =>
      rw [Stmt.Clear] at hcs
      rw [addStmt, addLine] at h1
      split at h1
      · rename_i hcomp
        simp only [Option.some.injEq] at h1
        subst h1
        refine ih _ h2 ⟨σ1, st.t⟩ ?_ hn2 hfree.2.2 hcl (flast_item ..)
        simp only [frun, hrun, Option.bind_some, trun]
        exact line_run W hv F lhs rhs env st σ1 hcs.1 hcs.2 hcomp hn1
      · rename_i hcomp
        simp only [rank_lower, shape_lower] at h1
        obtain ⟨f, hf, rfl⟩ := Option.map_eq_some_iff.1 h1
        have hfits := numpy_set hn1
        obtain ⟨t', ht1, ht2, ht3⟩ := extract_run W env rhs a.tmps st hfits.2
        have hl := lineOf_descend W hv F lhs rhs a.tmps hcs.1 hcs.2 hfits
        generalize hd : descend hv F lhs.shape.length 0
          ⟨lowerRef false lhs, (extract (lowerEx rhs) a.tmps).1⟩ = d at hf hl h2
        -- what is pending after this line
        have hnew : Pending W hv F b d.2 (lhs.shape.take d.1) := by
          intro lhs' rhs' hm
          obtain ⟨hmb, hfu⟩ := takeWhile_sub hm
          have hcs' := hcl _ hmb
          rw [Stmt.Clear] at hcs'
          have hfits' := fits_of hn2 hmb
          have hred : rhs'.reduces = false := by
            simp only [fusable, Bool.and_eq_true, Bool.not_eq_true'] at hfu
            exact hfu.2
          have hl' := lineOf_descend W hv F lhs' rhs' 0 hcs'.1 hcs'.2 hfits'
          have hsrc' := src_reads W lhs' rhs' 0
          rw [extract_none rhs' 0 hred] at hl' hsrc'
          refine late_of W lhs lhs' _ _ _ _ _ _ hl hl' ?_
          intro p i x j y hpj hpi hij htake
          have hap := hfree.2.1 _ hm
          rw [Apart] at hap
          obtain ⟨g1, g2, g3⟩ := hap p i x j y hpj hpi hij htake
          exact ⟨g1, fun hmem => g2 (hsrc' _ _ hmem), fun hmem => g3 (src_reads _ _ _ _ _ _ hmem)⟩
        -- this line can join
        have hjoin : flast (Late W d.2 (lhs.shape.take d.1)) []
            (extend a.result (extract (lowerEx rhs) a.tmps).2.1) ∧
            flast (Pending W hv F b) [] (extend a.result (extract (lowerEx rhs) a.tmps).2.1) := by
          by_cases hr : rhs.reduces = true
          · exact ⟨flast_extend _ _ _ (extract_some rhs _ hr), flast_extend _ _ _ (extract_some rhs _ hr)⟩
          · have hr : rhs.reduces = false := by simpa using hr
            have hex := extract_none rhs a.tmps hr
            rw [hex] at hd ⊢
            simp only [extend]
            by_cases h0 : lhs.shape = []
            · constructor
              · refine flast_mono (fun m pre _ => ?_) hlast
                intro e1 e2 _ _ p _ hp
                rw [h0] at hp
                simp at hp
              · exfalso
                apply hcomp
                apply compatible_scalar
                intro r hr
                simp only [Line.refs, List.mem_cons] at hr
                rcases hr with rfl | hr
                · rw [rank_lower, h0]; rfl
                · have := (rok_lower W lhs.shape rhs hcs.2 hfits.1 r hr).rank
                  rw [h0] at this
                  exact Nat.le_zero.1 this
            · have hfu : fusable (.set lhs rhs) = true := by
                simp only [fusable, hr, Bool.and_eq_true, Bool.not_eq_true', Bool.not_false, and_true]
                cases hsh : lhs.shape with
                | nil => exact absurd hsh h0
                | cons x xs => rfl
              refine ⟨flast_mono (fun m pre hp => ?_) hlast, flast_mono (fun m pre hp => pending_tail hfu hp) hlast⟩
              have := hp lhs rhs (by rw [List.takeWhile_cons_of_pos hfu]; simp)
              rw [hd] at this
              exact this
        refine ih _ h2 ⟨σ1, t'⟩ ?_ hn2 hfree.2.2 hcl ?_
        · have hp := place_run W d.2 _ _ _ f [] hf hjoin.1 env (within_nil W env) st0
          rw [List.length_nil] at hp
          simp only [hp, frun_extend, hrun, Option.bind_some, ht1]
          have := loop_run W hv F lhs rhs a.tmps env ⟨st.σ, t'⟩ σ1 hcs.1 hcs.2 hfree.1 ht3 hn1
          rw [hd] at this
          exact this
        · exact (place_all _ _ _ f [] hf hjoin.2 hnew (by simp)).1

end Verif.Vectors.Lemmas
