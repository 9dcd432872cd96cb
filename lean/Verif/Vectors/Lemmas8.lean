import Verif.Vectors.Lemmas7

/-!
# Simple cases
-/

namespace Verif.Vectors.Lemmas
open Spec Model

/-! ## Whole arrays in Fortran -/

theorem refs_eq (e : Ex) : (lowerEx e).refs = e.refs.map fun r => lowerRef r.2 r.1 := by
  induction e with
  | un f e ih => exact ih
  | bin f a b iha ihb => simp [lowerEx, LEx.refs, Ex.refs, iha, ihb]
  | _ => rfl

theorem shape_lower' (r : Ref × Bool) :
    (lowerRef r.2 r.1).shape = if r.2 then r.1.shape.reverse else r.1.shape := by
  obtain ⟨r, b⟩ := r
  cases b
  · simp [shape_lower]
  · simp [shape_lowerT]

theorem same_all {α : Type} [DecidableEq α] (a : α) (l : List α) (h : ∀ x ∈ l, x = a) :
    same l = true := by
  cases l with
  | nil => rfl
  | cons b l =>
    simp only [same, List.all_eq_true, decide_eq_true_eq]
    intro x hx
    rw [h x (by simp [hx]), h b (by simp)]

theorem whole_compatible (F : Var → Bool) (lhs : Ref) (rhs : Ex) (h : Whole F (.set lhs rhs)) :
    compatible true F (Line.refs ⟨lowerRef false lhs, lowerEx rhs⟩) = true := by
  have hr : ∀ r ∈ Line.refs ⟨lowerRef false lhs, lowerEx rhs⟩,
      r.rank = 0 ∨ r.shape = lhs.shape ∧ order F r = if lhs.shape.length < 2 then none else some (F lhs.var) := by
    intro r hr
    simp only [Line.refs, List.mem_cons, refs_eq, List.mem_map] at hr
    rcases hr with rfl | ⟨r, hr, rfl⟩
    · right
      refine ⟨shape_lower lhs, ?_⟩
      simp only [order, rank_lower]
      simp [lowerRef]
    · rcases h r hr with h | ⟨h1, h2⟩
      · left; rw [rank_lower, h]; rfl
      · right
        refine ⟨by rw [shape_lower']; exact h1, ?_⟩
        simp only [order, rank_lower]
        have : r.1.shape.length = lhs.shape.length := by
          rw [← h1]; split <;> simp
        rw [this]
        split
        · rfl
        · rcases h2 with h2 | h2
          · omega
          · simp only [lowerRef]
            rw [← h2]
  unfold compatible
  simp only [if_true, Bool.and_eq_true]
  constructor
  · apply same_all (lhs.shape.map fun s => decide (s = Size.lit 1))
    intro x hx
    simp only [List.mem_map, List.mem_filter, decide_eq_true_eq] at hx
    obtain ⟨r, ⟨h1, h2⟩, rfl⟩ := hx
    rcases hr r h1 with h | h
    · exact absurd h (by simpa using h2)
    · rw [pattern, h.1]
  · apply same_all (F lhs.var)
    intro x hx
    simp only [List.mem_filterMap] at hx
    obtain ⟨r, h1, h2⟩ := hx
    rcases hr r h1 with h | h
    · simp [order, h] at h2
    · rw [h.2] at h2
      split at h2
      · simp at h2
      · exact (Option.some.inj h2).symm

theorem whole_run (W : World) (F : Var → Bool) (lhs : Ref) (rhs : Ex) (env : Env) (st : St)
    (σ' : Store) (h : Whole F (.set lhs rhs)) (hn : numpy W st.σ (.set lhs rhs) = some σ') :
    (Item.line ⟨lowerRef false lhs, lowerEx rhs⟩).run W env st = some ⟨σ', st.t⟩ := by
  rw [numpy, if_pos (numpy_set hn)] at hn
  obtain ⟨zs, h1, h2⟩ := Option.bind_eq_some_iff.1 hn
  have hd : (lowerRef false lhs).dims W = lhs.dims W := by
    simp [LRef.dims, Ref.dims, shape_lower]
  have hrefs : ∀ r ∈ (lowerEx rhs).refs, r.dims W = [] ∨ r.dims W = lhs.dims W := by
    intro r hr
    rw [refs_eq, List.mem_map] at hr
    obtain ⟨r, hr, rfl⟩ := hr
    rcases h r hr with h | h
    · left
      simp only [LRef.dims, shape_lower', h]
      split <;> simp
    · right
      simp [LRef.dims, shape_lower', h.1, Ref.dims]
  rw [Item.run, if_pos]
  · simp only [hd]
    have : ((box (lhs.dims W)).mapM fun jx => (lowerEx rhs).eval W env st jx) = some zs := by
      rw [← h1]
      apply mapM_congr
      intro jx hj
      rw [eval_eq, eval_lower W env st.σ st.t]
      apply evalWith_congr
      intro r hr
      apply at_eq
      rcases hrefs r hr with h | h
      · exact .inl h
      · exact .inr (by rw [h]; exact hj)
    rw [this]
    simp only [Option.bind_eq_bind, Option.bind_some]
    have ht : ((box (lhs.dims W)).map fun jx => (lowerRef false lhs).at W env jx) =
        (box (lhs.dims W)).map (lhs.at W) := by
      apply List.map_congr_left
      intro jx hj
      rw [at_eq W env _ _ (.inr (by rw [hd]; exact hj)), atB_lower]
    rw [ht, h2]
    rfl
  · intro r hr
    simp only [hd]
    exact hrefs r hr

theorem whole_stmts (W : World) (F : Var → Bool) (b : List Stmt) (hb : ∀ s ∈ b, Whole F s) (a : Acc)
    (σ' : Store) (env : Env) (st0 st : St) (hrun : frun W 0 env st0 a.result = some st)
    (hn : numpys W st.σ b = some σ') :
    ∃ a' st', addStmts true F a b = some a' ∧ frun W 0 env st0 a'.result = some st' ∧ st'.σ = σ' := by
  induction b generalizing a st with
  | nil =>
    simp only [numpys, Option.some.injEq] at hn
    exact ⟨a, st, rfl, hrun, hn⟩
  | cons s b ih =>
    rw [numpys] at hn
    obtain ⟨σ1, hn1, hn2⟩ := Option.bind_eq_some_iff.1 hn
    have hs := hb s (by simp)
    have hb' : ∀ s ∈ b, Whole F s := fun s hs => hb s (List.mem_cons_of_mem _ hs)
    cases s with
    | set lhs rhs =>
      obtain ⟨a', st', h1, h2⟩ := ih hb' ⟨a.result.snoc (.item (.line ⟨lowerRef false lhs, lowerEx rhs⟩)),
        0, a.tmps⟩ ⟨σ1, st.t⟩
        (by
          simp only [frun, hrun, Option.bind_some, trun]
          exact whole_run W F lhs rhs env st σ1 hs hn1) hn2
      refine ⟨a', st', ?_, h2⟩
      rw [addStmts, addStmt, addLine, if_pos (whole_compatible F lhs rhs hs)]
      exact h1
    | elems list lhs e₀ es =>
      simp only [Whole] at hs
      subst hs
      obtain ⟨a', st', h1, h2⟩ := ih hb' ⟨a.result.snoc
          (.item (.tuple (lowerRef false lhs) ((e₀ :: es).map lowerEx))), a.cur, a.tmps⟩ ⟨σ1, st.t⟩
        (by
          simp only [frun, hrun, Option.bind_some, trun]
          exact tuple_run W false lhs e₀ es env st σ1 hn1) hn2
      refine ⟨a', st', ?_, h2⟩
      rw [addStmts, addStmt]
      exact h1

/-! ## Loops can be found -/

/-- The last member is a loop, whose last member is a loop, and so on, `k` levels down. -/
def Open : Nat → Forest → Prop
  | 0, _ => True
  | k + 1, .snoc _ (.loop _ b) => Open k b
  | _ + 1, _ => False

theorem open_le {j k : Nat} (h : j ≤ k) {f : Forest} (hf : Open k f) : Open j f := by
  induction k generalizing j f with
  | zero => rw [Nat.le_zero.1 h]; trivial
  | succ k ih =>
    cases j with
    | zero => trivial
    | succ j =>
      match f, hf with
      | .snoc _ (.loop _ b), hf => exact ih (by omega) (f := b) hf

theorem open_nest (l : Line) (ss : List Size) (f : Forest) : Open ss.length (f.snoc (nest ss l)) := by
  induction ss generalizing f with
  | nil => trivial
  | cons s ss ih => exact ih .nil

theorem place_open (l : Line) (k : Nat) (ss : List Size) (f : Forest) (hf : Open k f) :
    ∃ f', place k ss l f = some f' ∧ Open ss.length f' := by
  induction k generalizing ss f with
  | zero => exact ⟨_, by rw [place], open_nest l ss f⟩
  | succ k ih =>
    match f, hf with
    | .snoc f (.loop n b), hf =>
      cases ss with
      | nil => exact ⟨_, by rw [place], trivial⟩
      | cons s ss =>
        rw [place]
        split
        · obtain ⟨b', h1, h2⟩ := ih ss b hf
          exact ⟨f.snoc (.loop n b'), by rw [h1]; rfl, h2⟩
        · exact ⟨_, rfl, open_nest l (s :: ss) _⟩

theorem descend_le (hv : Bool) (F : Var → Bool) (p d : Nat) (l : Line) :
    (descend hv F p d l).1 ≤ d + p := by
  induction p generalizing d l with
  | zero => exact Nat.le_refl _
  | succ p ih =>
    rw [descend]
    split
    · show d + 1 ≤ d + (p + 1)
      omega
    · have := ih (d + 1) (l.map (insertIndex (p + 1) (.lvl d)))
      omega

theorem addStmts_open (hv : Bool) (F : Var → Bool) (b : List Stmt)
    (hb : ∀ list lhs e₀ es, Stmt.elems list lhs e₀ es ∉ b) (a : Acc) (ha : Open a.cur a.result) :
    ∃ a', addStmts hv F a b = some a' := by
  induction b generalizing a with
  | nil => exact ⟨a, rfl⟩
  | cons s b ih =>
    have hb' : ∀ list lhs e₀ es, Stmt.elems list lhs e₀ es ∉ b :=
      fun list lhs e₀ es hm => hb list lhs e₀ es (List.mem_cons_of_mem _ hm)
    cases s with
    | elems list lhs e₀ es => exact absurd (List.mem_cons_self ..) (hb list lhs e₀ es)
    | set lhs rhs =>
      rw [addStmts, addStmt, addLine]
      split
      · exact ih hb' _ trivial
      · dsimp only
        generalize hd : descend hv F (lowerRef false lhs).rank 0
          ⟨lowerRef false lhs, (extract (lowerEx rhs) a.tmps).1⟩ = d
        have hle : d.1 ≤ (lowerRef false lhs).shape.length := by
          rw [shape_length, ← hd]
          have := descend_le hv F (lowerRef false lhs).rank 0
            ⟨lowerRef false lhs, (extract (lowerEx rhs) a.tmps).1⟩
          omega
        obtain ⟨f, h1, h2⟩ := place_open d.2
          (min d.1 (if (extract (lowerEx rhs) a.tmps).2.1.isEmpty then a.cur else 0))
          ((lowerRef false lhs).shape.take d.1) (extend a.result (extract (lowerEx rhs) a.tmps).2.1) (by
            split
            · rename_i he
              rw [List.isEmpty_iff.1 he]
              exact open_le (Nat.min_le_right ..) ha
            · rw [Nat.min_zero]; trivial)
        rw [h1]
        refine ih hb' _ ?_
        rw [List.length_take, Nat.min_eq_left hle] at h2
        exact h2

/-! ## Element by element -/

theorem locate_ne (W : World) (ss : List Sub) (ds : List Size) (hl : ss.length = ds.length)
    (hs : ∀ a b n, Sub.sl a b n ∈ ss → b.getD 1 ≠ 0) (p x y : List Nat) (i j : Nat) (hij : i < j)
    (n : Size) (hn : (lens ss)[p.length]? = some n) (hj : j < n.val W.ρ) :
    locate W (ds.zip ss) (p ++ i :: x) ≠ locate W (ds.zip ss) (p ++ j :: y) := by
  induction ss generalizing ds p with
  | nil => simp [lens] at hn
  | cons s ss ih =>
    cases ds with
    | nil => simp at hl
    | cons d ds =>
      have hl' : ss.length = ds.length := by simpa using hl
      have hs' : ∀ a b n, Sub.sl a b n ∈ ss → b.getD 1 ≠ 0 :=
        fun a b n hm => hs a b n (List.mem_cons_of_mem _ hm)
      cases s with
      | «at» k =>
        simp only [List.zip_cons_cons, locate, ne_eq, List.cons.injEq, true_and]
        exact ih ds hl' hs' p hn
      | sl a b m =>
        cases p with
        | nil =>
          simp only [List.length_nil, lens, List.getElem?_cons_zero, Option.some.injEq] at hn
          subst hn
          simp only [List.zip_cons_cons, List.nil_append, locate, ne_eq, List.cons.injEq, not_and]
          intro h
          exfalso
          unfold pick at h
          rw [if_neg (by omega), if_neg (by omega)] at h
          have hb := hs a b m (by simp)
          have : b.getD 1 * (i : Int) = b.getD 1 * (j : Int) := by omega
          have := Int.eq_of_mul_eq_mul_left hb this
          omega
        | cons q p =>
          simp only [List.zip_cons_cons, List.cons_append, locate, ne_eq, List.cons.injEq, not_and]
          intro _
          exact ih ds hl' hs' p (by simpa [lens] using hn)

theorem at_ne (W : World) (r : Ref) (hs : r.Strided W) (p x y : List Nat) (i j : Nat) (hij : i < j)
    (hx : (p ++ i :: x).length = r.shape.length) (hy : (p ++ j :: y).length = r.shape.length)
    (n : Size) (hn : r.shape[p.length]? = some n) (hj : j < n.val W.ρ) :
    r.at W (p ++ i :: x) ≠ r.at W (p ++ j :: y) := by
  unfold Ref.at
  rw [lastOf_all _ _ (by omega), lastOf_all _ _ (by omega)]
  intro h
  exact locate_ne W r.subs (W.shape r.var) hs.1 hs.2 p x y i j hij n hn hj (Prod.ext_iff.1 h).2

theorem box_at {p y ns : List Nat} {j : Nat} (h : p ++ j :: y ∈ box ns) :
    ∃ n, ns[p.length]? = some n ∧ j < n := by
  obtain ⟨h1, h2⟩ := (mem_box ..).1 h
  have hl : p.length < ns.length := by
    rw [← h1]; simp
  refine ⟨ns[p.length], List.getElem?_eq_getElem hl, ?_⟩
  apply h2 (j, ns[p.length])
  rw [List.mem_iff_getElem?]
  refine ⟨p.length, ?_⟩
  rw [List.getElem?_zip_eq_some]
  exact ⟨by simp, List.getElem?_eq_getElem hl⟩

theorem box_at' {W : World} {r : Ref} {p y : List Nat} {j : Nat} (h : p ++ j :: y ∈ box (r.dims W)) :
    ∃ n, r.shape[p.length]? = some n ∧ j < n.val W.ρ := by
  obtain ⟨n, h1, h2⟩ := box_at h
  unfold Ref.dims at h1
  rw [List.getElem?_map] at h1
  obtain ⟨s, h3, rfl⟩ := Option.map_eq_some_iff.1 h1
  exact ⟨s, h3, h2⟩

theorem reads_refs {W : World} {ix : List Nat} {e : Ex} {l : Loc} (h : l ∈ e.reads W ix) :
    ∃ r ∈ e.refs, l = if r.2 then r.1.atT W ix else r.1.at W ix := by
  induction e with
  | lit z => simp [Ex.reads] at h
  | red g r => simp [Ex.reads] at h
  | ref r => simp only [Ex.reads, List.mem_singleton] at h; exact ⟨(r, false), by simp [Ex.refs], h⟩
  | tr r => simp only [Ex.reads, List.mem_singleton] at h; exact ⟨(r, true), by simp [Ex.refs], h⟩
  | un f e ih => exact ih h
  | bin f a b iha ihb =>
    simp only [Ex.reads, List.mem_append] at h
    rcases h with h | h
    · obtain ⟨r, hr, e⟩ := iha h
      exact ⟨r, by simp [Ex.refs, hr], e⟩
    · obtain ⟨r, hr, e⟩ := ihb h
      exact ⟨r, by simp [Ex.refs, hr], e⟩

/-- If what is read is an element of `lhs`, it is read in the same way. -/
theorem read_same {W : World} {lhs lhs' : Ref} {rhs' : Ex} {ix jx : List Nat}
    (h : ∀ r ∈ rhs'.refs, r.1.var = lhs.var → r = (lhs, false) ∧ lhs.shape.length = lhs'.shape.length)
    (hm : lhs.at W ix ∈ rhs'.reads W jx) :
    lhs.at W ix = lhs.at W jx ∧ lhs.shape.length = lhs'.shape.length := by
  obtain ⟨r, hr, e⟩ := reads_refs hm
  have hv : r.1.var = lhs.var := by
    have := (Prod.ext_iff.1 e).1
    simp only [Ref.at] at this
    rw [this]
    split <;> rfl
  obtain ⟨rfl, h2⟩ := h r hr hv
  exact ⟨e, h2⟩

theorem elementwise_free (W : World) (b0 b : List Stmt) (h : Elementwise W b0) (hsub : ∀ s ∈ b, s ∈ b0) :
    Free W b := by
  induction b with
  | nil => trivial
  | cons s b ih =>
    rw [Free]
    refine ⟨?_, ?_, ih fun s hs => hsub s (List.mem_cons_of_mem _ hs)⟩
    · obtain ⟨lhs, rhs, rfl, hst, hall⟩ := h s (hsub s (by simp))
      rw [Settled]
      intro ix hi jx hj hb hm
      obtain ⟨e, _⟩ := read_same (hall lhs rhs (hsub _ (by simp))).2 hm
      obtain ⟨p, i, x, j, y, rfl, rfl, hij⟩ := hb
      obtain ⟨n, hn, hjn⟩ := box_at' hj
      exact at_ne W lhs hst p x y i j hij (by rw [box_length hi]; simp [Ref.dims])
        (by rw [box_length hj]; simp [Ref.dims]) n hn hjn e
    · intro t ht
      obtain ⟨htb, _⟩ := takeWhile_sub ht
      have hs0 := hsub s (by simp)
      have ht0 := hsub t (List.mem_cons_of_mem _ htb)
      obtain ⟨lhs, rhs, rfl, hst, hall⟩ := h s hs0
      obtain ⟨lhs', rhs', rfl, hst', hall'⟩ := h t ht0
      rw [Apart]
      intro p i x j y hpj hpi hij htake
      have hlj := box_length hpj
      have hli := box_length hpi
      simp only [Ref.dims, List.length_map] at hlj hli
      obtain ⟨n, hn, hjn⟩ := box_at' hpj
      have hn' : lhs'.shape[p.length]? = some n := by
        have := congrArg (·[p.length]?) htake
        simp only [List.getElem?_take, Nat.lt_succ_self, if_true] at this
        rw [← this]; exact hn
      refine ⟨?_, ?_, ?_⟩
      · intro e
        have hv : lhs'.var = lhs.var := (Prod.ext_iff.1 e).1.symm
        obtain rfl := (hall lhs' rhs' ht0).1 hv
        exact at_ne W lhs' hst p x y i j hij hli hlj n hn hjn e.symm
      · intro hm
        obtain ⟨e, hlen⟩ := read_same (hall lhs' rhs' ht0).2 hm
        exact at_ne W lhs hst p x y i j hij (by omega) hlj n hn hjn e.symm
      · intro hm
        obtain ⟨e, hlen⟩ := read_same (hall' lhs rhs hs0).2 hm
        exact at_ne W lhs' hst' p x y i j hij hli (by omega) n hn' hjn e

/-! ## For examples -/

/-- `Settled`, checked. -/
def settledB (W : World) (lhs : Ref) (rhs : Ex) : Bool :=
  (box (lhs.dims W)).all fun ix => (box (lhs.dims W)).all fun jx => (List.range jx.length).all fun k =>
    !(ix.take k == jx.take k && decide (ix.getD k 0 < jx.getD k 0)) ||
      !(rhs.reads W jx).contains (lhs.at W ix)

theorem settled_of (W : World) (lhs : Ref) (rhs : Ex) (h : settledB W lhs rhs = true) :
    Settled W (.set lhs rhs) := by
  rw [Settled]
  rintro ix hi jx hj ⟨p, i, x, j, y, rfl, rfl, hij⟩
  simp only [settledB, List.all_eq_true, List.mem_range] at h
  have := h _ hi _ hj p.length (by simp)
  simpa [hij] using this

/-- `Apart`, checked. -/
def apartB (W : World) (l l' : Ref) (e e' : Ex) : Bool :=
  (box (l.dims W)).all fun jx => (box (l'.dims W)).all fun ix => (List.range jx.length).all fun k =>
    !(ix.take k == jx.take k && decide (ix.getD k 0 < jx.getD k 0) &&
        decide (l.shape.take (k + 1) = l'.shape.take (k + 1))) ||
      (l.at W jx != l'.at W ix && !(e'.reads W ix).contains (l.at W jx) &&
        !(e.reads W jx).contains (l'.at W ix))

theorem apart_of (W : World) (l l' : Ref) (e e' : Ex) (h : apartB W l l' e e' = true) :
    Apart W (.set l e) (.set l' e') := by
  rw [Apart]
  intro p i x j y hj hi hij ht
  simp only [apartB, List.all_eq_true, List.mem_range] at h
  have := h _ hj _ hi p.length (by simp)
  simpa [hij, ht, and_assoc] using this

end Verif.Vectors.Lemmas
