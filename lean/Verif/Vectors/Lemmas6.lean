import Verif.Vectors.Lemmas5

/-!
# Statements

A statement, lowered, in loops of its own, does what NumPy does.
-/

namespace Verif.Vectors.Lemmas
open Spec Model

/-! ## From the specification to the model -/

theorem refs_lower {r : LRef} {e : Ex} (h : r ∈ (lowerEx e).refs) : ∃ b r0, r = lowerRef b r0 := by
  induction e with
  | lit z => simp [lowerEx, LEx.refs] at h
  | ref r0 => simp only [lowerEx, LEx.refs, List.mem_singleton] at h; exact ⟨_, _, h⟩
  | tr r0 => simp only [lowerEx, LEx.refs, List.mem_singleton] at h; exact ⟨_, _, h⟩
  | un f e ih => exact ih h
  | bin f a b iha ihb =>
    simp only [lowerEx, LEx.refs, List.mem_append] at h
    exact h.elim iha ihb
  | red g r0 => simp [lowerEx, LEx.refs] at h

theorem atB_env (W : World) (env env' : Env) (ix : List Nat) (b : Bool) (r : Ref) :
    atB W env ix (lowerRef b r) = atB W env' ix (lowerRef b r) := by
  cases b
  · rw [atB_lower, atB_lower]
  · rw [atB_lowerT, atB_lowerT]

theorem eval_lower (W : World) (env : Env) (σ : Store) (t : Nat → Int) (ix : List Nat) (e : Ex) :
    e.eval W σ ix = evalWith W (fun r => atB W env ix r) ⟨σ, t⟩ (lowerEx e) := by
  induction e with
  | lit z => rfl
  | ref r => simp [Ex.eval, lowerEx, evalWith, atB_lower]
  | tr r => simp [Ex.eval, lowerEx, evalWith, atB_lowerT]
  | un f e ih => simp [Ex.eval, lowerEx, evalWith, ih]
  | bin f a b iha ihb => simp [Ex.eval, lowerEx, evalWith, iha, ihb]
  | red g r => rfl

theorem rok_lower (W : World) (to : List Size) (e : Ex) (hc : e.Clear W to)
    (hf : ∀ s ∈ e.shapes, Broadcasts (s.map (·.val W.ρ)) (to.map (·.val W.ρ))) :
    ∀ r ∈ (lowerEx e).refs, ROk W to r := by
  induction e with
  | lit z => intro r hr; simp [lowerEx, LEx.refs] at hr
  | red g r0 => intro r hr; simp [lowerEx, LEx.refs] at hr
  | un f e ih => exact ih hc hf
  | bin f a b iha ihb =>
    intro r hr
    simp only [lowerEx, LEx.refs, List.mem_append] at hr
    rcases hr with hr | hr
    · exact iha hc.1 (fun s hs => hf s (by simp [Ex.shapes, hs])) r hr
    · exact ihb hc.2 (fun s hs => hf s (by simp [Ex.shapes, hs])) r hr
  | ref r0 =>
    intro r hr
    simp only [lowerEx, LEx.refs, List.mem_singleton] at hr
    subst hr
    have hb := hf r0.shape (by simp [Ex.shapes])
    refine ⟨started_lower hc.1 _, ?_, by rw [shape_lower]; exact hc.2, ?_⟩
    · rw [rank_lower]; simpa using hb.1
    · unfold LRef.dims; rw [shape_lower]; exact hb
  | tr r0 =>
    intro r hr
    simp only [lowerEx, LEx.refs, List.mem_singleton] at hr
    subst hr
    have hb := hf r0.shape.reverse (by simp [Ex.shapes])
    refine ⟨started_lower hc.1 _, ?_, by rw [shape_lowerT]; exact hc.2, ?_⟩
    · rw [rank_lower]; simpa using hb.1
    · unfold LRef.dims; rw [shape_lowerT]; exact hb

theorem rok_self (W : World) (lhs : Ref) (h : lhs.Started) :
    ROk W lhs.shape (lowerRef false lhs) := by
  refine ⟨started_lower h _, by rw [rank_lower]; exact Nat.le_refl _, ?_, ?_⟩
  · rw [shape_lower]
    intro p hp hv
    rw [Nat.sub_self, List.drop_zero] at hp
    right
    have : p.1 = p.2 := by
      generalize lhs.shape = l at hp
      induction l with
      | nil => simp at hp
      | cons a l ih =>
        simp only [List.zip_cons_cons, List.mem_cons] at hp
        rcases hp with rfl | hp
        · rfl
        · exact ih hp
    rw [← this]; exact hv
  · unfold LRef.dims
    rw [shape_lower]
    refine ⟨Nat.le_refl _, fun p hp => ?_⟩
    rw [Nat.sub_self, List.drop_zero] at hp
    right
    generalize lhs.shape.map (·.val W.ρ) = l at hp
    induction l with
    | nil => simp at hp
    | cons a l ih =>
      simp only [List.zip_cons_cons, List.mem_cons] at hp
      rcases hp with rfl | hp
      · rfl
      · exact ih hp

/-! ## Temporaries -/

theorem extract_refs (e : LEx) (n : Nat) : (extract e n).1.refs = e.refs := by
  induction e generalizing n with
  | un f e ih => simpa [extract, LEx.refs] using ih n
  | bin f a b iha ihb => simp [extract, LEx.refs, iha, ihb]
  | _ => rfl

theorem extract_none (e : Ex) (n : Nat) (h : e.reduces = false) :
    extract (lowerEx e) n = (lowerEx e, [], n) := by
  induction e generalizing n with
  | un f e ih => simp [lowerEx, extract, ih n h]
  | bin f a b iha ihb =>
    simp only [Ex.reduces, Bool.or_eq_false_iff] at h
    simp [lowerEx, extract, iha n h.1, ihb n h.2]
  | red g r => simp [Ex.reduces] at h
  | _ => rfl

theorem extract_some (e : Ex) (n : Nat) (h : e.reduces = true) :
    (extract (lowerEx e) n).2.1.isEmpty = false := by
  induction e generalizing n with
  | un f e ih => simpa [lowerEx, extract] using ih n h
  | bin f a b iha ihb =>
    simp only [Ex.reduces, Bool.or_eq_true] at h
    simp only [lowerEx, extract]
    rcases h with h | h
    · have := iha n h
      generalize (extract (lowerEx a) n).2.1 = x at this
      cases x with
      | nil => simp at this
      | cons => rfl
    · have := ihb (extract (lowerEx a) n).2.2 h
      generalize (extract (lowerEx b) (extract (lowerEx a) n).2.2).2.1 = x at this
      cases x with
      | nil => simp at this
      | cons => simp
  | red g r => rfl
  | _ => simp [Ex.reduces] at h

theorem extract_rd (W : World) (pos : LRef → Loc) (e : LEx) (n : Nat) (l : Loc)
    (h : l ∈ rd W pos (extract e n).1) : ∃ r ∈ e.refs, l = pos r := by
  induction e generalizing n with
  | lit z => simp [extract, rd] at h
  | tmp k => simp [extract, rd] at h
  | red g r => simp [extract, rd] at h
  | ref r => simp only [extract, rd, List.mem_singleton] at h; exact ⟨r, by simp [LEx.refs], h⟩
  | un f e ih => exact ih n h
  | bin f a b iha ihb =>
    simp only [extract, rd, List.mem_append] at h
    rcases h with h | h
    · obtain ⟨r, hr, e⟩ := iha _ h
      exact ⟨r, by simp [LEx.refs, hr], e⟩
    · obtain ⟨r, hr, e⟩ := ihb _ h
      exact ⟨r, by simp [LEx.refs, hr], e⟩

theorem reads_lower (W : World) (env : Env) (ix : List Nat) (e : Ex) :
    (lowerEx e).refs.map (fun r => atB W env ix r) = e.reads W ix := by
  induction e with
  | lit z => rfl
  | ref r => simp [lowerEx, LEx.refs, Ex.reads, atB_lower]
  | tr r => simp [lowerEx, LEx.refs, Ex.reads, atB_lowerT]
  | un f e ih => simpa [lowerEx, LEx.refs, Ex.reads] using ih
  | bin f a b iha ihb => simp [lowerEx, LEx.refs, Ex.reads, iha, ihb]
  | red g r => rfl

theorem rd_lower (W : World) (env : Env) (ix : List Nat) (e : Ex) (l : Loc)
    (h : l ∈ rd W (fun r => atB W env ix r) (lowerEx e)) : l ∈ e.reads W ix ++ e.reduced W := by
  induction e with
  | lit z => simp [lowerEx, rd] at h
  | ref r => simpa [lowerEx, rd, Ex.reads, Ex.reduced, atB_lower] using h
  | tr r => simpa [lowerEx, rd, Ex.reads, Ex.reduced, atB_lowerT] using h
  | un f e ih => exact ih h
  | bin f a b iha ihb =>
    simp only [lowerEx, rd, List.mem_append] at h
    simp only [Ex.reads, Ex.reduced, List.mem_append] at iha ihb ⊢
    rcases h with h | h
    · rcases iha h with h | h <;> simp [h]
    · rcases ihb h with h | h <;> simp [h]
  | red g r => simpa [lowerEx, rd, Ex.reads, Ex.reduced] using h

/-- The assignments of temporaries. -/
def runItems (W : World) (env : Env) : List Item → St → Option St
  | [], st => some st
  | i :: is, st => (i.run W env st).bind (runItems W env is)

theorem runItems_append (W : World) (env : Env) (is js : List Item) (st : St) :
    runItems W env (is ++ js) st = (runItems W env is st).bind (runItems W env js) := by
  induction is generalizing st with
  | nil => rfl
  | cons i is ih =>
    simp only [List.cons_append, runItems, Option.bind_assoc]
    congr 1
    funext st
    exact ih st

theorem frun_extend (W : World) (env : Env) (st : St) (f : Forest) (is : List Item) :
    frun W 0 env st (extend f is) = (frun W 0 env st f).bind (runItems W env is) := by
  induction is generalizing f with
  | nil => simp [extend, runItems]
  | cons i is ih =>
    simp only [extend, ih, frun, trun, Option.bind_assoc]
    rfl

theorem extract_mono (e : LEx) (n : Nat) : n ≤ (extract e n).2.2 := by
  induction e generalizing n with
  | un f e ih => exact ih n
  | bin f a b iha ihb => exact Nat.le_trans (iha n) (ihb _)
  | red g r => exact Nat.le_succ n
  | _ => exact Nat.le_refl n

/-- Temporaries from `n` to `m` have not changed. -/
theorem evalWith_tmps (W : World) (pos : LRef → Loc) (e : Ex) (n : Nat) (σ : Store) (t t' : Nat → Int)
    (h : ∀ k, n ≤ k → k < (extract (lowerEx e) n).2.2 → t k = t' k) :
    evalWith W pos ⟨σ, t⟩ (extract (lowerEx e) n).1 = evalWith W pos ⟨σ, t'⟩ (extract (lowerEx e) n).1 := by
  induction e generalizing n with
  | un f e ih => simp only [lowerEx, extract, evalWith]; rw [ih n h]
  | bin f a b iha ihb =>
    simp only [lowerEx, extract] at h
    simp only [lowerEx, extract, evalWith]
    have h1 := extract_mono (lowerEx a) n
    have h2 := extract_mono (lowerEx b) (extract (lowerEx a) n).2.2
    rw [iha n fun k hk hk' => h k hk (by omega), ihb _ fun k hk hk' => h k (by omega) hk']
  | red g r =>
    simp only [lowerEx, extract, evalWith]
    rw [h n (Nat.le_refl _) (by simp [lowerEx, extract])]
  | _ => rfl

theorem extract_run (W : World) (env : Env) (e : Ex) (n : Nat) (st : St)
    (h : ∀ l ∈ e.reduced W, Inside W l) :
    ∃ t', runItems W env (extract (lowerEx e) n).2.1 st = some ⟨st.σ, t'⟩ ∧
      (∀ k, k < n → t' k = st.t k) ∧
      ∀ pos, evalWith W pos ⟨st.σ, t'⟩ (extract (lowerEx e) n).1 =
        evalWith W pos ⟨st.σ, t'⟩ (lowerEx e) := by
  induction e generalizing n st with
  | lit z => exact ⟨st.t, rfl, fun _ _ => rfl, fun _ => rfl⟩
  | ref r => exact ⟨st.t, rfl, fun _ _ => rfl, fun _ => rfl⟩
  | tr r => exact ⟨st.t, rfl, fun _ _ => rfl, fun _ => rfl⟩
  | un f e ih =>
    obtain ⟨t', h1, h2, h3⟩ := ih n st h
    exact ⟨t', h1, h2, fun pos => by simp only [lowerEx, extract, evalWith]; rw [h3 pos]⟩
  | red g r =>
    have hr : (box (r.dims W)).mapM (fun jx => Spec.read W st.σ (r.at W jx)) =
        some ((box (r.dims W)).map fun jx => st.σ (r.at W jx).1 (r.at W jx).2) :=
      mapM_some _ _ _ fun jx hj => read_some (h _ (by
        simp only [Ex.reduced, List.mem_map]; exact ⟨jx, hj, rfl⟩)) _
    refine ⟨fun j => if j = n then
      g ((box (r.dims W)).map fun jx => st.σ (r.at W jx).1 (r.at W jx).2) else st.t j, ?_, ?_, ?_⟩
    · simp [lowerEx, extract, runItems, Item.run, hr]
    · intro k hk
      simp only
      rw [if_neg (by omega)]
    · intro pos
      simp [lowerEx, extract, evalWith, hr]
  | bin f a b iha ihb =>
    obtain ⟨t1, h1, h2, h3⟩ := iha n st fun l hl => h l (by simp [Ex.reduced, hl])
    obtain ⟨t2, h4, h5, h6⟩ := ihb (extract (lowerEx a) n).2.2 ⟨st.σ, t1⟩
      fun l hl => h l (by simp [Ex.reduced, hl])
    have hm := extract_mono (lowerEx a) n
    refine ⟨t2, ?_, fun k hk => by rw [h5 k (by omega)]; exact h2 k hk, ?_⟩
    · simp only [lowerEx, extract, runItems_append, h1, Option.bind_some, h4]
    · intro pos
      simp only [lowerEx, extract, evalWith]
      have e1 := evalWith_tmps W pos a n st.σ t2 t1 fun k hk hk' => h5 k hk'
      have e2 : evalWith W pos ⟨st.σ, t2⟩ (lowerEx a) = evalWith W pos ⟨st.σ, t1⟩ (lowerEx a) := by
        have : ∀ e : Ex, evalWith W pos ⟨st.σ, t2⟩ (lowerEx e) = evalWith W pos ⟨st.σ, t1⟩ (lowerEx e) := by
          intro e
          induction e with
          | un f e ih => simp only [lowerEx, evalWith, ih]
          | bin f a b iha ihb => simp only [lowerEx, evalWith, iha, ihb]
          | _ => rfl
        exact this a
      rw [e1, e2, h3 pos, h6 pos]

/-! ## A line in loops -/

/-- What `lhs = e` does, index by index. -/
def stmtAct (W : World) (lhs : Ref) (e : LEx) : Act :=
  act W (fun ix => lhs.at W ix) (fun ix r => atB W (fun _ => 0) ix r) fun _ => e

/-- `l` is the line `lhs = e` with `k` indices inserted. -/
structure LineOf (W : World) (lhs : Ref) (e : LEx) (k : Nat) (l : Line) : Prop where
  le : k ≤ lhs.shape.length
  run : ∀ env st, Within W env 0 (lhs.shape.take k) → (Item.line l).run W env st =
    chunk W (stmtAct W lhs e) ((box ((lhs.dims W).drop k)).map (envs env 0 k ++ ·)) st

theorem lineOf_descend (W : World) (hv : Bool) (F : Var → Bool) (lhs : Ref) (rhs : Ex) (n : Nat)
    (hs : lhs.Started) (hc : rhs.Clear W lhs.shape) (hf : rhs.Fits W (lhs.dims W)) :
    LineOf W lhs (extract (lowerEx rhs) n).1
      (descend hv F lhs.shape.length 0 ⟨lowerRef false lhs, (extract (lowerEx rhs) n).1⟩).1
      (descend hv F lhs.shape.length 0 ⟨lowerRef false lhs, (extract (lowerEx rhs) n).1⟩).2 := by
  generalize hl : (⟨lowerRef false lhs, (extract (lowerEx rhs) n).1⟩ : Line) = l
  have hsh : l.lhs.shape = lhs.shape := by rw [← hl]; exact shape_lower lhs
  have hrefs : ∀ r ∈ l.refs, ROk W l.lhs.shape r := by
    rw [hsh]
    intro r hr
    rw [← hl] at hr
    simp only [Line.refs, List.mem_cons, extract_refs] at hr
    rcases hr with rfl | hr
    · exact rok_self W lhs hs
    · exact rok_lower W lhs.shape rhs hc hf.1 r hr
  have hplain : ∀ r ∈ l.refs, ∃ b r0, r = lowerRef b r0 := by
    intro r hr
    rw [← hl] at hr
    simp only [Line.refs, List.mem_cons, extract_refs] at hr
    rcases hr with rfl | hr
    · exact ⟨_, _, rfl⟩
    · exact refs_lower hr
  obtain ⟨k, f, h1, h2, h3, h4, h5, h6, h7⟩ := descend_spec W hv F lhs.shape.length 0 l
    (by rw [hsh]) hrefs
  rw [h1]
  simp only [Nat.zero_add]
  refine ⟨h2, ?_⟩
  intro env st hw
  have hd : ((l.map f).lhs.dims W) = (lhs.dims W).drop k := by
    simp only [Line.map, LRef.dims, h3, hsh, Ref.dims, List.map_drop]
  have hlen : ∀ jx ∈ box ((l.map f).lhs.dims W), jx.length = lhs.shape.length - k := by
    intro jx hj
    rw [box_length hj, hd]
    simp [Ref.dims]
  have := run_line W hv F (l.map f)
    (by
      intro r hr
      rw [line_refs_map, List.mem_map] at hr
      obtain ⟨r, hr, rfl⟩ := hr
      simp only [Line.map, h3]
      exact h5 r hr)
    (by
      rcases h6 with h6 | h6
      · exact .inl h6
      · right
        simp only [Line.map, h3, hsh, h6]
        simp)
    env st l.rhs f rfl (fun ix => lhs.at W ix) (fun ix r => atB W (fun _ => 0) ix r)
    (envs env 0 k ++ ·)
    (by
      intro jx hj
      simp only [Line.map]
      rw [h7 l.lhs (by simp [Line.refs]) env (by rw [hsh]; exact hw) jx (hlen jx hj), ← hl,
        atB_lower])
    (by
      intro jx hj r hr
      have hr' : r ∈ l.refs := by simp [Line.refs, hr]
      obtain ⟨b, r0, rfl⟩ := hplain r hr'
      rw [h7 _ hr' env (by rw [hsh]; exact hw) jx (hlen jx hj)]
      exact atB_env ..)
  rw [this, hd, ← hl]
  rfl

/-! ## Boxes -/

theorem box_append {a b xs ys : List Nat} (ha : a ∈ box xs) (hb : b ∈ box ys) :
    a ++ b ∈ box (xs ++ ys) := by
  induction xs generalizing a with
  | nil => simp only [box, List.mem_singleton] at ha; subst ha; exact hb
  | cons x xs ih =>
    simp only [box, List.mem_flatMap, List.mem_range, List.mem_map] at ha
    obtain ⟨i, hi, a, ha, rfl⟩ := ha
    simp only [List.cons_append, box, List.mem_flatMap, List.mem_range, List.mem_map]
    exact ⟨i, hi, a ++ b, ih ha, rfl⟩

theorem within_box {W : World} {env : Env} {d : Nat} {pre : List Size} (h : Within W env d pre) :
    envs env d pre.length ∈ box (pre.map (·.val W.ρ)) := by
  induction pre generalizing d with
  | nil => simp [envs, box]
  | cons s pre ih =>
    rw [List.length_cons, envs_succ]
    simp only [List.map_cons, box, List.mem_flatMap, List.mem_range, List.mem_map]
    refine ⟨env d, by have := h 0 s rfl; simpa using this, _, ih (d := d + 1) ?_, rfl⟩
    intro q t hq
    have := h (q + 1) t (by simpa using hq)
    rwa [show d + 1 + q = d + (q + 1) by omega]

theorem envs_snoc (env : Env) (k i : Nat) : envs (upd env k i) 0 (k + 1) = envs env 0 k ++ [i] := by
  simp only [envs, List.range_succ, List.map_append, List.map_cons, List.map_nil, Nat.zero_add]
  congr 1
  · apply List.map_congr_left
    intro q hq
    simp only [List.mem_range] at hq
    simp only [upd]
    rw [if_neg (by omega)]
  · simp [upd]

theorem loop_chunk (W : World) (A : Act) (X : Nat → List (List Nat)) (f : Nat → St → Option St)
    (n : Nat) (hf : ∀ i, i < n → f i = chunk W A (X i))
    (hx : ∀ i j, i < j → j < n → ∀ x ∈ X i, ∀ y ∈ X j, A.tgt x ∉ A.src y) :
    loop f n = chunk W A ((List.range n).flatMap X) := by
  induction n with
  | zero =>
    funext st
    simp [loop, chunk, Fine, after]
  | succ n ih =>
    funext st
    simp only [loop]
    rw [ih (fun i hi => hf i (by omega)) (fun i j hij hj => hx i j hij (by omega)), hf n (by omega),
      List.range_succ, List.flatMap_append, chunk_append]
    · simp
    · intro x hx' y hy
      simp only [List.mem_flatMap, List.mem_range] at hx'
      obtain ⟨i, hi, hx'⟩ := hx'
      simp only [List.flatMap_cons, List.flatMap_nil, List.append_nil] at hy
      exact hx i n hi (by omega) x hx' y hy

/-- A line in loops of its own is the whole assignment. -/
theorem nest_chunk (W : World) (lhs : Ref) (e : LEx) (k : Nat) (l : Line) (hl : LineOf W lhs e k l)
    (hset : ∀ ix ∈ box (lhs.dims W), ∀ jx ∈ box (lhs.dims W), Before ix jx →
      (stmtAct W lhs e).tgt ix ∉ (stmtAct W lhs e).src jx)
    (pre ss : List Size) (hp : lhs.shape.take k = pre ++ ss) (env : Env) (hw : Within W env 0 pre) :
    nestRun W l pre.length env ss = chunk W (stmtAct W lhs e)
      ((box (ss.map (·.val W.ρ) ++ (lhs.dims W).drop k)).map (envs env 0 pre.length ++ ·)) := by
  induction ss generalizing pre env with
  | nil =>
    rw [List.append_nil] at hp
    funext st
    simp only [nestRun, List.map_nil, List.nil_append]
    rw [hl.run env st (by rw [hp]; exact hw)]
    have : pre.length = k := by
      rw [← hp, List.length_take, Nat.min_eq_left hl.le]
    rw [this]
  | cons s ss ih =>
    simp only [nestRun, List.map_cons, List.cons_append, box]
    rw [loop_chunk W (stmtAct W lhs e) (fun i => (box (ss.map (·.val W.ρ) ++ (lhs.dims W).drop k)).map
      (fun jx => envs env 0 pre.length ++ i :: jx))]
    · rw [List.map_flatMap]
      congr 1
      congr 1
      funext i
      rw [List.map_map]
      rfl
    · intro i hi
      have := ih (pre ++ [s]) (by rw [hp]; simp) (upd env pre.length i) (within_snoc hw s i hi)
      rw [List.length_append, List.length_singleton, envs_snoc] at this
      rw [this]
      simp
    · intro i j hij hj x hx y hy
      simp only [List.mem_map] at hx hy
      obtain ⟨a, ha, rfl⟩ := hx
      obtain ⟨b, hb, rfl⟩ := hy
      have hbox : ∀ i, i < s.val W.ρ → ∀ a ∈ box (ss.map (·.val W.ρ) ++ (lhs.dims W).drop k),
          envs env 0 pre.length ++ i :: a ∈ box (lhs.dims W) := by
        intro i hi a ha
        have : lhs.dims W = pre.map (·.val W.ρ) ++
            (s.val W.ρ :: (ss.map (·.val W.ρ) ++ (lhs.dims W).drop k)) := by
          have h := List.take_append_drop k (lhs.dims W)
          have h2 : (lhs.dims W).take k = (pre ++ s :: ss).map (·.val W.ρ) := by
            rw [← hp, List.map_take]; rfl
          rw [h2] at h
          simpa using h.symm
        rw [this]
        apply box_append (within_box hw)
        simp only [box, List.mem_flatMap, List.mem_range, List.mem_map]
        exact ⟨i, hi, a, ha, rfl⟩
      exact hset _ (hbox i (by omega) a ha) _ (hbox j hj b hb)
        ⟨_, i, a, j, b, rfl, rfl, hij⟩

theorem envs_split (env : Env) (k p : Nat) (h : p < k) :
    envs env 0 k = envs env 0 p ++ env p :: envs env (p + 1) (k - p - 1) := by
  have : ∀ d a b, envs env d (a + b) = envs env d a ++ envs env (d + a) b := by
    intro d a b
    induction a generalizing d with
    | zero => simp [envs]
    | succ a ih =>
      rw [show a + 1 + b = (a + b) + 1 by omega, envs_succ, ih, envs_succ,
        show d + 1 + a = d + (a + 1) by omega]
      rfl
  have h1 := this 0 p (k - p)
  rw [show p + (k - p) = k by omega] at h1
  rw [h1, show k - p = (k - p - 1) + 1 by omega, envs_succ]
  simp

/-- Statements that keep apart commute. -/
theorem late_of (W : World) (lhs lhs' : Ref) (e e' : LEx) (k k' : Nat) (l l' : Line)
    (h : LineOf W lhs e k l) (h' : LineOf W lhs' e' k' l')
    (ha : ∀ p i a j b, p ++ j :: b ∈ box (lhs.dims W) → p ++ i :: a ∈ box (lhs'.dims W) → i < j →
      lhs.shape.take (p.length + 1) = lhs'.shape.take (p.length + 1) →
      (stmtAct W lhs e).tgt (p ++ j :: b) ≠ (stmtAct W lhs' e').tgt (p ++ i :: a) ∧
      (stmtAct W lhs e).tgt (p ++ j :: b) ∉ (stmtAct W lhs' e').src (p ++ i :: a) ∧
      (stmtAct W lhs' e').tgt (p ++ i :: a) ∉ (stmtAct W lhs e).src (p ++ j :: b)) :
    Late W l' (lhs'.shape.take k') l (lhs.shape.take k) := by
  intro env env' hw hw' p hp hp' htake hq hlt st
  simp only [List.length_take, Nat.min_eq_left h.le, Nat.min_eq_left h'.le] at hp hp'
  rw [List.take_take, List.take_take, Nat.min_eq_left (by omega), Nat.min_eq_left (by omega)] at htake
  simp only [h.run env _ hw, h'.run env' _ hw']
  apply chunk_comm
  intro x hx y hy
  simp only [List.mem_map] at hx hy
  obtain ⟨a, hxa, rfl⟩ := hx
  obtain ⟨b, hyb, rfl⟩ := hy
  have hpre : envs env 0 p = envs env' 0 p := by
    simp only [envs, Nat.zero_add]
    apply List.map_congr_left
    intro q hq'
    exact hq q (by simpa using hq')
  have hbx : envs env 0 k ++ a ∈ box (lhs.dims W) := by
    have := within_box hw
    rw [List.length_take, Nat.min_eq_left h.le] at this
    have := box_append this hxa
    rwa [List.map_take, show lhs.shape.map (·.val W.ρ) = lhs.dims W from rfl,
      List.take_append_drop] at this
  have hby : envs env' 0 k' ++ b ∈ box (lhs'.dims W) := by
    have := within_box hw'
    rw [List.length_take, Nat.min_eq_left h'.le] at this
    have := box_append this hyb
    rwa [List.map_take, show lhs'.shape.map (·.val W.ρ) = lhs'.dims W from rfl,
      List.take_append_drop] at this
  rw [envs_split env k p hp, List.append_assoc, List.cons_append] at hbx ⊢
  rw [envs_split env' k' p hp', List.append_assoc, List.cons_append, ← hpre] at hby ⊢
  refine ha _ _ _ _ _ hbx hby hlt ?_
  rw [show (envs env 0 p).length = p by simp [envs]]
  exact htake

end Verif.Vectors.Lemmas
