import Verif.Vectors.Lemmas2

/-!
# Lowered lines

What a line does inside the loops that `collect_loops` puts it into.
-/

namespace Verif.Vectors.Lemmas
open Spec Model

theorem step (W : World) (d : Nat) (t : Size) (to : List Size) (r : LRef) (h : ROk W (t :: to) r) :
    ROk W to (insertIndex (to.length + 1) (.lvl d) r) ∧
      (insertIndex (to.length + 1) (.lvl d) r).trans = r.trans ∧
      (r.rank = to.length + 1 → (insertIndex (to.length + 1) (.lvl d) r).shape = r.shape.tail) ∧
      ∀ env : Env, env d < t.val W.ρ → ∀ jx : List Nat, jx.length = to.length →
        atB W env jx (insertIndex (to.length + 1) (.lvl d) r) = atB W env (env d :: jx) r := by
  by_cases hr : r.rank ≤ to.length
  · have hs := step_short W (fun _ => 0) d t to r h hr
    refine ⟨by rw [hs.1]; exact hs.2.1, by rw [hs.1], fun h => by omega, ?_⟩
    intro env _ jx hj
    rw [hs.1]
    exact (step_short W env d t to r h hr).2.2 jx hj
  · have hr' : r.rank = to.length + 1 := by have := h.rank; simp at this; omega
    have hs := step_full W (fun _ => 0) d t to r h hr'
    refine ⟨hs.1, hs.2.2.1, fun _ => hs.2.1, ?_⟩
    intro env hd jx hj
    exact (step_full W env d t to r h hr').2.2.2.2 hd jx hj

theorem map_map (l : Line) (f g : LRef → LRef) : (l.map f).map g = l.map fun r => g (f r) := by
  have : ∀ e : LEx, (e.map f).map g = e.map fun r => g (f r) := by
    intro e
    induction e with
    | un f e ih => simp [LEx.map, ih]
    | bin f a b iha ihb => simp [LEx.map, iha, ihb]
    | _ => rfl
  simp [Line.map, this]

theorem map_id (l : Line) : (l.map fun r => r) = l := by
  have : ∀ e : LEx, (e.map fun r => r) = e := by
    intro e
    induction e with
    | un f e ih => simp [LEx.map, ih]
    | bin f a b iha ihb => simp [LEx.map, iha, ihb]
    | _ => rfl
  simp [Line.map, this]

theorem line_refs_map (f : LRef → LRef) (l : Line) : (l.map f).refs = l.refs.map f := by
  simp [Line.refs, Line.map, refs_map]

/-- The values of the loop variables of `k` levels, from level `d` on. -/
def envs (env : Env) (d k : Nat) : List Nat := (List.range k).map fun q => env (d + q)

theorem envs_succ (env : Env) (d k : Nat) : envs env d (k + 1) = env d :: envs env (d + 1) k := by
  simp only [envs, List.range_succ_eq_map, List.map_cons, List.map_map, Nat.add_zero, List.cons.injEq,
    true_and]
  apply List.map_congr_left
  intro q _
  simp only [Function.comp]
  congr 1
  omega

/-- The loop variables from level `d` on are inside the loops of these lengths. -/
def Within (W : World) (env : Env) (d : Nat) (to : List Size) : Prop :=
  ∀ q s, to[q]? = some s → env (d + q) < s.val W.ρ

theorem descend_spec (W : World) (hv : Bool) (F : Var → Bool) (p d : Nat) (l : Line)
    (hp : l.lhs.shape.length = p) (hok : ∀ r ∈ l.refs, ROk W l.lhs.shape r) :
    ∃ k f, descend hv F p d l = (d + k, l.map f) ∧ k ≤ p ∧ (f l.lhs).shape = l.lhs.shape.drop k ∧
      (f l.lhs).trans = l.lhs.trans ∧ (∀ r ∈ l.refs, ROk W (l.lhs.shape.drop k) (f r)) ∧
      (compatible hv F (l.map f).refs = true ∨ k = p) ∧
      ∀ r ∈ l.refs, ∀ env : Env, Within W env d (l.lhs.shape.take k) →
        ∀ jx : List Nat, jx.length = p - k → atB W env jx (f r) = atB W env (envs env d k ++ jx) r := by
  induction p generalizing d l with
  | zero =>
    refine ⟨0, fun r => r, by simp [descend, map_id], by omega, by simp, rfl, by simpa using hok,
      .inr rfl, ?_⟩
    intro r _ env _ jx _
    simp [envs]
  | succ p ih =>
    obtain ⟨t, to, hsh⟩ : ∃ t to, l.lhs.shape = t :: to := by
      cases hc : l.lhs.shape with
      | nil => simp [hc] at hp
      | cons t to => exact ⟨t, to, rfl⟩
    have hto : to.length = p := by rw [hsh] at hp; simpa using hp
    rw [hsh] at hok
    subst hto
    have hst := fun r hr => step W d t to r (hok r hr)
    have hl := hst l.lhs (by simp [Line.refs])
    have hlr : l.lhs.rank = to.length + 1 := by rw [← shape_length, hsh]; rfl
    have hlsh : (insertIndex (to.length + 1) (.lvl d) l.lhs).shape = to := by
      rw [hl.2.2.1 hlr, hsh]; rfl
    rw [descend]
    by_cases hc : compatible hv F (l.map (insertIndex (to.length + 1) (.lvl d))).refs
    · refine ⟨1, insertIndex (to.length + 1) (.lvl d), by simp [hc], by omega,
        by rw [hlsh, hsh]; rfl, hl.2.1, ?_, .inl hc, ?_⟩
      · intro r hr
        rw [hsh]
        exact (hst r hr).1
      · intro r hr env hw jx hj
        rw [hsh] at hw
        rw [(hst r hr).2.2.2 env (hw 0 t rfl) jx (by omega)]
        rfl
    · obtain ⟨k, f, h1, h2, h3, h4, h5, h6, h7⟩ := ih (d + 1)
        (l.map (insertIndex (to.length + 1) (.lvl d))) (by simp [Line.map, hlsh])
        (by
          intro r hr
          rw [line_refs_map, List.mem_map] at hr
          obtain ⟨r, hr, rfl⟩ := hr
          simp only [Line.map, hlsh]
          exact (hst r hr).1)
      have hml : (l.map (insertIndex (to.length + 1) (.lvl d))).lhs.shape = to := hlsh
      refine ⟨k + 1, fun r => f (insertIndex (to.length + 1) (.lvl d) r), ?_, by omega, ?_, ?_, ?_,
        ?_, ?_⟩
      · rw [if_neg hc, h1, map_map]
        simp; omega
      · rw [hml] at h3
        rw [hsh, List.drop_succ_cons]
        exact h3
      · rw [← hl.2.1]; exact h4
      · intro r hr
        rw [hml] at h5
        rw [hsh, List.drop_succ_cons]
        exact h5 _ (by rw [line_refs_map]; exact List.mem_map_of_mem hr)
      · rcases h6 with h6 | h6
        · exact .inl (by rw [← map_map]; exact h6)
        · exact .inr (by omega)
      · intro r hr env hw jx hj
        rw [hsh, List.take_succ_cons] at hw
        rw [h7 _ (by rw [line_refs_map]; exact List.mem_map_of_mem hr) env
          (by
            intro q s hq
            rw [hml] at hq
            have := hw (q + 1) s (by simpa using hq)
            rwa [show d + 1 + q = d + (q + 1) by omega]) jx (by omega),
          (hst r hr).2.2.2 env (hw 0 t rfl) _ (by simp [envs]; omega), envs_succ]
        rfl

/-! ## The dimensions that remain -/

theorem mem_box (jx ns : List Nat) :
    jx ∈ box ns ↔ jx.length = ns.length ∧ ∀ p ∈ jx.zip ns, p.1 < p.2 := by
  induction ns generalizing jx with
  | nil =>
    simp only [box, List.mem_singleton, List.length_nil, List.zip_nil_right, List.not_mem_nil,
      false_implies, implies_true, and_true]
    exact List.length_eq_zero_iff.symm
  | cons n ns ih =>
    simp only [box, List.mem_flatMap, List.mem_range, List.mem_map]
    cases jx with
    | nil => simp
    | cons j jx =>
      simp only [List.cons.injEq, List.length_cons, Nat.add_right_cancel_iff, List.zip_cons_cons,
        List.mem_cons, forall_eq_or_imp]
      constructor
      · rintro ⟨i, hi, kx, hk, rfl, rfl⟩
        exact ⟨((ih _).1 hk).1, hi, ((ih _).1 hk).2⟩
      · rintro ⟨h1, h2, h3⟩
        exact ⟨j, h2, jx, (ih _).2 ⟨h1, h3⟩, rfl, rfl⟩

theorem box_length {jx ns : List Nat} (h : jx ∈ box ns) : jx.length = ns.length := ((mem_box ..).1 h).1

theorem llocate_scalar (W : World) (env : Env) (ds : List Size) (ss : List LSub) (jx kx : List Nat)
    (h : llens ss = []) : llocate W env (ds.zip ss) jx = blocate W env (ds.zip ss) kx := by
  induction ss generalizing ds with
  | nil => simp [llocate, blocate]
  | cons s ss ih =>
    cases ds with
    | nil => simp [llocate, blocate]
    | cons d ds => cases s <;> simp_all [llocate, blocate, llens]

theorem llocate_eq (W : World) (env : Env) (ds : List Size) (ss : List LSub) (jx : List Nat)
    (h : ∀ p ∈ (llens ss).zip jx, p.1.val W.ρ = 1 → p.2 = 0) :
    llocate W env (ds.zip ss) jx = blocate W env (ds.zip ss) jx := by
  induction ss generalizing ds jx with
  | nil => simp [llocate, blocate]
  | cons s ss ih =>
    cases ds with
    | nil => simp [llocate, blocate]
    | cons d ds =>
      cases s with
      | «at» k => simp [llocate, blocate, ih ds jx h]
      | ix a b i => simp [llocate, blocate, ih ds jx h]
      | sl a b n =>
        cases jx with
        | nil => simp [llocate, blocate]
        | cons j jx =>
          simp only [llens, List.zip_cons_cons, List.mem_cons, forall_eq_or_imp] at h
          simp only [List.zip_cons_cons, llocate, blocate, ih ds jx h.2, pick]
          by_cases hn : n.val W.ρ = 1
          · rw [if_pos hn, h.1 hn]
          · rw [if_neg hn]

theorem zip_reverse {α β : Type} (a : List α) (b : List β) (h : a.length = b.length) :
    a.reverse.zip b.reverse = (a.zip b).reverse := by
  exact (List.reverse_zipWith h).symm

theorem mapM_congr {α β : Type} {f g : α → Option β} (l : List α) (h : ∀ x ∈ l, f x = g x) :
    l.mapM f = l.mapM g := by
  induction l with
  | nil => rfl
  | cons a l ih =>
    rw [List.mapM_cons, List.mapM_cons, h a (by simp), ih fun x hx => h x (by simp [hx])]

theorem at_eq (W : World) (env : Env) (r : LRef) (jx : List Nat)
    (h : r.dims W = [] ∨ jx ∈ box (r.dims W)) : r.at W env jx = atB W env jx r := by
  by_cases hr : r.rank = 0
  · simp only [LRef.at, atB, Prod.mk.injEq, true_and]
    exact llocate_scalar _ _ _ _ _ _ (List.length_eq_zero_iff.1 hr)
  · have h : jx ∈ box (r.dims W) := by
      rcases h with h | h
      · simp only [LRef.dims, List.map_eq_nil_iff] at h
        rw [← shape_length, h] at hr
        simp at hr
      · exact h
    have hlen := box_length h
    rw [LRef.dims, List.length_map, shape_length] at hlen
    simp only [LRef.at, atB, Prod.mk.injEq, true_and, lastOf_all _ _ (Nat.le_of_eq hlen)]
    apply llocate_eq
    have hm := ((mem_box ..).1 h).2
    have key : ∀ (ls : List Size) (kx : List Nat), (∀ p ∈ kx.zip (ls.map (·.val W.ρ)), p.1 < p.2) →
        ∀ p ∈ ls.zip kx, p.1.val W.ρ = 1 → p.2 = 0 := by
      intro ls
      induction ls with
      | nil => intro kx _ p hp; simp at hp
      | cons a ls ih =>
        intro kx hk p hp hv
        cases kx with
        | nil => simp at hp
        | cons j kx =>
          simp only [List.map_cons, List.zip_cons_cons, List.mem_cons, forall_eq_or_imp] at hk hp
          rcases hp with rfl | hp
          · have := hk.1
            simp only at hv
            omega
          · exact ih kx hk.2 p hp hv
    unfold LRef.dims LRef.shape at hm
    have hrl : (llens r.subs).length = r.rank := rfl
    cases ht : r.trans
    · rw [ht] at hm
      exact key _ _ hm
    · rw [ht] at hm
      simp only [if_true] at hm ⊢
      apply key
      rw [List.map_reverse] at hm
      intro p hp
      apply hm p
      have : jx.zip ((llens r.subs).map (·.val W.ρ)).reverse =
          (jx.reverse.zip ((llens r.subs).map (·.val W.ρ))).reverse := by
        rw [← zip_reverse _ _ (by simp; omega), List.reverse_reverse]
      rw [this, List.mem_reverse]
      exact hp

theorem final (W : World) (hv : Bool) (F : Var → Bool) (l : Line)
    (hok : ∀ r ∈ l.refs, ROk W l.lhs.shape r)
    (hc : compatible hv F l.refs = true ∨ l.lhs.shape = []) :
    ∀ r ∈ l.refs, r.dims W = [] ∨ r.dims W = l.lhs.dims W := by
  intro r hr
  by_cases h0 : r.shape = []
  · exact .inl (by simp [LRef.dims, h0])
  · right
    have hne : ∀ r : LRef, r.rank = 0 ↔ r.shape = [] := by
      intro r; rw [← shape_length]; exact List.length_eq_zero_iff
    have hl0 : l.lhs.shape ≠ [] := by
      intro h
      have := (hok r hr).rank
      rw [h] at this
      exact h0 ((hne r).1 (by simpa using this))
    rcases hc with hc | hc
    · cases hv with
      | false =>
        simp only [compatible, Bool.false_eq_true, if_false, List.all_eq_true, decide_eq_true_eq] at hc
        exact absurd ((hne r).1 (hc r hr)) h0
      | true =>
        simp only [compatible, if_true, Bool.and_eq_true] at hc
        have hsame : ∀ (as : List (List Bool)) a b, same as = true → a ∈ as → b ∈ as → a = b := by
          intro as a b h ha hb
          cases as with
          | nil => simp at ha
          | cons c as =>
            simp only [same, List.all_eq_true, decide_eq_true_eq] at h
            simp only [List.mem_cons] at ha hb
            have : ∀ x, x = c ∨ x ∈ as → x = c := fun x hx => hx.elim id (h x)
            rw [this a ha, this b hb]
        have hp : pattern r = pattern l.lhs := by
          apply hsame _ _ _ hc.1
          · exact List.mem_map_of_mem (List.mem_filter.2 ⟨hr, by simp [hne, h0]⟩)
          · exact List.mem_map_of_mem (List.mem_filter.2 ⟨by simp [Line.refs], by simp [hne, hl0]⟩)
        have key : ∀ a b : List Size, a.map (fun s => decide (s = .lit 1)) =
            b.map (fun s => decide (s = .lit 1)) →
            (∀ p ∈ a.zip b, p.1.val W.ρ = 1 → p.1 = .lit 1 ∨ p.2.val W.ρ = 1) →
            (∀ p ∈ (a.map (·.val W.ρ)).zip (b.map (·.val W.ρ)), p.1 = 1 ∨ p.1 = p.2) →
            a.map (·.val W.ρ) = b.map (·.val W.ρ) := by
          intro a
          induction a with
          | nil => intro b h _ _; cases b <;> simp_all
          | cons x a ih =>
            intro b h h1 h2
            cases b with
            | nil => simp at h
            | cons y b =>
              simp only [List.map_cons, List.cons.injEq, List.zip_cons_cons, List.mem_cons,
                forall_eq_or_imp] at h h1 h2 ⊢
              refine ⟨?_, ih b h.2 h1.2 h2.2⟩
              rcases h2.1 with e | e
              · rcases h1.1 e with e' | e'
                · have hx : decide (x = Size.lit 1) = true := by simp [e']
                  rw [h.1] at hx
                  have hy : y = .lit 1 := by simpa using hx
                  rw [e', hy]
                · omega
              · exact e
        have hlen : r.shape.length = l.lhs.shape.length := by
          have := congrArg List.length hp
          simpa [pattern] using this
        apply key _ _ hp
        · have := (hok r hr).shown
          unfold Shown at this
          rwa [hlen, Nat.sub_self, List.drop_zero] at this
        · have := (hok r hr).fits.2
          unfold LRef.dims at this
          rw [List.length_map, List.length_map, hlen, Nat.sub_self, List.drop_zero] at this
          exact this
    · exact absurd hc hl0

/-- A line that is complete assigns the elements `tgt (g jx)`. -/
theorem run_line (W : World) (hv : Bool) (F : Var → Bool) (l : Line)
    (hok : ∀ r ∈ l.refs, ROk W l.lhs.shape r)
    (hc : compatible hv F l.refs = true ∨ l.lhs.shape = []) (env : Env) (st : St)
    (e : LEx) (f : LRef → LRef) (hl : l.rhs = e.map f)
    (tgt : List Nat → Loc) (pos : List Nat → LRef → Loc) (g : List Nat → List Nat)
    (ht : ∀ jx ∈ box (l.lhs.dims W), tgt (g jx) = atB W env jx l.lhs)
    (hp : ∀ jx ∈ box (l.lhs.dims W), ∀ r ∈ e.refs, pos (g jx) r = atB W env jx (f r)) :
    (Item.line l).run W env st = chunk W (act W tgt pos fun _ => e) ((box (l.lhs.dims W)).map g) st := by
  have hf := final W hv F l hok hc
  simp only [Item.run]
  rw [if_pos (show Conforms W (l.lhs.dims W) l.rhs.refs from
    fun r hr => hf r (by simp [Line.refs, hr])), ← chunk_eq]
  have e1 : (box (l.lhs.dims W)).mapM (fun jx => l.rhs.eval W env st jx) =
      ((box (l.lhs.dims W)).map g).mapM fun ix => evalWith W (pos ix) st e := by
    rw [List.mapM_map]
    apply mapM_congr
    intro jx hj
    rw [eval_eq, hl, evalWith_map]
    apply evalWith_congr
    intro r hr
    rw [hp jx hj r hr]
    apply at_eq
    rcases hf (f r) (by simp only [Line.refs, hl, refs_map]; simp; exact .inr ⟨r, hr, rfl⟩) with h | h
    · exact .inl h
    · exact .inr (h ▸ hj)
  have e2 : (box (l.lhs.dims W)).map (fun jx => l.lhs.at W env jx) =
      ((box (l.lhs.dims W)).map g).map tgt := by
    rw [List.map_map]
    apply List.map_congr_left
    intro jx hj
    rw [at_eq W env l.lhs jx (.inr hj)]
    exact (ht jx hj).symm
  rw [e1, e2]

end Verif.Vectors.Lemmas
