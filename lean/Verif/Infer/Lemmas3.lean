import Verif.Infer.Lemmas2

namespace Verif.Infer
open Verif.Types (addT)
open Verif.Types.Spec (Num)

variable {r : Num → Num → Prop}

theorem assign_has {Γ Γ' : Nat → Option STy} {x : Nat} {e : Rhs} (h : assignT Γ x e = some Γ') : ∃ T, Γ' x = some T := by
  unfold assignT at h
  split at h
  · next U _ _ => cases h; exact ⟨U, by simp [upd]⟩
  · next T _ hx _ => split at h
                     · cases h; exact ⟨T, hx⟩
                     · simp at h
  · simp at h

theorem assign_rhs {Γ Γ' : Nat → Option STy} {x : Nat} {e : Rhs} (h : assignT Γ x e = some Γ') : ∃ U, rhsT Γ e = some U := by
  unfold assignT at h
  split at h
  · next U _ hu => exact ⟨U, hu⟩
  · next U _ hu => exact ⟨U, hu⟩
  · simp at h

theorem rel2_all (hr : Cong r) {l : List (Num × Rat)} {us : List Num} {t : Num} (h : Rel2 (fun p u => r p.1 u ∧ Fits p.1 p.2) l us)
    (hu : ∀ u ∈ us, r u t) : ∀ p ∈ l, r p.1 t ∧ Fits p.1 p.2 := by
  induction l generalizing us with
  | nil => simp
  | cons p l ih => cases us with
    | nil => exact h.elim
    | cons u us =>
      intro q hq
      rcases List.mem_cons.1 hq with rfl | hq
      · exact ⟨hr.trans h.1.1 (hu u (by simp)), h.1.2⟩
      · exact ih h.2 (fun u hu' => hu u (by simp [hu'])) q hq

theorem rel2_trans (hr : Cong r) {l : List (Num × Rat)} {us ts : List Num} (h : Rel2 (fun p u => r p.1 u ∧ Fits p.1 p.2) l us)
    (hu : Rel2 r us ts) : Rel2 (fun p u => r p.1 u ∧ Fits p.1 p.2) l ts := by
  induction l generalizing us ts with
  | nil => cases us with
    | nil => cases ts with
      | nil => trivial
      | cons => exact hu.elim
    | cons => exact h.elim
  | cons p l ih => cases us with
    | nil => exact h.elim
    | cons u us => cases ts with
      | nil => exact hu.elim
      | cons t ts => exact ⟨⟨hr.trans h.1.1 hu.1, h.1.2⟩, ih h.2 hu.2⟩

theorem map_conv (hr : Cong r) {l : List (Num × Rat)} {t : Num} (h : ∀ p ∈ l, r p.1 t ∧ Fits p.1 p.2) : (l.map (·.2)).map (conv t) = l.map (·.2) := by
  induction l with
  | nil => rfl
  | cons p l ih =>
    simp only [List.map_cons]
    rw [hr.conv (h p (by simp)).1 (h p (by simp)).2, ih (fun q hq => h q (by simp [hq]))]

theorem zip_conv (hr : Cong r) {l : List (Num × Rat)} {ts : List Num} (h : Rel2 (fun p u => r p.1 u ∧ Fits p.1 p.2) l ts) :
    List.zipWith conv ts (l.map (·.2)) = l.map (·.2) := by
  induction l generalizing ts with
  | nil => simp
  | cons p l ih => cases ts with
    | nil => exact h.elim
    | cons t ts =>
      simp only [List.map_cons, List.zipWith_cons_cons]
      rw [hr.conv h.1.1 h.1.2, ih h.2]

theorem sim_upd {Δ : Nat → Option STy} {env : Nat → Option PVal} {cenv d : Nat → Option (List Rat)} (hs : Sim r Δ env cenv) {x : Nat} {v : PVal}
    {T : STy} (hT : Δ x = some T) (hv : HasTy r v T) (hd : d x = some v.nums) (ho : ∀ y, y ≠ x → d y = cenv y) : Sim r Δ (upd env x v) d := by
  intro y
  by_cases hy : y = x
  · subst hy
    simp only [upd, if_true]
    exact ⟨T, hT, hv, hd⟩
  · simp only [upd, if_neg hy, ho y hy]
    exact hs y

theorem cAssign_plain {T : STy} {x : Nat} {e : Rhs} {c : Nat → Option (List Rat)} {l : List Rat} (h : cRhs c e = some l)
    (hn : ¬ ((∃ ts, T = .tup ts) ∧ (∃ es, e = .tup es) ∧ c x ≠ none)) : cAssign T x e c = some (upd c x (convs T l)) := by
  unfold cAssign
  split
  · next hx => exact absurd ⟨⟨_, rfl⟩, ⟨_, rfl⟩, by simp [hx]⟩ hn
  · simp [h]

/-- An assignment. -/
theorem assign_ok (hr : Cong r) {Γ Γ' Δ : Nat → Option STy} {x : Nat} {e : Rhs} {T : STy} (hi : assignT Γ x e = some Γ') (hx : Ext Γ' Δ)
    (hT : Γ' x = some T) (hS : StrictA r Γ x e T) {env : Nat → Option PVal} {cenv : Nat → Option (List Rat)} (hs : Sim r Δ env cenv) {v : PVal}
    (h : pyRhs env e = some v) : ∃ d, cAssign T x e cenv = some d ∧ Sim r Δ (upd env x v) d := by
  have hx' : Ext Γ Δ := (assign_ext hi).trans hx
  have hD := hx _ _ hT
  obtain ⟨U, hU⟩ := assign_rhs hi
  have plain : ∀ {l : List Rat}, cRhs cenv e = some l → ¬ ((∃ ts, T = .tup ts) ∧ (∃ es, e = .tup es) ∧ cenv x ≠ none) → HasTy r v T →
      convs T l = v.nums → ∃ d, cAssign T x e cenv = some d ∧ Sim r Δ (upd env x v) d := by
    intro l h1 h2 h3 h4
    exact ⟨_, cAssign_plain h1 h2, sim_upd hs hD h3 (by simp [upd, h4]) (fun y hy => by simp [upd, hy])⟩
  unfold StrictA at hS
  split at hS
  · next e t =>
    simp only [pyRhs, Option.map_eq_some_iff] at h
    obtain ⟨⟨d, q⟩, h1, rfl⟩ := h
    simp only [rhsT, Option.map_eq_some_iff] at hU
    obtain ⟨u, hu, -⟩ := hU
    obtain ⟨a1, a2, a3⟩ := eval_ok hr hx' hs hu hS.1 h1
    have hrt := hr.trans a1 (hS.2 u hu)
    exact plain (l := [q]) (by simp [cRhs, a3]) (by simp) ⟨hrt, a2⟩ (by simp [convs, PVal.nums, hr.conv hrt a2])
  · next es t n =>
    simp only [pyRhs, Option.map_eq_some_iff] at h
    obtain ⟨l, h1, rfl⟩ := h
    simp only [rhsT, Option.bind_eq_some_iff] at hU
    obtain ⟨us, hu, -⟩ := hU
    obtain ⟨a1, a2⟩ := evals_ok hr hx' hs hu hS.1 h1
    have := rel2_all hr a1 (hS.2 us hu)
    exact plain a2 (by simp) this (map_conv hr this)
  · next es ts =>
    simp only [pyRhs, Option.map_eq_some_iff] at h
    obtain ⟨l, h1, rfl⟩ := h
    simp only [rhsT, Option.bind_eq_some_iff] at hU
    obtain ⟨us, hu, -⟩ := hU
    obtain ⟨a1, a2⟩ := evals_ok hr hx' hs hu (fun e he => (hS.1 e he).1) h1
    have h2 := rel2_trans hr a1 (hS.2 us hu)
    by_cases hc : cenv x = none
    · exact plain a2 (by simp [hc]) h2 (zip_conv hr h2)
    · have hv := hs x
      split at hv
      · exact absurd hv hc
      · next v' hv' =>
        obtain ⟨T', t1, t2, t3⟩ := hv
        rw [hD] at t1
        cases t1
        have hlen : v'.nums.length = ts.length := by
          cases v' with
          | tup l' => simp [PVal.nums, rel2_length t2]
          | num => exact t2.elim
          | list => exact t2.elim
        have hes : es.length = ts.length := by
          rw [← rel2_length h2]
          clear h2 a1 a2 hS hu hi hlen hT hD t2 plain us
          induction es generalizing l with
          | nil => cases h1; rfl
          | cons e es ih =>
            simp only [pyEvals] at h1
            split at h1
            · next e2 => cases h1; simp [ih _ e2]
            · simp at h1
        obtain ⟨d, d1, d2, d3⟩ := storeEach_ok (x := x) hes (i := 0) (c := cenv) (c' := cenv) (fun _ _ => rfl) t3
          (by simp [hlen, hes]) (fun e he => (hS.1 e he).2) a2
        refine ⟨d, ?_, sim_upd hs hD h2 ?_ d3⟩
        · simp only [cAssign, t3]
          exact d1
        · rw [d2, zip_conv hr h2]
          simp [PVal.nums]
  · next es t =>
    simp only [pyRhs, Option.map_eq_some_iff] at h
    obtain ⟨l, h1, rfl⟩ := h
    simp only [rhsT, Option.bind_eq_some_iff] at hU
    obtain ⟨us, hu, -⟩ := hU
    obtain ⟨a1, a2⟩ := evals_ok hr hx' hs hu hS.1 h1
    have := rel2_all hr a1 (hS.2 us hu)
    exact plain a2 (by simp) this (map_conv hr this)
  · next y t n =>
    obtain ⟨u, m, hy, hut⟩ := hS
    simp only [pyRhs] at h
    split at h
    · next l hl =>
      cases h
      have hv := hs y
      rw [hl] at hv
      obtain ⟨T', t1, t2, t3⟩ := hv
      rw [hx' _ _ hy] at t1
      cases t1
      have : ∀ p ∈ l, r p.1 t ∧ Fits p.1 p.2 := fun p hp => ⟨hr.trans (t2 p hp).1 hut, (t2 p hp).2⟩
      exact plain (by simpa [cRhs, PVal.nums] using t3) (by simp) this (map_conv hr this)
    · simp at h
  · next y ts =>
    obtain ⟨us, hy, hut⟩ := hS
    simp only [pyRhs] at h
    split at h
    · next l hl =>
      cases h
      have hv := hs y
      rw [hl] at hv
      obtain ⟨T', t1, t2, t3⟩ := hv
      rw [hx' _ _ hy] at t1
      cases t1
      have := rel2_trans hr t2 hut
      exact plain (by simpa [cRhs, PVal.nums] using t3) (by simp) this (zip_conv hr this)
    · simp at h
  · exact hS.elim

theorem cond_ok (hr : Cong r) {Γ Δ : Nat → Option STy} (hx : Ext Γ Δ) {env : Nat → Option PVal} {cenv : Nat → Option (List Rat)}
    (hs : Sim r Δ env cenv) {e : Expr} {t : Num} {b : Bool} (hT : typ Γ e = some t) (hS : StrictE r Γ e) (h : pyCond env e = some b) :
    cCond cenv e = some b := by
  simp only [pyCond, Option.map_eq_some_iff] at h
  obtain ⟨⟨d, q⟩, h1, rfl⟩ := h
  obtain ⟨-, -, h3⟩ := eval_ok hr hx hs hT hS h1
  simp [cCond, h3]

theorem iter_ok {σ τ : Type} {R : σ → τ → Prop} {c : σ → Option Bool} {c' : τ → Option Bool} {f : σ → Option (Bool × σ)} {f' : τ → Option (Bool × τ)}
    (hc : ∀ {s t b}, R s t → c s = some b → c' t = some b) (hf : ∀ {s t b s'}, R s t → f s = some (b, s') → ∃ t', f' t = some (b, t') ∧ R s' t')
    {n : Nat} {s : σ} {t : τ} {b : Bool} {s' : σ} (hR : R s t) (h : iter c f n s = some (b, s')) : ∃ t', iter c' f' n t = some (b, t') ∧ R s' t' := by
  induction n generalizing s t with
  | zero => simp [iter] at h
  | succ n ih =>
    simp only [iter] at h ⊢
    split at h
    · simp at h
    · next hb => cases h; rw [hc hR hb]; exact ⟨t, rfl, hR⟩
    · next hb =>
      rw [hc hR hb]
      split at h
      · next s1 e1 =>
        obtain ⟨t1, e2, hR'⟩ := hf hR e1
        rw [e2]
        exact ih hR' h
      · next hne =>
        obtain ⟨t1, e2, hR'⟩ := hf hR h
        cases b with
        | false => exact absurd h (hne s')
        | true => rw [e2]; exact ⟨t1, rfl, hR'⟩

/-- The generated program does what Python does. -/
theorem run_ok (hr : Cong r) {n : Nat} {s : Stmt} {Γ Γ' Δ : Nat → Option STy} (hi : infer Γ s = some Γ') (hx : Ext Γ' Δ) (hS : Strict r Γ s)
    {env env' : Nat → Option PVal} {cenv : Nat → Option (List Rat)} (hs : Sim r Δ env cenv) {b : Bool} (h : pyRun n s env = some (b, env')) :
    ∃ cenv', cRun Δ n s cenv = some (b, cenv') ∧ Sim r Δ env' cenv' := by
  induction s generalizing Γ Γ' env env' cenv b with
  | skip => cases h; exact ⟨cenv, rfl, hs⟩
  | assign x e =>
    simp only [pyRun, Option.map_eq_some_iff] at h
    obtain ⟨v, h1, h2⟩ := h
    cases h2
    obtain ⟨T, hT⟩ := assign_has hi
    obtain ⟨d, d1, d2⟩ := assign_ok hr hi hx hT (hS _ _ hi hT) hs h1
    exact ⟨d, by simp [cRun, hx _ _ hT, d1], d2⟩
  | ret e =>
    simp only [pyRun, Option.map_eq_some_iff] at h
    obtain ⟨v, h1, h2⟩ := h
    cases h2
    obtain ⟨T, hT⟩ := assign_has hi
    obtain ⟨d, d1, d2⟩ := assign_ok hr hi hx hT (hS _ _ hi hT) hs h1
    exact ⟨d, by simp [cRun, hx _ _ hT, d1], d2⟩
  | setElem x i e =>
    simp only [infer] at hi
    split at hi
    · next t u e1 e2 =>
      cases hi
      simp only [pyRun] at h
      split at h
      · next l v e3 e4 =>
        split at h
        · next hl =>
          cases h
          obtain ⟨a1, a2, a3⟩ := eval_ok hr hx hs e2 hS.1 (d := v.1) (q := v.2) e4
          have hrt := hr.trans a1 (hS.2 _ _ e1 e2)
          have hv := hs x
          rw [e3] at hv
          obtain ⟨T, t1, t2, t3⟩ := hv
          have hD := hx _ _ e1
          rw [hD] at t1
          cases t1
          refine ⟨_, by simp only [cRun, hD, t3, a3, PVal.nums, List.length_map, if_pos hl]; rfl, ?_⟩
          refine sim_upd hs hD (T := .list t) ?_ ?_ (fun y hy => by simp [upd, hy])
          · intro p hp
            rcases List.mem_or_eq_of_mem_set hp with h | rfl
            · exact t2 p h
            · exact ⟨hrt, a2⟩
          · simp [upd, PVal.nums, hr.conv hrt a2, List.map_set]
        · simp at h
      · simp at h
    · simp at hi
  | aug x o e =>
    simp only [infer] at hi
    split at hi
    · next t u e1 e2 =>
      split at hi
      · next w e3 =>
        split at hi
        · cases hi
          simp only [pyRun, Option.map_eq_some_iff] at h
          obtain ⟨⟨d, q⟩, h1, h2⟩ := h
          cases h2
          have hT : typ Γ (.bin o (.var x) e) = some w := by simp only [typ, e1, e2, e3]
          obtain ⟨a1, a2, a3⟩ := eval_ok hr hx hs hT ⟨trivial, hS.1⟩ h1
          have hrt := hr.trans a1 (hS.2 _ _ _ e1 e2 e3)
          have hD := hx _ _ e1
          refine ⟨_, by simp only [cRun, hD, a3]; rfl, ?_⟩
          exact sim_upd hs hD (T := .num t) ⟨hrt, a2⟩ (by simp [upd, PVal.nums, hr.conv hrt a2]) (fun y hy => by simp [upd, hy])
        · simp at hi
      · simp at hi
    · simp at hi
  | seq a c iha ihc =>
    simp only [infer, Option.bind_eq_some_iff] at hi
    obtain ⟨Γ1, h1, h2⟩ := hi
    simp only [pyRun] at h
    split at h
    · next e1 ha =>
      obtain ⟨c1, k1, k2⟩ := iha h1 ((infer_ext h2).trans hx) hS.1 hs ha
      obtain ⟨c2, k3, k4⟩ := ihc h2 hx (hS.2 _ h1) k2 h
      exact ⟨c2, by simp only [cRun, k1, k3], k4⟩
    · next hne =>
      obtain ⟨c1, k1, k2⟩ := iha h1 ((infer_ext h2).trans hx) hS.1 hs h
      cases b with
      | false => exact absurd h (hne env')
      | true => exact ⟨c1, by simp only [cRun, k1], k2⟩
  | ite p a c iha ihc =>
    simp only [infer] at hi
    split at hi
    · next t ht =>
      simp only [Option.bind_eq_some_iff] at hi
      obtain ⟨Γ1, h1, h2⟩ := hi
      have hx1 := (infer_ext h2).trans hx
      simp only [pyRun] at h
      split at h
      · next hp =>
        obtain ⟨c1, k1, k2⟩ := iha h1 hx1 hS.2.1 hs h
        exact ⟨c1, by simp only [cRun, cond_ok hr ((infer_ext h1).trans hx1) hs ht hS.1 hp, k1], k2⟩
      · next hp =>
        obtain ⟨c1, k1, k2⟩ := ihc h2 hx (hS.2.2 _ h1) hs h
        exact ⟨c1, by simp only [cRun, cond_ok hr ((infer_ext h1).trans hx1) hs ht hS.1 hp, k1], k2⟩
      · simp at h
    · simp at hi
  | loop p a iha =>
    simp only [infer] at hi
    split at hi
    · next t ht =>
      exact iter_ok (R := Sim r Δ) (fun hs hp => cond_ok hr ((infer_ext hi).trans hx) hs ht hS.1 hp) (fun hs h => iha hi hx hS.2 hs h) hs h
    · simp at hi

/-! ### The relations -/

theorem cong_eq : Cong (fun a b : Num => a = b) where
  trans := fun h h' => h.trans h'
  size := fun h => by subst h; exact ⟨rfl, rfl⟩
  op := fun h h' => by subst h; subst h'; rfl

/-- The types of Python and the NumPy types of the same size. -/
def wide (t : Num) : Bool := t.python || t = .i64 || t = .f64 || t = .c128

/-- Equal types (in the sense of pyccel), both of them wide. -/
def WideEq (a b : Num) : Prop := wide a = true ∧ wide b = true ∧ eqT a b = true

instance (a b : Num) : Decidable (WideEq a b) := by unfold WideEq; infer_instance

theorem cong_wide : Cong WideEq where
  trans := fun {a b c} => by revert a b c; decide +kernel
  size := fun {a b} => by revert a b; decide +kernel
  op := fun {a a' b b'} h => by
    have : ∀ a a', WideEq a a' → ∀ b b', WideEq b b' → WideEq (dynT a b) (dynT a' b') := by decide +kernel
    exact fun h' => this a a' h b b' h'

end Verif.Infer
