import Verif.Imports.LemmasEnd

/-! # Programs of several files: whole programs -/

namespace Verif.Imports.Model
open Spec

variable {W : Type} {P : Project W} {D : Nat} {F : File}

theorem py_append {f : File} {t : List (Stmt W)} : ∀ {s : List (Stmt W)} {n : Nat} {a c : Py W},
    py P n f (block (s ++ t)) a = some c →
    ∃ b m, py P n f (block s) a = some b ∧ py P m f (block t) b = some c
  | _, 0, _, _, H => by cases H
  | [], n + 1, a, c, H => ⟨a, n + 1, rfl, H⟩
  | x :: s, n + 1, a, c, H => by
    rw [List.cons_append] at H
    unfold block py at H
    cases hx : py P n f x a with
    | none => rw [hx] at H; cases H
    | some a1 =>
      rw [hx] at H
      obtain ⟨b, m, h1, h2⟩ := py_append H
      refine ⟨b, m, ?_, h2⟩
      unfold block py
      rw [hx]
      exact h1

theorem runMain_sim {c : CFile W} (hM : compile P D F = some c) (hc : Consistent P)
    (ht : ∀ g, Reaches P F g → (P.src g).Tidy) (ha : (P.src F).after = []) {n : Nat} {w : W} {st : Py W}
    (H : pyRun P n F w = some st) :
    ∃ k ct, runMain (compile P D) k F w = some ct ∧ Sim (compile P D) [] st ct := by
  unfold pyRun at H
  rw [ha, List.append_nil] at H
  obtain ⟨st1, m, h1, h2⟩ := py_append H
  have hM' : ∃ c, compile P D F = some c := ⟨c, hM⟩
  have hs0 : Sim (compile P D) [] (⟨[], w⟩ : Py W) (⟨[], w, []⟩ : CSt W) :=
    ⟨rfl, fun g c _ _ => by simp⟩
  have hb : py P n F (block ((P.src F).body ++ (P.src F).after)) { (⟨[], w⟩ : Py W) with loaded := F :: [] } = some st1 := by
    rw [ha, List.append_nil]; exact h1
  have hload := sim_load hM' ht (sim_all hM' hc ht (n + 1) n (Nat.lt_succ_self n)).2 (Reaches.refl F)
    (fun _ h => by cases h) hM hs0 (by simp) hb
  -- the block that only the main program has
  obtain ⟨d, hd, hass⟩ := compile_fix hM
  obtain ⟨_, mm, _, hmain, _, hcm, _⟩ := assemble_parts hass
  have hmainSim : ∀ ct, Sim (compile P D) [] st1 ct →
      ∃ ct', Runs (compile P D) F c.main ct ct' ∧ Sim (compile P D) [] st ct' := by
    intro ct hsim
    unfold trBlock at hmain
    cases hi : inits d (compile P D) [] (imports (P.src F).main) with
    | none => rw [hi] at hmain; cases hmain
    | some r =>
      rw [hi] at hmain
      dsimp only at hmain
      cases htr : trs d F ((imports ((P.src F).body ++ (P.src F).after)).map (·.1) ++ (imports (P.src F).main).map (·.1))
          (P.src F).main with
      | none => rw [htr] at hmain; cases hmain
      | some cs =>
        rw [htr] at hmain
        cases hmain
        rw [hcm]
        exact (sim_all hM' hc ht (m + 1) m (Nat.lt_succ_self m)).2 F d [] [] _ r cs _ st1 st ct (Reaches.refl F) hd (by
          intro x hx
          rcases List.mem_append.mp hx with hx | hx
          · obtain ⟨⟨y, a⟩, h6, rfl⟩ := List.mem_map.mp hx
            exact ⟨a, imports_body h6⟩
          · obtain ⟨⟨y, a⟩, h6, rfl⟩ := List.mem_map.mp hx
            exact ⟨a, imports_main h6⟩) (fun x a h6 => imports_main h6) (fun _ h => by cases h) hi htr
          (ht F (Reaches.refl F)).2.1.1 (ht F (Reaches.refl F)).2.1.2 (fun _ _ _ _ h => absurd h List.not_mem_nil) hsim h2
  rcases hload with ⟨cur, ct1, hi, hr, hs⟩ | ⟨hi, hs⟩
  · obtain ⟨k1, hk1⟩ := hr.init_cur (f' := F)
    obtain ⟨ct2, ⟨k2, hk2⟩, hs2⟩ := hmainSim ct1 hs
    refine ⟨max k1 k2, ct2, ?_, hs2⟩
    unfold runMain
    rw [hM]
    dsimp only
    rw [if_pos hi, cx_le hk1 (Nat.le_max_left k1 k2)]
    exact cx_le hk2 (Nat.le_max_right k1 k2)
  · obtain ⟨ct2, ⟨k2, hk2⟩, hs2⟩ := hmainSim _ hs
    refine ⟨k2, ct2, ?_, hs2⟩
    unfold runMain
    rw [hM]
    dsimp only
    rw [if_neg (by rw [hi]; simp)]
    exact hk2

theorem runMain_det {M : File → Option (CFile W)} {n m : Nat} {f : File} {w : W} {a b : CSt W}
    (H : runMain M n f w = some a) (H' : runMain M m f w = some b) : a = b := by
  unfold runMain at H H'
  cases hM : M f with
  | none => rw [hM] at H; cases H
  | some c =>
    rw [hM] at H H'
    dsimp only at H H'
    by_cases hi : c.init.isSome = true
    · rw [if_pos hi] at H H'
      cases h1 : cx M n f (.init f) ⟨[], w, []⟩ with
      | none => rw [h1] at H; cases H
      | some s1 =>
        cases h2 : cx M m f (.init f) ⟨[], w, []⟩ with
        | none => rw [h2] at H'; cases H'
        | some s2 =>
          rw [h1] at H
          rw [h2] at H'
          have := cx_det h1 h2
          subst this
          exact cx_det H H'
    · rw [if_neg hi] at H H'
      exact cx_det H H'

theorem run_parts {M : File → Option (CFile W)} {n : Nat} {f : File} {w : W} {ct : CSt W} (H : run M n f w = some ct) :
    ∃ c ct0, M f = some c ∧ runMain M n f w = some ct0 ∧
      ((c.free.isSome = true ∧ fr M n f ct0 = some ct) ∨ (c.free.isSome = false ∧ ct = ct0)) := by
  unfold run at H
  cases hM : M f with
  | none => rw [hM] at H; cases H
  | some c =>
    cases hr : runMain M n f w with
    | none => rw [hM, hr] at H; cases H
    | some ct0 =>
      rw [hM, hr] at H
      dsimp only at H
      by_cases hf : c.free.isSome = true
      · rw [if_pos hf] at H
        exact ⟨c, ct0, rfl, rfl, Or.inl ⟨hf, H⟩⟩
      · rw [if_neg hf] at H
        cases H
        exact ⟨c, _, rfl, rfl, Or.inr ⟨by simpa using hf, rfl⟩⟩

theorem fr_w {c : CFile W} (hM : compile P D F = some c) (hf : c.free.isSome = true) {n : Nat} {a b : CSt W}
    (H : fr (compile P D) n F a = some b) : b.w = a.w := by
  obtain ⟨m, b', h1, h2⟩ := fr_total (rk P D F + 1) (Nat.lt_succ_self _) hM hf a
  have h3 := fr_le H (Nat.le_max_left n m)
  have h4 := fr_le h1 (Nat.le_max_right n m)
  rw [h3] at h4
  cases h4
  exact h2

theorem run_sim {c : CFile W} (hM : compile P D F = some c) (hc : Consistent P)
    (ht : ∀ g, Reaches P F g → (P.src g).Tidy) (ha : (P.src F).after = []) {n : Nat} {w : W} {st : Py W}
    (H : pyRun P n F w = some st) :
    (∃ k ct, run (compile P D) k F w = some ct) ∧ ∀ k ct, run (compile P D) k F w = some ct → ct.w = st.w := by
  obtain ⟨k, ct, h1, h2⟩ := runMain_sim hM hc ht ha H
  constructor
  · by_cases hf : c.free.isSome = true
    · obtain ⟨m, ct', h3, _⟩ := fr_total (rk P D F + 1) (Nat.lt_succ_self _) hM hf ct
      refine ⟨max k m, ct', ?_⟩
      unfold run
      have h4 : runMain (compile P D) (max k m) F w = some ct := by
        unfold runMain at h1 ⊢
        rw [hM] at h1 ⊢
        dsimp only at h1 ⊢
        by_cases hi : c.init.isSome = true
        · rw [if_pos hi] at h1 ⊢
          cases h5 : cx (compile P D) k F (.init F) ⟨[], w, []⟩ with
          | none => rw [h5] at h1; cases h1
          | some s1 =>
            rw [h5] at h1
            rw [cx_le h5 (Nat.le_max_left k m)]
            exact cx_le h1 (Nat.le_max_left k m)
        · rw [if_neg hi] at h1 ⊢
          exact cx_le h1 (Nat.le_max_left k m)
      rw [hM, h4]
      dsimp only
      rw [if_pos hf]
      exact fr_le h3 (Nat.le_max_right k m)
    · refine ⟨k, ct, ?_⟩
      unfold run
      rw [hM, h1]
      dsimp only
      rw [if_neg hf]
  · intro k' ct' h3
    obtain ⟨c', ct0, h4, h5, h6⟩ := run_parts h3
    have := runMain_det h1 h5
    subst this
    rcases h6 with ⟨h6, h7⟩ | ⟨_, rfl⟩
    · rw [hM] at h4
      cases h4
      rw [fr_w hM h6 h7]
      exact h2.w
    · exact h2.w

/-! ## Memory -/

theorem gen_main {c : CFile W} (hM : compile P D F = some c) : Gen P D F c.main := by
  obtain ⟨d, hd, ha⟩ := compile_fix hM
  obtain ⟨_, m, _, h2, _, h4, _⟩ := assemble_parts ha
  rw [h4]
  exact gen_cblock (gen_trBlock hd h2)

/-- The initialisation of the program itself. -/
theorem init_parts {c : CFile W} (hM : compile P D F = some c) {n : Nat} {w : W} {ct : CSt W}
    (hn : ∀ g, ((P.src g).allocs.map (·.1)).Nodup) (H : cx (compile P D) n F (.init F) ⟨[], w, []⟩ = some ct) :
    ∃ d b m ct1, parse P D F = some d ∧
      trBlock d (compile P D) F ((imports ((P.src F).body ++ (P.src F).after)).map (·.1))
        ((P.src F).body ++ (P.src F).after) = some b ∧
      cx (compile P D) m F (cblock b) ⟨[], w, []⟩ = some ct1 ∧ Inv P ct1 ∧ F ∉ ct1.ini ∧
      ct = { ct1 with ini := F :: ct1.ini, freed := ct1.freed ++ (temps P F).map fun v => (F, v) } ∧ Inv P ct := by
  cases n with
  | zero => cases H
  | succ n =>
    unfold cx at H
    rw [hM] at H
    dsimp only at H
    cases hi : c.init with
    | none => rw [hi] at H; cases H
    | some b0 =>
      rw [hi] at H
      dsimp only at H
      rw [if_neg List.not_mem_nil] at H
      obtain ⟨d, hd, ha⟩ := compile_fix hM
      obtain ⟨bb, _, h1, _, _, _, h2⟩ := assemble_parts ha
      rcases h2 with ⟨_, h2, _⟩ | ⟨_, ts, rs, hsp, h2, _⟩
      · rw [hi] at h2; cases h2
      · rw [hi] at h2
        cases h2
        cases hrun : cx (compile P D) n F (cblock (bb ++ ts.map .free)) ⟨[], w, []⟩ with
        | none => rw [hrun] at H; cases H
        | some r =>
          rw [hrun] at H
          cases H
          obtain ⟨ct1, m, h3, h4, h5⟩ := cx_append hrun
          have hinv : Inv P (⟨[], w, []⟩ : CSt W) := ⟨fun g v => by simp, List.nodup_nil⟩
          obtain ⟨i1, _, i3⟩ := cx_inv hn ⟨c, hM⟩ (gen_cblock (gen_trBlock hd h1)) hinv h3
          have hF : F ∉ ct1.ini := by
            intro h
            rcases i3 F h with h | h
            · cases h
            · omega
          have hts : ts = temps P F := by unfold temps; rw [hsp]; rfl
          have htn : (temps P F).Nodup := by
            have := (split_perm hsp).nodup_iff.mpr (hn F)
            rw [← hts]
            exact (List.nodup_append.mp this).1
          refine ⟨d, bb, n, ct1, hd, h1, h3, i1, hF, ?_, ?_⟩
          · rw [cx_frees h4, hts]
          · rw [cx_frees h4, hts]
            exact nodup_frees i1 hF htn

theorem runMain_inv {c : CFile W} (hM : compile P D F = some c) (hn : ∀ g, ((P.src g).allocs.map (·.1)).Nodup)
    {n : Nat} {w : W} {ct : CSt W} (H : runMain (compile P D) n F w = some ct) :
    Inv P ct ∧ (c.init.isSome = true → F ∈ ct.ini) ∧
      (Consistent P → (∀ g, Reaches P F g → OneName (imports ((P.src g).body ++ (P.src g).after))) → Cl P D ct) := by
  unfold runMain at H
  rw [hM] at H
  dsimp only at H
  by_cases hi : c.init.isSome = true
  · rw [if_pos hi] at H
    cases h1 : cx (compile P D) n F (.init F) ⟨[], w, []⟩ with
    | none => rw [h1] at H; cases H
    | some s1 =>
      rw [h1] at H
      dsimp only at H
      obtain ⟨d, b, m, ct1, hd, hb, hrun, hi1, hF, he, hi2⟩ := init_parts hM hn h1
      obtain ⟨j1, j2, _⟩ := cx_inv hn ⟨c, hM⟩ (gen_main hM) hi2 H
      refine ⟨j1, fun _ => j2 F (cx_init_mem h1), fun hc hone => ?_⟩
      have hgb := gen_trBlock hd hb
      have hinv : Inv P (⟨[], w, []⟩ : CSt W) := ⟨fun g v => by simp, List.nodup_nil⟩
      have hcl1 := cx_closed hc hn hone (Reaches.refl F) ⟨c, hM⟩ (gen_cblock hgb) hinv
        (fun g hg => by cases hg) hrun
      refine cx_closed hc hn hone (Reaches.refl F) ⟨c, hM⟩ (gen_main hM) hi2 ?_ H
      rw [he]
      intro k hk h c' ht hh hci
      rcases List.mem_cons.mp hk with rfl | hk
      · have := block_init hn hM hgb hinv (top_init (c := c) hc hd hb (hone _ (Reaches.refl _)) ht hh hci) hrun
        exact List.mem_cons_of_mem _ this
      · exact List.mem_cons_of_mem _ (hcl1 k hk h c' ht hh hci)
  · rw [if_neg hi] at H
    have hinv : Inv P (⟨[], w, []⟩ : CSt W) := ⟨fun g v => by simp, List.nodup_nil⟩
    obtain ⟨j1, _, _⟩ := cx_inv hn ⟨c, hM⟩ (gen_main hM) hinv H
    exact ⟨j1, fun h => absurd h hi, fun hc hone =>
      cx_closed hc hn hone (Reaches.refl F) ⟨c, hM⟩ (gen_main hM) hinv (fun g hg => by cases hg) H⟩

theorem run_finv {c : CFile W} (hM : compile P D F = some c) (hn : ∀ g, ((P.src g).allocs.map (·.1)).Nodup)
    {n : Nat} {w : W} {ct : CSt W} (H : run (compile P D) n F w = some ct) :
    ∃ ct0, runMain (compile P D) n F w = some ct0 ∧ FInv P D ct0.ini ct ∧ (c.free.isSome = true → F ∉ ct.ini) := by
  obtain ⟨c', ct0, h1, h2, h3⟩ := run_parts H
  rw [hM] at h1
  cases h1
  obtain ⟨hinv, _, _⟩ := runMain_inv hM hn h2
  have h0 : FInv P D ct0.ini ct0 := by
    refine ⟨hinv.nodup, fun g v => ?_, fun _ h => h, fun g h1 h2 => absurd h1 h2⟩
    rw [hinv.freed g v]
    constructor
    · exact fun h => ⟨h.1, Or.inl h.2⟩
    · rintro ⟨h4, h5 | ⟨h5, _⟩⟩
      · exact ⟨h4, h5⟩
      · exact absurd h4 h5
  refine ⟨ct0, h2, ?_⟩
  rcases h3 with ⟨h3, h4⟩ | ⟨h3, rfl⟩
  · obtain ⟨i1, _, i3, _, _⟩ := fr_inv hn h0 h4
    exact ⟨i1, fun _ => i3⟩
  · exact ⟨h0, fun h => by rw [h3] at h; cases h⟩

theorem container_key : ∀ {is : List (Name × Name)} {x a : Name}, (x, a) ∈ is → ∃ y, (y, a) ∈ container is := by
  have ins : ∀ {l : List (Name × Name)} {x a : Name}, (x, a) ∈ insertImp x a l := by
    intro l x a
    induction l with
    | nil => exact List.mem_cons_self
    | cons q l ih =>
      unfold insertImp
      split
      · exact List.mem_cons_self
      · exact List.mem_cons_of_mem _ ih
  have keep : ∀ {l : List (Name × Name)} {x a y b : Name}, (y, b) ∈ l → ∃ z, (z, b) ∈ insertImp x a l := by
    intro l x a y b h
    induction l with
    | nil => cases h
    | cons q l ih =>
      obtain ⟨u, v⟩ := q
      unfold insertImp
      split
      · rename_i hv
        rcases List.mem_cons.mp h with h | h
        · cases h
          exact ⟨x, by rw [hv]; exact List.mem_cons_self⟩
        · exact ⟨y, List.mem_cons_of_mem _ h⟩
      · rcases List.mem_cons.mp h with h | h
        · cases h; exact ⟨y, List.mem_cons_self⟩
        · obtain ⟨z, hz⟩ := ih h
          exact ⟨z, List.mem_cons_of_mem _ hz⟩
  have fold : ∀ {is l : List (Name × Name)} {a : Name}, ((∃ y, (y, a) ∈ l) ∨ ∃ x, (x, a) ∈ is) →
      ∃ y, (y, a) ∈ is.foldl (fun c i => insertImp i.1 i.2 c) l := by
    intro is
    induction is with
    | nil =>
      rintro l a (h | ⟨x, h⟩)
      · exact h
      · cases h
    | cons q is ih =>
      rintro l a (⟨y, h⟩ | ⟨x, h⟩)
      · exact ih (Or.inl (keep h))
      · rcases List.mem_cons.mp h with h | h
        · subst h
          exact ih (Or.inl ⟨x, ins⟩)
        · exact ih (Or.inr ⟨x, h⟩)
  intro is x a h
  exact fold (Or.inr ⟨x, h⟩)

theorem mem_frees {d : Dict} {M : File → Option (CFile W)} {x : Name} {g : File} {c : CFile W}
    (hx : d.lookup x = some g) (hg : M g = some c) (hf : c.free.isSome = true) :
    ∀ {is : List (Name × Name)}, (x, x) ∈ is → g ∈ frees d M is
  | [], h => by cases h
  | (y, b) :: is, h => by
    unfold frees
    rcases List.mem_cons.mp h with h | h
    · cases h
      rw [hx]
      dsimp only
      rw [if_pos (show (some g).isSome = true from rfl), hg]
      dsimp only
      rw [if_pos hf]
      exact List.mem_cons_self
    · have ih := mem_frees hx hg hf h
      split
      · split
        · exact ih
        · split
          · split
            · exact List.mem_cons_of_mem _ ih
            · exact ih
          · exact ih
      · exact ih

theorem all_skip_not {b : List (CStmt W)} {g : File} (h : .init g ∈ b) : b.all isSkip = false := by
  cases hb : b.all isSkip with
  | false => rfl
  | true => exact absurd (List.all_eq_true.mp hb _ h) (by simp [isSkip])

theorem init_up (hc : Consistent P) {g h : File} {cg ch : CFile W} (hg : compile P D g = some cg)
    (hone : OneName (imports ((P.src g).body ++ (P.src g).after))) (ht : Top P g h)
    (hh : compile P D h = some ch) (hi : ch.init.isSome = true) : cg.init.isSome = true := by
  obtain ⟨d, hd, ha⟩ := compile_fix hg
  obtain ⟨b, _, h1, _, _, _, h2⟩ := assemble_parts ha
  have := all_skip_not (top_init (c := cg) hc hd h1 hone ht hh hi)
  rcases h2 with ⟨h2, _, _⟩ | ⟨_, ts, rs, _, h2, _⟩
  · rw [this] at h2; cases h2
  · rw [h2]; rfl

theorem free_init {g : File} {cg : CFile W} (hg : compile P D g = some cg) (hf : cg.free.isSome = true) :
    cg.init.isSome = true := by
  obtain ⟨d, hd, ha⟩ := compile_fix hg
  obtain ⟨b, _, h1, _, _, _, h2⟩ := assemble_parts ha
  rcases h2 with ⟨_, _, h2⟩ | ⟨_, ts, rs, _, h2, _⟩
  · rw [h2] at hf; cases hf
  · rw [h2]; rfl

theorem free_up (hc : Consistent P) {g h : File} {cg ch : CFile W} (hg : compile P D g = some cg)
    (hone : OneName (imports ((P.src g).body ++ (P.src g).after))) (ht : Plain P g h)
    (hh : compile P D h = some ch) (hi : ch.free.isSome = true) : cg.free.isSome = true ∧ h ∈ freesOf P D g := by
  obtain ⟨x, h1, h2⟩ := ht
  have hinit := init_up hc hg hone ⟨x, x, h1, h2⟩ hh (free_init hh hi)
  obtain ⟨d, hd, ha⟩ := compile_fix hg
  obtain ⟨b, _, _, _, _, _, h3⟩ := assemble_parts ha
  rcases h3 with ⟨_, h3, _⟩ | ⟨_, ts, rs, _, _, h3⟩
  · rw [h3] at hinit; cases hinit
  · have hm : h ∈ frees d (compile P D) (container (imports ((P.src g).body ++ (P.src g).after))) := by
      obtain ⟨y, hy⟩ := container_key h1
      have := hone y x x (container_mem hy) h1
      subst this
      exact mem_frees (by rw [parse_lookup hc hd (imports_body h1), h2]) hh hi hy
    have hne : (frees d (compile P D) (container (imports ((P.src g).body ++ (P.src g).after)))).isEmpty = false := by
      cases hl : frees d (compile P D) (container (imports ((P.src g).body ++ (P.src g).after))) with
      | nil => rw [hl] at hm; cases hm
      | cons a b => rfl
    rw [hne, Bool.and_false, if_neg (by simp)] at h3
    refine ⟨by rw [h3]; rfl, ?_⟩
    unfold freesOf
    rw [hg]
    dsimp only
    rw [h3]
    exact hm

theorem plain_reaches {g : File} (h : PlainReaches P F g) : Reaches P F g := by
  induction h with
  | refl => exact Reaches.refl F
  | step _ h2 ih =>
    obtain ⟨x, h3, h4⟩ := h2
    exact ih.tail ⟨x, x, imports_body h3, h4⟩

theorem plain_ini (hc : Consistent P) (hM : ∃ c, compile P D F = some c)
    (hone : ∀ g, Reaches P F g → OneName (imports ((P.src g).body ++ (P.src g).after))) {ct : CSt W} (hcl : Cl P D ct)
    (hF : ∀ c, compile P D F = some c → c.init.isSome = true → F ∈ ct.ini) {g : File} (h : PlainReaches P F g) :
    ∀ c, compile P D g = some c → c.init.isSome = true → g ∈ ct.ini := by
  obtain ⟨cF, hM⟩ := hM
  induction h with
  | refl => exact hF
  | @step g h h1 h2 ih =>
    intro ch hh hi
    obtain ⟨cg, hg⟩ := compile_reaches (plain_reaches h1) hM
    obtain ⟨x, h3, h4⟩ := h2
    have ht : Top P g h := ⟨x, x, h3, h4⟩
    exact hcl g (ih cg hg (init_up hc hg (hone g (plain_reaches h1)) ht hh hi)) h ch ht hh hi

theorem plain_freed (hc : Consistent P) (hM : ∃ c, compile P D F = some c)
    (hone : ∀ g, Reaches P F g → OneName (imports ((P.src g).body ++ (P.src g).after))) {I : List File} {ct : CSt W}
    (hI : ∀ g, PlainReaches P F g → ∀ c, compile P D g = some c → c.init.isSome = true → g ∈ I) (hf : FInv P D I ct)
    (hF : ∀ c, compile P D F = some c → c.free.isSome = true → F ∉ ct.ini) {g : File} (h : PlainReaches P F g) :
    ∀ c, compile P D g = some c → c.free.isSome = true → g ∉ ct.ini := by
  obtain ⟨cF, hM⟩ := hM
  induction h with
  | refl => exact hF
  | @step g h h1 h2 ih =>
    intro ch hh hi
    obtain ⟨cg, hg⟩ := compile_reaches (plain_reaches h1) hM
    obtain ⟨h3, h4⟩ := free_up hc hg (hone g (plain_reaches h1)) h2 hh hi
    exact hf.down g (hI g h1 cg hg (free_init hg h3)) (ih cg hg h3) h h4

theorem tr_skip {d : Dict} {f : File} {sc : List Name} {s : Stmt W} {c : CStmt W} (H : tr d f sc s = some c)
    (h : s.isSkip = false) : isSkip c = false := by
  cases s with
  | skip => cases h
  | act g => cases H; rfl
  | imp x a => cases H
  | own k => cases H; rfl
  | call x k =>
    unfold tr at H
    split at H
    · cases hl : d.lookup x with
      | none => rw [hl] at H; cases H
      | some g => rw [hl] at H; cases H; rfl
    · cases H
  | seq s t =>
    unfold tr at H
    cases h1 : tr d f sc s with
    | none => rw [h1] at H; cases H
    | some s' =>
      rw [h1] at H
      dsimp only at H
      cases h2 : tr d f sc t with
      | none => rw [h2] at H; cases H
      | some t' => rw [h2] at H; cases H; rfl
  | ite q s t =>
    unfold tr at H
    cases h1 : tr d f sc s with
    | none => rw [h1] at H; cases H
    | some s' =>
      rw [h1] at H
      dsimp only at H
      cases h2 : tr d f sc t with
      | none => rw [h2] at H; cases H
      | some t' => rw [h2] at H; cases H; rfl
  | loop q s =>
    unfold tr at H
    cases h1 : tr d f sc s with
    | none => rw [h1] at H; cases H
    | some s' => rw [h1] at H; cases H; rfl

theorem trs_skip {d : Dict} {f : File} {sc : List Name} : ∀ {ss : List (Stmt W)} {cs : List (CStmt W)},
    trs d f sc ss = some cs → ss.any (fun t => !t.isImport && !t.isSkip) = true → cs.all isSkip = false
  | [], _, _, h => by cases h
  | s :: ss, cs, H, h => by
    unfold trs at H
    rw [List.any_cons, Bool.or_eq_true] at h
    split at H
    · rename_i him
      rcases h with h | h
      · rw [him] at h; cases h
      · exact trs_skip H h
    · cases h1 : tr d f sc s with
      | none => rw [h1] at H; cases H
      | some s' =>
        rw [h1] at H
        dsimp only at H
        cases h2 : trs d f sc ss with
        | none => rw [h2] at H; cases H
        | some r =>
          rw [h2] at H
          cases H
          rw [List.all_cons]
          rcases h with h | h
          · rw [Bool.and_eq_true] at h
            rw [tr_skip h1 (by simpa using h.2), Bool.false_and]
          · rw [trs_skip h2 h, Bool.and_false]

/-- A file with variables that need memory has a function for initialisation; they are all known to it. -/
theorem allocs_init {g : File} {c : CFile W} (hg : compile P D g = some c) (hok : (P.src g).AllocsOk)
    (hne : (P.src g).allocs ≠ []) : c.init.isSome = true ∧ (temps P g ++ rest P g).Perm ((P.src g).allocs.map (·.1)) ∧
      (rest P g ≠ [] → c.free.isSome = true) := by
  obtain ⟨d, hd, ha⟩ := compile_fix hg
  obtain ⟨b, _, h1, _, _, _, h2⟩ := assemble_parts ha
  have hb : b.all isSkip = false := by
    unfold trBlock at h1
    cases hi : inits d (compile P D) [] (imports ((P.src g).body ++ (P.src g).after)) with
    | none => rw [hi] at h1; cases h1
    | some r =>
      rw [hi] at h1
      dsimp only at h1
      cases htr : trs d g ((imports ((P.src g).body ++ (P.src g).after)).map (·.1) ++
          (imports ((P.src g).body ++ (P.src g).after)).map (·.1)) ((P.src g).body ++ (P.src g).after) with
      | none => rw [htr] at h1; cases h1
      | some cs =>
        rw [htr] at h1
        cases h1
        rw [List.all_append, trs_skip htr (hok.2 hne), Bool.and_false]
  rcases h2 with ⟨h2, _, _⟩ | ⟨_, ts, rs, hsp, h2, h3⟩
  · rw [hb] at h2; cases h2
  · refine ⟨by rw [h2]; rfl, ?_, ?_⟩
    · have h4 : temps P g = ts := by unfold temps; rw [hsp]; rfl
      have h5 : rest P g = rs := by unfold rest; rw [hsp]; rfl
      rw [h4, h5]
      exact split_perm hsp
    · intro hr
      have h5 : rest P g = rs := by unfold rest; rw [hsp]; rfl
      rw [h5] at hr
      cases rs with
      | nil => exact absurd rfl hr
      | cons v rs =>
        rw [h3]
        rfl

/-- Only files with a function for initialisation are initialised. -/
def HasInit (M : File → Option (CFile W)) (ct : CSt W) : Prop :=
  ∀ g ∈ ct.ini, ∃ c, M g = some c ∧ c.init.isSome = true

theorem cx_ini {M : File → Option (CFile W)} : ∀ {n : Nat} {f : File} {s : CStmt W} {a b : CSt W}, HasInit M a →
    cx M n f s a = some b → HasInit M b
  | 0, _, _, _, _, _, H => by cases H
  | n + 1, f, s, a, b, h, H => by
    cases s with
    | skip => cases H; exact h
    | act g => cases H; exact h
    | free v => cases H; exact h
    | init g =>
      unfold cx at H
      cases hg : M g with
      | none => rw [hg] at H; cases H
      | some c =>
        rw [hg] at H
        dsimp only at H
        cases hi : c.init with
        | none => rw [hi] at H; cases H
        | some q =>
          rw [hi] at H
          dsimp only at H
          split at H
          · cases H; exact h
          · cases hr : cx M n g q a with
            | none => rw [hr] at H; cases H
            | some r =>
              rw [hr] at H
              cases H
              intro k hk
              rcases List.mem_cons.mp hk with rfl | hk
              · exact ⟨c, hg, by rw [hi]; rfl⟩
              · exact cx_ini h hr k hk
    | call g k =>
      unfold cx at H
      cases hg : M g with
      | none => rw [hg] at H; cases H
      | some c =>
        rw [hg] at H
        dsimp only at H
        cases hi : c.funcs[k]? with
        | none => rw [hi] at H; cases H
        | some q => rw [hi] at H; exact cx_ini h H
    | seq s t =>
      unfold cx at H
      cases hs : cx M n f s a with
      | none => rw [hs] at H; cases H
      | some r => rw [hs] at H; exact cx_ini (cx_ini h hs) H
    | ite c s t =>
      unfold cx at H
      split at H <;> exact cx_ini h H
    | loop c s =>
      unfold cx at H
      split at H
      · cases hs : cx M n f s a with
        | none => rw [hs] at H; cases H
        | some r => rw [hs] at H; exact cx_ini (cx_ini h hs) H
      · cases H; exact h

theorem runMain_ini {M : File → Option (CFile W)} {c : CFile W} (hM : M F = some c) {n : Nat} {w : W} {ct : CSt W}
    (H : runMain M n F w = some ct) : HasInit M ct := by
  have h0 : HasInit M (⟨[], w, []⟩ : CSt W) := fun g hg => by cases hg
  unfold runMain at H
  rw [hM] at H
  dsimp only at H
  by_cases hi : c.init.isSome = true
  · rw [if_pos hi] at H
    cases h1 : cx M n F (.init F) ⟨[], w, []⟩ with
    | none => rw [h1] at H; cases H
    | some s1 => rw [h1] at H; exact cx_ini (cx_ini h0 h1) H
  · rw [if_neg hi] at H
    exact cx_ini h0 H

end Verif.Imports.Model
