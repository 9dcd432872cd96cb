import Verif.Layout.Lemmas

namespace Verif.Layout.Model
open Spec

/-- Types as the semantic stage makes them: no order below rank 2, an order from rank 2 on. -/
def Proper (Γ : Var → Ty) : Prop := ∀ x, (Γ x).order = none ↔ (Γ x).rank < 2

/-- The state of the Fortran program that belongs to a state of the Python program. -/
structure RelF (Γ : Var → Ty) (s : State) (f : FState) : Prop where
  mem : f.mem = s.mem
  vars : ∀ x w, s.vars x = some w → w.dims.length = (Γ x).rank ∧
    f.vars x = some ⟨w.buf, w.off, revUnlessF (Γ x).order (w.dims.map fd)⟩

/-- The same for C, where spans are the views themselves. -/
structure RelC (Γ : Var → Ty) (s : State) (f : State) : Prop where
  mem : f.mem = s.mem
  vars : ∀ x w, s.vars x = some w → w.dims.length = (Γ x).rank ∧ f.vars x = some w

theorem put_same {α : Type} (f : Nat → α) (x : Nat) (v : α) : put f x v x = v := by simp [put]

theorem put_other {α : Type} (f : Nat → α) {x y : Nat} (v : α) (h : y ≠ x) : put f x v y = f y := by
  simp [put, h]

theorem RelF.put {Γ : Var → Ty} {s : State} {f : FState} (r : RelF Γ s f) (x : Var) (w : View)
    (m : Mem) (h : w.dims.length = (Γ x).rank) (w' : FView)
    (hw : w' = ⟨w.buf, w.off, revUnlessF (Γ x).order (w.dims.map fd)⟩) :
    RelF Γ ⟨Spec.put s.vars x (some w), m⟩ ⟨Spec.put f.vars x (some w'), m⟩ := by
  refine ⟨rfl, ?_⟩
  intro y v hv
  by_cases hy : y = x
  · subst hy
    simp only [put_same, Option.some.injEq] at hv ⊢
    subst hv
    exact ⟨h, hw⟩
  · simp only [put_other _ _ hy] at hv ⊢
    exact r.vars y v hv

theorem RelC.put {Γ : Var → Ty} {s : State} {f : State} (r : RelC Γ s f) (x : Var) (w : View)
    (m : Mem) (h : w.dims.length = (Γ x).rank) :
    RelC Γ ⟨Spec.put s.vars x (some w), m⟩ ⟨Spec.put f.vars x (some w), m⟩ := by
  refine ⟨rfl, ?_⟩
  intro y v hv
  by_cases hy : y = x
  · subst hy
    simp only [put_same, Option.some.injEq] at hv ⊢
    subst hv
    exact ⟨h, rfl⟩
  · simp only [put_other _ _ hy] at hv ⊢
    exact r.vars y v hv

theorem fresh_fill (m : Mem) (v : Int) :
    ({ m.fresh 0 with val := fun c q => if c = m.next then v else (m.fresh 0).val c q } : Mem)
      = m.fresh v := by
  simp only [Mem.fresh]
  congr
  funext c q
  split <;> simp_all

theorem fRun_append (s : FState) (a b : List FStmt) :
    fRun s (a ++ b) = (fRun s a).bind (fun s' => fRun s' b) := by
  induction a generalizing s with
  | nil => rfl
  | cons c cs ih =>
    simp only [List.cons_append, fRun]
    cases fStep s c with
    | none => rfl
    | some s' => simp [ih]

theorem cRun_append (s : State) (a b : List CStmt) :
    cRun s (a ++ b) = (cRun s a).bind (fun s' => cRun s' b) := by
  induction a generalizing s with
  | nil => rfl
  | cons c cs ih =>
    simp only [List.cons_append, cRun]
    cases cStep s c with
    | none => rfl
    | some s' => simp [ih]

theorem map_lb_fd (l : List Dim) (o : Option Order) :
    (revUnlessF o (l.map fd)).map (fun d => { d with lb := 0 }) = revUnlessF o (l.map fd) := by
  rw [revUnlessF_map]
  simp [fd, Function.comp_def]
  rfl

theorem fAddr_rev (o : Option Order) (ds : List Dim) (i : List Nat) (h : ds.length = i.length) :
    fAddr (revUnlessF o (ds.map fd)) ((revUnlessF o i).map Int.ofNat) = addr ds i := by
  rw [revUnlessF_map]
  unfold revUnlessF
  split
  · exact fAddr_map ds i
  · rw [fAddr_reverse (by simpa using h)]
    exact fAddr_map ds i

theorem fSelect_rev (o : Option Order) (ds : List Dim) (ss : List Sub) (h : ds.length = ss.length)
    {r : Int × List Dim} (hr : select ds ss = some r) :
    ∃ q, fSelect (revUnlessF o (ds.map fd)) ((revUnlessF o ss).map fSub) = some (r.1, q) ∧
      q.map (fun d => { d with lb := 0 }) = revUnlessF o (r.2.map fd) := by
  obtain ⟨q, hq, hq2⟩ := fSelect_map h hr
  rw [revUnlessF_map]
  unfold revUnlessF
  split
  · exact ⟨q, hq, hq2⟩
  · refine ⟨q.reverse, ?_, by simp [hq2]⟩
    rw [fSelect_reverse (by simpa using h), hq]
    rfl

theorem getElem?_reverse' {α : Type} (l : List α) {k : Nat} (h : k < l.length) :
    l.reverse[l.length - 1 - k]? = l[k]? := by
  rw [List.getElem?_reverse (by omega)]
  congr 1
  omega

theorem stepF {Γ : Var → Ty} (hΓ : Proper Γ) {s s' : State} {f : FState} {op : Op}
    (ht : typed Γ op = true) (hs : step s op = some s') (r : RelF Γ s f) :
    ∃ f', fRun f (toF Γ op) = some f' ∧ RelF Γ s' f' := by
  cases op with
  | full x shape o v =>
    simp only [step, Option.some.injEq] at hs
    subst hs
    have hx : Γ x = mkTy shape.length (some o) := by simpa [typed] using ht
    have e := fresh_fill s.mem v
    have hm : ({ f.mem.fresh 0 with
        val := fun c q => if c = f.mem.next then v else (f.mem.fresh 0).val c q } : Mem)
        = s.mem.fresh v := by
      rw [r.mem]; exact e
    refine ⟨⟨Spec.put f.vars x (some ⟨f.mem.next, 0, fAlloc 1
      ((revUnlessF (mkTy shape.length (some o)).order shape).map
        (fun (n : Nat) => ((0 : Int), (n : Int) - 1)))⟩), s.mem.fresh v⟩, ?_, ?_⟩
    · rw [← hm]
      simp only [toF, fRun, fStep, put_same, Option.bind_eq_bind, Option.bind_some, Option.pure_def]
    apply r.put
    · simp [hx, layout_length, mkTy]
    · simp [hx, r.mem, alloc_layout]
  | alias y x =>
    simp only [step, Option.bind_eq_bind, Option.pure_def] at hs
    obtain ⟨w, hw, hs⟩ := Option.bind_eq_some_iff.mp hs
    simp only [Option.some.injEq] at hs
    subst hs
    have hx : Γ y = Γ x := by simpa [typed] using ht
    obtain ⟨hl, hf⟩ := r.vars x w hw
    have hb := rebase_map (Γ y).rank (revUnlessF (Γ x).order (w.dims.map fd))
      (by rw [length_revUnlessF]; simp [hl, hx])
    rw [map_lb_fd] at hb
    refine ⟨⟨Spec.put f.vars y (some ⟨w.buf, w.off + 0, revUnlessF (Γ x).order (w.dims.map fd)⟩), f.mem⟩,
      ?_, ?_⟩
    · simp [toF, fRun, fStep, hf, hb]
    · rw [r.mem]
      apply r.put
      · rw [hx]; exact hl
      · rw [hx, Int.add_zero]
  | trans y x =>
    simp only [step, Option.bind_eq_bind, Option.pure_def] at hs
    obtain ⟨w, hw, hs⟩ := Option.bind_eq_some_iff.mp hs
    simp only [Option.some.injEq] at hs
    subst hs
    obtain ⟨hl, hf⟩ := r.vars x w hw
    have hx : Γ y = if (Γ x).rank < 2 then Γ x else mkTy (Γ x).rank (flip (Γ x).order) := by
      simpa [typed] using ht
    have hr : (Γ y).rank = (Γ x).rank := by rw [hx]; split <;> rfl
    have hb := rebase_map (Γ y).rank (revUnlessF (Γ x).order (w.dims.map fd))
      (by rw [length_revUnlessF]; simp [hl, hr])
    rw [map_lb_fd] at hb
    refine ⟨⟨Spec.put f.vars y (some ⟨w.buf, w.off + 0, revUnlessF (Γ x).order (w.dims.map fd)⟩), f.mem⟩,
      ?_, ?_⟩
    · simp [toF, fRun, fStep, hf, hb]
    · rw [r.mem]
      apply r.put
      · simp [hl, hr]
      · simp only [Int.add_zero]
        congr 1
        by_cases h2 : (Γ x).rank < 2
        · rw [revUnlessF_short _ (by simpa [hl] using h2), reverse_short (by simpa [hl] using h2),
            revUnlessF_short _ (by simpa [hl] using h2)]
        · have hn : (Γ x).order ≠ none := fun h => h2 ((hΓ x).mp h)
          have ho : (Γ y).order = flip (Γ x).order := by rw [hx, if_neg h2]; simp [mkTy, h2]
          rw [ho]
          match hq : (Γ x).order with
          | none => exact absurd hq hn
          | some .C => simp [flip, revUnlessF]
          | some .F => simp [flip, revUnlessF]
  | sub y x ss =>
    simp only [step, Option.bind_eq_bind, Option.pure_def] at hs
    obtain ⟨w, hw, hs⟩ := Option.bind_eq_some_iff.mp hs
    obtain ⟨q, hq, hs⟩ := Option.bind_eq_some_iff.mp hs
    simp only [Option.some.injEq] at hs
    subst hs
    obtain ⟨hl, hf⟩ := r.vars x w hw
    simp only [typed, Bool.and_eq_true, decide_eq_true_eq, beq_iff_eq] at ht
    obtain ⟨⟨h1, h2⟩, h3⟩ := ht
    rw [← hl] at h1
    have hsel := select_pad w.dims ss h1
    rw [hq] at hsel
    obtain ⟨p, hp, hp2⟩ := fSelect_rev (Γ x).order w.dims (pad w.dims.length ss)
      (by rw [length_pad _ _ h1]) hsel
    have hlen : q.2.length = (Γ y).rank := by
      rw [select_length hq, h3, hl]; rfl
    have hpl : p.length = (Γ y).rank := by
      rw [← List.length_map (f := fun d : FDim => { d with lb := 0 }), hp2, length_revUnlessF]
      simpa using hlen
    have hb := rebase_map (Γ y).rank p hpl
    rw [hp2] at hb
    refine ⟨⟨Spec.put f.vars y (some ⟨w.buf, w.off + q.1, revUnlessF (Γ x).order (q.2.map fd)⟩), f.mem⟩,
      ?_, ?_⟩
    · rw [hl] at hp
      simp [toF, fRun, fStep, hf, hp, hb]
    · rw [r.mem]
      apply r.put
      · exact hlen
      · congr 1
        by_cases hk : (Γ y).rank < 2
        · rw [revUnlessF_short _ (by simpa [hlen] using hk), revUnlessF_short _ (by simpa [hlen] using hk)]
        · have : (Γ y).order = (Γ x).order := by
            rw [h3] at hk ⊢
            simp only [mkTy] at hk ⊢
            rw [if_neg hk]
          rw [this]
  | set x i v =>
    simp only [step, Option.bind_eq_bind, Option.pure_def] at hs
    obtain ⟨w, hw, hs⟩ := Option.bind_eq_some_iff.mp hs
    obtain ⟨a, ha, hs⟩ := Option.bind_eq_some_iff.mp hs
    simp only [Option.some.injEq] at hs
    subst hs
    obtain ⟨hl, hf⟩ := r.vars x w hw
    have hi : i.length = (Γ x).rank := by simpa [typed] using ht
    have hfa := fAddr_rev (Γ x).order w.dims i (by omega)
    rw [ha] at hfa
    refine ⟨⟨f.vars, f.mem.write w.buf (w.off + a) v⟩, ?_, ?_⟩
    · simp [toF, fRun, fStep, hf, hfa]
    · refine ⟨by rw [r.mem], ?_⟩
      exact r.vars
  | get x i =>
    simp only [step, Option.bind_eq_bind, Option.pure_def] at hs
    obtain ⟨w, hw, hs⟩ := Option.bind_eq_some_iff.mp hs
    obtain ⟨a, ha, hs⟩ := Option.bind_eq_some_iff.mp hs
    simp only [Option.some.injEq] at hs
    subst hs
    obtain ⟨hl, hf⟩ := r.vars x w hw
    have hi : i.length = (Γ x).rank := by simpa [typed] using ht
    have hfa := fAddr_rev (Γ x).order w.dims i (by omega)
    rw [ha] at hfa
    refine ⟨⟨f.vars, f.mem.print (f.mem.val w.buf (w.off + a))⟩, ?_, ?_⟩
    · simp [toF, fRun, fStep, hf, hfa]
    · refine ⟨by rw [r.mem], ?_⟩
      exact r.vars
  | shape x k =>
    simp only [step, Option.bind_eq_bind, Option.pure_def] at hs
    obtain ⟨w, hw, hs⟩ := Option.bind_eq_some_iff.mp hs
    obtain ⟨d, hd, hs⟩ := Option.bind_eq_some_iff.mp hs
    simp only [Option.some.injEq] at hs
    subst hs
    obtain ⟨hl, hf⟩ := r.vars x w hw
    have hk : k < (Γ x).rank := by simpa [typed] using ht
    refine ⟨⟨f.vars, f.mem.print d.len⟩, ?_, ⟨by rw [r.mem], r.vars⟩⟩
    by_cases h1 : (Γ x).rank = 1
    · have hk0 : k = 0 := by omega
      subst hk0
      have hd' : (revUnlessF (Γ x).order (w.dims.map fd))[0]? = some (fd d) := by
        rw [revUnlessF_short _ (by simp; omega)]
        simp [hd]
      simp [toF, h1, fRun, fStep, hf, hd', fd]
    · by_cases hC : (Γ x).order = some .C
      · have hd' : (revUnlessF (Γ x).order (w.dims.map fd))[((Γ x).rank - (k : Int) - 1).toNat]?
            = some (fd d) := by
          have : ((Γ x).rank - (k : Int) - 1).toNat = (w.dims.map fd).length - 1 - k := by
            simp; omega
          rw [this]
          simp only [revUnlessF, hC, reduceCtorEq, if_false, Option.some.injEq]
          rw [getElem?_reverse' _ (by simp; omega)]
          simp [hd]
        have hpos : (1 : Int) ≤ (Γ x).rank - (k : Int) := by omega
        rw [hC, show ((Γ x).rank - (k : Int) - 1).toNat = (Γ x).rank - k - 1 by omega] at hd'
        simp [toF, h1, hC, fRun, fStep, hf, hpos, hd']
        rfl
      · have hF : (Γ x).order = some .F := by
          match hq : (Γ x).order with
          | none => have := (hΓ x).mp hq; omega
          | some .C => exact absurd hq hC
          | some .F => rfl
        have hpos : (1 : Int) ≤ (k : Int) + 1 := by omega
        have hd' : (revUnlessF (some Order.F) (w.dims.map fd))[k]? = some (fd d) := by
          simp [revUnlessF, hd]
        simp [toF, h1, hF, fRun, fStep, hf, hpos, hd', fd]

theorem runF {Γ : Var → Ty} (hΓ : Proper Γ) {s s' : State} {f : FState} {ops : List Op}
    (ht : ∀ op ∈ ops, typed Γ op = true) (hs : run s ops = some s') (r : RelF Γ s f) :
    ∃ f', fRun f (compileF Γ ops) = some f' ∧ RelF Γ s' f' := by
  induction ops generalizing s f with
  | nil =>
    simp only [run, Option.some.injEq] at hs
    subst hs
    exact ⟨f, rfl, r⟩
  | cons op ops ih =>
    simp only [run] at hs
    obtain ⟨s1, h1, h2⟩ := Option.bind_eq_some_iff.mp hs
    obtain ⟨f1, hf1, r1⟩ := stepF hΓ (ht op (by simp)) h1 r
    obtain ⟨f', hf', r'⟩ := ih (fun o ho => ht o (by simp [ho])) h2 r1
    refine ⟨f', ?_, r'⟩
    simp only [compileF, List.flatMap_cons] at hf' ⊢
    rw [fRun_append, hf1]
    exact hf'

theorem cSelect_all (n : Nat) (ds : List Dim) (h : ds.length = n) :
    cSelect ds (List.replicate n .all) = some (0, ds) := by
  induction ds generalizing n with
  | nil => subst h; rfl
  | cons d ds ih =>
    cases n with
    | zero => simp at h
    | succ n => simp [List.replicate, cSelect, ih n (by simpa using h)]

theorem put_put {α : Type} (f : Nat → α) (x : Nat) (v w : α) :
    Spec.put (Spec.put f x v) x w = Spec.put f x w := by
  funext y; simp only [Spec.put]; split <;> rfl

theorem stepC {Γ : Var → Ty} {s s' : State} {f : State} {op : Op}
    (ht : typed Γ op = true) (hs : step s op = some s') (r : RelC Γ s f) :
    ∃ f', cRun f (toC Γ op) = some f' ∧ RelC Γ s' f' := by
  cases op with
  | full x shape o v =>
    simp only [step, Option.some.injEq] at hs
    subst hs
    have hx : Γ x = mkTy shape.length (some o) := by simpa [typed] using ht
    have e := fresh_fill s.mem v
    have hm : ({ f.mem.fresh 0 with
        val := fun c q => if c = f.mem.next then v else (f.mem.fresh 0).val c q } : Mem)
        = s.mem.fresh v := by
      rw [r.mem]; exact e
    refine ⟨⟨Spec.put f.vars x (some ⟨f.mem.next, 0, layout o shape⟩), s.mem.fresh v⟩, ?_, ?_⟩
    · rw [← hm, ← cLayout_eq]
      simp only [toC, cRun, cStep, put_same, Option.bind_eq_bind, Option.bind_some, Option.pure_def]
    rw [r.mem]
    apply r.put
    simp [hx, layout_length, mkTy]
  | alias y x =>
    simp only [step, Option.bind_eq_bind, Option.pure_def] at hs
    obtain ⟨w, hw, hs⟩ := Option.bind_eq_some_iff.mp hs
    simp only [Option.some.injEq] at hs
    subst hs
    have hx : Γ y = Γ x := by simpa [typed] using ht
    obtain ⟨hl, hf⟩ := r.vars x w hw
    refine ⟨⟨Spec.put f.vars y (some w), f.mem⟩, ?_, ?_⟩
    · simp [toC, hx, cRun, cStep, hf, cSelect_all _ _ hl]
    · rw [r.mem]
      exact r.put y w _ (by rw [hx]; exact hl)
  | trans y x =>
    simp only [step, Option.bind_eq_bind, Option.pure_def] at hs
    obtain ⟨w, hw, hs⟩ := Option.bind_eq_some_iff.mp hs
    simp only [Option.some.injEq] at hs
    subst hs
    obtain ⟨hl, hf⟩ := r.vars x w hw
    have hx : Γ y = if (Γ x).rank < 2 then Γ x else mkTy (Γ x).rank (flip (Γ x).order) := by
      simpa [typed] using ht
    have hr : (Γ y).rank = (Γ x).rank := by rw [hx]; split <;> rfl
    refine ⟨⟨Spec.put f.vars y (some { w with dims := w.dims.reverse }), f.mem⟩, ?_, ?_⟩
    · by_cases h2 : (Γ x).rank < 2
      · have ho : (Γ y).order = (Γ x).order := by rw [hx, if_pos h2]
        simp [toC, ho, cRun, cStep, hf, cSelect_all _ _ (hl.trans hr.symm),
          reverse_short (l := w.dims) (by omega)]
      · have ho : (Γ y).order = flip (Γ x).order := by rw [hx, if_neg h2]; simp [mkTy, h2]
        have hne : flip (Γ x).order ≠ (Γ x).order := by
          match (Γ x).order with
          | none => simp [flip]
          | some .C => simp [flip]
          | some .F => simp [flip]
        simp [toC, ho, hne, cRun, cStep, hf, cSelect_all _ _ (hl.trans hr.symm), put_same, put_put]
    · rw [r.mem]
      exact r.put y _ _ (by simp [hl, hr])
  | sub y x ss =>
    simp only [step, Option.bind_eq_bind, Option.pure_def] at hs
    obtain ⟨w, hw, hs⟩ := Option.bind_eq_some_iff.mp hs
    obtain ⟨q, hq, hs⟩ := Option.bind_eq_some_iff.mp hs
    simp only [Option.some.injEq] at hs
    subst hs
    obtain ⟨hl, hf⟩ := r.vars x w hw
    simp only [typed, Bool.and_eq_true, decide_eq_true_eq, beq_iff_eq] at ht
    obtain ⟨⟨h1, h2⟩, h3⟩ := ht
    rw [← hl] at h1
    have hsel := select_pad w.dims ss h1
    rw [hq] at hsel
    have hc := cSelect_map (ds := w.dims) (ss := pad w.dims.length ss) (by rw [length_pad _ _ h1])
    rw [hsel, hl] at hc
    refine ⟨⟨Spec.put f.vars y (some ⟨w.buf, w.off + q.1, q.2⟩), f.mem⟩, ?_, ?_⟩
    · simp [toC, cRun, cStep, hf, hc]
    · rw [r.mem]
      exact r.put y _ _ (by rw [select_length hq, h3, hl]; rfl)
  | set x i v =>
    simp only [step, Option.bind_eq_bind, Option.pure_def] at hs
    obtain ⟨w, hw, hs⟩ := Option.bind_eq_some_iff.mp hs
    obtain ⟨a, ha, hs⟩ := Option.bind_eq_some_iff.mp hs
    simp only [Option.some.injEq] at hs
    subst hs
    obtain ⟨hl, hf⟩ := r.vars x w hw
    have hfa := cAddr_map w.dims i
    rw [ha] at hfa
    refine ⟨⟨f.vars, f.mem.write w.buf (w.off + a) v⟩, ?_, ⟨by rw [r.mem], r.vars⟩⟩
    simp [toC, cRun, cStep, hf, hfa]
  | get x i =>
    simp only [step, Option.bind_eq_bind, Option.pure_def] at hs
    obtain ⟨w, hw, hs⟩ := Option.bind_eq_some_iff.mp hs
    obtain ⟨a, ha, hs⟩ := Option.bind_eq_some_iff.mp hs
    simp only [Option.some.injEq] at hs
    subst hs
    obtain ⟨hl, hf⟩ := r.vars x w hw
    have hfa := cAddr_map w.dims i
    rw [ha] at hfa
    refine ⟨⟨f.vars, f.mem.print (f.mem.val w.buf (w.off + a))⟩, ?_, ⟨by rw [r.mem], r.vars⟩⟩
    simp [toC, cRun, cStep, hf, hfa]
  | shape x k =>
    simp only [step, Option.bind_eq_bind, Option.pure_def] at hs
    obtain ⟨w, hw, hs⟩ := Option.bind_eq_some_iff.mp hs
    obtain ⟨d, hd, hs⟩ := Option.bind_eq_some_iff.mp hs
    simp only [Option.some.injEq] at hs
    subst hs
    obtain ⟨hl, hf⟩ := r.vars x w hw
    refine ⟨⟨f.vars, f.mem.print d.len⟩, ?_, ⟨by rw [r.mem], r.vars⟩⟩
    simp [toC, cRun, cStep, hf, hd]

theorem runC {Γ : Var → Ty} {s s' : State} {f : State} {ops : List Op}
    (ht : ∀ op ∈ ops, typed Γ op = true) (hs : run s ops = some s') (r : RelC Γ s f) :
    ∃ f', cRun f (compileC Γ ops) = some f' ∧ RelC Γ s' f' := by
  induction ops generalizing s f with
  | nil =>
    simp only [run, Option.some.injEq] at hs
    subst hs
    exact ⟨f, rfl, r⟩
  | cons op ops ih =>
    simp only [run] at hs
    obtain ⟨s1, h1, h2⟩ := Option.bind_eq_some_iff.mp hs
    obtain ⟨f1, hf1, r1⟩ := stepC (ht op (by simp)) h1 r
    obtain ⟨f', hf', r'⟩ := ih (fun o ho => ht o (by simp [ho])) h2 r1
    refine ⟨f', ?_, r'⟩
    simp only [compileC, List.flatMap_cons] at hf' ⊢
    rw [cRun_append, hf1]
    exact hf'

end Verif.Layout.Model
