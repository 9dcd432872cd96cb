import Verif.Lifetimes.LemmasRel

/-
Statements of the Python program.
-/
namespace Verif.Lifetimes.C

theorem val_ne_none (k : Kind) : k.ref.val ≠ .none := by cases k <;> simp [Kind.ref, Ref.val]

/-- The variable `y` refers to the object `a`. -/
structure Got (s : State) (ps : Py.State) (y : Nat) (a : Nat × PyObj) : Prop where
  obj : s.objs[a.1]? = some a.2
  live : a.2.rc ≠ 0
  py : Py.get ps y = some a.2.kind.ref.val
  kind : kindOf s.vars (kinds s.objs) y = some a.2.kind

theorem look_ok {g w s ps} (hR : Rel g w s ps) (y : Nat) :
    look s y = .raise ∨ ∃ a, look s y = .ok a ∧ Got s ps y a := by
  cases hf : s.vars.find? (fun e => e.1 == y) with
  | none => left; simp [look, hf]
  | some e =>
    right
    have hm := List.mem_map_of_mem (f := Prod.snd) (List.mem_of_find?_eq_some hf)
    obtain ⟨p, hp, h0⟩ := hR.inv.o.live_var hm
    have hk : kindOf s.vars (kinds s.objs) y = some p.kind := by
      simp only [kindOf, hf, Option.bind]
      exact kinds_get.2 ⟨p, hp, rfl⟩
    refine ⟨(e.2, p), by simp [look, hf, hp, h0], hp, h0, ?_, hk⟩
    have he := hR.vars.env y
    rw [hk] at he
    simp only [Py.get, he, optVal]
    have := val_ne_none p.kind
    cases hv : p.kind.ref.val <;> simp_all

theorem lookAll_ok {g w s ps} (hR : Rel g w s ps) (ys : List Nat) :
    lookAll s ys = .raise ∨ ∃ as, lookAll s ys = .ok as ∧ as.length = ys.length ∧
      ys.mapM (Py.get ps) = some (as.map fun a => a.2.kind.ref.val) ∧
      ∀ (i : Nat) (a : Nat × PyObj), as[i]? = some a → ∃ y, ys[i]? = some y ∧ Got s ps y a := by
  induction ys with
  | nil => right; exact ⟨[], rfl, rfl, rfl, by simp⟩
  | cons y ys ih =>
    rcases look_ok hR y with h | ⟨a, h, hg⟩
    · left; simp [lookAll, h, Res.bind]
    · rcases ih with ih | ⟨as, h1, h2, h3, h4⟩
      · left; simp [lookAll, h, Res.bind, ih, Res.map]
      · right
        refine ⟨a :: as, by simp [lookAll, h, Res.bind, h1, Res.map], by simp [h2], ?_, ?_⟩
        · simp [List.mapM_cons, hg.py, h3]
        · intro i b hb
          cases i with
          | zero => simp at hb; subst hb; exact ⟨y, rfl, hg⟩
          | succ i => simp at hb; simpa using h4 i b hb

/-! ### constructors -/

theorem newInst_heap {m h fs} (hH : HeapR m h) :
    HeapR (newInst m ⟨false, fs⟩).1 (Py.newObj h (fs.map fun f => f.ref.val)).1 := by
  refine ⟨hH.dl, by simp [newInst, Py.newObj, hH.ol], hH.data, fun b i hi => ?_⟩
  simp only [newInst, Py.newObj] at hi ⊢
  by_cases hl : b < m.insts.length
  · rw [List.getElem?_append_left hl] at hi
    rw [List.getElem?_append_left (by rw [hH.ol]; exact hl)]
    exact hH.insts b i hi
  · have := lt_of_some hi
    simp at this
    have : b = m.insts.length := by omega
    subst this
    simp at hi
    subst hi
    rw [← hH.ol]; simp

theorem construct_ok {p : Prog} (hp : plainProg p = true) {m h} (hH : HeapR m h) (c : Nat)
    (args : List Ref) :
    construct p c args m = .raise ∨ ∃ m1 fs h', p.classes[c]? = some (p.classes.getD c []) ∧
      construct p c args m = .ok ((newInst m1 ⟨false, fs⟩).1, m.insts.length) ∧
      Py.construct p c (args.map Ref.val) h = some (h', .obj m.insts.length) ∧
      HeapR (newInst m1 ⟨false, fs⟩).1 h' ∧ Built m m1 args (p.classes.getD c []) fs := by
  cases hc : p.classes[c]? with
  | none => left; simp [construct, hc]
  | some is =>
    have hd : p.classes.getD c [] = is := by simp [List.getD, hc]
    have hns : ∀ i ∈ is, noSub i = true := by
      simp only [plainProg, Bool.and_eq_true, List.all_eq_true] at hp
      exact hp.1 is (List.mem_of_getElem? hc)
    rcases inits_ok args is hns m h hH with hr | ⟨m1, fs, h1, e1, e2, e3, e4⟩
    · left; simp [construct, hc, hr, Res.map]
    · right
      refine ⟨m1, fs, (Py.newObj h1 (fs.map fun f => f.ref.val)).1, by rw [hd], ?_, ?_,
        newInst_heap e3, by rw [hd]; exact e4⟩
      · simp [construct, hc, e1, Res.map, newInst, e4.insts]
      · simp only [Py.construct, hc, Option.bind, e2, Option.map]
        simp [Py.newObj, e3.ol, e4.insts]

theorem pick_mem {as : List (Nat × PyObj)} {is : List Nat} {i : Nat} {a : Nat × PyObj}
    (hi : i ∈ is) (ha : as[i]? = some a) : a.1 ∈ pick as is := by
  simp only [pick, List.mem_filterMap]
  exact ⟨i, hi, by simp [ha]⟩

theorem mem_pick {as : List (Nat × PyObj)} {is : List Nat} {r : Nat} (h : r ∈ pick as is) :
    ∃ i ∈ is, ∃ a, as[i]? = some a ∧ a.1 = r := by
  simp only [pick, List.mem_filterMap] at h
  obtain ⟨i, hi, h⟩ := h
  cases ha : as[i]? with
  | none => rw [ha] at h; simp at h
  | some a => rw [ha] at h; simp at h; exact ⟨i, hi, a, ha, h⟩

/-- `x = C(args…)`, by the Python program. -/
theorem new_sim {g w s ps p x c} {args : List Nat} (hp : plainProg p = true) (hR : Rel g w s ps) :
    step p s (.new x c args) = .raise ∨ ∃ s' ps', step p s (.new x c args) = .ok (s', []) ∧
      Py.step p ps (.new x c args) = some (ps', []) ∧ Rel g (Known.set w x .own) s' ps' := by
  rcases lookAll_ok hR args with h | ⟨as, h1, h2, h3, h4⟩
  · left; simp [step, h, Res.bind]
  · rcases construct_ok hp hR.heap c (as.map fun a => a.2.kind.ref) with
      hr | ⟨m1, fs, h', c1, c2, c3, c4, c5⟩
    · left; simp [step, h1, Res.bind, hr]
    · right
      have hl : ∀ r ∈ pick as (persistentInit (p.classes.getD c []) as.length), LiveO s.objs r := by
        intro r hr
        obtain ⟨i, _, a, ha, rfl⟩ := mem_pick hr
        obtain ⟨y, _, hg⟩ := h4 i a ha
        exact ⟨a.2, hg.obj, hg.live⟩
      have hcov : ∀ (i : Nat) (r : Ref), i ∈ (p.classes.getD c []).flatMap initArgs →
          (as.map fun a => a.2.kind.ref)[i]? = some r →
          ∃ q ∈ pick as (persistentInit (p.classes.getD c []) as.length), Cov s.objs s.mem q r := by
        intro i r hi hr
        cases ha : as[i]? with
        | none => simp [ha] at hr
        | some a =>
          simp [ha] at hr
          obtain ⟨y, _, hg⟩ := h4 i a ha
          refine ⟨a.1, pick_mem (i := i) ?_ ha, ?_⟩
          · simp only [persistentInit, List.mem_filter, List.mem_range, List.contains_iff_mem]
            exact ⟨lt_of_some ha, hi⟩
          · rw [← hr]; exact hR.inv.m.cov a.1 a.2 hg.obj hg.live
      obtain ⟨s', e1, e2⟩ := new_rel (x := x) (k := .inst s.mem.insts.length false) (n := .own)
        (leaked := s.leaked) (h' := h') (m' := (newInst m1 ⟨false, fs⟩).1) hR hl (by simp [Kind.isLeaf])
        ⟨fun _ => ⟨_, rfl⟩, by simp⟩ c4 (by
          intro os' hP hrs
          refine plus_inst hR.inv.m hP c5.insts c5.data c5.own c5.nodup c5.new c5.nosub ?_ ?_
          · intro d hd
            obtain ⟨i, k1, k2⟩ := c5.ptr d hd
            obtain ⟨q, q1, q2⟩ := hcov i _ k1 k2
            exact ⟨q, hrs q q1, q2⟩
          · intro d hd
            obtain ⟨i, k1, k2⟩ := c5.obj d hd
            obtain ⟨q, q1, q2⟩ := hcov i _ k1 k2
            exact ⟨q, hrs q q1, q2⟩)
      refine ⟨s', _, ?_, ?_, e2⟩
      · simp only [step, h1, Res.bind, c2]
        rw [show assignNew (newWith { s with mem := (newInst m1 ⟨false, fs⟩).1 }
          (.inst s.mem.insts.length false)
          (pick as (persistentInit (p.classes.getD c []) as.length))) x = .ok s' from e1]
        rfl
      · have : (as.map fun a => a.2.kind.ref.val) = (as.map fun a => a.2.kind.ref).map Ref.val := by
          simp
        simp only [Py.step, h3, Option.bind, this, c3, Option.map]
        rfl

/-! ### the simple statements -/

theorem num_sim {g w s ps p x v} (hR : Rel g w s ps) :
    ∃ s' ps', step p s (.num x v) = .ok (s', []) ∧
      Py.step p ps (.num x v) = some (ps', []) ∧ Rel g (Known.set w x .leaf) s' ps' := by
  obtain ⟨s', e1, e2⟩ := new_rel (x := x) (k := .num v) (n := .leaf) (rs := []) (leaked := s.leaked)
    (m' := s.mem) (h' := ps.heap) hR (by simp) (fun _ => rfl) ⟨by simp, fun _ => rfl⟩ hR.heap
    (fun os' hP _ => plus_plain hR.inv.m hP (by simp) (by simp) trivial)
  refine ⟨s', _, ?_, rfl, e2⟩
  simp only [step]
  rw [show assignNew (newObj s (.num v)) x = .ok s' from e1]; rfl

theorem arr_rel {g w s ps x v} (hR : Rel g w s ps) :
    ∃ s', assignNew (newObj { s with mem := (newData s.mem v).1 }
        (.arr (newData s.mem v).2 true)) x = .ok s' ∧
      Rel g (Known.set w x .leaf) s'
        ⟨(Py.newArr ps.heap v).1, Py.upd ps.env x (Py.newArr ps.heap v).2⟩ := by
  obtain ⟨hH, hv⟩ := newData_heap (v := v) hR.heap
  obtain ⟨s', e1, e2⟩ := new_rel (x := x) (k := .arr s.mem.data.length true) (n := .leaf) (rs := [])
    (leaked := s.leaked)
    (m' := (newData s.mem v).1) (h' := (Py.newArr ps.heap v).1) hR (by simp) (fun _ => rfl)
    ⟨by simp, fun _ => rfl⟩ hH (fun os' hP _ => plus_arr hR.inv.m hP)
  rw [hv]
  exact ⟨s', e1, e2⟩

theorem copy_sim {g w s ps p x y} (hR : Rel g w s ps) :
    step p s (.copy x y) = .raise ∨ ∃ s' ps', step p s (.copy x y) = .ok (s', []) ∧
      Py.step p ps (.copy x y) = some (ps', []) ∧ Rel g (Known.set w x (w y)) s' ps' := by
  rcases look_ok hR y with h | ⟨a, h, hg⟩
  · left; simp [step, h, Res.bind]
  · right
    have hl : LiveO s.objs a.1 := ⟨a.2, hg.obj, hg.live⟩
    have hgr := grow_incref hl
    have hi : Inv { s with objs := incref s.objs a.1 } [a.1] :=
      ⟨hgr.minv hR.inv.m, hR.inv.o.incref (lt_of_get hg.obj) (fun q hq => by
        rw [hg.obj] at hq; cases hq; exact hg.live)⟩
    obtain ⟨q, q1, q2, _⟩ := hgr.get a.1 a.2 hg.obj
    obtain ⟨s', e1, e2⟩ := assign_rel (g := g) (w := w) (x := x) (n := w y) (env := ps.env) (p := q)
      hi hR.heap (by
        show VarsR w s.vars (kinds (incref s.objs a.1)) ps.env
        rw [hgr.kinds]; exact hR.vars)
      (fun hgg => ranked_of (hR.ranked hgg) hgr.kinds (fun o p' hp' => by
        rw [incref_get] at hp'
        cases ho : s.objs[o]? with
        | none => rw [ho] at hp'; simp at hp'
        | some p0 =>
          rw [ho] at hp'
          simp at hp'
          refine ⟨p0, rfl, ?_⟩
          subst hp'
          split <;> exact fun _ h => h)) q1
      (by
        rw [q2]
        refine ⟨fun hw => ?_, fun hw => ?_⟩
        · obtain ⟨b, hb⟩ := hR.vars.own y hw
          rw [hg.kind] at hb
          exact ⟨b, by simpa using hb⟩
        · obtain ⟨k, hk, hl⟩ := hR.vars.leaf y hw
          rw [hg.kind] at hk
          cases hk; exact hl)
    rw [q2] at e2
    refine ⟨s', _, ?_, ?_, e2⟩
    · simp only [step, h, Res.bind, e1, Res.map]
    · simp only [Py.step, hg.py, Option.map]

theorem get_sim {g w s ps p x y k} (hR : Rel g w s ps) :
    step p s (.get x y k) = .raise ∨ ∃ s' ps', step p s (.get x y k) = .ok (s', []) ∧
      Py.step p ps (.get x y k) = some (ps', []) ∧ Rel g (Known.set w x .any) s' ps' := by
  rcases look_ok hR y with h | ⟨⟨o, q⟩, h, hg⟩
  · left; simp [step, h, Res.bind]
  · have hcov := hR.inv.m.cov o q hg.obj hg.live
    have hpy := hg.py
    cases hk : q.kind with
    | num v => left; simp [step, h, Res.bind, hk]
    | arr d b => left; simp [step, h, Res.bind, hk]
    | inst b al =>
      rw [hk] at hcov
      simp only [hk, Kind.ref, Ref.val] at hpy
      rcases getField_ok hR.inv.m (k := k) hcov with hf | ⟨i, f, hf, hi, hfi, hc⟩
      · left; simp [step, h, Res.bind, hk, getter, hf, Res.map]
      · right
        have hattr : Py.attr ps.heap (.obj b) k = some f.ref.val := by
          simp [Py.attr, hR.heap.insts b i hi, hfi]
        have hstep : Py.step p ps (.get x y k) =
            some (⟨ps.heap, Py.upd ps.env x f.ref.val⟩, []) := by
          simp only [Py.step, hpy, Option.bind, hattr, Option.map]
        have hsub : ∀ b', f ≠ .sub b' := by
          obtain ⟨w', _, hw'⟩ := hcov
          obtain ⟨i', hi', ho⟩ := hR.inv.m.inst w' b hw'
          rw [hi] at hi'; cases hi'
          exact (ho.fields f (List.mem_of_getElem? hfi)).nosub
        have hl : ∀ r ∈ [o], LiveO s.objs r := by
          intro r hr; simp at hr; subst hr; exact ⟨q, hg.obj, hg.live⟩
        have hE : MemExt s.mem s.mem := ⟨fun _ _ => rfl, fun _ _ => rfl⟩
        cases f with
        | num v =>
          obtain ⟨s', ps', e1, e2, e3⟩ := num_sim (p := p) (x := x) (v := v) hR
          refine ⟨s', _, ?_, hstep, ?_⟩
          · simp only [step, h, Res.bind, hk, getter, hf]
            exact e1
          · simp only [Py.step] at e2
            cases e2
            refine ⟨e3.inv, e3.heap, ⟨e3.vars.env, fun z hz => ?_, fun z hz => ?_⟩, e3.ranked⟩
            · by_cases hzx : z = x
              · simp [Known.set, hzx] at hz
              · exact e3.vars.own z (by simpa [Known.set, hzx] using hz)
            · by_cases hzx : z = x
              · simp [Known.set, hzx] at hz
              · exact e3.vars.leaf z (by simpa [Known.set, hzx] using hz)
        | own d =>
          obtain ⟨s', e1, e2⟩ := new_rel (x := x) (k := .arr d false) (n := .any) (rs := [o])
            (leaked := s.leaked) (m' := s.mem) (h' := ps.heap) hR hl (by simp [Kind.isLeaf])
            ⟨by simp, by simp⟩ hR.heap
            (fun os' hP hr => plus_plain hR.inv.m hP (by simp) (by simp)
              (cov_new hP hR.inv.m hE (hr o (by simp)) hc))
          refine ⟨s', _, ?_, hstep, e2⟩
          simp only [step, h, Res.bind, hk, getter, hf]
          rw [show assignNew (newWith s (.arr d false) [o]) x = .ok s' from e1]; rfl
        | ptr d =>
          obtain ⟨s', e1, e2⟩ := new_rel (x := x) (k := .arr d false) (n := .any) (rs := [o])
            (leaked := s.leaked) (m' := s.mem) (h' := ps.heap) hR hl (by simp [Kind.isLeaf])
            ⟨by simp, by simp⟩ hR.heap
            (fun os' hP hr => plus_plain hR.inv.m hP (by simp) (by simp)
              (cov_new hP hR.inv.m hE (hr o (by simp)) hc))
          refine ⟨s', _, ?_, hstep, e2⟩
          simp only [step, h, Res.bind, hk, getter, hf]
          rw [show assignNew (newWith s (.arr d false) [o]) x = .ok s' from e1]; rfl
        | obj d =>
          obtain ⟨s', e1, e2⟩ := new_rel (x := x) (k := .inst d true) (n := .any) (rs := [o])
            (leaked := s.leaked + 1) (m' := s.mem) (h' := ps.heap) hR hl (by simp [Kind.isLeaf])
            ⟨by simp, by simp⟩ hR.heap
            (fun os' hP hr => plus_plain hR.inv.m hP (by simp) (by simp)
              (cov_new hP hR.inv.m hE (hr o (by simp)) hc))
          refine ⟨s', _, ?_, hstep, e2⟩
          simp only [step, h, Res.bind, hk, getter, hf]
          rw [show assignNew { newWith s (.inst d true) [o] with leaked := s.leaked + 1 } x = .ok s'
            from e1]; rfl
        | sub d => exact absurd rfl (hsub d)

theorem fill_sim {g w s ps p y v} (hR : Rel g w s ps) :
    step p s (.fill y v) = .raise ∨ ∃ s' ps', step p s (.fill y v) = .ok (s', []) ∧
      Py.step p ps (.fill y v) = some (ps', []) ∧ Rel g w s' ps' := by
  rcases look_ok hR y with h | ⟨⟨o, q⟩, h, hg⟩
  · left; simp [step, h, Res.bind]
  · have hcov := hR.inv.m.cov o q hg.obj hg.live
    have hpy := hg.py
    cases hk : q.kind with
    | num v => left; simp [step, h, Res.bind, hk]
    | inst d b => left; simp [step, h, Res.bind, hk]
    | arr d b =>
      right
      rw [hk] at hcov
      simp only [hk, Kind.ref, Ref.val] at hpy
      obtain ⟨u, hu⟩ := hR.inv.m.data_of_cov hcov
      refine ⟨{ s with mem := { s.mem with data := s.mem.data.set d (some v) } },
        { ps with heap := { ps.heap with arrs := ps.heap.arrs.set d v } }, ?_, ?_,
        ⟨⟨fill_minv (v := v) hR.inv.m hu, hR.inv.o⟩, fill_heap (v := v) hR.heap hu,
        hR.vars, hR.ranked⟩⟩
      · simp only [step, h, Res.bind, hk, fillData, hu, Res.map]
      · simp only [Py.step, hpy]

theorem print_sim {g w s ps p y} (hR : Rel g w s ps) :
    step p s (.print y) = .raise ∨ ∃ v, step p s (.print y) = .ok (s, [v]) ∧
      Py.step p ps (.print y) = some (ps, [v]) := by
  rcases look_ok hR y with h | ⟨⟨o, q⟩, h, hg⟩
  · left; simp [step, h, Res.bind]
  · have hcov := hR.inv.m.cov o q hg.obj hg.live
    have hpy := hg.py
    cases hk : q.kind with
    | num v =>
      right
      simp only [hk, Kind.ref, Ref.val] at hpy
      exact ⟨v, by simp [step, h, Res.bind, hk], by simp [Py.step, hpy]⟩
    | inst d b => left; simp [step, h, Res.bind, hk]
    | arr d b =>
      right
      rw [hk] at hcov
      simp only [hk, Kind.ref, Ref.val] at hpy
      obtain ⟨u, hu⟩ := hR.inv.m.data_of_cov hcov
      exact ⟨u, by simp [step, h, Res.bind, hk, readData, hu, Res.map],
        by simp [Py.step, hpy, hR.heap.data d u hu]⟩

theorem del_sim {g w s ps p x} (hR : Rel g w s ps) :
    step p s (.del x) = .raise ∨ ∃ s' ps', step p s (.del x) = .ok (s', []) ∧
      Py.step p ps (.del x) = some (ps', []) ∧ Rel g (Known.set w x .any) s' ps' := by
  rcases look_ok hR x with h | ⟨a, h, hg⟩
  · left; simp [step, h, Res.bind]
  · right
    obtain ⟨s', e1, e2⟩ := unbind_rel (x := x) (n := .any) hR (by simp) (by simp)
    refine ⟨s', _, ?_, ?_, e2⟩
    · simp only [step, h, Res.bind, e1, Res.map]
    · simp only [Py.step, hg.py, Option.map]

/-! ### setters -/

theorem set_sim {g w s ps p y k z} (hR : Rel g w s ps) (hy : w y = .own)
    (hz : g = true → w z = .leaf) :
    step p s (.set y k z) = .raise ∨ ∃ s' ps', step p s (.set y k z) = .ok (s', []) ∧
      Py.step p ps (.set y k z) = some (ps', []) ∧ Rel g w s' ps' := by
  rcases look_ok hR y with h | ⟨⟨o, q⟩, h, hg⟩
  · left; simp [step, h, Res.bind]
  · rcases look_ok hR z with h' | ⟨⟨c, r⟩, h', hg'⟩
    · left; simp [step, h, h', Res.bind]
    · obtain ⟨b, hb⟩ := hR.vars.own y hy
      rw [hg.kind] at hb
      have hk : q.kind = .inst b false := by simpa using hb
      have hown : OwnB s.objs o b := ⟨q, hg.obj, hg.live, hk⟩
      have hpy := hg.py
      simp only [hk, Kind.ref, Ref.val] at hpy
      obtain ⟨a1, a2, p2, a3, a4⟩ := append_ok hR.inv.o (o := o) (r := c) ⟨q, hg.obj, hg.live⟩
        ⟨r, hg'.obj, hg'.live⟩
      have hM := a2.minv hR.inv.m
      have hcz : Cov (append s.objs o c) s.mem o r.kind.ref := by
        have := a2.cov (hR.inv.m.cov c r hg'.obj hg'.live)
        cases hr : r.kind.ref with
        | none => trivial
        | num => trivial
        | arr d => rw [hr] at this; obtain ⟨x, k1, k2⟩ := this; exact ⟨x, .step a3 a4 k1, k2⟩
        | obj d => rw [hr] at this; obtain ⟨x, k1, k2⟩ := this; exact ⟨x, .step a3 a4 k1, k2⟩
      rcases getField_ok hR.inv.m (k := k) (o := o) (b := b) ⟨_, .refl _, hown⟩ with
        hf | ⟨i, f0, hf, hi, hfi, _⟩
      · left; simp [step, h, h', Res.bind, hk, setter, hf, Res.map]
      · have fin : ∀ f : CField, f.ref = r.kind.ref → (∀ d, f0 ≠ .own d) → (∀ d, f ≠ .own d) →
            (∀ b, f ≠ .sub b) →
            ∃ ps', Py.step p ps (.set y k z) = some (ps', []) ∧
              Rel g w { s with mem := setField s.mem b k f, objs := append s.objs o c } ps' := by
          intro f hr h0 h1 h2
          obtain ⟨hh, s1, s2⟩ := setField_heap (f := f) hR.heap hi (lt_of_some hfi)
          refine ⟨⟨hh, ps.env⟩, ?_, ⟨⟨?_, a1⟩, s2, ?_, fun hgg => ?_⟩⟩
          · simp only [Py.step, hpy, hg'.py]
            rw [← hr, s1]; rfl
          · refine setField_minv hM hi hfi h0 h1 h2 (fun w' hw' => ?_)
            have := hM.uniqB _ _ _ hw' (a2.ownB.2 hown)
            subst this
            rw [hr]; exact hcz
          · show VarsR w s.vars (kinds (append s.objs o c)) ps.env
            rw [a2.kinds]; exact hR.vars
          · show Ranked (appendAll s.objs o [c])
            refine ranked_appendAll (hR.ranked hgg) ?_ ?_
            · intro p0 hp0
              rw [hg.obj] at hp0; cases hp0
              left; simp [hk, Kind.isLeaf]
            · intro r0 hr0 q0 hq0
              simp at hr0; subst hr0
              rw [hg'.obj] at hq0; cases hq0
              obtain ⟨k0, hk0, hl0⟩ := hR.vars.leaf z (hz hgg)
              rw [hg'.kind] at hk0; cases hk0
              exact .inl hl0
        have bad : setter s o b k c r.kind.ref = .raise → step p s (.set y k z) = .raise := by
          intro hs; simp [step, h, h', Res.bind, hk, hs, Res.map]
        have good : ∀ s', setter s o b k c r.kind.ref = .ok s' →
            step p s (.set y k z) = .ok (s', []) := by
          intro s' hs; simp [step, h, h', Res.bind, hk, hs, Res.map]
        cases f0 with
        | num v0 =>
          cases hr : r.kind.ref with
          | num v =>
            right
            obtain ⟨ps', e1, e2⟩ := fin (.num v) hr.symm (by simp) (by simp) (by simp)
            exact ⟨_, ps', good _ (by simp [setter, hf, Res.bind, hr]), e1, e2⟩
          | none => left; apply bad; simp [setter, hf, Res.bind, hr]
          | arr => left; apply bad; simp [setter, hf, Res.bind, hr]
          | obj => left; apply bad; simp [setter, hf, Res.bind, hr]
        | ptr v0 =>
          cases hr : r.kind.ref with
          | arr v =>
            right
            obtain ⟨ps', e1, e2⟩ := fin (.ptr v) hr.symm (by simp) (by simp) (by simp)
            exact ⟨_, ps', good _ (by simp [setter, hf, Res.bind, hr]), e1, e2⟩
          | none => left; apply bad; simp [setter, hf, Res.bind, hr]
          | num => left; apply bad; simp [setter, hf, Res.bind, hr]
          | obj => left; apply bad; simp [setter, hf, Res.bind, hr]
        | obj v0 =>
          cases hr : r.kind.ref with
          | obj v =>
            right
            obtain ⟨ps', e1, e2⟩ := fin (.obj v) hr.symm (by simp) (by simp) (by simp)
            exact ⟨_, ps', good _ (by simp [setter, hf, Res.bind, hr]), e1, e2⟩
          | none => left; apply bad; simp [setter, hf, Res.bind, hr]
          | num => left; apply bad; simp [setter, hf, Res.bind, hr]
          | arr => left; apply bad; simp [setter, hf, Res.bind, hr]
        | own v0 => left; apply bad; simp [setter, hf, Res.bind]
        | sub v0 => left; apply bad; simp [setter, hf, Res.bind]

theorem setNum_sim {g w s ps p y k v} (hR : Rel g w s ps) :
    step p s (.setNum y k v) = .raise ∨ ∃ s' ps', step p s (.setNum y k v) = .ok (s', []) ∧
      Py.step p ps (.setNum y k v) = some (ps', []) ∧ Rel g w s' ps' := by
  rcases look_ok hR y with h | ⟨⟨o, q⟩, h, hg⟩
  · left; simp [step, h, Res.bind]
  · have hcov := hR.inv.m.cov o q hg.obj hg.live
    have hpy := hg.py
    cases hk : q.kind with
    | num v => left; simp [step, h, Res.bind, hk]
    | arr d b => left; simp [step, h, Res.bind, hk]
    | inst b al =>
      rw [hk] at hcov
      simp only [hk, Kind.ref, Ref.val] at hpy
      rcases getField_ok hR.inv.m (k := k) hcov with hf | ⟨i, f0, hf, hi, hfi, hc⟩
      · left; simp [step, h, Res.bind, hk, setter, newObj, hf]
      · have bad : setter (newObj s (.num v)) o b k s.objs.length (.num v) = .raise →
            step p s (.setNum y k v) = .raise := by
          intro hs; simp [step, h, Res.bind, hk, hs]
        cases f0 with
        | num v0 =>
          right
          have hpush := hR.inv.o.push (k := .num v)
          have hnew : LiveO (s.objs ++ [⟨.num v, [], 1⟩]) s.objs.length :=
            ⟨⟨.num v, [], 1⟩, by simp, by simp⟩
          have ho : (s.objs ++ [⟨.num v, [], 1⟩])[o]? = some q := by
            rw [List.getElem?_append_left (lt_of_get hg.obj)]; exact hg.obj
          obtain ⟨a1, a2, _⟩ := append_ok hpush (o := o) (r := s.objs.length) ⟨q, ho, hg.live⟩ hnew
          have hP := plus_of_grow a2
          have hM1 : MInv (append (s.objs ++ [⟨.num v, [], 1⟩]) o s.objs.length) s.mem :=
            plus_plain hR.inv.m hP (by simp) (by simp) trivial
          have hM2 := setField_minv hM1 hi hfi (f := .num v) (by simp) (by simp) (by simp)
            (fun _ _ => trivial)
          obtain ⟨hh, s1, s2⟩ := setField_heap (f := .num v) hR.heap hi (lt_of_some hfi)
          obtain ⟨s', d1, d2, d3⟩ := drop_ok [s.objs.length]
            { s with mem := setField s.mem b k (.num v),
                     objs := append (s.objs ++ [⟨.num v, [], 1⟩]) o s.objs.length } ⟨hM2, a1⟩
          refine ⟨s', ⟨hh, ps.env⟩, ?_, ?_, ⟨d2, d3.heap s2, ?_, fun hgg => ?_⟩⟩
          · have : setter (newObj s (.num v)) o b k s.objs.length (.num v) =
                .ok { s with
                  mem := setField s.mem b k (.num v),
                  objs := append (s.objs ++ [⟨.num v, [], 1⟩]) o s.objs.length } := by
              simp [setter, newObj, hf, Res.bind]
            simp only [step, h, Res.bind, hk, this, d1, Res.map]
          · simp only [Py.step, hpy]
            show Option.map _ (Py.setAttr ps.heap b k (CField.num v).ref.val) = _
            rw [s1]; rfl
          · rw [d3.vars, show kinds s'.objs = kinds
              (append (s.objs ++ [⟨.num v, [], 1⟩]) o s.objs.length) from d3.kinds, a2.kinds]
            simp only [kinds, List.map_append, List.map_cons, List.map_nil]
            exact hR.vars.push _ (fun o ho => by simpa [kinds] using hR.inv.o.bvars o ho)
          · refine ranked_of ?_ d3.kinds d3.refs
            show Ranked (appendAll (s.objs ++ [⟨.num v, [], 1⟩]) o [s.objs.length])
            refine ranked_appendAll (ranked_push (hR.ranked hgg) hR.inv.o.brefs) ?_ ?_
            · intro p0 hp0
              rw [ho] at hp0; cases hp0
              left; simp [hk, Kind.isLeaf]
            · intro r0 hr0 q0 hq0
              simp at hr0; subst hr0
              simp at hq0; subst hq0
              exact .inl rfl
        | own => left; apply bad; simp [setter, newObj, hf, Res.bind]
        | ptr => left; apply bad; simp [setter, newObj, hf, Res.bind]
        | obj => left; apply bad; simp [setter, newObj, hf, Res.bind]
        | sub => left; apply bad; simp [setter, newObj, hf, Res.bind]

/-! ### calls -/

theorem sub_stored {n st t t'} (hpl : plain st = true) (h : analyse n st t = some t')
    (hn : 0 < n) (hr : ∀ j ∈ storedFrom st, j < n) :
    ∀ a ∈ (t' 0).getD [], a ∈ (t 0).getD [] ∨ a ∈ storedFrom st := by
  induction st generalizing t t' with
  | skip => simp [analyse] at h; subst h; exact fun a ha => .inl ha
  | setNum => simp [analyse] at h; subst h; exact fun a ha => .inl ha
  | fill => simp [analyse] at h; subst h; exact fun a ha => .inl ha
  | renew => simp [plain] at hpl
  | seq a b iha ihb =>
    simp only [plain, Bool.and_eq_true] at hpl
    simp only [analyse] at h
    simp only [storedFrom, List.mem_append] at hr ⊢
    cases h1 : analyse n a t with
    | none => rw [h1] at h; simp at h
    | some t1 =>
      rw [h1] at h
      intro x hx
      rcases ihb hpl.2 h (fun j hj => hr j (.inr hj)) x hx with hx | hx
      · rcases iha hpl.1 h1 (fun j hj => hr j (.inl hj)) x hx with hx | hx
        · exact .inl hx
        · exact .inr (.inl hx)
      · exact .inr (.inr hx)
  | ite q a b iha ihb =>
    simp only [plain, Bool.and_eq_true] at hpl
    simp only [analyse] at h
    simp only [storedFrom, List.mem_append] at hr ⊢
    cases h1 : analyse n a t with
    | none => rw [h1] at h; simp at h
    | some t1 =>
      rw [h1] at h
      intro x hx
      rcases ihb hpl.2 h (fun j hj => hr j (.inr hj)) x hx with hx | hx
      · rcases iha hpl.1 h1 (fun j hj => hr j (.inl hj)) x hx with hx | hx
        · exact .inl hx
        · exact .inr (.inl hx)
      · exact .inr (.inr hx)
  | bind v q =>
    simp only [analyse] at h
    split at h
    · simp at h
    · cases hn' : newTargets n t (some v) q with
      | none => rw [hn'] at h; simp at h
      | some ts =>
        rw [hn'] at h; simp at h; subst h
        intro a ha
        simp only [addTargets] at ha
        rw [if_neg (by omega)] at ha
        exact .inl ha
  | store p k q =>
    simp only [plain, Bool.and_eq_true, decide_eq_true_eq] at hpl
    simp only [analyse] at h
    have hq : q.root < n := hr q.root (by simp [storedFrom])
    cases hn' : newTargets n t (some p.root) q with
    | none => rw [hn'] at h; simp at h
    | some ts =>
      rw [hn'] at h; simp at h; subst h
      intro a ha
      simp only [addTargets, hpl.1, if_true, Option.getD_some, List.mem_append] at ha
      rcases ha with ha | ha
      · exact .inl ha
      · right
        simp only [newTargets] at hn'
        split at hn'
        · cases hn'; simp at ha
        · try rw [if_pos hq] at hn'
          cases hn'
          simpa [storedFrom] using ha

theorem no_store_targets {n st t t'} (hs : stores st = false) (h : analyse n st t = some t')
    (hn : 0 < n) : t' 0 = t 0 := by
  induction st generalizing t t' with
  | skip => simp [analyse] at h; subst h; rfl
  | setNum => simp [analyse] at h; subst h; rfl
  | fill => simp [analyse] at h; subst h; rfl
  | renew => simp [analyse] at h; subst h; rfl
  | seq a b iha ihb =>
    simp only [stores, Bool.or_eq_false_iff] at hs
    simp only [analyse] at h
    cases h1 : analyse n a t with
    | none => rw [h1] at h; simp at h
    | some t1 => rw [h1] at h; rw [ihb hs.2 h, iha hs.1 h1]
  | ite q a b iha ihb =>
    simp only [stores, Bool.or_eq_false_iff] at hs
    simp only [analyse] at h
    cases h1 : analyse n a t with
    | none => rw [h1] at h; simp at h
    | some t1 => rw [h1] at h; rw [ihb hs.2 h, iha hs.1 h1]
  | bind v q =>
    simp only [analyse] at h
    split at h
    · simp at h
    · cases hn' : newTargets n t (some v) q with
      | none => rw [hn'] at h; simp at h
      | some ts =>
        rw [hn'] at h; simp at h; subst h
        simp only [addTargets]
        rw [if_neg (by omega)]
  | store => simp [stores] at hs

/-- The result of a function, in Python. -/
def pyRet (p : Prog) (h : Py.Heap) (e : Py.Env) (ret : Ret) : Option (Py.Heap × Py.Val) :=
  match ret with
  | .none => some (h, .none)
  | .num q => (Py.eval h e q).map (h, ·)
  | .old _ q => (Py.eval h e q).map (h, ·)
  | .fresh v => some (Py.newArr h v)
  | .make c qs => (qs.mapM (Py.eval h e)).bind fun vs => Py.construct p c vs h

theorem evalAll_ok {os m h n ao t l} (hM : MInv os m) (hH : HeapR m h) (hL : LocOk os m n ao t l)
    (qs : List Path) : wrapResult.evalAll m l qs = .raise ∨ ∃ rs,
      wrapResult.evalAll m l qs = .ok rs ∧
      qs.mapM (Py.eval h (fun v => (l v).val)) = some (rs.map Ref.val) := by
  induction qs with
  | nil => right; exact ⟨[], rfl, rfl⟩
  | cons q qs ih =>
    rcases eval_ok hM hH hL q with h1 | ⟨r, _, h1, h2, _⟩
    · left; simp [wrapResult.evalAll, h1, Res.bind]
    · rcases ih with ih | ⟨rs, h3, h4⟩
      · left; simp [wrapResult.evalAll, h1, Res.bind, ih, Res.map]
      · right
        exact ⟨r :: rs, by simp [wrapResult.evalAll, h1, Res.bind, h3, Res.map],
          by simp [List.mapM_cons, h2, h4]⟩

theorem selfMade_args {is : List Init} (h : is.all selfMade = true) : is.flatMap initArgs = [] := by
  induction is with
  | nil => rfl
  | cons i is ih =>
    simp only [List.all_cons, Bool.and_eq_true] at h
    rw [List.flatMap_cons, ih h.2, List.append_nil]
    have key : ∀ l : Leaf, (match l with | .arg t _ => t == .num | .fresh _ => true) = true →
        leafArgs l = [] := by
      intro l hl
      cases l with
      | fresh => rfl
      | arg t j =>
        cases t with
        | num => rfl
        | arr => exact absurd hl (by simp)
        | obj => exact absurd hl (by simp)
    cases i with
    | leaf l => exact key l (by cases l <;> simpa [selfMade] using h.1)
    | sub ls =>
      simp only [initArgs]
      have h1 := h.1
      simp only [selfMade, List.all_eq_true] at h1
      exact List.flatMap_eq_nil_iff.2 fun l hl => key l (h1 l hl)

/-- Making a Python object out of the result. -/
theorem wrap_sim {g w s ps p x ret i n ao t l} {as : List (Nat × PyObj)} (hp : plainProg p = true)
    (hR : Rel g w s ps)
    (hmake : ∀ c qs, ret = .make c qs → (p.classes.getD c []).all selfMade = true)
    (hL : LocOk s.objs s.mem n ao t l) (hn : as.length = n)
    (has : ∀ (j : Nat) (a : Nat × PyObj), as[j]? = some a → LiveO s.objs a.1 ∧ ao j = a.1)
    (hi : ∀ ty q, ret = .old ty q → newTargets n t Option.none q = some i.targets) :
    wrapResult p i as ret l s x = .raise ∨ ∃ s' h' v, wrapResult p i as ret l s x = .ok s' ∧
      pyRet p ps.heap (fun v => (l v).val) ret = some (h', v) ∧
      Rel g (Known.set w x (ofRet ret)) s' ⟨h', Py.upd ps.env x v⟩ := by
  cases ret with
  | none =>
    right
    obtain ⟨s', e1, e2⟩ := unbind_rel (x := x) (n := .any) hR (by simp) (by simp)
    exact ⟨s', ps.heap, .none, e1, rfl, e2⟩
  | num q =>
    rcases eval_ok hR.inv.m hR.heap hL q with h1 | ⟨r, _, h1, h2, _⟩
    · left; simp [wrapResult, h1, Res.bind]
    · cases r with
      | num v =>
        right
        obtain ⟨s', ps', e1, e2, e3⟩ := num_sim (p := p) (x := x) (v := v) hR
        simp only [Py.step] at e2
        cases e2
        refine ⟨s', ps.heap, .num v, ?_, ?_, e3⟩
        · simp only [wrapResult, h1, Res.bind]
          simp only [step] at e1
          cases ha : assignNew (newObj s (.num v)) x <;> rw [ha] at e1 <;> simp [Res.map] at e1
          rw [e1]
        · simp only [pyRet, h2, Option.map]; rfl
      | none => left; simp [wrapResult, h1, Res.bind]
      | arr => left; simp [wrapResult, h1, Res.bind]
      | obj => left; simp [wrapResult, h1, Res.bind]
  | old ty q =>
    have hi := hi ty q rfl
    rcases eval_ok hR.inv.m hR.heap hL q with h1 | ⟨r, a, h1, h2, h3, h4, h5, h6⟩
    · left; simp [wrapResult, h1, Res.bind]
    · have ha : a ∈ i.targets := by
        simp only [newTargets, reduceCtorEq, if_false] at hi
        by_cases hq : q.root < n
        · rw [if_pos hq] at hi; rw [← Option.some.inj hi, h5 hq]; simp
        · rw [if_neg hq] at hi
          have := h6 (by omega)
          rw [hi] at this; exact this
      have hex : ∃ b, as[a]? = some b := ⟨as[a], List.getElem?_eq_getElem (by omega)⟩
      obtain ⟨b, hb⟩ := hex
      have hao := (has a b hb).2
      have hmem : ao a ∈ pick as i.targets := by rw [hao]; exact pick_mem ha hb
      have hl : ∀ r ∈ pick as i.targets, LiveO s.objs r := by
        intro r hr
        obtain ⟨j, _, c, hc, rfl⟩ := mem_pick hr
        exact (has j c hc).1
      have hE : MemExt s.mem s.mem := ⟨fun _ _ => rfl, fun _ _ => rfl⟩
      have hne : i.targets.isEmpty = false := by
        cases hti : i.targets with
        | nil => rw [hti] at ha; simp at ha
        | cons => rfl
      have bad : (ty = .arr → ∀ d, r ≠ .arr d) → (ty = .obj → ∀ d, r ≠ .obj d) →
          wrapResult p i as (.old ty q) l s x = .raise := by
        intro k1 k2
        cases ty <;> cases r <;> simp_all [wrapResult, Res.bind]
      cases ty with
      | num => left; exact bad (by simp) (by simp)
      | arr =>
        cases r with
        | arr d =>
          right
          obtain ⟨s', e1, e2⟩ := new_rel (x := x) (k := .arr d false) (n := .any)
            (rs := pick as i.targets) (leaked := s.leaked) (m' := s.mem) (h' := ps.heap) hR hl
            (by simp [Kind.isLeaf]) ⟨by simp, by simp⟩ hR.heap
            (fun os' hP hr => plus_plain hR.inv.m hP (by simp) (by simp)
              (cov_new hP hR.inv.m hE (hr _ hmem) h4))
          refine ⟨s', ps.heap, .arr d, ?_, ?_, e2⟩
          · simp only [wrapResult, h1, Res.bind, hne]
            exact e1
          · simp only [pyRet, h2, Option.map]; rfl
        | none => left; exact bad (by simp) (by simp)
        | num => left; exact bad (by simp) (by simp)
        | obj => left; exact bad (by simp) (by simp)
      | obj =>
        cases r with
        | obj d =>
          right
          obtain ⟨s', e1, e2⟩ := new_rel (x := x) (k := .inst d true) (n := .any)
            (rs := pick as i.targets) (leaked := s.leaked + 1) (m' := s.mem) (h' := ps.heap) hR hl
            (by simp [Kind.isLeaf]) ⟨by simp, by simp⟩ hR.heap
            (fun os' hP hr => plus_plain hR.inv.m hP (by simp) (by simp)
              (cov_new hP hR.inv.m hE (hr _ hmem) h4))
          refine ⟨s', ps.heap, .obj d, ?_, ?_, e2⟩
          · simp only [wrapResult, h1, Res.bind]
            exact e1
          · simp only [pyRet, h2, Option.map]; rfl
        | none => left; exact bad (by simp) (by simp)
        | num => left; exact bad (by simp) (by simp)
        | arr => left; exact bad (by simp) (by simp)
  | fresh v =>
    right
    obtain ⟨s', e1, e2⟩ := arr_rel (x := x) (v := v) hR
    exact ⟨s', _, _, e1, rfl, e2⟩
  | make c qs =>
    have hmk := selfMade_args (hmake c qs rfl)
    rcases evalAll_ok hR.inv.m hR.heap hL qs with h1 | ⟨rs, h1, h2⟩
    · left; simp [wrapResult, h1, Res.bind]
    · rcases construct_ok hp hR.heap c rs with hr | ⟨m1, fs, h', c1, c2, c3, c4, c5⟩
      · left; simp [wrapResult, h1, Res.bind, hr]
      · right
        obtain ⟨s', e1, e2⟩ := new_rel (x := x) (k := .inst s.mem.insts.length false) (n := .own)
          (rs := []) (leaked := s.leaked) (h' := h') (m' := (newInst m1 ⟨false, fs⟩).1) hR (by simp)
          (by simp) ⟨fun _ => ⟨_, rfl⟩, by simp⟩ c4 (by
            intro os' hP hrs
            refine plus_inst hR.inv.m hP c5.insts c5.data c5.own c5.nodup c5.new c5.nosub ?_ ?_
            · intro d hd
              obtain ⟨j, k1, _⟩ := c5.ptr d hd
              rw [hmk] at k1; simp at k1
            · intro d hd
              obtain ⟨j, k1, _⟩ := c5.obj d hd
              rw [hmk] at k1; simp at k1)
        refine ⟨s', h', .obj s.mem.insts.length, ?_, ?_, e2⟩
        · simp only [wrapResult, h1, Res.bind, c2]
          exact e1
        · simp only [pyRet, h2, Option.bind, c3]

theorem call_sim {g w s ps p x f} {args : List Nat} (hp : plainProg p = true) (hR : Rel g w s ps)
    (hal : allowed p w (.call x f args) = true)
    (hbu : g = true → buildsUp p w (.call x f args) = true) :
    step p s (.call x f args) = .raise ∨ ∃ s' ps', step p s (.call x f args) = .ok (s', []) ∧
      Py.step p ps (.call x f args) = some (ps', []) ∧
      Rel g (after p w (.call x f args)) s' ps' := by
  cases hf : p.funcs[f]? with
  | none => left; simp [step, hf]
  | some fn =>
    rcases lookAll_ok hR args with h | ⟨as, h1, h2, h3, h4⟩
    · left; simp [step, hf, h, Res.bind]
    · have hpf : plainFunc p fn = true := by
        simp only [plainProg, Bool.and_eq_true, List.all_eq_true] at hp
        exact hp.2 fn (List.mem_of_getElem? hf)
      simp only [plainFunc, Bool.and_eq_true] at hpf
      obtain ⟨⟨hpl, hst⟩, hmk⟩ := hpf
      have bad : callFunc p fn s x as = .raise → step p s (.call x f args) = .raise := by
        intro hs; simp [step, hf, h1, Res.bind, hs, Res.map]
      cases hc : compile fn with
      | none => left; apply bad; simp [callFunc, hc]
      | some i =>
        by_cases hlen : as.length = fn.nargs
        · cases hT : analyse fn.nargs fn.body (fun _ => Option.none) with
          | none => simp [compile, hT] at hc
          | some t =>
            -- what the analysis says
            have hpers : i.persistent = if fn.isMethod then (List.range fn.nargs).filter
                (fun j => ((t 0).getD []).contains j) else [] := by
              simp only [compile, hT, Option.bind] at hc
              cases hret : fn.ret with
              | old ty q =>
                rw [hret] at hc
                cases hnt : newTargets fn.nargs t Option.none q with
                | none => simp [hnt] at hc
                | some ts =>
                  simp only [hnt] at hc
                  split at hc
                  · simp at hc
                  · split at hc
                    · simp at hc
                    · cases hc; rfl
              | none => rw [hret] at hc; cases hc; rfl
              | num => rw [hret] at hc; cases hc; rfl
              | fresh => rw [hret] at hc; cases hc; rfl
              | make => rw [hret] at hc; cases hc; rfl
            have htar : ∀ ty q, fn.ret = .old ty q →
                newTargets fn.nargs t Option.none q = some i.targets := by
              intro ty q hret
              simp only [compile, hT, Option.bind, hret] at hc
              cases hnt : newTargets fn.nargs t Option.none q with
              | none => simp [hnt] at hc
              | some ts =>
                simp only [hnt] at hc
                split at hc
                · simp at hc
                · split at hc
                  · simp at hc
                  · cases hc; rfl
            -- the persistent targets are referenced
            have hlv : ∀ (j : Nat) (a : Nat × PyObj), as[j]? = some a → LiveO s.objs a.1 := by
              intro j a ha
              obtain ⟨y, _, hg⟩ := h4 j a ha
              exact ⟨a.2, hg.obj, hg.live⟩
            have hpk : ∀ r ∈ pick as i.persistent, LiveO s.objs r := by
              intro r hr
              obtain ⟨j, _, a, ha, rfl⟩ := mem_pick hr
              exact hlv j a ha
            have hrk : g = true → ∀ a, as[0]? = some a →
                Ranked (appendAll s.objs a.1 (pick as i.persistent)) := by
              intro hg a ha
              have hn0 : 0 < fn.nargs := by have := lt_of_some ha; omega
              refine ranked_appendAll (hR.ranked hg) ?_ ?_
              · intro p0 hp0
                obtain ⟨y, hy, hgot⟩ := h4 0 a ha
                rw [hgot.obj] at hp0; cases hp0
                cases hs : stores fn.body
                · right
                  have := no_store_targets hs hT hn0
                  rw [hpers, this]
                  simp [pick]
                · left
                  have hown : w y = .own := by
                    simp only [allowed, hf, hs, Bool.not_true, Bool.false_or, beq_iff_eq] at hal
                    rw [List.head?_eq_getElem?, hy] at hal
                    simpa using hal
                  obtain ⟨b, hb⟩ := hR.vars.own y hown
                  rw [hgot.kind] at hb
                  cases hb' : a.2.kind with
                  | inst => rfl
                  | num => rw [hb'] at hb; simp at hb
                  | arr => rw [hb'] at hb; simp at hb
              · intro r hr q hq
                left
                obtain ⟨j, hj, c, hcj, rfl⟩ := mem_pick hr
                have hbb := hbu hg
                simp only [buildsUp, hf, List.all_eq_true, beq_iff_eq] at hbb
                have hjs : j ∈ storedFrom fn.body := by
                  rw [hpers] at hj
                  split at hj
                  · simp only [List.mem_filter, List.contains_iff_mem] at hj
                    rcases sub_stored hpl hT hn0 (fun j hj => by
                      have := hbb j hj
                      cases hjj : args[j]? with
                      | none => rw [hjj] at this; simp at this
                      | some y => have := lt_of_some hjj; omega) j hj.2 with h | h
                    · simp at h
                    · exact h
                  · simp at hj
                have hwj := hbb j hjs
                obtain ⟨y, hy, hgot⟩ := h4 j c hcj
                rw [hy] at hwj
                simp at hwj
                obtain ⟨k0, hk0, hl0⟩ := hR.vars.leaf y hwj
                rw [hgot.kind] at hk0; cases hk0
                rw [hgot.obj] at hq; cases hq
                exact hl0
            -- the objects after the persistent targets have been saved
            obtain ⟨os, hos, hG, hO, hKeep, hRk⟩ : ∃ os,
                saveTargets s.objs as (pick as i.persistent) = os ∧ Grow s.objs os ∧ OInv os (s.vars.map Prod.snd) [] ∧
                (∀ a, as[0]? = some a → ∀ r ∈ pick as i.persistent,
                  ∃ p : PyObj, os[a.1]? = some p ∧ r ∈ p.refs) ∧
                (g = true → Ranked os) := by
              cases has : as with
              | nil => exact ⟨_, rfl, Grow.refl _, hR.inv.o, by simp, hR.ranked⟩
              | cons a as' =>
                have hsv : saveTargets s.objs as (pick as i.persistent) =
                    appendAll s.objs a.1 (pick as i.persistent) := by
                  conv => lhs; unfold saveTargets
                  rw [has]
                rw [← has, hsv]
                have ha : as[0]? = some a := by rw [has]; rfl
                obtain ⟨a1, a2, a3⟩ := appendAll_ok (o := a.1) (pick as i.persistent) hR.inv.o
                  (hlv 0 a ha) hpk
                refine ⟨_, rfl, a2, a1, ?_, fun hg => hrk hg a ha⟩
                intro b hb r hr
                rw [ha] at hb; cases hb
                exact a3 r hr
            have hM := hG.minv hR.inv.m
            -- the arguments
            let ao : Nat → Nat := fun j => ((as[j]?).map Prod.fst).getD 0
            have hao : ∀ (j : Nat) (a : Nat × PyObj), as[j]? = some a → ao j = a.1 := by
              intro j a ha; simp [ao, ha]
            have hL : LocOk os s.mem fn.nargs ao (fun _ => Option.none) (argLocals as) := by
              refine ⟨fun v hv => ?_, fun v hv => .inl ?_⟩
              · obtain ⟨a, ha⟩ : ∃ a, as[v]? = some a :=
                  ⟨as[v], List.getElem?_eq_getElem (by omega)⟩
                obtain ⟨y, _, hgot⟩ := h4 v a ha
                rw [hao v a ha]
                simp only [argLocals, ha, Option.map, Option.getD]
                exact hG.cov (hR.inv.m.cov a.1 a.2 hgot.obj hgot.live)
              · have : as[v]? = Option.none := List.getElem?_eq_none (by omega)
                simp [argLocals, this]
            have hsim := exec_sim (tf := t) fn.body s.mem ps.heap _ t _ hM hR.heap hL hpl hT
              (fun _ _ h => h) (fun hs => by
                have hme : fn.isMethod = true := by simpa [hs] using hst
                have hhd : args.head?.map w = some .own := by
                  simp only [allowed, hf, hs, Bool.not_true, Bool.false_or, beq_iff_eq] at hal
                  exact hal
                cases hargs : args with
                | nil => rw [hargs] at hhd; simp at hhd
                | cons y ys =>
                  rw [hargs] at hhd
                  simp at hhd
                  have hn0 : 0 < fn.nargs := by rw [hargs] at h2; simp at h2; omega
                  obtain ⟨a, ha⟩ : ∃ a, as[0]? = some a :=
                    ⟨as[0], List.getElem?_eq_getElem (by omega)⟩
                  obtain ⟨y', hy', hgot⟩ := h4 0 a ha
                  rw [hargs] at hy'; simp at hy'; subst hy'
                  obtain ⟨b, hb⟩ := hR.vars.own y hhd
                  rw [hgot.kind] at hb
                  have hk : a.2.kind = .inst b false := by simpa using hb
                  refine ⟨hn0, b, ?_, ?_, ?_⟩
                  · rw [hao 0 a ha]
                    exact hG.ownB.2 ⟨a.2, hgot.obj, hgot.live, hk⟩
                  · simp [argLocals, ha, hk, Kind.ref]
                  · intro j hj hjn
                    obtain ⟨c, hc⟩ : ∃ c, as[j]? = some c :=
                      ⟨as[j], List.getElem?_eq_getElem (by omega)⟩
                    rw [hao 0 a ha, hao j c hc]
                    obtain ⟨p0, k1, k2⟩ := hKeep a ha c.1 (pick_mem (i := j) (by
                      rw [hpers, if_pos hme]
                      simp only [List.mem_filter, List.mem_range, List.contains_iff_mem]
                      exact ⟨hjn, hj⟩) hc)
                    exact .step k1 k2 (.refl _))
            have hcall : callFunc p fn s x as = (exec fn.body s.mem (argLocals as)).bind fun r =>
                wrapResult p i as fn.ret r.2 { s with mem := r.1, objs := os } x := by
              simp only [callFunc, hc, hlen, ne_eq, not_true, if_false, hos]
            cases hx : exec fn.body s.mem (argLocals as) with
            | ub => rw [hx] at hsim; exact hsim.elim
            | raise => left; apply bad; rw [hcall, hx]; rfl
            | ok r =>
              obtain ⟨m', l'⟩ := r
              rw [hx] at hsim
              obtain ⟨q1, q2, _, h', q4, q5⟩ := hsim
              have hR' : Rel g w { s with mem := m', objs := os } ⟨h', ps.env⟩ :=
                ⟨⟨q1, hO⟩, q4, by
                  show VarsR w s.vars (kinds os) ps.env
                  rw [hG.kinds]; exact hR.vars, hRk⟩
              rcases wrap_sim (x := x) (ret := fn.ret) (i := i) (as := as) hp hR' (by
                  intro c qs hret; rw [hret] at hmk; exact hmk) q2 hlen
                  (fun j a ha => ⟨hG.live (hlv j a ha), hao j a ha⟩) htar with
                hw | ⟨s', h'', v, w1, w2, w3⟩
              · left; apply bad; rw [hcall, hx]; exact hw
              · right
                refine ⟨s', ⟨h'', Py.upd ps.env x v⟩, ?_, ?_, ?_⟩
                · simp only [step, hf, h1, Res.bind, hcall, hx]
                  rw [w1]; rfl
                · have henv : (fun v => (argLocals as v).val) =
                      Py.argEnv (as.map fun a => a.2.kind.ref.val) := by
                    funext v
                    simp only [argLocals, Py.argEnv]
                    cases hv : as[v]? with
                    | none => simp [hv, Ref.val, List.getD]
                    | some a => simp [hv, List.getD]
                  rw [henv] at q5
                  have hpc : Py.call p fn (as.map fun a => a.2.kind.ref.val) ps.heap =
                      some (h'', v) := by
                    simp only [Py.call, q5, Option.bind]
                    exact w2
                  simp only [Py.step, hf, Option.bind, h3, hpc, Option.map]
                · simp only [after, hf]; exact w3
        · left; apply bad; simp [callFunc, hc, hlen]

/-! ### programs -/

theorem step_sim {g w s ps p} (o : Op) (hp : plainProg p = true) (hR : Rel g w s ps)
    (hal : allowed p w o = true) (hbu : g = true → buildsUp p w o = true) :
    step p s o = .raise ∨ ∃ s' ps' out, step p s o = .ok (s', out) ∧
      Py.step p ps o = some (ps', out) ∧ Rel g (after p w o) s' ps' := by
  cases o with
  | num x v => right; obtain ⟨s', ps', h⟩ := num_sim (p := p) (x := x) (v := v) hR; exact ⟨s', ps', _, h⟩
  | arr x v =>
    right
    obtain ⟨s', e1, e2⟩ := arr_rel (x := x) (v := v) hR
    exact ⟨s', _, [], by simp only [step, e1, Res.map], rfl, e2⟩
  | new x c args =>
    rcases new_sim (x := x) (c := c) (args := args) hp hR with h | ⟨s', ps', h⟩
    · exact .inl h
    · exact .inr ⟨s', ps', _, h⟩
  | copy x y =>
    rcases copy_sim (p := p) (x := x) (y := y) hR with h | ⟨s', ps', h⟩
    · exact .inl h
    · exact .inr ⟨s', ps', _, h⟩
  | get x y k =>
    rcases get_sim (p := p) (x := x) (y := y) (k := k) hR with h | ⟨s', ps', h⟩
    · exact .inl h
    · exact .inr ⟨s', ps', _, h⟩
  | set y k z =>
    rcases set_sim (p := p) (k := k) (z := z) hR (by simpa [allowed] using hal)
      (fun hg => by simpa [buildsUp] using hbu hg) with h | ⟨s', ps', h⟩
    · exact .inl h
    · exact .inr ⟨s', ps', _, h⟩
  | setNum y k v =>
    rcases setNum_sim (p := p) (y := y) (k := k) (v := v) hR with h | ⟨s', ps', h⟩
    · exact .inl h
    · exact .inr ⟨s', ps', _, h⟩
  | call x f args =>
    rcases call_sim (x := x) (f := f) (args := args) hp hR hal hbu with h | ⟨s', ps', h⟩
    · exact .inl h
    · exact .inr ⟨s', ps', _, h⟩
  | fill y v =>
    rcases fill_sim (p := p) (y := y) (v := v) hR with h | ⟨s', ps', h⟩
    · exact .inl h
    · exact .inr ⟨s', ps', _, h⟩
  | print y =>
    rcases print_sim (p := p) (y := y) hR with h | ⟨v, h1, h2⟩
    · exact .inl h
    · exact .inr ⟨s, ps, _, h1, h2, hR⟩
  | del x =>
    rcases del_sim (p := p) (x := x) hR with h | ⟨s', ps', h⟩
    · exact .inl h
    · exact .inr ⟨s', ps', _, h⟩

theorem run_sim {g w s ps p} (ops : List Op) (hp : plainProg p = true) (hR : Rel g w s ps)
    (ht : tidyFrom p g w ops = true) :
    run p s ops = .raise ∨ ∃ s' ps' out w', run p s ops = .ok (s', out) ∧
      Py.run p ps ops = some (ps', out) ∧ Rel g w' s' ps' := by
  induction ops generalizing w s ps with
  | nil => right; exact ⟨s, ps, [], w, rfl, rfl, hR⟩
  | cons o ops ih =>
    simp only [tidyFrom, Bool.and_eq_true] at ht
    rcases step_sim o hp hR ht.1.1 (fun hg => by simpa [hg] using ht.1.2) with
      h | ⟨s1, ps1, o1, h1, h2, h3⟩
    · left; simp [run, h, Res.bind]
    · rcases ih h3 ht.2 with h | ⟨s2, ps2, o2, w2, k1, k2, k3⟩
      · left; simp [run, h1, Res.bind, h, Res.map]
      · right
        exact ⟨s2, ps2, o1 ++ o2, w2, by simp [run, h1, Res.bind, k1, Res.map],
          by simp [Py.run, h2, k2], k3⟩

theorem rel_empty (g : Bool) : Rel g (fun _ => .any) empty Py.empty := by
  refine ⟨⟨⟨?_, ?_, ?_, ?_, ?_, ?_, ?_⟩, ⟨?_, ?_, ?_, ?_, ?_⟩⟩, ⟨rfl, rfl, ?_, ?_⟩,
    ⟨fun x => rfl, ?_, ?_⟩, ?_⟩
  · rintro w b ⟨p, hp, _⟩; simp [empty] at hp
  · intro w d p hp; simp [empty] at hp
  · intro w w' d h; have := h.lt; simp [empty] at this
  · intro w w' d h; have := h.lt; simp [empty] at this
  · intro d v h; simp [empty] at h
  · intro d v h; simp [empty] at h
  · intro o p hp; simp [empty] at hp
  · intro o h; simp [empty] at h
  · intro o h; simp [empty, flat] at h
  · intro o h; simp at h
  · intro o p hp; simp [empty] at hp
  · intro o p hp; simp [empty] at hp
  · intro d v h; simp [empty] at h
  · intro d v h; simp [empty] at h
  · intro x h; simp at h
  · intro x h; simp at h
  · intro _ o r p q hp; simp [empty] at hp

end Verif.Lifetimes.C
