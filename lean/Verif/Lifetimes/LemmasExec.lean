import Verif.Lifetimes.Domain
import Verif.Lifetimes.LemmasNew

/-
The body of a function does in compiled code what it does in Python, and keeps the
memory in order.
-/
namespace Verif.Lifetimes.C

/-- The Python value a value of the compiled code stands for. -/
def Ref.val : Ref → Py.Val
  | .none => .none
  | .num v => .num v
  | .arr d => .arr d
  | .obj b => .obj b

/-- The memory holds the Python values, as far as it has not been freed. -/
structure HeapR (m : Mem) (h : Py.Heap) : Prop where
  dl : h.arrs.length = m.data.length
  ol : h.objs.length = m.insts.length
  data : ∀ (d : Nat) (v : Int), m.data[d]? = some (some v) → h.arrs[d]? = some v
  insts : ∀ (b : Nat) (i : Inst), m.insts[b]? = some (some i) →
    h.objs[b]? = some (i.fields.map fun f => f.ref.val)

/-! ### reading -/

theorem MInv.inst_of_cov {os m} (h : MInv os m) {o b} (hc : Cov os m o (.obj b)) :
    ∃ i, m.insts[b]? = some (some i) := by
  obtain ⟨w, _, hw⟩ := hc
  obtain ⟨i, hi, _⟩ := h.inst w b hw
  exact ⟨i, hi⟩

theorem MInv.data_of_cov {os m} (h : MInv os m) {o d} (hc : Cov os m o (.arr d)) :
    ∃ v, m.data[d]? = some (some v) := by
  obtain ⟨w, _, hw⟩ := hc
  exact h.data_live hw

theorem getField_ok {os m} (h : MInv os m) {o b k} (hc : Cov os m o (.obj b)) :
    getField m b k = .raise ∨ ∃ i f, getField m b k = .ok f ∧ m.insts[b]? = some (some i) ∧
      i.fields[k]? = some f ∧ Cov os m o f.ref := by
  obtain ⟨i, hi⟩ := h.inst_of_cov hc
  cases hf : i.fields[k]? with
  | none => left; simp [getField, getInst, hi, Res.bind, hf]
  | some f =>
    right
    exact ⟨i, f, by simp [getField, getInst, hi, Res.bind, hf], hi, hf,
      h.cov_attr hc hi (List.mem_of_getElem? hf)⟩

theorem follow_ok {os m h} (hM : MInv os m) (hH : HeapR m h) {o} (ks : List Nat) (r : Ref)
    (hc : Cov os m o r) :
    follow m r ks = .raise ∨ ∃ r', follow m r ks = .ok r' ∧ Cov os m o r' ∧
      Py.follow h r.val ks = some r'.val := by
  induction ks generalizing r with
  | nil => right; exact ⟨r, rfl, hc, rfl⟩
  | cons k ks ih =>
    cases r with
    | none => left; rfl
    | num => left; rfl
    | arr => left; rfl
    | obj b =>
      rcases getField_ok hM (k := k) hc with hg | ⟨i, f, hg, hi, hf, hcf⟩
      · left; simp [follow, attr, hg, Res.map, Res.bind]
      · have hpy : Py.attr h (.obj b) k = some f.ref.val := by
          simp [Py.attr, hH.insts b i hi, hf]
        rcases ih f.ref hcf with h1 | ⟨r', h1, h2, h3⟩
        · left; simp [follow, attr, hg, Res.map, Res.bind, h1]
        · right
          refine ⟨r', by simp [follow, attr, hg, Res.map, Res.bind, h1], h2, ?_⟩
          simp only [Ref.val, Py.follow, hpy, Option.bind]
          exact h3

theorem follow_none (m : Mem) (ks : List Nat) (r : Ref) (h : follow m .none ks = .ok r) :
    r = .none := by
  cases ks with
  | nil => simp [follow] at h; exact h.symm
  | cons k ks => simp [follow, attr, Res.bind] at h

/-! ### the variables of a function -/

/-- The arguments are kept alive by the Python objects passed, a variable by one of
its targets. -/
structure LocOk (os : List PyObj) (m : Mem) (n : Nat) (ao : Nat → Nat) (t : Targets) (l : Locals) :
    Prop where
  arg : ∀ v, v < n → Cov os m (ao v) (l v)
  var : ∀ v, n ≤ v → l v = .none ∨ ∃ a ∈ (t v).getD [], a < n ∧ Cov os m (ao a) (l v)

/-- A value read through a path is kept alive by the root of the path or by one of
its targets. -/
theorem eval_ok {os m h n ao t l} (hM : MInv os m) (hH : HeapR m h) (hL : LocOk os m n ao t l)
    (q : Path) :
    eval m l q = .raise ∨ ∃ r a, eval m l q = .ok r ∧ Py.eval h (fun v => (l v).val) q = some r.val ∧
      a < n ∧ Cov os m (ao a) r ∧ (q.root < n → a = q.root) ∧
      (n ≤ q.root → a ∈ (t q.root).getD []) := by
  by_cases h0 : l q.root = .none
  · left; simp [eval, h0]
  · have he : eval m l q = follow m (l q.root) q.attrs := by
      simp only [eval]
    have hp : Py.eval h (fun v => (l v).val) q = Py.follow h (l q.root).val q.attrs := by
      simp only [Py.eval]
      cases hl : l q.root <;> simp_all [Ref.val]
    rw [he, hp]
    have key : ∃ a, a < n ∧ Cov os m (ao a) (l q.root) ∧ (q.root < n → a = q.root) ∧
        (n ≤ q.root → a ∈ (t q.root).getD []) := by
      by_cases hq : q.root < n
      · exact ⟨q.root, hq, hL.arg _ hq, fun _ => rfl, fun hc => by omega⟩
      · rcases hL.var q.root (by omega) with hc | ⟨a, h1, h2, h3⟩
        · exact absurd hc h0
        · exact ⟨a, h2, h3, fun hc => absurd hc hq, fun _ => h1⟩
    obtain ⟨a, a1, a2, a3, a4⟩ := key
    rcases follow_ok hM hH q.attrs (l q.root) a2 with h1 | ⟨r, h1, h2, h3⟩
    · left; exact h1
    · right; exact ⟨r, a, h1, h3, a1, h2, a3, a4⟩

/-! ### writing -/

theorem ownsOf_set {fs : List CField} {k : Nat} {f0 f : CField} (hf : fs[k]? = some f0)
    (h0 : ∀ d, f0 ≠ .own d) (h1 : ∀ d, f ≠ .own d) : ownsOf (fs.set k f) = ownsOf fs := by
  induction fs generalizing k with
  | nil => rfl
  | cons a fs ih =>
    cases k with
    | zero =>
      simp at hf; subst hf
      cases a <;> cases f <;> simp_all [ownsOf]
    | succ k =>
      simp at hf
      have := ih hf
      cases a <;> simp [ownsOf, this]

theorem ownD_congr {os m m'} (h : ∀ (b : Nat) (i' : Inst), m'.insts[b]? = some (some i') →
      ∃ i, m.insts[b]? = some (some i) ∧ ∀ d, CField.own d ∈ i'.fields ↔ CField.own d ∈ i.fields)
    (h' : ∀ (b : Nat) (i : Inst), m.insts[b]? = some (some i) →
      ∃ i', m'.insts[b]? = some (some i') ∧ ∀ d, CField.own d ∈ i'.fields ↔ CField.own d ∈ i.fields)
    {w d} : OwnD os m' w d ↔ OwnD os m w d := by
  constructor
  · rintro (hp | ⟨b, i', hb, hi, hd⟩)
    · exact .inl hp
    · obtain ⟨i, h1, h2⟩ := h b i' hi
      exact .inr ⟨b, i, hb, h1, (h2 d).1 hd⟩
  · rintro (hp | ⟨b, i, hb, hi, hd⟩)
    · exact .inl hp
    · obtain ⟨i', h1, h2⟩ := h' b i hi
      exact .inr ⟨b, i', hb, h1, (h2 d).2 hd⟩

theorem cov_congr {os m m'} (h : ∀ w d, OwnD os m' w d ↔ OwnD os m w d) {o r} :
    Cov os m' o r ↔ Cov os m o r := by
  cases r with
  | none => exact Iff.rfl
  | num => exact Iff.rfl
  | arr d =>
    constructor
    · rintro ⟨w, h1, h2⟩; exact ⟨w, h1, (h w d).1 h2⟩
    · rintro ⟨w, h1, h2⟩; exact ⟨w, h1, (h w d).2 h2⟩
  | obj d => exact Iff.rfl

theorem setField_eq {m b i} (k : Nat) (f : CField) (hi : m.insts[b]? = some (some i)) :
    setField m b k f =
      { m with insts := m.insts.set b (some { i with fields := i.fields.set k f }) } := by
  simp [setField, hi]

theorem setField_own {os m b k f f0 i} (hi : m.insts[b]? = some (some i))
    (hf : i.fields[k]? = some f0) (h0 : ∀ d, f0 ≠ .own d) (h1 : ∀ d, f ≠ .own d) (w d : Nat) :
    OwnD os (setField m b k f) w d ↔ OwnD os m w d := by
  have hk := ownsOf_set hf h0 h1
  have hlt := lt_of_some hi
  rw [setField_eq k f hi]
  have key : ∀ d, CField.own d ∈ i.fields.set k f ↔ CField.own d ∈ i.fields := fun d => by
    rw [← mem_ownsOf, ← mem_ownsOf, hk]
  apply ownD_congr
  · intro b' i' hi'
    by_cases hb : b = b'
    · subst hb
      simp [hlt] at hi'
      subst hi'
      exact ⟨i, hi, key⟩
    · exact ⟨i', by simpa [List.getElem?_set_ne hb] using hi', fun _ => Iff.rfl⟩
  · intro b' i' hi'
    by_cases hb : b = b'
    · subst hb
      rw [hi] at hi'; cases hi'
      exact ⟨{ i with fields := i.fields.set k f }, by simp [hlt], key⟩
    · exact ⟨i', by simpa [List.getElem?_set_ne hb] using hi', fun _ => Iff.rfl⟩

theorem setField_minv {os m b k f f0 i} (hM : MInv os m) (hi : m.insts[b]? = some (some i))
    (hf : i.fields[k]? = some f0) (h0 : ∀ d, f0 ≠ .own d) (h1 : ∀ d, f ≠ .own d)
    (h2 : ∀ b, f ≠ .sub b) (hc : ∀ w, OwnB os w b → Cov os m w f.ref) :
    MInv os (setField m b k f) := by
  have oD := setField_own (os := os) hi hf h0 h1
  have oC : ∀ {o r}, Cov os (setField m b k f) o r ↔ Cov os m o r := cov_congr oD
  have hlt := lt_of_some hi
  have hset := setField_eq k f hi
  have hdat : (setField m b k f).data = m.data := by rw [hset]
  refine ⟨?_, ?_, ?_, hM.uniqB, ?_, ?_, ?_⟩
  · intro w b' hb'
    obtain ⟨i', hi', ho⟩ := hM.inst w b' hb'
    by_cases hb : b = b'
    · subst hb
      rw [hi] at hi'; cases hi'
      refine ⟨{ i with fields := i.fields.set k f }, by rw [hset]; simp [hlt], ho.outside, ?_,
        fun g hg => ?_⟩
      · show (ownsOf (i.fields.set k f)).Nodup
        rw [ownsOf_set hf h0 h1]; exact ho.nodup
      · rcases List.mem_or_eq_of_mem_set hg with hg | rfl
        · have := ho.fields g hg
          exact ⟨this.nosub, by rw [hdat]; exact this.data, oC.2 this.cov⟩
        · exact ⟨h2, fun d hd => absurd hd (h1 d), oC.2 (hc w hb')⟩
    · refine ⟨i', by rw [hset]; simpa [List.getElem?_set_ne hb] using hi', ho.outside, ho.nodup,
        fun g hg => ?_⟩
      have := ho.fields g hg
      exact ⟨this.nosub, by rw [hdat]; exact this.data, oC.2 this.cov⟩
  · rw [hdat]; exact hM.arr
  · intro w w' d h1 h2; exact hM.uniqD w w' d ((oD w d).1 h1) ((oD w' d).1 h2)
  · intro d v hd
    rw [hdat] at hd
    obtain ⟨w, hw⟩ := hM.aliveD d v hd
    exact ⟨w, (oD w d).2 hw⟩
  · intro b' i' hi'
    rw [hset] at hi'
    by_cases hb : b = b'
    · subst hb; exact hM.aliveB b i hi
    · exact hM.aliveB b' i' (by simpa [List.getElem?_set_ne hb] using hi')
  · intro o p hp hr; exact oC.2 (hM.cov o p hp hr)

theorem setField_heap {m h b k f i} (hH : HeapR m h) (hi : m.insts[b]? = some (some i))
    (hk : k < i.fields.length) :
    ∃ h', Py.setAttr h b k f.ref.val = some h' ∧ HeapR (setField m b k f) h' := by
  have hb := hH.insts b i hi
  have hlt := lt_of_some hi
  have hlt' : b < h.objs.length := lt_of_some hb
  refine ⟨{ h with objs := h.objs.set b ((i.fields.map fun f => f.ref.val).set k f.ref.val) }, ?_, ?_⟩
  · simp only [Py.setAttr, hb]
    rw [if_pos (by simpa using hk)]
  · rw [setField_eq k f hi]
    refine ⟨hH.dl, by simp [hH.ol], hH.data, fun b' i' hi' => ?_⟩
    by_cases hbb : b = b'
    · subst hbb
      simp [hlt] at hi'
      subst hi'
      simp [hlt', List.map_set]
    · simp [List.getElem?_set_ne hbb] at hi' ⊢
      exact hH.insts b' i' hi'

theorem fill_minv {os m d v w} (hM : MInv os m) (hd : m.data[d]? = some (some w)) :
    MInv os { m with data := m.data.set d (some v) } := by
  have hlt := lt_of_some hd
  have key : ∀ d' : Nat, (∃ u : Int, m.data[d']? = some (some u)) →
      ∃ u : Int, (m.data.set d (some v))[d']? = some (some u) := by
    rintro d' ⟨u, hu⟩
    by_cases h : d = d'
    · subst h; exact ⟨v, by simp [hlt]⟩
    · exact ⟨u, by rw [List.getElem?_set_ne h]; exact hu⟩
  refine ⟨?_, ?_, hM.uniqD, hM.uniqB, ?_, hM.aliveB, hM.cov⟩
  · intro x b hb
    obtain ⟨i, hi, ho⟩ := hM.inst x b hb
    exact ⟨i, hi, ho.outside, ho.nodup, fun f hf =>
      ⟨(ho.fields f hf).nosub, fun d' hd' => key d' ((ho.fields f hf).data d' hd'),
        (ho.fields f hf).cov⟩⟩
  · intro x d' p hp hr hk; exact key d' (hM.arr x d' p hp hr hk)
  · intro d' u hu
    by_cases h : d = d'
    · subst h; exact hM.aliveD d w hd
    · exact hM.aliveD d' u (by simpa [List.getElem?_set_ne h] using hu)

theorem fill_heap {m h d v w} (hH : HeapR m h) (hd : m.data[d]? = some (some w)) :
    HeapR { m with data := m.data.set d (some v) } { h with arrs := h.arrs.set d v } := by
  have hlt := lt_of_some hd
  have hlt' : d < h.arrs.length := by rw [hH.dl]; exact hlt
  refine ⟨by simp [hH.dl], hH.ol, fun d' u hu => ?_, hH.insts⟩
  by_cases h : d = d'
  · subst h
    simp [hlt] at hu
    subst hu
    simp [hlt']
  · simp [List.getElem?_set_ne h] at hu ⊢
    exact hH.data d' u hu

/-! ### statements -/

def Sub (t t' : Targets) : Prop := ∀ v a, a ∈ (t v).getD [] → a ∈ (t' v).getD []

theorem sub_add (t : Targets) (x : Nat) (ts : List Nat) : Sub t (addTargets t x ts) := by
  intro v a ha
  simp only [addTargets]
  split
  · next h => subst h; simp [ha]
  · exact ha

theorem analyse_sub {n st t t'} (h : analyse n st t = some t') : Sub t t' := by
  induction st generalizing t t' with
  | skip => simp [analyse] at h; subst h; exact fun _ _ h => h
  | seq a b iha ihb =>
    simp only [analyse] at h
    cases ha : analyse n a t with
    | none => rw [ha] at h; simp at h
    | some t1 =>
      rw [ha] at h
      exact fun v x hx => ihb h v x (iha ha v x hx)
  | ite q a b iha ihb =>
    simp only [analyse] at h
    cases ha : analyse n a t with
    | none => rw [ha] at h; simp at h
    | some t1 =>
      rw [ha] at h
      exact fun v x hx => ihb h v x (iha ha v x hx)
  | bind v q =>
    simp only [analyse] at h
    split at h
    · simp at h
    · cases hn : newTargets n t (some v) q with
      | none => rw [hn] at h; simp at h
      | some ts => rw [hn] at h; simp at h; subst h; exact sub_add _ _ _
  | store p k q =>
    simp only [analyse] at h
    cases hn : newTargets n t (some p.root) q with
    | none => rw [hn] at h; simp at h
    | some ts => rw [hn] at h; simp at h; subst h; exact sub_add _ _ _
  | setNum => simp [analyse] at h; subst h; exact fun _ _ h => h
  | fill => simp [analyse] at h; subst h; exact fun _ _ h => h
  | renew => simp [analyse] at h; subst h; exact fun _ _ h => h

theorem LocOk.mono {os m n ao t t' l} (h : LocOk os m n ao t l) (hs : Sub t t') :
    LocOk os m n ao t' l :=
  ⟨h.arg, fun v hv => by
    rcases h.var v hv with h | ⟨a, h1, h2, h3⟩
    · exact .inl h
    · exact .inr ⟨a, hs v a h1, h2, h3⟩⟩

theorem LocOk.congr {os m m' n ao t l} (h : LocOk os m n ao t l)
    (hc : ∀ {o r}, Cov os m' o r ↔ Cov os m o r) : LocOk os m' n ao t l :=
  ⟨fun v hv => hc.2 (h.arg v hv), fun v hv => by
    rcases h.var v hv with h | ⟨a, h1, h2, h3⟩
    · exact .inl h
    · exact .inr ⟨a, h1, h2, hc.2 h3⟩⟩

theorem val_obj {r : Ref} {b} (h : r.val = .obj b) : r = .obj b := by
  cases r <;> simp_all [Ref.val]

def Sim (os : List PyObj) (n : Nat) (ao : Nat → Nat) (l : Locals) (t' : Targets)
    (st : Stmt) (h : Py.Heap) : Res (Mem × Locals) → Prop
  | .ub => False
  | .raise => True
  | .ok (m', l') => MInv os m' ∧ LocOk os m' n ao t' l' ∧ (∀ v, v < n → l' v = l v) ∧
      ∃ h', HeapR m' h' ∧
        Py.exec st h (fun v => (l v).val) = some (h', fun v => (l' v).val)

theorem upd_val (l : Locals) (v : Nat) (r : Ref) :
    (fun x => (upd l v r x).val) = Py.upd (fun x => (l x).val) v r.val := by
  funext x
  simp only [upd, Py.upd]
  split <;> rfl

theorem exec_sim {os n ao} {tf : Targets} (st : Stmt) (m : Mem) (h : Py.Heap) (t t' : Targets)
    (l : Locals) (hM : MInv os m) (hH : HeapR m h) (hL : LocOk os m n ao t l)
    (hpl : plain st = true) (ha : analyse n st t = some t') (hsf : Sub t' tf)
    (hst : stores st = true → 0 < n ∧ ∃ b, OwnB os (ao 0) b ∧ l 0 = .obj b ∧
      ∀ a ∈ (tf 0).getD [], a < n → Keeps os (ao 0) (ao a)) :
    Sim os n ao l t' st h (exec st m l) := by
  induction st generalizing m h t t' l with
  | skip =>
    simp [analyse] at ha; subst ha
    exact ⟨hM, hL, fun _ _ => rfl, h, hH, rfl⟩
  | seq a b iha ihb =>
    simp only [analyse] at ha
    simp only [plain, Bool.and_eq_true] at hpl
    cases h1 : analyse n a t with
    | none => rw [h1] at ha; simp at ha
    | some t1 =>
      rw [h1] at ha
      have hb : analyse n b t1 = some t' := ha
      have hs1 : Sub t1 tf := fun v x hx => hsf v x (analyse_sub hb v x hx)
      have ra := iha m h t t1 l hM hH hL hpl.1 h1 hs1 (fun hc => hst (by simp [stores, hc]))
      simp only [exec]
      cases hx : exec a m l with
      | ub => rw [hx] at ra; exact ra.elim
      | raise => trivial
      | ok r =>
        obtain ⟨m1, l1⟩ := r
        rw [hx] at ra
        obtain ⟨r1, r2, r3, h1', r4, r5⟩ := ra
        have rb := ihb m1 h1' t1 t' l1 r1 r4 r2 hpl.2 hb hsf (fun hc => by
          obtain ⟨n0, b0, k1, k2, k3⟩ := hst (by simp [stores, hc])
          exact ⟨n0, b0, k1, (r3 0 n0).trans k2, k3⟩)
        simp only [Res.bind]
        cases hy : exec b m1 l1 with
        | ub => rw [hy] at rb; exact rb.elim
        | raise => trivial
        | ok r' =>
          obtain ⟨m2, l2⟩ := r'
          rw [hy] at rb
          obtain ⟨q1, q2, q3, h2', q4, q5⟩ := rb
          refine ⟨q1, q2, fun v hv => (q3 v hv).trans (r3 v hv), h2', q4, ?_⟩
          simp only [Py.exec, r5, Option.bind]
          exact q5
  | ite q a b iha ihb =>
    simp only [analyse] at ha
    simp only [plain, Bool.and_eq_true] at hpl
    cases h1 : analyse n a t with
    | none => rw [h1] at ha; simp at ha
    | some t1 =>
      rw [h1] at ha
      have hb : analyse n b t1 = some t' := ha
      have hs1 : Sub t1 tf := fun v x hx => hsf v x (analyse_sub hb v x hx)
      simp only [exec]
      rcases eval_ok hM hH hL q with he | ⟨r, a', he, hp, _⟩
      · simp [he, Res.bind, Sim]
      · rw [he]
        cases r with
        | none => trivial
        | arr => trivial
        | obj => trivial
        | num v =>
          simp only [Res.bind]
          have hp : Py.eval h (fun v => (l v).val) q = some (.num v) := hp
          by_cases hv : 0 < v
          · rw [if_pos hv]
            have ra := iha m h t t1 l hM hH hL hpl.1 h1 hs1 (fun hc => hst (by simp [stores, hc]))
            cases hx : exec a m l with
            | ub => rw [hx] at ra; exact ra.elim
            | raise => trivial
            | ok r =>
              rw [hx] at ra
              obtain ⟨r1, r2, r3, h1', r4, r5⟩ := ra
              refine ⟨r1, r2.mono (analyse_sub hb), r3, h1', r4, ?_⟩
              simp only [Py.exec, hp, hv, if_true]
              exact r5
          · rw [if_neg hv]
            have rb := ihb m h t1 t' l hM hH (hL.mono (analyse_sub h1)) hpl.2 hb hsf
              (fun hc => hst (by simp [stores, hc]))
            cases hx : exec b m l with
            | ub => rw [hx] at rb; exact rb.elim
            | raise => trivial
            | ok r =>
              rw [hx] at rb
              obtain ⟨r1, r2, r3, h1', r4, r5⟩ := rb
              refine ⟨r1, r2, r3, h1', r4, ?_⟩
              simp only [Py.exec, hp, hv, if_false]
              exact r5
  | bind v q =>
    simp only [analyse] at ha
    split at ha
    · simp at ha
    · next hvn =>
      cases hn : newTargets n t (some v) q with
      | none => rw [hn] at ha; simp at ha
      | some ts =>
        rw [hn] at ha; simp at ha; subst ha
        simp only [exec]
        rcases eval_ok hM hH hL q with he | ⟨r, a, he, hp, a1, a2, a3, a4⟩
        · simp [he, Res.bind, Sim]
        · rw [he]
          have good : MInv os m ∧ LocOk os m n ao (addTargets t v ts) (upd l v r) ∧
              (∀ x, x < n → upd l v r x = l x) ∧
              ∃ h', HeapR m h' ∧ Py.exec (.bind v q) h (fun v => (l v).val) =
                some (h', fun x => (upd l v r x).val) := by
            refine ⟨hM, ⟨fun x hx => ?_, fun x hx => ?_⟩, fun x hx => ?_, h, hH, ?_⟩
            · simp only [upd]
              rw [if_neg (by omega)]
              exact hL.arg x hx
            · simp only [upd]
              by_cases hxv : x = v
              · rw [if_pos hxv]; subst hxv
                right
                refine ⟨a, ?_, a1, a2⟩
                simp only [addTargets, if_true]
                simp only [Option.getD_some, List.mem_append]
                simp only [newTargets] at hn
                by_cases hr : q.root < n
                · rw [if_neg (by simp; omega), if_pos hr] at hn
                  cases hn
                  right; rw [a3 hr]; simp
                · by_cases hqv : some x = some q.root
                  · cases hqv
                    left; exact a4 (by omega)
                  · rw [if_neg hqv, if_neg hr] at hn
                    have := a4 (by omega)
                    rw [hn] at this
                    right; exact this
              · rw [if_neg hxv]
                exact (hL.mono (sub_add t v ts)).var x hx
            · simp only [upd]; rw [if_neg (by omega)]
            · simp only [Py.exec, hp]
              rw [upd_val]
          cases r with
          | none => trivial
          | num => trivial
          | arr d => exact good
          | obj d => exact good
  | store p k q =>
    simp only [analyse] at ha
    simp only [plain, Bool.and_eq_true, decide_eq_true_eq, List.isEmpty_iff] at hpl
    obtain ⟨hn0, b0, hb0, hl0, hkeep⟩ := hst rfl
    cases hn : newTargets n t (some p.root) q with
    | none => rw [hn] at ha; simp at ha
    | some ts =>
      rw [hn] at ha; simp at ha; subst ha
      simp only [exec]
      have hep : eval m l p = .ok (.obj b0) := by
        simp [eval, hpl.1, hl0, hpl.2, follow]
      have hpp : Py.eval h (fun v => (l v).val) p = some (.obj b0) := by
        simp [Py.eval, hpl.1, hl0, hpl.2, Py.follow, Ref.val]
      rw [hep]
      simp only [Res.bind]
      rcases eval_ok hM hH hL q with he | ⟨r, a, he, hp, a1, a2, a3, a4⟩
      · simp [he, Sim]
      · rw [he]
        -- the value stored is kept alive by the object
        have hka : Keeps os (ao 0) (ao a) := by
          simp only [newTargets, hpl.1] at hn
          have hfin : ∀ x ∈ (t 0).getD [] ++ ts, x ∈ (tf 0).getD [] := by
            intro x hx
            have := hsf 0 x
            simp only [addTargets, hpl.1, if_true, Option.getD_some] at this
            exact this hx
          by_cases hq0 : some 0 = some q.root
          · have hq0 : 0 = q.root := by simpa using hq0
            rw [a3 (by omega), ← hq0]; exact .refl _
          · rw [if_neg hq0] at hn
            by_cases hr : q.root < n
            · rw [if_pos hr] at hn; cases hn
              rw [a3 hr]
              exact hkeep _ (hfin _ (by simp)) hr
            · rw [if_neg hr] at hn
              have := a4 (by omega)
              rw [hn] at this
              exact hkeep a (hfin _ (by simp at this ⊢; exact .inr this)) a1
        have hcov : ∀ w, OwnB os w b0 → Cov os m w r := by
          intro w hw
          have := hM.uniqB _ _ _ hw hb0; subst this
          cases r with
          | none => trivial
          | num => trivial
          | arr d => obtain ⟨w, k1, k2⟩ := a2; exact ⟨w, hka.trans k1, k2⟩
          | obj d => obtain ⟨w, k1, k2⟩ := a2; exact ⟨w, hka.trans k1, k2⟩
        rcases getField_ok hM (k := k) (o := ao 0) (b := b0) ⟨_, .refl _, hb0⟩ with
          hg | ⟨i, f0, hg, hi, hf, _⟩
        · simp [storePtr, hg, Res.bind, Res.map, Sim]
        · have fin : ∀ f : CField, f.ref = r → (∀ d, f0 ≠ .own d) → (∀ d, f ≠ .own d) →
              (∀ b, f ≠ .sub b) → Sim os n ao l (addTargets t p.root ts) (.store p k q) h
                (.ok (setField m b0 k f, l)) := by
            intro f hr h0 h1 h2
            obtain ⟨h', s1, s2⟩ := setField_heap (f := f) hH hi (lt_of_some hf)
            refine ⟨setField_minv hM hi hf h0 h1 h2 (fun w hw => hr ▸ hcov w hw),
              (hL.congr (cov_congr (setField_own hi hf h0 h1))).mono (sub_add _ _ _),
              fun _ _ => rfl, h', s2, ?_⟩
            simp only [Py.exec, hpp, hp]
            rw [← hr, s1]; rfl
          simp only [storePtr, hg, Res.bind]
          cases f0 <;> cases r <;> first
            | trivial
            | exact fin (.ptr _) rfl (by simp) (by simp) (by simp)
            | exact fin (.obj _) rfl (by simp) (by simp) (by simp)
  | setNum p k q =>
    simp [analyse] at ha; subst ha
    simp only [exec]
    rcases eval_ok hM hH hL p with he1 | ⟨rp, ap, he1, hp1, _, c1, _⟩
    · simp [he1, Res.bind, Sim]
    · rw [he1]
      simp only [Res.bind]
      rcases eval_ok hM hH hL q with he | ⟨r, a, he, hp, _⟩
      · simp [he, Sim]
      · rw [he]
        cases rp with
        | none => trivial
        | num => trivial
        | arr => trivial
        | obj b =>
          rcases getField_ok hM (k := k) c1 with hg | ⟨i, f0, hg, hi, hf, _⟩
          · simp [storeNum, hg, Res.bind, Res.map, Sim]
          · simp only [storeNum, hg, Res.bind]
            cases hf0 : f0 <;> cases hr : r <;> try trivial
            next v0 v =>
              subst hf0 hr
              obtain ⟨h', s1, s2⟩ := setField_heap (f := .num v) hH hi (lt_of_some hf)
              refine ⟨setField_minv hM hi hf (by simp) (by simp) (by simp) (fun w hw => trivial),
                hL.congr (cov_congr (setField_own hi hf (by simp) (by simp))),
                fun _ _ => rfl, h', s2, ?_⟩
              simp only [Py.exec, hp1, hp]
              show Option.map _ (Py.setAttr h b k (CField.num v).ref.val) = _
              rw [s1]; rfl
  | fill q v =>
    simp [analyse] at ha; subst ha
    simp only [exec]
    rcases eval_ok hM hH hL q with he | ⟨r, a, he, hp, _, c1, _⟩
    · simp [he, Res.bind, Sim]
    · rw [he]
      cases r with
      | none => trivial
      | num => trivial
      | obj => trivial
      | arr d =>
        obtain ⟨w, hw⟩ := hM.data_of_cov c1
        have hp : Py.eval h (fun v => (l v).val) q = some (.arr d) := hp
        simp only [Res.bind, fillData, hw, Res.map]
        refine ⟨fill_minv hM hw, hL.congr (cov_congr fun _ _ => Iff.rfl), fun _ _ => rfl, _,
          fill_heap hH hw, ?_⟩
        simp only [Py.exec, hp]
  | renew => simp [plain] at hpl

end Verif.Lifetimes.C
