import Verif.Lifetimes.LemmasRelease

/-
New objects, and new references between objects.
-/
namespace Verif.Lifetimes.C

def LiveO (os : List PyObj) (o : Nat) : Prop := ∃ p : PyObj, os[o]? = some p ∧ p.rc ≠ 0

theorem Grow.live {os os'} (h : Grow os os') {o} (hl : LiveO os o) : LiveO os' o := by
  obtain ⟨p, hp, h0⟩ := hl
  obtain ⟨p', h1, _, h3, _⟩ := h.get o p hp
  exact ⟨p', h1, fun hc => h0 (h3.2 hc)⟩

theorem grow_incref {os : List PyObj} {r : Nat} (hl : LiveO os r) : Grow os (incref os r) := by
  refine ⟨incref_length os r, fun o p hp => ?_⟩
  rw [incref_get, hp]
  obtain ⟨q, hq, h0⟩ := hl
  by_cases h : o = r
  · subst h
    rw [hp] at hq; cases hq
    refine ⟨_, rfl, ?_⟩
    simp [h0]
  · exact ⟨p, by simp [h], rfl, Iff.rfl, fun _ h => h⟩

theorem modify_eq_set {os : List PyObj} {o : Nat} {p : PyObj} (hp : os[o]? = some p)
    (f : PyObj → PyObj) : os.modify o f = os.set o (f p) := by
  apply List.ext_getElem?
  intro i
  rw [List.getElem?_modify, List.getElem?_set]
  by_cases hi : o = i
  · subst hi; rw [hp, if_pos rfl]; simp [lt_of_get hp]
  · simp [hi]

theorem append_ok {os vars pend} {o r : Nat} (h : OInv os vars pend) (ho : LiveO os o)
    (hr : LiveO os r) : OInv (append os o r) vars pend ∧ Grow os (append os o r) ∧
      ∃ p : PyObj, (append os o r)[o]? = some p ∧ r ∈ p.refs := by
  obtain ⟨q, hq, hq0⟩ := hr
  have h1 := h.incref (lt_of_get hq) (fun p hp => by rw [hq] at hp; cases hp; exact hq0)
  have g1 := grow_incref (os := os) ⟨q, hq, hq0⟩
  obtain ⟨p, hp, hp0⟩ := g1.live ho
  have h2 := h1.give (o := o) hp hp0
  refine ⟨h2, g1.trans ?_, ?_⟩
  · unfold append
    rw [modify_eq_set hp]
    exact grow_set hp rfl Iff.rfl (fun x hx => List.mem_append_left _ hx)
  · refine ⟨{ p with refs := p.refs ++ [r] }, ?_, by simp⟩
    unfold append
    rw [modify_eq_set hp]
    exact List.getElem?_set_self (lt_of_get hp)

theorem appendAll_ok {os vars pend} {o : Nat} (rs : List Nat) (h : OInv os vars pend)
    (ho : LiveO os o) (hr : ∀ r ∈ rs, LiveO os r) : OInv (appendAll os o rs) vars pend ∧
      Grow os (appendAll os o rs) ∧
      ∀ r ∈ rs, ∃ p : PyObj, (appendAll os o rs)[o]? = some p ∧ r ∈ p.refs := by
  induction rs generalizing os with
  | nil => exact ⟨h, Grow.refl os, by simp⟩
  | cons r rs ih =>
    obtain ⟨a1, a2, q, a3, a4⟩ := append_ok h ho (hr r (List.mem_cons_self ..))
    obtain ⟨b1, b2, b3⟩ := ih a1 (a2.live ho) (fun x hx => a2.live (hr x (List.mem_cons_of_mem _ hx)))
    refine ⟨b1, a2.trans b2, fun x hx => ?_⟩
    rcases List.mem_cons.1 hx with rfl | hx
    · obtain ⟨p', h1, _, _, h4⟩ := b2.get o q a3
      exact ⟨p', h1, h4 _ a4⟩
    · exact b3 x hx

/-- One more object. -/
structure Plus (os os' : List PyObj) (k : Kind) : Prop where
  len : os'.length = os.length + 1
  get : ∀ (o : Nat) (p : PyObj), os[o]? = some p → ∃ p' : PyObj, os'[o]? = some p' ∧
    p'.kind = p.kind ∧ (p.rc = 0 ↔ p'.rc = 0) ∧ ∀ r ∈ p.refs, r ∈ p'.refs
  new : ∃ p' : PyObj, os'[os.length]? = some p' ∧ p'.kind = k ∧ p'.rc ≠ 0

theorem Plus.back {os os' k} (h : Plus os os' k) {o : Nat} {p' : PyObj} (hp : os'[o]? = some p') :
    (o = os.length ∧ p'.kind = k ∧ p'.rc ≠ 0) ∨
    ∃ p : PyObj, os[o]? = some p ∧ p'.kind = p.kind ∧ (p.rc = 0 ↔ p'.rc = 0) ∧
      ∀ r ∈ p.refs, r ∈ p'.refs := by
  have hl := lt_of_get hp
  have := h.len
  by_cases ho : o = os.length
  · left
    obtain ⟨q, h1, h2, h3⟩ := h.new
    subst ho
    rw [hp] at h1; cases h1
    exact ⟨rfl, h2, h3⟩
  · right
    obtain ⟨p, hq⟩ := get_of_lt (os := os) (o := o) (by omega)
    obtain ⟨q, h1, h2, h3, h4⟩ := h.get o p hq
    rw [hp] at h1; cases h1
    exact ⟨p, hq, h2, h3, h4⟩

theorem plus_of_grow {os os' : List PyObj} {k : Kind} {l : List Nat}
    (h : Grow (os ++ [⟨k, l, 1⟩]) os') : Plus os os' k := by
  refine ⟨by rw [h.len]; simp, fun o p hp => ?_, ?_⟩
  · exact h.get o p (by rw [List.getElem?_append_left (lt_of_get hp)]; exact hp)
  · obtain ⟨p', h1, h2, h3, _⟩ := h.get os.length ⟨k, l, 1⟩ (by simp)
    exact ⟨p', h1, h2, fun hc => by have := h3.2 hc; simp at this⟩

theorem Plus.keeps {os os' k} (h : Plus os os' k) {a w} (hk : Keeps os a w) : Keeps os' a w := by
  induction hk with
  | refl => exact .refl _
  | step hp hq _ ih =>
    obtain ⟨p', h1, _, _, h4⟩ := h.get _ _ hp
    exact .step h1 (h4 _ hq) ih

theorem Plus.ownB {os os' k} (h : Plus os os' k) {w b} (hw : w ≠ os.length) :
    OwnB os' w b ↔ OwnB os w b := by
  constructor
  · rintro ⟨p', hp, h0, hk⟩
    rcases h.back hp with ⟨e, _⟩ | ⟨p, h1, h2, h3, _⟩
    · exact absurd e hw
    · exact ⟨p, h1, fun hc => h0 (h3.1 hc), h2 ▸ hk⟩
  · rintro ⟨p, hp, h0, hk⟩
    obtain ⟨p', h1, h2, h3, _⟩ := h.get _ _ hp
    exact ⟨p', h1, fun hc => h0 (h3.2 hc), h2.trans hk⟩

theorem OwnB.lt {os w b} (h : OwnB os w b) : w < os.length := by
  obtain ⟨p, hp, _⟩ := h; exact lt_of_get hp

theorem OwnD.lt {os m w d} (h : OwnD os m w d) : w < os.length := by
  rcases h with ⟨p, hp, _⟩ | ⟨_, _, hb, _⟩
  · exact lt_of_get hp
  · exact hb.lt

/-- The memory has grown. -/
structure MemExt (m m' : Mem) : Prop where
  data : ∀ d, d < m.data.length → m'.data[d]? = m.data[d]?
  insts : ∀ b, b < m.insts.length → m'.insts[b]? = m.insts[b]?

theorem lt_of_some {α} {l : List α} {n : Nat} {a : α} (h : l[n]? = some a) : n < l.length := by
  rcases List.getElem?_eq_some_iff.1 h with ⟨hl, _⟩; exact hl

theorem plus_ownD {os os' k m m'} (hP : Plus os os' k) (hM : MInv os m) (hE : MemExt m m')
    {w d} (hw : w ≠ os.length) : OwnD os' m' w d ↔ OwnD os m w d := by
  constructor
  · rintro (⟨p', hp, h0, hk⟩ | ⟨b, i, hb, hi, hd⟩)
    · rcases hP.back hp with ⟨e, _⟩ | ⟨p, h1, h2, h3, _⟩
      · exact absurd e hw
      · exact .inl ⟨p, h1, fun hc => h0 (h3.1 hc), h2 ▸ hk⟩
    · have hb' := (hP.ownB hw).1 hb
      obtain ⟨i', hi', _⟩ := hM.inst w b hb'
      rw [hE.insts b (lt_of_some hi')] at hi
      exact .inr ⟨b, i, hb', hi, hd⟩
  · rintro (⟨p, hp, h0, hk⟩ | ⟨b, i, hb, hi, hd⟩)
    · obtain ⟨p', h1, h2, h3, _⟩ := hP.get _ _ hp
      exact .inl ⟨p', h1, fun hc => h0 (h3.2 hc), h2.trans hk⟩
    · exact .inr ⟨b, i, (hP.ownB hw).2 hb, by rw [hE.insts b (lt_of_some hi)]; exact hi, hd⟩

theorem plus_cov {os os' k m m'} (hP : Plus os os' k) (hM : MInv os m) (hE : MemExt m m')
    {o r} (hc : Cov os m o r) : Cov os' m' o r := by
  cases r with
  | none => trivial
  | num => trivial
  | arr d =>
    obtain ⟨w, h1, h2⟩ := hc
    exact ⟨w, hP.keeps h1, (plus_ownD hP hM hE (by have := h2.lt; omega)).2 h2⟩
  | obj d =>
    obtain ⟨w, h1, h2⟩ := hc
    exact ⟨w, hP.keeps h1, (hP.ownB (by have := h2.lt; omega)).2 h2⟩

theorem plus_minv {os os' k m m'} (hM : MInv os m) (hP : Plus os os' k) (hE : MemExt m m')
    (hD : ∀ d, OwnD os' m' os.length d → m.data.length ≤ d)
    (hB : ∀ b, OwnB os' os.length b → m.insts.length ≤ b)
    (hI : ∀ b, OwnB os' os.length b → ∃ i, m'.insts[b]? = some (some i) ∧ InstOk os' m' os.length i)
    (hA : ∀ d, k = .arr d true → ∃ v, m'.data[d]? = some (some v))
    (hLD : ∀ d v, m.data.length ≤ d → m'.data[d]? = some (some v) → OwnD os' m' os.length d)
    (hLB : ∀ b i, m.insts.length ≤ b → m'.insts[b]? = some (some i) → OwnB os' os.length b)
    (hC : Cov os' m' os.length k.ref) : MInv os' m' := by
  have oD : ∀ {w d}, w ≠ os.length → (OwnD os' m' w d ↔ OwnD os m w d) :=
    fun hw => plus_ownD hP hM hE hw
  have dlt : ∀ {w d}, OwnD os m w d → d < m.data.length := fun h => by
    obtain ⟨v, hv⟩ := hM.data_live h; exact lt_of_some hv
  have blt : ∀ {w b}, OwnB os w b → b < m.insts.length := fun h => by
    obtain ⟨i, hi, _⟩ := hM.inst _ _ h; exact lt_of_some hi
  refine ⟨?_, ?_, ?_, ?_, ?_, ?_, ?_⟩
  · intro w b hb
    by_cases hw : w = os.length
    · subst hw; exact hI b hb
    · have hb' := (hP.ownB hw).1 hb
      obtain ⟨i, hi, ho⟩ := hM.inst w b hb'
      refine ⟨i, by rw [hE.insts b (lt_of_some hi)]; exact hi, ho.outside, ho.nodup, fun f hf => ?_⟩
      refine ⟨(ho.fields f hf).nosub, fun d hd => ?_, plus_cov hP hM hE (ho.fields f hf).cov⟩
      obtain ⟨v, hv⟩ := (ho.fields f hf).data d hd
      exact ⟨v, by rw [hE.data d (lt_of_some hv)]; exact hv⟩
  · intro w d p' hp h0 hk
    rcases hP.back hp with ⟨e, e2, _⟩ | ⟨p, h1, h2, h3, _⟩
    · exact hA d (e2 ▸ hk)
    · obtain ⟨v, hv⟩ := hM.arr w d p h1 (fun hc => h0 (h3.1 hc)) (h2 ▸ hk)
      exact ⟨v, by rw [hE.data d (lt_of_some hv)]; exact hv⟩
  · intro w w' d h1 h2
    by_cases hw : w = os.length <;> by_cases hw' : w' = os.length
    · omega
    · subst hw; have := hD d h1; have := dlt ((oD hw').1 h2); omega
    · subst hw'; have := hD d h2; have := dlt ((oD hw).1 h1); omega
    · exact hM.uniqD w w' d ((oD hw).1 h1) ((oD hw').1 h2)
  · intro w w' b h1 h2
    by_cases hw : w = os.length <;> by_cases hw' : w' = os.length
    · omega
    · subst hw; have := hB b h1; have := blt ((hP.ownB hw').1 h2); omega
    · subst hw'; have := hB b h2; have := blt ((hP.ownB hw).1 h1); omega
    · exact hM.uniqB w w' b ((hP.ownB hw).1 h1) ((hP.ownB hw').1 h2)
  · intro d v hd
    by_cases hl : d < m.data.length
    · rw [hE.data d hl] at hd
      obtain ⟨w, hw⟩ := hM.aliveD d v hd
      exact ⟨w, (oD (by have := hw.lt; omega)).2 hw⟩
    · exact ⟨_, hLD d v (by omega) hd⟩
  · intro b i hi
    by_cases hl : b < m.insts.length
    · rw [hE.insts b hl] at hi
      obtain ⟨w, hw⟩ := hM.aliveB b i hi
      exact ⟨w, (hP.ownB (by have := hw.lt; omega)).2 hw⟩
    · exact ⟨_, hLB b i (by omega) hi⟩
  · intro o p' hp h0
    rcases hP.back hp with ⟨e, e2, _⟩ | ⟨p, h1, h2, h3, _⟩
    · rw [e, e2]; exact hC
    · rw [h2]; exact plus_cov hP hM hE (hM.cov o p h1 fun hc => h0 (h3.1 hc))

theorem Plus.newB {os os' k b} (h : Plus os os' k) (hb : OwnB os' os.length b) :
    k = .inst b false := by
  obtain ⟨p, h1, h2, _⟩ := h.new
  obtain ⟨q, k1, _, k3⟩ := hb
  rw [h1] at k1; cases k1; rw [← h2]; exact k3

theorem Plus.newD {os os' k d m} (h : Plus os os' k) (hd : OwnD os' m os.length d) :
    k = .arr d true ∨ ∃ b i, k = .inst b false ∧ m.insts[b]? = some (some i) ∧ .own d ∈ i.fields := by
  rcases hd with ⟨q, k1, _, k3⟩ | ⟨b, i, hb, hi, hd⟩
  · obtain ⟨p, h1, h2, _⟩ := h.new
    rw [h1] at k1; cases k1; exact .inl (h2 ▸ k3)
  · exact .inr ⟨b, i, h.newB hb, hi, hd⟩

/-- A new object which owns no memory. -/
theorem plus_plain {os os' k m} (hM : MInv os m) (hP : Plus os os' k)
    (h1 : ∀ d, k ≠ .arr d true) (h2 : ∀ b, k ≠ .inst b false)
    (hC : Cov os' m os.length k.ref) : MInv os' m := by
  have nD : ∀ d, ¬ OwnD os' m os.length d := fun d hc => by
    rcases hP.newD hc with h | ⟨b, _, h, _⟩
    · exact h1 d h
    · exact h2 b h
  have nB : ∀ b, ¬ OwnB os' os.length b := fun b hc => h2 b (hP.newB hc)
  exact plus_minv hM hP ⟨fun _ _ => rfl, fun _ _ => rfl⟩ (fun d h => absurd h (nD d))
    (fun b h => absurd h (nB b)) (fun b h => absurd h (nB b)) (fun d h => absurd h (h1 d))
    (fun d v hl hd => by have := lt_of_some hd; omega)
    (fun d v hl hd => by have := lt_of_some hd; omega) hC

/-- A new array. -/
theorem plus_arr {os os' m v} (hM : MInv os m) (hP : Plus os os' (.arr m.data.length true)) :
    MInv os' (newData m v).1 := by
  have hl : (newData m v).1.data[m.data.length]? = some (some v) := by simp [newData]
  have hown : OwnD os' (newData m v).1 os.length m.data.length := by
    obtain ⟨p, h1, h2, h3⟩ := hP.new
    exact .inl ⟨p, h1, h3, h2⟩
  refine plus_minv hM hP ⟨fun d hd => ?_, fun _ _ => rfl⟩ ?_ ?_ ?_ ?_ ?_ ?_ ?_
  · simp [newData, List.getElem?_append_left hd]
  · intro d hd
    rcases hP.newD hd with h | ⟨b, _, h, _⟩
    · cases h; exact Nat.le_refl _
    · cases h
  · intro b hb; have := hP.newB hb; cases this
  · intro b hb; have := hP.newB hb; cases this
  · intro d hd; cases hd; exact ⟨v, hl⟩
  · intro d w hle hd
    have := lt_of_some hd
    simp [newData] at this
    have : d = m.data.length := by omega
    subst this; exact hown
  · intro b i hle hi
    have := lt_of_some hi
    simp [newData] at this; omega
  · exact ⟨_, .refl _, hown⟩

/-- A new object of a class with its structure. -/
theorem plus_inst {os os' m fs} {m1 : Mem} (hM : MInv os m)
    (hP : Plus os os' (.inst m.insts.length false))
    (hins : m1.insts = m.insts)
    (hdat : ∀ d, d < m.data.length → m1.data[d]? = m.data[d]?)
    (hown : ∀ d, CField.own d ∈ fs → m.data.length ≤ d ∧ ∃ v, m1.data[d]? = some (some v))
    (hnd : (ownsOf fs).Nodup)
    (hnew : ∀ d, m.data.length ≤ d → d < m1.data.length → CField.own d ∈ fs)
    (hsub : ∀ f ∈ fs, ∀ b, f ≠ .sub b)
    (hptr : ∀ d, CField.ptr d ∈ fs → ∃ q, (∃ p : PyObj, os'[os.length]? = some p ∧ q ∈ p.refs) ∧
      Cov os m q (.arr d))
    (hobj : ∀ d, CField.obj d ∈ fs → ∃ q, (∃ p : PyObj, os'[os.length]? = some p ∧ q ∈ p.refs) ∧
      Cov os m q (.obj d)) :
    MInv os' (newInst m1 ⟨false, fs⟩).1 := by
  have hi : (newInst m1 ⟨false, fs⟩).1.insts[m.insts.length]? = some (some ⟨false, fs⟩) := by
    simp [newInst, hins]
  have hE : MemExt m (newInst m1 ⟨false, fs⟩).1 := by
    refine ⟨hdat, fun b hb => ?_⟩
    simp [newInst, hins, List.getElem?_append_left hb]
  have hoB : OwnB os' os.length m.insts.length := by
    obtain ⟨p, h1, h2, h3⟩ := hP.new
    exact ⟨p, h1, h3, h2⟩
  have hoD : ∀ d, CField.own d ∈ fs → OwnD os' (newInst m1 ⟨false, fs⟩).1 os.length d :=
    fun d hd => .inr ⟨_, _, hoB, hi, hd⟩
  refine plus_minv hM hP hE ?_ ?_ ?_ ?_ ?_ ?_ ?_
  · intro d hd
    rcases hP.newD hd with h | ⟨b, i, h, hi', hd'⟩
    · cases h
    · cases h
      rw [hi] at hi'; cases hi'
      exact (hown d hd').1
  · intro b hb; have := hP.newB hb; cases this; exact Nat.le_refl _
  · intro b hb
    have := hP.newB hb; cases this
    refine ⟨_, hi, rfl, hnd, fun f hf => ⟨hsub f hf, fun d hd => ?_, ?_⟩⟩
    · subst hd; exact (hown d hf).2
    · cases f with
      | num => trivial
      | own d => exact ⟨_, .refl _, hoD d hf⟩
      | ptr d =>
        obtain ⟨q, ⟨p, hp, hq⟩, hc⟩ := hptr d hf
        obtain ⟨w, h1, h2⟩ := plus_cov hP hM hE hc
        exact ⟨w, .step hp hq h1, h2⟩
      | obj d =>
        obtain ⟨q, ⟨p, hp, hq⟩, hc⟩ := hobj d hf
        obtain ⟨w, h1, h2⟩ := plus_cov hP hM hE hc
        exact ⟨w, .step hp hq h1, h2⟩
      | sub b => exact absurd rfl (hsub _ hf b)
  · intro d hd; cases hd
  · intro d v hle hd; exact hoD d (hnew d hle (lt_of_some hd))
  · intro b i hle hi'
    have := lt_of_some hi'
    simp [newInst, hins] at this
    have : b = m.insts.length := by omega
    subst this; exact hoB
  · exact ⟨_, .refl _, hoB⟩

end Verif.Lifetimes.C
