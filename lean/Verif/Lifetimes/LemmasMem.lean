import Verif.Lifetimes.LemmasCount

/-
Every object that is alive keeps alive the owner of the memory it looks at.
-/
namespace Verif.Lifetimes.C

/-- `o` references `w`, directly or through other objects. -/
inductive Keeps (os : List PyObj) : Nat → Nat → Prop
  | refl (o : Nat) : Keeps os o o
  | step {o q w : Nat} {p : PyObj} : os[o]? = some p → q ∈ p.refs → Keeps os q w → Keeps os o w

theorem Keeps.trans {os a b c} (h : Keeps os a b) (h' : Keeps os b c) : Keeps os a c := by
  induction h with
  | refl => exact h'
  | step ho hq _ ih => exact .step ho hq (ih h')

/-- The Python object which frees the structure `b`. -/
def OwnB (os : List PyObj) (w b : Nat) : Prop :=
  ∃ p : PyObj, os[w]? = some p ∧ p.rc ≠ 0 ∧ p.kind = .inst b false

/-- The Python object which frees the elements `d`. -/
def OwnD (os : List PyObj) (m : Mem) (w d : Nat) : Prop :=
  (∃ p : PyObj, os[w]? = some p ∧ p.rc ≠ 0 ∧ p.kind = .arr d true) ∨
    ∃ b i, OwnB os w b ∧ m.insts[b]? = some (some i) ∧ CField.own d ∈ i.fields

/-- What `o` looks at is kept alive by `o`. -/
def Cov (os : List PyObj) (m : Mem) (o : Nat) : Ref → Prop
  | .arr d => ∃ w, Keeps os o w ∧ OwnD os m w d
  | .obj b => ∃ w, Keeps os o w ∧ OwnB os w b
  | _ => True

def ownsOf : List CField → List Nat
  | [] => []
  | .own d :: fs => d :: ownsOf fs
  | _ :: fs => ownsOf fs

theorem mem_ownsOf {fs : List CField} {d : Nat} : d ∈ ownsOf fs ↔ CField.own d ∈ fs := by
  induction fs with
  | nil => simp [ownsOf]
  | cons f fs ih => cases f <;> simp [ownsOf, ih]

structure FieldOk (os : List PyObj) (m : Mem) (w : Nat) (f : CField) : Prop where
  nosub : ∀ b, f ≠ .sub b
  data : ∀ d, f = .own d → ∃ v, m.data[d]? = some (some v)
  cov : Cov os m w f.ref

/-- The structure belonging to an owner is as it should be. -/
structure InstOk (os : List PyObj) (m : Mem) (w : Nat) (i : Inst) : Prop where
  outside : i.inside = false
  nodup : (ownsOf i.fields).Nodup
  fields : ∀ f ∈ i.fields, FieldOk os m w f

structure MInv (os : List PyObj) (m : Mem) : Prop where
  inst : ∀ w b, OwnB os w b → ∃ i, m.insts[b]? = some (some i) ∧ InstOk os m w i
  arr : ∀ (w d : Nat) (p : PyObj), os[w]? = some p → p.rc ≠ 0 → p.kind = .arr d true →
    ∃ v, m.data[d]? = some (some v)
  uniqD : ∀ w w' d, OwnD os m w d → OwnD os m w' d → w = w'
  uniqB : ∀ w w' b, OwnB os w b → OwnB os w' b → w = w'
  aliveD : ∀ d v, m.data[d]? = some (some v) → ∃ w, OwnD os m w d
  aliveB : ∀ b i, m.insts[b]? = some (some i) → ∃ w, OwnB os w b
  cov : ∀ (o : Nat) (p : PyObj), os[o]? = some p → p.rc ≠ 0 → Cov os m o p.kind.ref

theorem MInv.data_live {os m} (h : MInv os m) {w d} (hw : OwnD os m w d) :
    ∃ v, m.data[d]? = some (some v) := by
  rcases hw with ⟨p, hp, hr, hk⟩ | ⟨b, i, hb, hi, hd⟩
  · exact h.arr w d p hp hr hk
  · obtain ⟨i', hi', ho⟩ := h.inst w b hb
    rw [hi] at hi'; cases hi'
    exact (ho.fields _ hd).data d rfl

theorem OwnB.fun {os w b b'} (h : OwnB os w b) (h' : OwnB os w b') : b = b' := by
  obtain ⟨p, hp, _, hk⟩ := h
  obtain ⟨p', hp', _, hk'⟩ := h'
  rw [hp] at hp'; cases hp'
  rw [hk] at hk'; cases hk'; rfl

/-- What is reached through an attribute is kept alive as well. -/
theorem MInv.cov_attr {os m} (h : MInv os m) {o b i f} (hc : Cov os m o (.obj b))
    (hi : m.insts[b]? = some (some i)) (hf : f ∈ i.fields) : Cov os m o f.ref := by
  obtain ⟨w, hk, hw⟩ := hc
  obtain ⟨i', hi', ho⟩ := h.inst w b hw
  rw [hi] at hi'; cases hi'
  have hfc := (ho.fields f hf).cov
  cases hr : f.ref with
  | none => trivial
  | num => trivial
  | arr d =>
    rw [hr] at hfc
    obtain ⟨w', hk', hw'⟩ := hfc
    exact ⟨w', hk.trans hk', hw'⟩
  | obj b' =>
    rw [hr] at hfc
    obtain ⟨w', hk', hw'⟩ := hfc
    exact ⟨w', hk.trans hk', hw'⟩

/-! ### an object is destroyed -/

theorem keeps_kill {os : List PyObj} {o : Nat} {k : Kind} (hfl : o ∉ flat os) {a w : Nat}
    (ha : a ≠ o) (h : Keeps os a w) : w ≠ o ∧ Keeps (os.set o ⟨k, [], 0⟩) a w := by
  induction h with
  | refl => exact ⟨ha, .refl _⟩
  | @step a q w p hp hq _ ih =>
    have hqo : q ≠ o := by
      intro hc; subst hc
      exact hfl (mem_flat.2 ⟨a, p, hp, hq⟩)
    obtain ⟨h1, h2⟩ := ih hqo
    refine ⟨h1, .step (p := p) ?_ hq h2⟩
    rw [List.getElem?_set_ne (Ne.symm ha)]; exact hp

theorem get_kill {os : List PyObj} {o a : Nat} {k : Kind} {p : PyObj}
    (h : (os.set o ⟨k, [], 0⟩)[a]? = some p) (hr : p.rc ≠ 0) : a ≠ o ∧ os[a]? = some p := by
  by_cases ha : a = o
  · subst ha
    have hl := lt_of_get h
    rw [List.getElem?_set_self (by simpa using hl)] at h
    cases h; simp at hr
  · rw [List.getElem?_set_ne (Ne.symm ha)] at h
    exact ⟨ha, h⟩

theorem kill_minv {os : List PyObj} {m m' : Mem} {o : Nat} {p : PyObj} {k : Kind}
    (h : MInv os m) (hp : os[o]? = some p) (hr : p.rc ≠ 0) (hfl : o ∉ flat os)
    (hB : ∀ b, OwnB os o b → ∀ i, m'.insts[b]? ≠ some (some i))
    (hB' : ∀ b, ¬ OwnB os o b → m'.insts[b]? = m.insts[b]?)
    (hD : ∀ d, OwnD os m o d → ∀ v, m'.data[d]? ≠ some (some v))
    (hD' : ∀ d, ¬ OwnD os m o d → m'.data[d]? = m.data[d]?) :
    MInv (os.set o ⟨k, [], 0⟩) m' := by
  have oB : ∀ w b, OwnB (os.set o ⟨k, [], 0⟩) w b ↔ w ≠ o ∧ OwnB os w b := by
    intro w b
    constructor
    · rintro ⟨q, hq, hq0, hk⟩
      obtain ⟨h1, h2⟩ := get_kill hq hq0
      exact ⟨h1, q, h2, hq0, hk⟩
    · rintro ⟨h1, q, hq, hq0, hk⟩
      exact ⟨q, by rw [List.getElem?_set_ne (Ne.symm h1)]; exact hq, hq0, hk⟩
  have oI : ∀ w b, w ≠ o → OwnB os w b → m'.insts[b]? = m.insts[b]? := fun w b hw hb =>
    hB' b fun hc => hw (h.uniqB _ _ _ hb hc)
  have oD : ∀ w d, OwnD (os.set o ⟨k, [], 0⟩) m' w d ↔ w ≠ o ∧ OwnD os m w d := by
    intro w d
    constructor
    · rintro (⟨q, hq, hq0, hk⟩ | ⟨b, i, hb, hi, hd⟩)
      · obtain ⟨h1, h2⟩ := get_kill hq hq0
        exact ⟨h1, .inl ⟨q, h2, hq0, hk⟩⟩
      · obtain ⟨h1, h2⟩ := (oB w b).1 hb
        rw [oI w b h1 h2] at hi
        exact ⟨h1, .inr ⟨b, i, h2, hi, hd⟩⟩
    · rintro ⟨h1, (⟨q, hq, hq0, hk⟩ | ⟨b, i, hb, hi, hd⟩)⟩
      · exact .inl ⟨q, by rw [List.getElem?_set_ne (Ne.symm h1)]; exact hq, hq0, hk⟩
      · exact .inr ⟨b, i, (oB w b).2 ⟨h1, hb⟩, by rw [oI w b h1 hb]; exact hi, hd⟩
  have oL : ∀ w d, w ≠ o → OwnD os m w d → m'.data[d]? = m.data[d]? := fun w d hw hd =>
    hD' d fun hc => hw (h.uniqD _ _ _ hd hc)
  have oC : ∀ a r, a ≠ o → Cov os m a r → Cov (os.set o ⟨k, [], 0⟩) m' a r := by
    intro a r ha hc
    cases r with
    | none => trivial
    | num => trivial
    | arr d =>
      obtain ⟨w, hk, hw⟩ := hc
      obtain ⟨h1, h2⟩ := keeps_kill (k := k) hfl ha hk
      exact ⟨w, h2, (oD w d).2 ⟨h1, hw⟩⟩
    | obj b =>
      obtain ⟨w, hk, hw⟩ := hc
      obtain ⟨h1, h2⟩ := keeps_kill (k := k) hfl ha hk
      exact ⟨w, h2, (oB w b).2 ⟨h1, hw⟩⟩
  refine ⟨?_, ?_, ?_, ?_, ?_, ?_, ?_⟩
  · intro w b hb
    obtain ⟨h1, h2⟩ := (oB w b).1 hb
    obtain ⟨i, hi, ho⟩ := h.inst w b h2
    refine ⟨i, by rw [oI w b h1 h2]; exact hi, ho.outside, ho.nodup, fun f hf => ?_⟩
    have hfo := ho.fields f hf
    refine ⟨hfo.nosub, fun d hd => ?_, oC w _ h1 hfo.cov⟩
    rw [oL w d h1 (.inr ⟨b, i, h2, hi, hd ▸ hf⟩)]
    exact hfo.data d hd
  · intro w d q hq hq0 hk
    obtain ⟨h1, h2⟩ := get_kill hq hq0
    rw [oL w d h1 (.inl ⟨q, h2, hq0, hk⟩)]
    exact h.arr w d q h2 hq0 hk
  · intro w w' d hw hw'
    exact h.uniqD w w' d ((oD w d).1 hw).2 ((oD w' d).1 hw').2
  · intro w w' b hw hw'
    exact h.uniqB w w' b ((oB w b).1 hw).2 ((oB w' b).1 hw').2
  · intro d v hd
    have hn : ¬ OwnD os m o d := fun hc => hD d hc v hd
    rw [hD' d hn] at hd
    obtain ⟨w, hw⟩ := h.aliveD d v hd
    exact ⟨w, (oD w d).2 ⟨fun hc => hn (hc ▸ hw), hw⟩⟩
  · intro b i hi
    have hn : ¬ OwnB os o b := fun hc => hB b hc i hi
    rw [hB' b hn] at hi
    obtain ⟨w, hw⟩ := h.aliveB b i hi
    exact ⟨w, (oB w b).2 ⟨fun hc => hn (hc ▸ hw), hw⟩⟩
  · intro a q hq hq0
    obtain ⟨h1, h2⟩ := get_kill hq hq0
    exact oC a _ h1 (h.cov a q h2 hq0)

theorem freeData_ok {m : Mem} {d : Nat} {v : Int} (h : m.data[d]? = some (some v)) :
    freeData m d = .ok { m with data := m.data.set d none } := by simp [freeData, h]

theorem set_none_ne {α} (l : List (Option α)) (d : Nat) (v : α) : (l.set d none)[d]? ≠ some (some v) := by
  rw [List.getElem?_set]
  simp

def FreedIn (fs : List CField) (m m' : Mem) : Prop :=
  freeFields fs m = .ok m' ∧ m'.insts = m.insts ∧ m'.data.length = m.data.length ∧
      (∀ d, CField.own d ∈ fs → ∀ v, m'.data[d]? ≠ some (some v)) ∧
      (∀ d, ¬ CField.own d ∈ fs → m'.data[d]? = m.data[d]?)

def Destroyed (os : List PyObj) (m : Mem) (o : Nat) (k : Kind) (m' : Mem) : Prop :=
  destroy m k = .ok m' ∧ m'.data.length = m.data.length ∧
      m'.insts.length = m.insts.length ∧
      (∀ b, OwnB os o b → ∀ i, m'.insts[b]? ≠ some (some i)) ∧
      (∀ b, ¬ OwnB os o b → m'.insts[b]? = m.insts[b]?) ∧
      (∀ d, OwnD os m o d → ∀ v, m'.data[d]? ≠ some (some v)) ∧
      (∀ d, ¬ OwnD os m o d → m'.data[d]? = m.data[d]?)

/-- The arrays of a structure are freed. -/
theorem freeFields_ok {fs : List CField} {m : Mem} (hn : (ownsOf fs).Nodup)
    (hs : ∀ f ∈ fs, ∀ b, f ≠ .sub b)
    (hd : ∀ d, CField.own d ∈ fs → ∃ v, m.data[d]? = some (some v)) :
    ∃ m', FreedIn fs m m' := by
  induction fs generalizing m with
  | nil => exact ⟨m, rfl, rfl, rfl, by simp, by simp⟩
  | cons f fs ih =>
    have skip : ownsOf (f :: fs) = ownsOf fs → (∀ d, f ≠ .own d) →
        freeFields (f :: fs) m = freeFields fs m → ∃ m', FreedIn (f :: fs) m m' := by
      intro h1 h2 h3
      rw [h1] at hn
      obtain ⟨m', e1, e2, e2', e3, e4⟩ := ih hn (fun f hf => hs f (List.mem_cons_of_mem _ hf))
        (fun d h => hd d (List.mem_cons_of_mem _ h))
      refine ⟨m', by rw [h3]; exact e1, e2, e2', fun d h => ?_, fun d h => ?_⟩
      · rcases List.mem_cons.1 h with h | h
        · exact absurd h.symm (h2 d)
        · exact e3 d h
      · exact e4 d fun hc => h (List.mem_cons_of_mem _ hc)
    cases f with
    | num v => exact skip rfl (by simp) rfl
    | ptr v => exact skip rfl (by simp) rfl
    | obj v => exact skip rfl (by simp) rfl
    | sub b => exact absurd rfl (hs _ (List.mem_cons_self ..) b)
    | own d =>
      obtain ⟨v, hv⟩ := hd d (List.mem_cons_self ..)
      simp only [ownsOf, List.nodup_cons] at hn
      have hdn : ∀ d', CField.own d' ∈ fs → d ≠ d' := by
        rintro d' h rfl; exact hn.1 (mem_ownsOf.2 h)
      obtain ⟨m', e1, e2, e2', e3, e4⟩ := ih (m := { m with data := m.data.set d none }) hn.2
        (fun f hf => hs f (List.mem_cons_of_mem _ hf))
        (fun d' h => by
          show ∃ v, (m.data.set d none)[d']? = some (some v)
          rw [List.getElem?_set_ne (hdn d' h)]
          exact hd d' (List.mem_cons_of_mem _ h))
      refine ⟨m', ?_, e2, by rw [e2']; simp, fun d' h => ?_, fun d' h => ?_⟩
      · simp only [freeFields, freeData_ok hv, Res.bind]; exact e1
      · by_cases hin : CField.own d' ∈ fs
        · exact e3 d' hin
        · rw [e4 d' hin]
          rcases List.mem_cons.1 h with h | h
          · cases h
            exact set_none_ne _ _
          · exact absurd h hin
      · have h1 : ¬ CField.own d' ∈ fs := fun hc => h (List.mem_cons_of_mem _ hc)
        have h2 : d ≠ d' := fun hc => h (hc ▸ List.mem_cons_self ..)
        rw [e4 d' h1]
        exact List.getElem?_set_ne h2

/-- What an object owns is freed, nothing else. -/
theorem destroy_ok {os : List PyObj} {m : Mem} {o : Nat} {p : PyObj}
    (h : MInv os m) (hp : os[o]? = some p) (hr : p.rc ≠ 0) :
    ∃ m', Destroyed os m o p.kind m' := by
  have nB : ∀ b, OwnB os o b → p.kind = .inst b false := by
    rintro b ⟨q, hq, _, hk⟩; rw [hp] at hq; cases hq; exact hk
  have nD : ∀ d, OwnD os m o d → p.kind = .arr d true ∨ ∃ b, p.kind = .inst b false := by
    rintro d (⟨q, hq, _, hk⟩ | ⟨b, _, hb, _⟩)
    · rw [hp] at hq; cases hq; exact .inl hk
    · exact .inr ⟨b, nB b hb⟩
  have idle : destroy m p.kind = .ok m → (∀ d, p.kind ≠ .arr d true) →
      (∀ b, p.kind ≠ .inst b false) → ∃ m', Destroyed os m o p.kind m' := fun h1 h2 h3 =>
    ⟨m, h1, rfl, rfl, fun b hb => absurd (nB b hb) (h3 b), fun _ _ => rfl,
      fun d hd => by
        rcases nD d hd with h | ⟨b, h⟩
        · exact absurd h (h2 d)
        · exact absurd h (h3 b), fun _ _ => rfl⟩
  cases hk : p.kind with
  | num v => rw [hk] at idle; exact idle rfl (by simp) (by simp)
  | arr d ow =>
    cases ow with
    | false => rw [hk] at idle; exact idle rfl (by simp) (by simp)
    | true =>
      obtain ⟨v, hv⟩ := h.arr o d p hp hr hk
      refine ⟨{ m with data := m.data.set d none }, freeData_ok hv, by simp, rfl, ?_, fun _ _ => rfl,
        ?_, ?_⟩
      · intro b hb; rw [nB b hb] at hk; cases hk
      · intro d' hd'
        rcases nD d' hd' with h | ⟨b, h⟩
        · rw [hk] at h; cases h; exact set_none_ne _ _
        · rw [hk] at h; cases h
      · intro d' hd'
        apply List.getElem?_set_ne
        intro hc; subst hc
        exact hd' (.inl ⟨p, hp, hr, hk⟩)
  | inst b al =>
    cases al with
    | true => rw [hk] at idle; exact idle rfl (by simp) (by simp)
    | false =>
      have hb : OwnB os o b := ⟨p, hp, hr, hk⟩
      obtain ⟨i, hi, ho⟩ := h.inst o b hb
      obtain ⟨m', e1, e2, e2', e3, e4⟩ := freeFields_ok (m := m) ho.nodup
        (fun f hf => (ho.fields f hf).nosub) (fun d hd => (ho.fields _ hd).data d rfl)
      have key : ∀ d, OwnD os m o d ↔ CField.own d ∈ i.fields := by
        intro d
        constructor
        · rintro (⟨q, hq, _, hk'⟩ | ⟨b', i', hb', hi', hd⟩)
          · rw [hp] at hq; cases hq; rw [hk] at hk'; cases hk'
          · have := hb.fun hb'; subst this
            rw [hi] at hi'; cases hi'; exact hd
        · exact fun hd => .inr ⟨b, i, hb, hi, hd⟩
      refine ⟨{ m' with insts := m'.insts.set b none }, ?_, e2', by simp [e2], ?_, ?_, ?_, ?_⟩
      · simp [destroy, getInst, hi, Res.bind, Res.map, ho.outside, e1]
      · intro b' hb'
        have := hb.fun hb'; subst this
        exact set_none_ne _ _
      · intro b' hb'
        show (m'.insts.set b none)[b']? = _
        rw [List.getElem?_set_ne (show b ≠ b' from fun hc => hb' (hc ▸ hb)), e2]
      · intro d hd; exact e3 d ((key d).1 hd)
      · intro d hd; exact e4 d fun hc => hd ((key d).2 hc)

end Verif.Lifetimes.C
