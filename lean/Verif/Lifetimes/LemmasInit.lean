import Verif.Lifetimes.LemmasExec

/-
Constructors.
-/
namespace Verif.Lifetimes.C

theorem newData_heap {m h v} (hH : HeapR m h) :
    HeapR (newData m v).1 (Py.newArr h v).1 ∧ (Py.newArr h v).2 = .arr m.data.length := by
  refine ⟨⟨by simp [newData, Py.newArr, hH.dl], by simp [newData, Py.newArr, hH.ol],
    fun d w hd => ?_, hH.insts⟩, by simp [Py.newArr, hH.dl]⟩
  simp only [newData, Py.newArr] at hd ⊢
  by_cases hl : d < m.data.length
  · rw [List.getElem?_append_left hl] at hd
    rw [List.getElem?_append_left (by rw [hH.dl]; exact hl)]
    exact hH.data d w hd
  · have := lt_of_some hd
    simp at this
    have : d = m.data.length := by omega
    subst this
    simp at hd
    subst hd
    rw [← hH.dl]; simp

/-- What a constructor leaves behind. -/
structure Built (m m' : Mem) (args : List Ref) (is : List Init) (fs : List CField) : Prop where
  insts : m'.insts = m.insts
  le : m.data.length ≤ m'.data.length
  data : ∀ d : Nat, d < m.data.length → m'.data[d]? = m.data[d]?
  own : ∀ d, CField.own d ∈ fs → m.data.length ≤ d ∧ ∃ v, m'.data[d]? = some (some v)
  nodup : (ownsOf fs).Nodup
  new : ∀ d, m.data.length ≤ d → d < m'.data.length → CField.own d ∈ fs
  nosub : ∀ f ∈ fs, ∀ b, f ≠ .sub b
  ptr : ∀ d, CField.ptr d ∈ fs → ∃ i ∈ is.flatMap initArgs, args[i]? = some (.arr d)
  obj : ∀ d, CField.obj d ∈ fs → ∃ i ∈ is.flatMap initArgs, args[i]? = some (.obj d)

theorem Built.same {m m' args is fs} (h : Built m m' args is fs) (f : CField) (l : Leaf)
    (h1 : ∀ d, f ≠ .own d) (h2 : ∀ d, f ≠ .sub d)
    (h3 : ∀ d, f = .ptr d → ∃ i ∈ leafArgs l, args[i]? = some (.arr d))
    (h4 : ∀ d, f = .obj d → ∃ i ∈ leafArgs l, args[i]? = some (.obj d)) :
    Built m m' args (.leaf l :: is) (f :: fs) := by
  have he : ownsOf (f :: fs) = ownsOf fs := by
    cases f <;> simp_all [ownsOf]
  have hm : ∀ d, CField.own d ∈ f :: fs ↔ CField.own d ∈ fs := fun d => by
    rw [← mem_ownsOf, ← mem_ownsOf, he]
  refine ⟨h.insts, h.le, h.data, fun d hd => h.own d ((hm d).1 hd), by rw [he]; exact h.nodup,
    fun d k1 k2 => (hm d).2 (h.new d k1 k2), fun g hg b => ?_, fun d hd => ?_, fun d hd => ?_⟩
  · rcases List.mem_cons.1 hg with rfl | hg
    · exact h2 b
    · exact h.nosub g hg b
  · rcases List.mem_cons.1 hd with hd | hd
    · obtain ⟨i, k1, k2⟩ := h3 d hd.symm
      exact ⟨i, by simp [initArgs, k1], k2⟩
    · obtain ⟨i, k1, k2⟩ := h.ptr d hd
      exact ⟨i, by rw [List.flatMap_cons]; exact List.mem_append_right _ k1, k2⟩
  · rcases List.mem_cons.1 hd with hd | hd
    · obtain ⟨i, k1, k2⟩ := h4 d hd.symm
      exact ⟨i, by simp [initArgs, k1], k2⟩
    · obtain ⟨i, k1, k2⟩ := h.obj d hd
      exact ⟨i, by rw [List.flatMap_cons]; exact List.mem_append_right _ k1, k2⟩

theorem Built.fresh {m m' args is fs v} (h : Built (newData m v).1 m' args is fs) :
    Built m m' args (.leaf (.fresh v) :: is) (.own m.data.length :: fs) := by
  have hl : (newData m v).1.data.length = m.data.length + 1 := by simp [newData]
  have hfin : m'.data[m.data.length]? = some (some v) := by
    rw [h.data _ (by omega)]; simp [newData]
  refine ⟨h.insts, by have := h.le; omega, fun d hd => ?_, fun d hd => ?_, ?_, fun d k1 k2 => ?_,
    fun g hg b => ?_, fun d hd => ?_, fun d hd => ?_⟩
  · rw [h.data d (by omega)]
    simp [newData, List.getElem?_append_left hd]
  · rcases List.mem_cons.1 hd with hd | hd
    · cases hd; exact ⟨Nat.le_refl _, v, hfin⟩
    · obtain ⟨k1, k2⟩ := h.own d hd
      exact ⟨by omega, k2⟩
  · simp only [ownsOf, List.nodup_cons]
    refine ⟨fun hc => ?_, h.nodup⟩
    have := (h.own _ (mem_ownsOf.1 hc)).1
    omega
  · by_cases he : d = m.data.length
    · subst he; simp
    · exact List.mem_cons_of_mem _ (h.new d (by omega) k2)
  · rcases List.mem_cons.1 hg with rfl | hg
    · simp
    · exact h.nosub g hg b
  · rcases List.mem_cons.1 hd with hd | hd
    · cases hd
    · obtain ⟨i, k1, k2⟩ := h.ptr d hd
      exact ⟨i, by rw [List.flatMap_cons]; exact List.mem_append_right _ k1, k2⟩
  · rcases List.mem_cons.1 hd with hd | hd
    · cases hd
    · obtain ⟨i, k1, k2⟩ := h.obj d hd
      exact ⟨i, by rw [List.flatMap_cons]; exact List.mem_append_right _ k1, k2⟩

theorem inits_ok (args : List Ref) (is : List Init) (hns : ∀ i ∈ is, noSub i = true) (m : Mem)
    (h : Py.Heap) (hH : HeapR m h) :
    inits args is m = .raise ∨ ∃ m' fs h', inits args is m = .ok (m', fs) ∧
      Py.inits (args.map Ref.val) is h = some (h', fs.map fun f => f.ref.val) ∧ HeapR m' h' ∧
      Built m m' args is fs := by
  induction is generalizing m h with
  | nil =>
    right
    refine ⟨m, [], h, rfl, rfl, hH, ⟨rfl, Nat.le_refl _, fun _ _ => rfl, ?_, ?_, ?_, ?_, ?_, ?_⟩⟩
      <;> simp [ownsOf]
  | cons i is ih =>
    have ihs := ih (fun j hj => hns j (List.mem_cons_of_mem _ hj))
    cases i with
    | sub ls => have := hns _ (List.mem_cons_self ..); simp [noSub] at this
    | leaf l =>
      cases l with
      | fresh v =>
        obtain ⟨hH', hv⟩ := newData_heap (v := v) hH
        rcases ihs (newData m v).1 (Py.newArr h v).1 hH' with hr | ⟨m', fs, h', e1, e2, e3, e4⟩
        · left; simp [inits, leaf, Res.bind, hr, Res.map]
        · right
          refine ⟨m', .own m.data.length :: fs, h', ?_, ?_, e3, e4.fresh⟩
          · simp only [inits, leaf, Res.bind, e1, Res.map]; rfl
          · simp only [Py.inits, Py.leaf, Option.bind, e2, Option.map, hv, List.map_cons, CField.ref,
              Ref.val]
      | arg t i =>
        have key : ∀ f : CField, leaf m args (.arg t i) = .ok (m, f) →
            (args[i]? = some f.ref) → (∀ d, f ≠ .own d) → (∀ d, f ≠ .sub d) →
            (∀ d, f = .ptr d → ∃ j ∈ leafArgs (.arg t i), args[j]? = some (.arr d)) →
            (∀ d, f = .obj d → ∃ j ∈ leafArgs (.arg t i), args[j]? = some (.obj d)) →
            inits args (.leaf (.arg t i) :: is) m = .raise ∨ ∃ m' fs h',
              inits args (.leaf (.arg t i) :: is) m = .ok (m', fs) ∧
              Py.inits (args.map Ref.val) (.leaf (.arg t i) :: is) h =
                some (h', fs.map fun f => f.ref.val) ∧ HeapR m' h' ∧
              Built m m' args (.leaf (.arg t i) :: is) fs := by
          intro f hf ha h1 h2 h3 h4
          rcases ihs m h hH with hr | ⟨m', fs, h', e1, e2, e3, e4⟩
          · left; simp [inits, hf, Res.bind, hr, Res.map]
          · right
            refine ⟨m', f :: fs, h', ?_, ?_, e3, e4.same f _ h1 h2 h3 h4⟩
            · simp [inits, hf, Res.bind, e1, Res.map]
            · have : (args.map Ref.val)[i]? = some f.ref.val := by simp [ha]
              simp only [Py.inits, Py.leaf, this, Option.map, Option.bind, e2, List.map_cons]
        have bad : leaf m args (.arg t i) = .raise →
            inits args (.leaf (.arg t i) :: is) m = .raise := by
          intro hb; simp [inits, hb, Res.bind]
        cases ha : args[i]? with
        | none => left; apply bad; cases t <;> simp [leaf, ha]
        | some r =>
          cases t with
          | num =>
            cases r with
            | num v => exact key (.num v) (by simp [leaf, ha]) ha (by simp) (by simp) (by simp) (by simp)
            | none => left; apply bad; simp [leaf, ha]
            | arr d => left; apply bad; simp [leaf, ha]
            | obj b => left; apply bad; simp [leaf, ha]
          | arr =>
            cases r with
            | arr d =>
              exact key (.ptr d) (by simp [leaf, ha]) ha (by simp) (by simp)
                (by intro d hd; cases hd; exact ⟨i, by simp [leafArgs], ha⟩) (by simp)
            | none => left; apply bad; simp [leaf, ha]
            | num v => left; apply bad; simp [leaf, ha]
            | obj b => left; apply bad; simp [leaf, ha]
          | obj =>
            cases r with
            | obj b =>
              exact key (.obj b) (by simp [leaf, ha]) ha (by simp) (by simp) (by simp)
                (by intro d hd; cases hd; exact ⟨i, by simp [leafArgs], ha⟩)
            | none => left; apply bad; simp [leaf, ha]
            | num v => left; apply bad; simp [leaf, ha]
            | arr b => left; apply bad; simp [leaf, ha]

end Verif.Lifetimes.C
