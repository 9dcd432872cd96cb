import Verif.Globals.Lemmas

namespace Verif.Globals.Lemmas
open Spec Model

/-! ### The same steps -/

/-- The states of Python and of the generated code agree: `M` are the variables of the module, `loc` the
names that are local in Python, `cls` those that are local in the generated code. -/
structure Rel (M : List Name) (loc cls : Name → Bool) (P C : State) : Prop where
  out : P.out = C.out
  l : ∀ x, loc x = true → P.loc x = C.loc x
  pg : ∀ x, cls x = true → loc x = false → P.glob x = C.loc x
  g : ∀ x ∈ M, P.glob x = C.glob x

/-- What did not change. -/
structure Frame (M : List Name) (loc cls : Name → Bool) (P C P' C' : State) : Prop where
  glob : ∀ x, x ∉ M → ¬ (cls x = true ∧ loc x = false) → P'.glob x = P.glob x
  loc : ∀ x, cls x = false → C'.loc x = C.loc x

structure Good (M : List Name) (loc cls : Name → Bool) : Prop where
  le : ∀ x, loc x = true → cls x = true
  ap : ∀ x, cls x = true → loc x = false → x ∉ M

def ORel (M : List Name) (loc cls : Name → Bool) (P C : State) : Option State → Option State → Prop
  | none, none => True
  | some P', some C' => Rel M loc cls P' C' ∧ Frame M loc cls P C P' C'
  | _, _ => False

variable {M : List Name} {loc cls : Name → Bool} {P C : State}

theorem Frame.refl : Frame M loc cls P C P C := ⟨fun _ _ _ => rfl, fun _ _ => rfl⟩

theorem Frame.trans {P1 C1 P2 C2 : State} (h : Frame M loc cls P C P1 C1) (k : Frame M loc cls P1 C1 P2 C2) :
    Frame M loc cls P C P2 C2 :=
  ⟨fun x h1 h2 => (k.glob x h1 h2).trans (h.glob x h1 h2), fun x h1 => (k.loc x h1).trans (h.loc x h1)⟩

theorem ORel.bind {a b : Option State} {f g : State → Option State} (h : ORel M loc cls P C a b)
    (hfg : ∀ P' C', Rel M loc cls P' C' → ORel M loc cls P' C' (f P') (g C')) :
    ORel M loc cls P C (a.bind f) (b.bind g) := by
  cases a with
  | none => cases b with
    | none => trivial
    | some C' => exact h.elim
  | some P' => cases b with
    | none => exact h.elim
    | some C' =>
      obtain ⟨h1, h2⟩ := h
      have := hfg P' C' h1
      show ORel M loc cls P C (f P') (g C')
      cases hf : f P' with
      | none => cases hg : g C' with
        | none => trivial
        | some _ => rw [hf, hg] at this; exact this.elim
      | some P2 => cases hg : g C' with
        | none => rw [hf, hg] at this; exact this.elim
        | some _ => rw [hf, hg] at this; exact ⟨this.1, h2.trans this.2⟩

theorem read_eq (hG : Good M loc cls) (h : Rel M loc cls P C) {x : Name} (hx : cls x = true ∨ x ∈ M) :
    P.read loc x = readC C (ref cls x) := by
  cases hl : loc x
  · cases hc : cls x
    · have hm : x ∈ M := hx.resolve_left (by simp [hc])
      simp [State.read, ref, hl, hc, readC, h.g x hm]
    · simp [State.read, ref, hl, hc, readC, h.pg x hc hl]
  · have hc := hG.le x hl
    simp [State.read, ref, hl, hc, readC, h.l x hl]

theorem eval_eq (hG : Good M loc cls) (h : Rel M loc cls P C) :
    ∀ {e : Expr Name}, (∀ x ∈ vars e, cls x = true ∨ x ∈ M) →
      eval (P.read loc) e = eval (readC C) (mapE (ref cls) e)
  | .lit _, _ => rfl
  | .var x, hx => read_eq hG h (hx x (by simp [vars]))
  | .bin op a b, hx => by
    simp only [eval, mapE]
    rw [eval_eq hG h (e := a) fun x h => hx x (by simp [vars, h]),
      eval_eq hG h (e := b) fun x h => hx x (by simp [vars, h])]

theorem evals_eq (hG : Good M loc cls) (h : Rel M loc cls P C) :
    ∀ {l : List (Expr Name)}, (∀ x ∈ l.flatMap vars, cls x = true ∨ x ∈ M) →
      evals (P.read loc) l = evals (readC C) (l.map (mapE (ref cls)))
  | [], _ => rfl
  | e :: l, hx => by
    simp only [List.flatMap_cons, List.mem_append] at hx
    simp only [evals, List.map_cons]
    rw [eval_eq hG h (e := e) fun x h => hx x (.inl h), evals_eq hG h (l := l) fun x h => hx x (.inr h)]

theorem write_rel (hG : Good M loc cls) (h : Rel M loc cls P C) {x : Name} (hx : cls x = true ∨ x ∈ M)
    (v : Int) : Rel M loc cls (P.write loc x v) (writeC C (ref cls x) v) ∧
      Frame M loc cls P C (P.write loc x v) (writeC C (ref cls x) v) := by
  cases hl : loc x
  · cases hc : cls x
    · have hm : x ∈ M := hx.resolve_left (by simp [hc])
      simp only [State.write, ref, hl, hc, writeC]
      refine ⟨⟨h.out, h.l, fun y h1 h2 => ?_, fun y hy => ?_⟩, ⟨fun y h1 h2 => ?_, fun _ _ => rfl⟩⟩
      · have : y ≠ x := fun e => hG.ap y h1 h2 (e ▸ hm)
        simp [put, this, h.pg y h1 h2]
      · simp [put, h.g y hy]
      · have : y ≠ x := fun e => h1 (e ▸ hm)
        simp [put, this]
    · have hm := hG.ap x hc hl
      simp only [State.write, ref, hl, hc, writeC]
      refine ⟨⟨h.out, fun y h1 => ?_, fun y h1 h2 => ?_, fun y hy => ?_⟩, ⟨fun y h1 h2 => ?_, fun y h1 => ?_⟩⟩
      · have : y ≠ x := fun e => by rw [e, hl] at h1; cases h1
        simp [put, this, h.l y h1]
      · simp [put, h.pg y h1 h2]
      · have : y ≠ x := fun e => hm (e ▸ hy)
        simp [put, this, h.g y hy]
      · have : y ≠ x := fun e => h2 (e ▸ ⟨hc, hl⟩)
        simp [put, this]
      · have : y ≠ x := fun e => by rw [e, hc] at h1; cases h1
        simp [put, this]
  · have hc := hG.le x hl
    simp only [State.write, ref, hl, hc, writeC]
    refine ⟨⟨h.out, fun y h1 => ?_, fun y h1 h2 => ?_, h.g⟩, ⟨fun y h1 h2 => rfl, fun y h1 => ?_⟩⟩
    · simp [put, h.l y h1]
    · have : y ≠ x := fun e => by rw [e, hl] at h2; cases h2
      simp [put, this, h.pg y h1 h2]
    · have : y ≠ x := fun e => by rw [e, hc] at h1; cases h1
      simp [put, this]

/-- A function and its compiled version. -/
structure FunOK (M : List Name) (decl : Name → List Name) (f : Fun) (f' : CFun) : Prop where
  params : f'.params = f.params
  body : f'.body = mapS (ref (isLocal decl f)) f.body
  ret : f'.ret = mapE (ref (isLocal decl f)) f.ret
  bodyKnown : ∀ x ∈ names f.body, isLocal decl f x = true ∨ x ∈ M
  retKnown : ∀ x ∈ vars f.ret, isLocal decl f x = true ∨ x ∈ M

def FunsOK (M : List Name) (decl : Name → List Name) (fs : List Fun) (cs : List CFun) : Prop :=
  ∀ n, (getFun fs n = none ∧ getCFun cs n = none) ∨
    ∃ f f', getFun fs n = some f ∧ getCFun cs n = some f' ∧ FunOK M decl f f'

theorem good_self : Good M loc loc := ⟨fun _ h => h, fun x h1 h2 => by rw [h1] at h2; cases h2⟩

theorem orel_map_write (hG : Good M loc cls) (h : Rel M loc cls P C) {x : Name}
    (hx : cls x = true ∨ x ∈ M) (o : Option Int) :
    ORel M loc cls P C (o.map (P.write loc x)) (o.map (writeC C (ref cls x))) := by
  cases o with
  | none => trivial
  | some v => exact write_rel hG h hx v

/-- Python and the generated code do the same. -/
theorem sim {decl : Name → List Name} {fs : List Fun} {cs : List CFun} (hF : FunsOK M decl fs cs) :
    ∀ (n : Nat) (s : Stmt Name) {loc cls : Name → Bool} {P C : State}, Good M loc cls →
      Rel M loc cls P C → (∀ x ∈ names s, cls x = true ∨ x ∈ M) →
      ORel M loc cls P C (exec fs decl n loc s P) (execC cs n (mapS (ref cls) s) C)
  | 0, s, _, _, _, _, _, _, _ => by
    simp only [exec, execC]; trivial
  | n + 1, .skip, _, _, _, _, hG, h, hn => by
    simp only [exec, execC, mapS]; exact ⟨h, Frame.refl⟩
  | n + 1, .seq a b, _, _, _, _, hG, h, hn => by
    simp only [exec, execC, mapS]
    exact (sim hF n a hG h fun x hx => hn x (by simp [names, hx])).bind fun P' C' h' =>
      sim hF n b hG h' fun x hx => hn x (by simp [names, hx])
  | n + 1, .assign x e, _, _, _, _, hG, h, hn => by
    simp only [exec, execC, mapS]
    rw [eval_eq hG h fun x hx => hn x (by simp [names, hx])]
    exact orel_map_write hG h (hn x (by simp [names])) _
  | n + 1, .ann x e, _, _, _, _, hG, h, hn => by
    simp only [exec, execC, mapS]
    rw [eval_eq hG h fun x hx => hn x (by simp [names, hx])]
    exact orel_map_write hG h (hn x (by simp [names])) _
  | n + 1, .print e, _, cls, _, C, hG, h, hn => by
    simp only [exec, execC, mapS]
    rw [eval_eq hG h fun x hx => hn x (by simpa [names] using hx)]
    cases eval (readC C) (mapE (ref cls) e) with
    | none => trivial
    | some v => exact ⟨⟨by simp [h.out], h.l, h.pg, h.g⟩, ⟨fun _ _ _ => rfl, fun _ _ => rfl⟩⟩
  | n + 1, .ite c a b, _, cls, _, C, hG, h, hn => by
    simp only [exec, execC, mapS]
    rw [eval_eq hG h fun x hx => hn x (by simp [names, hx])]
    cases eval (readC C) (mapE (ref cls) c) with
    | none => trivial
    | some v =>
      simp only [Option.bind_some]
      split
      · exact sim hF n a hG h fun x hx => hn x (by simp [names, hx])
      · exact sim hF n b hG h fun x hx => hn x (by simp [names, hx])
  | n + 1, .while c b, _, cls, _, C, hG, h, hn => by
    simp only [exec, execC, mapS]
    rw [eval_eq hG h fun x hx => hn x (by simp [names, hx])]
    cases eval (readC C) (mapE (ref cls) c) with
    | none => trivial
    | some v =>
      simp only [Option.bind_some]
      split
      · refine (sim hF n b hG h fun x hx => hn x (by simp [names, hx])).bind fun P' C' h' => ?_
        have := sim hF n (.while c b) hG h' hn
        simpa only [mapS] using this
      · exact ⟨h, Frame.refl⟩
  | n + 1, .call x f as, loc, cls, P, C, hG, h, hn => by
    simp only [exec, execC, mapS]
    rw [evals_eq hG h fun x hx => hn x (by simp only [names, List.mem_cons]; exact .inr hx)]
    cases evals (readC C) (as.map (mapE (ref cls))) with
    | none => trivial
    | some vs =>
      simp only [Option.bind_some]
      rcases hF f with ⟨h1, h2⟩ | ⟨d, d', h1, h2, hd⟩
      · rw [h1, h2]; trivial
      · rw [h1, h2]
        simp only [Option.bind_some, hd.params]
        cases bindParams d.params vs with
        | none => trivial
        | some m =>
          simp only [Option.bind_some, hd.body, hd.ret]
          have hr : Rel M (isLocal decl d) (isLocal decl d) { P with loc := m } { C with loc := m } :=
            ⟨h.out, fun _ _ => rfl, fun x h1 h2 => (by rw [h1] at h2; cases h2), h.g⟩
          have hb := sim hF n d.body good_self hr hd.bodyKnown
          cases e1 : exec fs decl n (isLocal decl d) d.body { P with loc := m } with
          | none =>
            cases e2 : execC cs n (mapS (ref (isLocal decl d)) d.body) { C with loc := m } with
            | none => trivial
            | some C' => rw [e1, e2] at hb; exact hb.elim
          | some P' =>
            cases e2 : execC cs n (mapS (ref (isLocal decl d)) d.body) { C with loc := m } with
            | none => rw [e1, e2] at hb; exact hb.elim
            | some C' =>
              rw [e1, e2] at hb
              obtain ⟨b1, b2⟩ := hb
              simp only [Option.bind_some]
              rw [eval_eq good_self b1 hd.retKnown]
              have hr2 : Rel M loc cls { P' with loc := P.loc } { C' with loc := C.loc } := by
                refine ⟨b1.out, h.l, fun y h1 h2 => ?_, b1.g⟩
                have := b2.glob y (hG.ap y h1 h2) fun ⟨p, q⟩ => by rw [p] at q; cases q
                exact this.trans (h.pg y h1 h2)
              have hf2 : Frame M loc cls P C { P' with loc := P.loc } { C' with loc := C.loc } := by
                refine ⟨fun y h1 _ => ?_, fun _ _ => rfl⟩
                exact b2.glob y h1 fun ⟨p, q⟩ => by rw [p] at q; cases q
              cases eval (readC C') (mapE (ref (isLocal decl d)) d.ret) with
              | none => trivial
              | some v =>
                have := write_rel hG hr2 (hn x (by simp [names])) v
                exact ⟨this.1, hf2.trans this.2⟩

end Verif.Globals.Lemmas
