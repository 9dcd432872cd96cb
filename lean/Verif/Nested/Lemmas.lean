import Verif.Nested.Model
namespace Verif.Nested.Lemmas
open Verif.Globals.Spec Verif.Globals.Model Verif.Nested.Spec Verif.Nested.Model

/-- The states of the two programs are the same, seen from the call with the number `fr`. -/
structure Rel (fr : Nat) (S : State) (C : Mem) : Prop where
  glob : C.frames 0 = S.glob
  loc : C.frames fr = S.loc
  out : C.out = S.out
  pos : 0 < fr
  lt : fr < C.next

/-- The other calls keep their variables. -/
def Keeps (fr : Nat) (C C' : Mem) : Prop := C.next ≤ C'.next ∧ ∀ k, 0 < k → k < C.next → k ≠ fr → C'.frames k = C.frames k

theorem Keeps.refl (fr : Nat) (C : Mem) : Keeps fr C C := ⟨Nat.le_refl _, fun _ _ _ _ => rfl⟩

theorem Keeps.trans {fr : Nat} {C C' D : Mem} (h : Keeps fr C C') (k : Keeps fr C' D) : Keeps fr C D :=
  ⟨Nat.le_trans h.1 k.1, fun j h1 h2 h3 => (k.2 j h1 (Nat.lt_of_lt_of_le h2 h.1) h3).trans (h.2 j h1 h2 h3)⟩

def ORel (fr : Nat) (C : Mem) : Option State → Option Mem → Prop
  | none, none => True
  | some S', some C' => Rel fr S' C' ∧ Keeps fr C C'
  | _, _ => False

/-- The pointers for the names of `l` are those of the variables of the outer function. -/
def Good (p : Ptrs) (l : List Name) : Prop := ∀ x ∈ l, p x = some (0, x)

theorem Good.mono {p : Ptrs} {l l' : List Name} (h : Good p l) (hl : ∀ x ∈ l', x ∈ l) : Good p l' := fun x hx => h x (hl x hx)

variable {fr : Nat} {p : Ptrs} {S : State} {C : Mem}

theorem read_eq (h : Rel fr S C) {x : Ref} (hp : Good p (outerR x)) : readP fr p C x = readC S x := by
  cases x with
  | loc x => simp [readP, readC, h.loc]
  | glob x => simp [readP, readC, hp x (by simp [outerR]), h.glob]

theorem eval_eq (h : Rel fr S C) : ∀ {e : Expr Ref}, Good p (outerE e) → eval (readP fr p C) e = eval (readC S) e
  | .lit _, _ => rfl
  | .var (.loc x), _ => read_eq h (by intro y hy; cases hy)
  | .var (.glob x), hp => read_eq h hp
  | .bin op a b, hp => by
    simp only [eval]
    rw [eval_eq h (e := a) (hp.mono fun x hx => by simp [outerE, hx]), eval_eq h (e := b) (hp.mono fun x hx => by simp [outerE, hx])]

theorem evals_eq (h : Rel fr S C) : ∀ {l : List (Expr Ref)}, Good p (l.flatMap outerE) → evals (readP fr p C) l = evals (readC S) l
  | [], _ => rfl
  | e :: l, hp => by
    simp only [evals]
    rw [eval_eq h (e := e) (hp.mono fun x hx => by simp [hx]),
      evals_eq h (l := l) (hp.mono fun x hx => by rw [List.flatMap_cons]; exact List.mem_append_right _ hx)]

theorem write_rel (h : Rel fr S C) {x : Ref} (hp : Good p (outerR x)) (v : Int) :
    ORel fr C (some (writeC S x v)) (writeP fr p C x v) := by
  have h0 := h.pos
  cases x with
  | loc x =>
    refine ⟨⟨?_, ?_, h.out, h.pos, h.lt⟩, Nat.le_refl _, fun k _ _ hk => ?_⟩
    · simp only [store, writeC]; rw [if_neg (by omega)]; exact h.glob
    · simp [store, writeC, h.loc]
    · simp [store, hk]
  | glob x =>
    simp only [writeP, hp x (by simp [outerR]), Option.map_some]
    refine ⟨⟨?_, ?_, h.out, h.pos, h.lt⟩, Nat.le_refl _, fun k hk _ _ => ?_⟩
    · simp [store, writeC, h.glob]
    · simp only [store, writeC]; rw [if_neg (by omega)]; exact h.loc
    · simp only [store]; rw [if_neg (by omega)]

theorem ORel.bind {a : Option State} {b : Option Mem} {f : State → Option State} {g : Mem → Option Mem} (h : ORel fr C a b)
    (hfg : ∀ S' C', Rel fr S' C' → ORel fr C' (f S') (g C')) : ORel fr C (a.bind f) (b.bind g) := by
  cases a with
  | none => cases b with
    | none => trivial
    | some C' => exact h.elim
  | some S' => cases b with
    | none => exact h.elim
    | some C' =>
      have := hfg S' C' h.1
      simp only [Option.bind_some]
      cases h1 : f S' with
      | none => cases h2 : g C' with
        | none => trivial
        | some D => rw [h1, h2] at this; exact this.elim
      | some T => cases h2 : g C' with
        | none => rw [h1, h2] at this; exact this.elim
        | some D => rw [h1, h2] at this; exact ⟨this.1, h.2.trans this.2⟩

theorem evalWrite_rel (h : Rel fr S C) {x : Ref} {e : Expr Ref} (hp : Good p (outerR x ++ outerE e)) :
    ORel fr C ((eval (readC S) e).map (writeC S x)) ((eval (readP fr p C) e).bind (writeP fr p C x)) := by
  rw [eval_eq h (hp.mono fun y hy => by simp [hy])]
  cases eval (readC S) e with
  | none => trivial
  | some v => exact write_rel h (hp.mono fun y hy => by simp [hy]) v

/-- What the statements need. -/
def needs (fs : List CFun) (s : Stmt Ref) : List Name := outerS s ++ (callees s).flatMap (globalVars fs)

theorem needs_left {fs : List CFun} {a b : Stmt Ref} {x : Name} (h : x ∈ needs fs a) : x ∈ needs fs (.seq a b) := by
  simp only [needs, outerS, callees, List.flatMap_append, List.mem_append] at h ⊢
  rcases h with h | h <;> simp [h]

theorem needs_right {fs : List CFun} {a b : Stmt Ref} {x : Name} (h : x ∈ needs fs b) : x ∈ needs fs (.seq a b) := by
  simp only [needs, outerS, callees, List.flatMap_append, List.mem_append] at h ⊢
  rcases h with h | h <;> simp [h]

theorem getCFun_mem {fs : List CFun} {f : Name} {d : CFun} (h : getCFun fs f = some d) : d ∈ fs ∧ d.name = f := by
  induction fs with
  | nil => cases h
  | cons e r ih =>
    simp only [getCFun] at h
    split at h
    · next he => cases h; exact ⟨by simp, he⟩
    · exact ⟨by simp [(ih h).1], (ih h).2⟩

/-- Every function has all the pointers that it needs. -/
theorem compiles_needs {fs : List CFun} (hc : compilesC fs = true) {f : Name} {d : CFun} (h : getCFun fs f = some d) :
    ∀ x ∈ needs fs d.body ++ outerE d.ret, x ∈ globalVars fs f := by
  obtain ⟨hm, rfl⟩ := getCFun_mem h
  have := List.all_eq_true.1 hc d hm
  simp only [Bool.and_eq_true, List.all_eq_true, beq_iff_eq, List.contains_iff_mem] at this
  obtain ⟨h1, h2⟩ := this
  intro x hx
  simp only [needs, List.mem_append, List.mem_flatMap] at hx
  rcases hx with (hx | ⟨g, hg, hx⟩) | hx
  · exact h1 x (by simp [hx])
  · obtain ⟨h3, h4⟩ := h2 g hg
    have : passed fs d.name g = globalVars fs g := by
      unfold passed at h3 ⊢
      split
      · next hr => rw [if_pos hr] at h3; exact (List.length_eq_zero_iff.1 h3.symm).symm
      · rfl
    rw [this] at h4
    exact h4 x hx
  · exact h1 x (by simp [hx])

theorem sim {fs : List CFun} (hc : compilesC fs = true) : ∀ (n : Nat) (s : Stmt Ref) {fr : Nat} {p : Ptrs} {S : State} {C : Mem},
    Rel fr S C → Good p (needs fs s) → ORel fr C (execC fs n s S) (execP fs n fr p s C)
  | 0, s, _, _, _, _, _, _ => by simp only [execC, execP]; trivial
  | n + 1, .skip, _, _, _, _, h, _ => by simp only [execC, execP]; exact ⟨h, Keeps.refl _ _⟩
  | n + 1, .seq a b, _, _, _, _, h, hp => by
    simp only [execC, execP]
    exact (sim hc n a h (hp.mono fun _ => needs_left)).bind fun S' C' h' => sim hc n b h' (hp.mono fun _ => needs_right)
  | n + 1, .assign x e, _, _, _, _, h, hp => by
    simp only [execC, execP]
    exact evalWrite_rel h (hp.mono fun y hy => by simp only [needs, outerS, List.mem_append] at *; exact Or.inl hy)
  | n + 1, .ann x e, _, _, _, _, h, hp => by
    simp only [execC, execP]
    exact evalWrite_rel h (hp.mono fun y hy => by simp only [needs, outerS, List.mem_append] at *; exact Or.inl hy)
  | n + 1, .print e, _, _, _, _, h, hp => by
    simp only [execC, execP]
    rw [eval_eq h (hp.mono fun y hy => by simp only [needs, outerS, List.mem_append]; exact Or.inl hy)]
    cases eval (readC _) e with
    | none => trivial
    | some v => exact ⟨⟨h.glob, h.loc, by simp [h.out], h.pos, h.lt⟩, Keeps.refl _ _⟩
  | n + 1, .ite c a b, fr, p, S, C, h, hp => by
    simp only [execC, execP]
    rw [eval_eq h (hp.mono fun y hy => by simp only [needs, outerS, List.mem_append]; exact Or.inl (Or.inl (Or.inl hy)))]
    cases eval (readC S) c with
    | none => trivial
    | some v =>
      simp only [Option.bind_some]
      split
      · refine sim hc n a h (hp.mono fun y hy => ?_)
        simp only [needs, outerS, callees, List.flatMap_append, List.mem_append] at hy ⊢
        rcases hy with hy | hy <;> simp [hy]
      · refine sim hc n b h (hp.mono fun y hy => ?_)
        simp only [needs, outerS, callees, List.flatMap_append, List.mem_append] at hy ⊢
        rcases hy with hy | hy <;> simp [hy]
  | n + 1, .while c b, fr, p, S, C, h, hp => by
    simp only [execC, execP]
    rw [eval_eq h (hp.mono fun y hy => by simp only [needs, outerS, List.mem_append]; exact Or.inl (Or.inl hy))]
    cases eval (readC S) c with
    | none => trivial
    | some v =>
      simp only [Option.bind_some]
      split
      · refine (sim hc n b h (hp.mono fun y hy => ?_)).bind fun S' C' h' => sim hc n (.while c b) h' hp
        simp only [needs, outerS, callees, List.mem_append] at hy ⊢
        rcases hy with hy | hy <;> simp [hy]
      · exact ⟨h, Keeps.refl _ _⟩
  | n + 1, .call x f as, fr, p, S, C, h, hp => by
    simp only [execC, execP]
    rw [evals_eq h (hp.mono fun y hy => by simp only [needs, outerS, List.mem_append]; exact Or.inl (Or.inr hy))]
    cases evals (readC S) as with
    | none => trivial
    | some vs =>
      simp only [Option.bind_some]
      cases hd : getCFun fs f with
      | none => trivial
      | some d =>
        simp only [Option.bind_some]
        cases bindParams d.params vs with
        | none => trivial
        | some m =>
          simp only [Option.bind_some]
          have hpos := h.pos
          have hlt := h.lt
          have hg : Good (pass (globalVars fs f) p) (globalVars fs f) := by
            intro y hy
            simp only [pass, List.contains_iff_mem, if_pos hy]
            exact hp y (by simp [needs, callees, hy])
          have hn := compiles_needs hc hd
          have hrel : Rel C.next { S with loc := m }
              { C with frames := fun j => if j = C.next then m else C.frames j, next := C.next + 1 } := by
            refine ⟨?_, by simp, h.out, by omega, by simp⟩
            simp only; rw [if_neg (by omega)]; exact h.glob
          have hs := sim hc n d.body hrel (hg.mono fun y hy => hn y (by simp [hy]))
          cases h1 : execC fs n d.body { S with loc := m } with
          | none =>
            rw [h1] at hs
            cases h2 : execP fs n C.next (pass (globalVars fs f) p) d.body
                { C with frames := fun j => if j = C.next then m else C.frames j, next := C.next + 1 } with
            | none => trivial
            | some D => rw [h2] at hs; exact hs.elim
          | some T =>
            rw [h1] at hs
            cases h2 : execP fs n C.next (pass (globalVars fs f) p) d.body
                { C with frames := fun j => if j = C.next then m else C.frames j, next := C.next + 1 } with
            | none => rw [h2] at hs; exact hs.elim
            | some D =>
              rw [h2] at hs
              obtain ⟨hr, hk⟩ := hs
              simp only [Option.bind_some]
              rw [eval_eq hr (hg.mono fun y hy => hn y (by simp [hy]))]
              cases eval (readC T) d.ret with
              | none => trivial
              | some v =>
                simp only [Option.map_some, Option.bind_some]
                have hback : Rel fr { T with loc := S.loc } D := by
                  refine ⟨hr.glob, ?_, hr.out, h.pos, ?_⟩
                  · rw [hk.2 fr h.pos (by simp only; omega) (by omega)]
                    simp only; rw [if_neg (by omega)]; exact h.loc
                  · have := hk.1; simp only at this; omega
                have hw := write_rel hback (p := p) (x := x)
                  (hp.mono fun y hy => by simp only [needs, outerS, List.mem_append]; exact Or.inl (Or.inl hy)) v
                have hkk : Keeps fr C D := by
                  refine ⟨by have := hk.1; simp only at this; omega, fun k k1 k2 k3 => ?_⟩
                  rw [hk.2 k k1 (by simp only; omega) (by omega)]
                  simp only; rw [if_neg (by omega)]
                cases h3 : writeP fr p D x v with
                | none => rw [h3] at hw; exact hw.elim
                | some E => rw [h3] at hw; exact ⟨hw.1, hkk.trans hw.2⟩

/-- The outer function: the C program prints what the Fortran program prints. -/
theorem run_eq (c : CProg) (hc : compilesC c.funcs = true) (fuel : Nat) : runP c fuel = runC c fuel := by
  unfold runP runC
  rw [if_pos hc]
  have := sim hc fuel (.seq c.mod c.main) (fr := 1) (p := fun x => some (0, x)) (S := ⟨fun _ => none, fun _ => none, []⟩)
    (C := ⟨fun _ _ => none, 2, []⟩) ⟨rfl, rfl, rfl, by decide, by simp⟩ (fun x _ => rfl)
  cases h1 : execC c.funcs fuel (.seq c.mod c.main) ⟨fun _ => none, fun _ => none, []⟩ with
  | none =>
    rw [h1] at this
    cases h2 : execP c.funcs fuel 1 (fun x => some (0, x)) (.seq c.mod c.main) ⟨fun _ _ => none, 2, []⟩ with
    | none => rfl
    | some D => rw [h2] at this; exact this.elim
  | some T =>
    rw [h1] at this
    cases h2 : execP c.funcs fuel 1 (fun x => some (0, x)) (.seq c.mod c.main) ⟨fun _ _ => none, 2, []⟩ with
    | none => rw [h2] at this; exact this.elim
    | some D => rw [h2] at this; simp [this.1.out]

/-! ## The C code compiles -/

theorem rStmt_callees {G : List Name} {res : Option Name} : ∀ {s : Stmt Name} {L : List Name} {s' : Stmt Ref} {L' : List Name},
    rStmt G res L s = some (s', L') → callees s' = callees s := by
  intro s
  induction s with
  | skip => intro L s' L' h; simp only [rStmt, Option.some.injEq, Prod.mk.injEq] at h; rw [← h.1]; rfl
  | seq a b iha ihb =>
    intro L s' L' h
    simp only [rStmt, Option.bind_eq_some_iff, Option.map_eq_some_iff, Prod.exists, Prod.mk.injEq] at h
    obtain ⟨a', L1, h1, b', L2, h2, rfl, _⟩ := h
    simp [callees, iha h1, ihb h2]
  | assign x e =>
    intro L s' L' h
    simp only [rStmt, Option.map_eq_some_iff, Prod.mk.injEq] at h
    obtain ⟨e', _, rfl, _⟩ := h; rfl
  | ann x e =>
    intro L s' L' h
    simp only [rStmt] at h
    split at h
    · cases h
    · simp only [Option.map_eq_some_iff, Prod.mk.injEq] at h
      obtain ⟨e', _, rfl, _⟩ := h; rfl
  | call x f as =>
    intro L s' L' h
    simp only [rStmt, Option.map_eq_some_iff, Prod.mk.injEq] at h
    obtain ⟨e', _, rfl, _⟩ := h; rfl
  | print e =>
    intro L s' L' h
    simp only [rStmt, Option.map_eq_some_iff, Prod.mk.injEq] at h
    obtain ⟨e', _, rfl, _⟩ := h; rfl
  | ite c a b iha ihb =>
    intro L s' L' h
    simp only [rStmt, Option.bind_eq_some_iff, Option.map_eq_some_iff, Prod.exists, Prod.mk.injEq] at h
    obtain ⟨c', _, a', L1, h1, b', L2, h2, rfl, _⟩ := h
    simp [callees, iha h1, ihb h2]
  | «while» c b ihb =>
    intro L s' L' h
    simp only [rStmt, Option.bind_eq_some_iff, Option.map_eq_some_iff, Prod.exists, Prod.mk.injEq] at h
    obtain ⟨c', _, b', L2, h2, rfl, _⟩ := h
    simp [callees, ihb h2]

theorem rFuns_sound {vis : Visited} {G : List Name} : ∀ {fs : List Fun} {cs : List CFun}, rFuns vis G fs = some cs →
    cs.length = fs.length ∧ ∀ c ∈ cs, ∃ f ∈ fs, c.name = f.name ∧ callees c.body = callees f.body
  | [], cs, h => by simp only [rFuns, Option.some.injEq] at h; subst h; simp
  | f :: r, cs, h => by
    simp only [rFuns, Option.bind_eq_some_iff, Option.map_eq_some_iff] at h
    obtain ⟨f', h1, r', h2, rfl⟩ := h
    obtain ⟨h3, h4⟩ := rFuns_sound h2
    refine ⟨by simp [h3], ?_⟩
    intro c hc
    rcases List.mem_cons.1 hc with rfl | hc
    · simp only [rFun, Option.bind_eq_some_iff, Option.map_eq_some_iff, Prod.exists] at h1
      obtain ⟨b, L, h5, e, _, rfl⟩ := h1
      exact ⟨f, by simp, rfl, rStmt_callees h5⟩
    · obtain ⟨g, hg, h6⟩ := h4 c hc
      exact ⟨g, by simp [hg], h6⟩

theorem rFuns_names {vis : Visited} {G : List Name} : ∀ {fs : List Fun} {cs : List CFun}, rFuns vis G fs = some cs →
    cs.map (·.name) = fs.map (·.name)
  | [], cs, h => by simp only [rFuns, Option.some.injEq] at h; subst h; simp
  | f :: r, cs, h => by
    simp only [rFuns, Option.bind_eq_some_iff, Option.map_eq_some_iff] at h
    obtain ⟨f', h1, r', h2, rfl⟩ := h
    simp only [List.map_cons, rFuns_names h2, List.cons.injEq, and_true]
    simp only [rFun, Option.bind_eq_some_iff, Option.map_eq_some_iff, Prod.exists] at h1
    obtain ⟨b, L, h5, e, _, rfl⟩ := h1
    rfl

/-- A rank for the generated functions. -/
structure Ranked (fs : List CFun) (rank : Name → Nat) : Prop where
  lt : ∀ d ∈ fs, rank d.name < fs.length
  down : ∀ d ∈ fs, ∀ g ∈ callees d.body, (∃ e ∈ fs, e.name = g) → rank g < rank d.name

theorem getCFun_some {fs : List CFun} {e : CFun} (h : e ∈ fs) : ∃ d, getCFun fs e.name = some d := by
  induction fs with
  | nil => cases h
  | cons a r ih =>
    simp only [getCFun]
    split
    · exact ⟨_, rfl⟩
    · next hn =>
      rcases List.mem_cons.1 h with rfl | h
      · exact absurd rfl hn
      · exact ih h

/-- More steps than the rank find nothing more. -/
theorem extras_stable {fs : List CFun} {rank : Name → Nat} (hr : Ranked fs rank) (n m : Nat) (f : Name) (hn : rank f < n) (hm : rank f < m) :
    extras fs n f = extras fs m f := by
  induction n generalizing m f with
  | zero => omega
  | succ n ih =>
    cases m with
    | zero => omega
    | succ m =>
      simp only [extras]
      cases hd : getCFun fs f with
      | none => rfl
      | some d =>
        obtain ⟨hm', rfl⟩ := getCFun_mem hd
        simp only
        congr 1
        have key : ∀ l : List Name, (∀ g ∈ l, extras fs n g = extras fs m g) → l.flatMap (extras fs n) = l.flatMap (extras fs m) := by
          intro l
          induction l with
          | nil => intro _; rfl
          | cons g l ihl =>
            intro hl
            simp only [List.flatMap_cons]
            rw [hl g (by simp), ihl fun g hg => hl g (by simp [hg])]
        refine key _ fun g hg => ?_
        by_cases hex : ∃ e ∈ fs, e.name = g
        · have := hr.down d hm' g hg hex
          exact ih m g (by omega) (by omega)
        · have hnone : getCFun fs g = none := by
            cases hg' : getCFun fs g with
            | none => rfl
            | some e => exact absurd ⟨e, getCFun_mem hg'⟩ hex
          cases n <;> cases m <;> simp [extras, hnone]

theorem reaches_rank {fs : List CFun} {rank : Name → Nat} (hr : Ranked fs rank) (n : Nat) (f g : Name) (hex : ∃ e ∈ fs, e.name = g)
    (h : reaches fs n f g = true) : rank g < rank f := by
  induction n generalizing f with
  | zero => cases h
  | succ n ih =>
    simp only [reaches] at h
    cases hd : getCFun fs f with
    | none => rw [hd] at h; cases h
    | some d =>
      rw [hd] at h
      obtain ⟨hm, rfl⟩ := getCFun_mem hd
      simp only [Bool.or_eq_true, List.any_eq_true, List.contains_iff_mem] at h
      rcases h with h | ⟨k, hk, h⟩
      · exact hr.down d hm g h hex
      · have h1 := ih k h
        by_cases hk' : ∃ e ∈ fs, e.name = k
        · have := hr.down d hm k hk hk'; omega
        · exfalso
          cases n with
          | zero => cases h
          | succ n =>
            simp only [reaches] at h
            cases hkn : getCFun fs k with
            | none => rw [hkn] at h; cases h
            | some e => exact hk' ⟨e, getCFun_mem hkn⟩

theorem ranked_compiles {fs : List CFun} {rank : Name → Nat} (hr : Ranked fs rank) (hu : ∀ d ∈ fs, getCFun fs d.name = some d) :
    compilesC fs = true := by
  refine List.all_eq_true.2 fun d hd => ?_
  have hlen : fs.length = (fs.length - 1) + 1 := by
    cases fs with
    | nil => cases hd
    | cons => simp
  have hgv : globalVars fs d.name = outerS d.body ++ outerE d.ret ++ (callees d.body).flatMap (extras fs (fs.length - 1)) := by
    unfold globalVars; rw [hlen]; simp only [extras, hu d hd]; rfl
  simp only [Bool.and_eq_true, List.all_eq_true, beq_iff_eq, List.contains_iff_mem]
  refine ⟨fun x hx => by rw [hgv]; exact List.mem_append_left _ hx, fun g hg => ?_⟩
  have hp : passed fs d.name g = globalVars fs g ∨ ¬ ∃ e ∈ fs, e.name = g := by
    by_cases hex : ∃ e ∈ fs, e.name = g
    · left
      unfold passed
      rw [if_neg]
      intro h
      have h1 := reaches_rank hr _ _ _ ⟨d, hd, rfl⟩ h
      have h2 := hr.down d hd g hg hex
      omega
    · exact Or.inr hex
  by_cases hex : ∃ e ∈ fs, e.name = g
  · rcases hp with hp | hp
    · rw [hp]
      refine ⟨rfl, fun x hx => ?_⟩
      rw [hgv]
      refine List.mem_append_right _ (List.mem_flatMap.2 ⟨g, hg, ?_⟩)
      have h2 := hr.down d hd g hg hex
      have h3 := hr.lt d hd
      rw [extras_stable hr _ fs.length g (by omega) (by omega)]
      exact hx
    · exact absurd hex hp
  · have hnone : getCFun fs g = none := by
      cases hg' : getCFun fs g with
      | none => rfl
      | some e => exact absurd ⟨e, getCFun_mem hg'⟩ hex
    have h0 : globalVars fs g = [] := by
      unfold globalVars; rw [hlen]; simp [extras, hnone]
    have h1 : passed fs d.name g = [] := by unfold passed; rw [h0]; split <;> rfl
    rw [h0, h1]
    simp

theorem getCFun_unique {fs : List CFun} (h : (fs.map (·.name)).Nodup) : ∀ d ∈ fs, getCFun fs d.name = some d := by
  induction fs with
  | nil => intro d hd; cases hd
  | cons a r ih =>
    intro d hd
    simp only [List.map_cons, List.nodup_cons] at h
    rcases List.mem_cons.1 hd with rfl | hd
    · simp [getCFun]
    · simp only [getCFun]
      rw [if_neg]
      · exact ih h.2 d hd
      · intro he; exact h.1 (by rw [he]; exact List.mem_map.2 ⟨d, hd, rfl⟩)

end Verif.Nested.Lemmas
