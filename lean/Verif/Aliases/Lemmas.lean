import Verif.Aliases.Model

/-!
# Arrays shared by several variables: the relation between Python and the generated program
-/

namespace Verif.Aliases.Lemmas
open Spec Model

abbrev Rel := Var → Var → Prop

/-- `K`: what the variables are, `n0`: the size of the caller's memory, `e0`: the arguments, `R`: the targets
that pointers may have. -/
structure Sim (K : Var → Option Kind) (n0 : Nat) (e0 : Var → Option Ref) (R : Rel) (s : Py) (c : Mach) :
    Prop where
  out : c.out = s.out
  bound : ∀ v r, s.env v = some r → K v ≠ none ∧ ∃ b vals, c.env v = some ⟨b, r.pos⟩ ∧
    s.objs[r.buf]? = some vals ∧ c.bufs[b]? = some (some vals)
  share : ∀ v w rv rw bv bw, s.env v = some rv → s.env w = some rw → c.env v = some bv → c.env w = some bw →
    (rv.buf = rw.buf ↔ bv.buf = bw.buf)
  unbound : ∀ v, K v ≠ some .alias → s.env v = none → c.env v = none
  point : ∀ p r b, s.env p = some r → c.env p = some b → K p = some .alias →
    ∃ t rt bt, R p t ∧ K t ≠ some .alias ∧ s.env t = some rt ∧ c.env t = some bt ∧ bt.buf = b.buf
  sep : ∀ x w bx bw, K x = some .heap → K w ≠ some .alias → x ≠ w → c.env x = some bx → c.env w = some bw →
    bx.buf ≠ bw.buf
  whole : ∀ x b vals, K x = some .heap → c.env x = some b → c.bufs[b.buf]? = some (some vals) →
    b.pos = List.range vals.length
  old : ∀ b, b < n0 → ∃ vals, s.objs[b]? = some vals ∧ c.bufs[b]? = some (some vals)
  ident : ∀ v r b, s.env v = some r → c.env v = some b → (r.buf < n0 ∨ b.buf < n0) → r.buf = b.buf
  new : ∀ x b, K x = some .heap → c.env x = some b → n0 ≤ b.buf
  args : ∀ a, K a = some .arg → s.env a = e0 a ∧ c.env a = e0 a
  owned : ∀ b vals, n0 ≤ b → c.bufs[b]? = some (some vals) →
    ∃ x bx, K x = some .heap ∧ c.env x = some bx ∧ bx.buf = b

variable {K : Var → Option Kind} {n0 : Nat} {e0 : Var → Option Ref} {R R' : Rel} {s : Py} {c : Mach}

theorem setEnv_self {α : Type} (e : Var → α) (x : Var) (a : α) : setEnv e x a x = a := if_pos rfl
theorem setEnv_ne {α : Type} {e : Var → α} {x y : Var} {a : α} (h : y ≠ x) : setEnv e x a y = e y := if_neg h

theorem Sim.mono (h : Sim K n0 e0 R s c) (hr : ∀ p t, R p t → R' p t) : Sim K n0 e0 R' s c :=
  { h with
    point := fun p r b h1 h2 h3 => by
      obtain ⟨t, rt, bt, h4, h5⟩ := h.point p r b h1 h2 h3
      exact ⟨t, rt, bt, hr _ _ h4, h5⟩ }

/-- The reference in the generated program. -/
theorem Sim.cenv (h : Sim K n0 e0 R s c) {v : Var} {r : Ref} {b : Ref} (hv : s.env v = some r)
    (hb : c.env v = some b) : b.pos = r.pos ∧ ∃ vals, s.objs[r.buf]? = some vals ∧ c.bufs[b.buf]? = some (some vals) := by
  obtain ⟨_, b', vals, h1, h2, h3⟩ := h.bound v r hv
  rw [hb] at h1
  cases h1
  exact ⟨rfl, vals, h2, h3⟩

theorem Sim.read (h : Sim K n0 e0 R s c) {v : Var} {a : Vals} (hv : s.read v = some a) : c.read v = some a := by
  unfold Py.read at hv
  cases hr : s.env v with
  | none => simp [hr] at hv
  | some r =>
    obtain ⟨_, b, vals, h1, h2, h3⟩ := h.bound v r hr
    simp [hr, h2] at hv
    simp [Mach.read, h1, h3, hv]

theorem mapM_imp {α β : Type} {f g : α → Option β} (h : ∀ x b, f x = some b → g x = some b) :
    ∀ (xs : List α) (bs : List β), xs.mapM f = some bs → xs.mapM g = some bs
  | [], bs, e => by simpa using e
  | x :: xs, bs, e => by
    simp only [List.mapM_cons] at e ⊢
    cases hf : f x with
    | none => simp [hf] at e
    | some b =>
      cases hm : xs.mapM f with
      | none => simp [hf, hm] at e
      | some bs' =>
        simp [hf, hm] at e
        subst e
        simp [h x b hf, mapM_imp h xs bs' hm]

theorem Sim.reads (h : Sim K n0 e0 R s c) {ys : List Var} {vs : List Vals} (e : ys.mapM s.read = some vs) :
    ys.mapM c.read = some vs := mapM_imp (fun _ _ => h.read) _ _ e

/-- No other variable has the memory of `x`. -/
theorem Sim.lone (h : Sim K n0 e0 R s c) {x w : Var} {bx bw rw : Ref} (hx : K x = some .heap)
    (hn : ∀ p, ¬ R p x) (hw : w ≠ x) (ex : c.env x = some bx) (sw : s.env w = some rw)
    (ew : c.env w = some bw) : bw.buf ≠ bx.buf := by
  by_cases ha : K w = some .alias
  · obtain ⟨t, rt, bt, h1, h2, _, h4, h5⟩ := h.point w rw bw sw ew ha
    have htx : x ≠ t := by rintro rfl; exact hn _ h1
    rw [← h5]
    exact (h.sep x t bx bt hx h2 htx ex h4).symm
  · exact (h.sep x w bx bw hx ha hw.symm ex ew).symm

theorem set_get {α : Type} {l : List α} {i j : Nat} {a : α} (h : i ≠ j) : (l.set i a)[j]? = l[j]? := by
  rw [List.getElem?_set, if_neg h]

theorem set_get_self {α : Type} {l : List α} {i : Nat} {a b : α} (h : l[i]? = some b) :
    (l.set i a)[i]? = some a := by
  have : i < l.length := by
    rw [List.getElem?_eq_some_iff] at h; exact h.1
  rw [List.getElem?_set, if_pos rfl, if_pos this]

theorem get_append {α : Type} {l : List α} {i : Nat} {a b : α} (h : l[i]? = some b) :
    (l ++ [a])[i]? = some b := by
  have : i < l.length := by
    rw [List.getElem?_eq_some_iff] at h; exact h.1
  rw [List.getElem?_append_left this, h]

theorem lt_of_get {α : Type} {l : List α} {i : Nat} {b : α} (h : l[i]? = some b) : i < l.length := by
  rw [List.getElem?_eq_some_iff] at h; exact h.1

/-- The memory of a variable is freed. -/
theorem Sim.free (h : Sim K n0 e0 R s c) {x : Var} (hx : K x = some .heap) (hn : ∀ p, ¬ R p x) :
    ∃ c', c.free x = some c' ∧ Sim K n0 e0 R { s with env := setEnv s.env x none } c' := by
  cases ex : c.env x with
  | none =>
    refine ⟨c, by simp [Mach.free, ex], ?_⟩
    have hs : s.env x = none := by
      cases e : s.env x with
      | none => rfl
      | some r =>
        obtain ⟨_, b, vals, h1, _⟩ := h.bound x r e
        rw [ex] at h1; cases h1
    have : setEnv s.env x none = s.env := by
      funext v
      by_cases hv : v = x
      · rw [hv, setEnv_self, hs]
      · exact setEnv_ne hv
    rw [this]; exact h
  | some b =>
    have hsx : ∃ r, s.env x = some r := by
      cases e : s.env x with
      | none => rw [h.unbound x (by rw [hx]; simp) e] at ex; cases ex
      | some r => exact ⟨r, rfl⟩
    obtain ⟨r, hr⟩ := hsx
    obtain ⟨hp, vals, h1, h2⟩ := h.cenv hr ex
    refine ⟨⟨c.bufs.set b.buf none, setEnv c.env x none, c.out⟩, by simp [Mach.free, ex, h2], ?_⟩
    have se : ∀ {v r}, setEnv s.env x none v = some r → v ≠ x ∧ s.env v = some r := by
      intro v r hv
      by_cases e : v = x
      · rw [e, setEnv_self] at hv; cases hv
      · rw [setEnv_ne e] at hv; exact ⟨e, hv⟩
    have ce : ∀ {v r}, setEnv c.env x none v = some r → v ≠ x ∧ c.env v = some r := by
      intro v r hv
      by_cases e : v = x
      · rw [e, setEnv_self] at hv; cases hv
      · rw [setEnv_ne e] at hv; exact ⟨e, hv⟩
    exact
      { out := h.out
        bound := fun v rv hv => by
          obtain ⟨hne, hv⟩ := se hv
          obtain ⟨hk, bv, vv, e1, e2, e3⟩ := h.bound v rv hv
          have := h.lone hx hn hne ex hv e1
          exact ⟨hk, bv, vv, by rw [← e1]; exact setEnv_ne hne, e2, by
            show (c.bufs.set b.buf none)[bv]? = _
            rw [set_get (Ne.symm this), e3]⟩
        share := fun v w rv rw bv bw e1 e2 e3 e4 =>
          h.share v w rv rw bv bw (se e1).2 (se e2).2 (ce e3).2 (ce e4).2
        unbound := fun v hv e => by
          show setEnv c.env x none v = none
          by_cases hvx : v = x
          · rw [hvx, setEnv_self]
          · rw [setEnv_ne hvx]
            exact h.unbound v hv (by rw [← e]; exact (setEnv_ne hvx).symm)
        point := fun p rp bp e1 e2 hk => by
          obtain ⟨t, rt, bt, h1, h2, h3, h4, h5⟩ := h.point p rp bp (se e1).2 (ce e2).2 hk
          have htx : t ≠ x := by rintro rfl; exact hn _ h1
          exact ⟨t, rt, bt, h1, h2, by rw [← h3]; exact setEnv_ne htx, by rw [← h4]; exact setEnv_ne htx, h5⟩
        sep := fun y w by' bw hy hw hyw e1 e2 => h.sep y w by' bw hy hw hyw (ce e1).2 (ce e2).2
        whole := fun y by' vy hy e1 e2 => by
          have e1' := (ce e1).2
          have hb : b.buf ≠ by'.buf := h.sep x y b by' hx (by rw [hy]; simp) (ce e1).1.symm ex e1'
          have e2' : c.bufs[by'.buf]? = some (some vy) := by
            rw [← set_get (a := none) hb]; exact e2
          exact h.whole y by' vy hy e1' e2'
        old := fun i hi => by
          obtain ⟨vi, e1, e2⟩ := h.old i hi
          have := h.new x b hx ex
          exact ⟨vi, e1, by show (c.bufs.set b.buf none)[i]? = _; rw [set_get (by omega), e2]⟩
        ident := fun v rv bv e1 e2 => h.ident v rv bv (se e1).2 (ce e2).2
        new := fun y by' hy e1 => h.new y by' hy (ce e1).2
        args := fun a ha => by
          have hne : a ≠ x := by rintro rfl; rw [hx] at ha; cases ha
          have := h.args a ha
          exact ⟨by rw [← this.1]; exact setEnv_ne hne, by rw [← this.2]; exact setEnv_ne hne⟩
        owned := fun i vi hi e => by
          have hb : b.buf ≠ i := by
            intro hb
            have e' : (c.bufs.set b.buf none)[i]? = some (some vi) := e
            rw [← hb, set_get_self h2] at e'
            cases e'
          obtain ⟨y, by', g1, g2, g3⟩ := h.owned i vi hi (by rw [← e]; exact (set_get hb).symm)
          have hyx : y ≠ x := by
            rintro rfl
            rw [ex] at g2
            cases g2
            exact hb g3
          exact ⟨y, by', g1, by rw [← g2]; exact setEnv_ne hyx, g3⟩ }

/-- New memory for a variable that has none. -/
theorem Sim.alloc (h : Sim K n0 e0 R s c) {x : Var} (hx : K x = some .heap) (hs : s.env x = none)
    (v : Vals) : Sim K n0 e0 R
      { s with objs := s.objs ++ [v], env := setEnv s.env x (some ⟨s.objs.length, List.range v.length⟩) }
      (c.alloc x v) := by
  have hc : c.env x = none := h.unbound x (by rw [hx]; simp) hs
  have se : ∀ {w r}, setEnv s.env x (some ⟨s.objs.length, List.range v.length⟩) w = some r →
      (w = x ∧ r = ⟨s.objs.length, List.range v.length⟩) ∨ (w ≠ x ∧ s.env w = some r) := by
    intro w r hw
    by_cases e : w = x
    · rw [e, setEnv_self] at hw; cases hw; exact Or.inl ⟨e, rfl⟩
    · rw [setEnv_ne e] at hw; exact Or.inr ⟨e, hw⟩
  have ce : ∀ {w r}, setEnv c.env x (some ⟨c.bufs.length, List.range v.length⟩) w = some r →
      (w = x ∧ r = ⟨c.bufs.length, List.range v.length⟩) ∨ (w ≠ x ∧ c.env w = some r) := by
    intro w r hw
    by_cases e : w = x
    · rw [e, setEnv_self] at hw; cases hw; exact Or.inl ⟨e, rfl⟩
    · rw [setEnv_ne e] at hw; exact Or.inr ⟨e, hw⟩
  have lts : ∀ {w r}, s.env w = some r → r.buf < s.objs.length := by
    intro w r hw
    obtain ⟨_, b, vals, _, h2, _⟩ := h.bound w r hw
    exact lt_of_get h2
  have ltc : ∀ {w r b}, s.env w = some r → c.env w = some b → b.buf < c.bufs.length := by
    intro w r b hw hb
    obtain ⟨_, vals, _, h2⟩ := h.cenv hw hb
    exact lt_of_get h2
  have ltc' : ∀ {w b}, K w ≠ some .alias → c.env w = some b → b.buf < c.bufs.length := by
    intro w b hk hb
    cases e : s.env w with
    | none => rw [h.unbound w hk e] at hb; cases hb
    | some r => exact ltc e hb
  have hn0 : n0 ≤ c.bufs.length := by
    cases n0 with
    | zero => exact Nat.zero_le _
    | succ n =>
      obtain ⟨_, _, h2⟩ := h.old n (Nat.lt_succ_self n)
      exact lt_of_get h2
  have hn1 : n0 ≤ s.objs.length := by
    cases n0 with
    | zero => exact Nat.zero_le _
    | succ n =>
      obtain ⟨_, h2, _⟩ := h.old n (Nat.lt_succ_self n)
      exact lt_of_get h2
  unfold Mach.alloc
  exact
    { out := h.out
      bound := fun w r hw => by
        rcases se hw with ⟨rfl, rfl⟩ | ⟨hne, hw⟩
        · exact ⟨by rw [hx]; simp, c.bufs.length, v, setEnv_self _ _ _, by simp, by simp⟩
        · obtain ⟨hk, b, vals, h1, h2, h3⟩ := h.bound w r hw
          exact ⟨hk, b, vals, by rw [← h1]; exact setEnv_ne hne, get_append h2, get_append h3⟩
      share := fun w u rw ru bw bu e1 e2 e3 e4 => by
        rcases se e1 with ⟨rfl, rfl⟩ | ⟨hw, f1⟩ <;> rcases se e2 with ⟨rfl, rfl⟩ | ⟨hu, f2⟩
        · rcases ce e3 with ⟨_, rfl⟩ | ⟨h1, _⟩
          · rcases ce e4 with ⟨_, rfl⟩ | ⟨h1, _⟩
            · simp
            · exact (h1 rfl).elim
          · exact (h1 rfl).elim
        · rcases ce e3 with ⟨_, rfl⟩ | ⟨h1, _⟩
          · rcases ce e4 with ⟨h1, _⟩ | ⟨_, e4⟩
            · exact (hu h1).elim
            · have h1 := lts f2
              have h2 := ltc f2 e4
              simp only
              omega
          · exact (h1 rfl).elim
        · rcases ce e4 with ⟨_, rfl⟩ | ⟨h1, _⟩
          · rcases ce e3 with ⟨h1, _⟩ | ⟨_, e3⟩
            · exact (hw h1).elim
            · have h1 := lts f1
              have h2 := ltc f1 e3
              simp only
              omega
          · exact (h1 rfl).elim
        · rcases ce e3 with ⟨h1, _⟩ | ⟨_, e3⟩
          · exact (hw h1).elim
          rcases ce e4 with ⟨h1, _⟩ | ⟨_, e4⟩
          · exact (hu h1).elim
          exact h.share w u rw ru bw bu f1 f2 e3 e4
      unbound := fun w hw e => by
        show setEnv c.env x _ w = none
        by_cases hwx : w = x
        · simp only [hwx, setEnv_self] at e; cases e
        · rw [setEnv_ne hwx]
          exact h.unbound w hw (by rw [← e]; exact (setEnv_ne hwx).symm)
      point := fun p rp bp e1 e2 hk => by
        have hpx : p ≠ x := by rintro rfl; rw [hx] at hk; cases hk
        rcases se e1 with ⟨h1, _⟩ | ⟨_, e1⟩
        · exact (hpx h1).elim
        rcases ce e2 with ⟨h1, _⟩ | ⟨_, e2⟩
        · exact (hpx h1).elim
        obtain ⟨t, rt, bt, h1, h2, h3, h4, h5⟩ := h.point p rp bp e1 e2 hk
        have htx : t ≠ x := by rintro rfl; rw [hs] at h3; cases h3
        exact ⟨t, rt, bt, h1, h2, by rw [← h3]; exact setEnv_ne htx, by rw [← h4]; exact setEnv_ne htx, h5⟩
      sep := fun y w by' bw hy hw hyw e1 e2 => by
        rcases ce e1 with ⟨rfl, rfl⟩ | ⟨_, f1⟩
        · rcases ce e2 with ⟨h1, _⟩ | ⟨_, f2⟩
          · exact (hyw h1.symm).elim
          · have := ltc' hw f2
            exact fun h => by simp only at h; omega
        · rcases ce e2 with ⟨rfl, rfl⟩ | ⟨_, f2⟩
          · have := ltc' (by rw [hy]; simp) f1
            exact fun h => by simp only at h; omega
          · exact h.sep y w by' bw hy hw hyw f1 f2
      whole := fun y by' vy hy e1 e2 => by
        rcases ce e1 with ⟨rfl, rfl⟩ | ⟨_, e1⟩
        · simp at e2
          rw [e2]
        · have hlt := ltc' (by rw [hy]; simp) e1
          have e2' : c.bufs[by'.buf]? = some (some vy) := by
            rw [← e2]; exact (List.getElem?_append_left hlt).symm
          exact h.whole y by' vy hy e1 e2'
      old := fun i hi => by
        obtain ⟨vi, e1, e2⟩ := h.old i hi
        exact ⟨vi, get_append e1, get_append e2⟩
      ident := fun w rw bw e1 e2 hl => by
        rcases se e1 with ⟨rfl, rfl⟩ | ⟨hne, e1⟩
        · rcases ce e2 with ⟨_, rfl⟩ | ⟨h1, _⟩
          · simp only at hl; omega
          · exact (h1 rfl).elim
        · rcases ce e2 with ⟨h1, _⟩ | ⟨_, e2⟩
          · exact (hne h1).elim
          · exact h.ident w rw bw e1 e2 hl
      new := fun y by' hy e1 => by
        rcases ce e1 with ⟨rfl, rfl⟩ | ⟨_, e1⟩
        · exact hn0
        · exact h.new y by' hy e1
      args := fun a ha => by
        have hne : a ≠ x := by rintro rfl; rw [hx] at ha; cases ha
        have := h.args a ha
        exact ⟨by rw [← this.1]; exact setEnv_ne hne, by rw [← this.2]; exact setEnv_ne hne⟩
      owned := fun i vi hi e => by
        by_cases hlt : i < c.bufs.length
        · obtain ⟨y, by', g1, g2, g3⟩ := h.owned i vi hi (by
            rw [← e]; exact (List.getElem?_append_left hlt).symm)
          have hyx : y ≠ x := by rintro rfl; rw [hc] at g2; cases g2
          exact ⟨y, by', g1, by rw [← g2]; exact setEnv_ne hyx, g3⟩
        · have := lt_of_get e
          simp only [List.length_append, List.length_cons, List.length_nil] at this
          exact ⟨x, _, hx, setEnv_self _ _ _, by simp only; omega⟩ }

/-- Other contents. -/
theorem Sim.store (h : Sim K n0 e0 R s c) {x : Var} {r : Ref} {u w v : Vals} (hr : s.env x = some r)
    (hu : s.objs[r.buf]? = some u) (hw : scatter u r.pos v = some w) (hl : w.length = u.length) :
    ∃ c', c.store x v = some c' ∧ Sim K n0 e0 R { s with objs := s.objs.set r.buf w } c' := by
  obtain ⟨_, b, vals, h1, h2, h3⟩ := h.bound x r hr
  rw [hu] at h2
  cases h2
  refine ⟨⟨c.bufs.set b (some w), c.env, c.out⟩, by simp [Mach.store, h1, h3, hw], ?_⟩
  exact
    { h with
      bound := fun y ry hy => by
        obtain ⟨hk, by', vy, e1, e2, e3⟩ := h.bound y ry hy
        by_cases e : ry.buf = r.buf
        · have hb : by' = b := (h.share y x ry r _ _ hy hr e1 h1).1 e
          subst hb
          exact ⟨hk, by', w, e1, by rw [e]; exact set_get_self hu, set_get_self e3⟩
        · have hb : by' ≠ b := fun hb => e ((h.share y x ry r _ _ hy hr e1 h1).2 hb)
          exact ⟨hk, by', vy, e1, by rw [set_get (Ne.symm e), e2], by
            show (c.bufs.set b (some w))[by']? = _
            rw [set_get (Ne.symm hb), e3]⟩
      whole := fun y by' vy hy e1 e2 => by
        by_cases e : by'.buf = b
        · have e2' : (c.bufs.set b (some w))[by'.buf]? = some (some vy) := e2
          rw [e, set_get_self h3] at e2'
          cases e2'
          rw [hl]
          exact h.whole y by' u hy e1 (by rw [e]; exact h3)
        · refine h.whole y by' vy hy e1 ?_
          rw [← e2]
          exact (set_get (Ne.symm e)).symm
      old := fun i hi => by
        obtain ⟨vi, e1, e2⟩ := h.old i hi
        by_cases e : i = b
        · have := h.ident x r ⟨b, r.pos⟩ hr h1 (Or.inr (by rw [← e]; exact hi))
          have hri : r.buf = i := by rw [e]; exact this
          exact ⟨w, by rw [← hri]; exact set_get_self hu, by rw [e]; exact set_get_self h3⟩
        · have hne : r.buf ≠ i := by
            intro hh
            have := h.ident x r ⟨b, r.pos⟩ hr h1 (Or.inl (by rw [hh]; exact hi))
            simp only at this
            exact e (by omega)
          exact ⟨vi, by rw [← e1]; exact set_get hne, by
            show (c.bufs.set b (some w))[i]? = _
            rw [set_get (Ne.symm e), e2]⟩
      owned := fun i vi hi e => by
        by_cases hb : b = i
        · exact h.owned i u hi (by rw [← hb]; exact h3)
        · exact h.owned i vi hi (by rw [← e]; exact (set_get hb).symm) }

theorem scatter_length : ∀ (u : Vals) (pos : List Nat) (v w : Vals), scatter u pos v = some w → w.length = u.length
  | u, [], [], w, e => by simp [scatter] at e; rw [e]
  | u, [], _ :: _, w, e => by simp [scatter] at e
  | u, _ :: _, [], w, e => by simp [scatter] at e
  | u, i :: is, a :: as, w, e => by
    simp only [scatter] at e
    split at e
    · rw [scatter_length _ is as w e]; simp
    · cases e

theorem scatter_from : ∀ (v p q : Vals), p.length + q.length = (p ++ v).length →
    scatter (p ++ v) (List.range' p.length v.length) q = some (p ++ q)
  | [], p, q, h => by
    have : q = [] := by
      apply List.eq_nil_of_length_eq_zero
      simpa using h
    subst this
    simp [scatter]
  | a :: v, p, q, h => by
    cases q with
    | nil => simp at h
    | cons b q =>
      have ih := scatter_from v (p ++ [b]) q (by simp at h ⊢; omega)
      simp only [List.length_cons, List.range'_succ, scatter]
      rw [if_pos (by simp)]
      have e1 : (p ++ a :: v).set p.length b = p ++ [b] ++ v := by
        simp [List.set_append]
      rw [e1]
      simp only [List.length_append, List.length_cons, List.length_nil, Nat.zero_add] at ih
      rw [ih]
      simp

theorem scatter_range {u v : Vals} (h : u.length = v.length) : scatter u (List.range u.length) v = some v := by
  have := scatter_from u [] v (by simpa using h.symm)
  simpa [List.range_eq_range'] using this

/-- A new array in the old memory. -/
theorem Sim.reuse (h : Sim K n0 e0 R s c) {x : Var} {r : Ref} {v : Vals} (hx : K x = some .heap)
    (hn : ∀ p, ¬ R p x) (hr : s.env x = some r) (hl : r.pos.length = v.length) :
    ∃ c', c.store x v = some c' ∧ Sim K n0 e0 R
      { s with objs := s.objs ++ [v], env := setEnv s.env x (some ⟨s.objs.length, List.range v.length⟩) }
      c' := by
  obtain ⟨_, b, u, h1, h2, h3⟩ := h.bound x r hr
  have hwh := h.whole x _ u hx h1 h3
  simp only at hwh
  have hul : u.length = v.length := by rw [← hl, hwh]; simp
  refine ⟨⟨c.bufs.set b (some v), c.env, c.out⟩, by
    simp only [Mach.store, h1, h3, hwh, Option.bind_eq_bind, Option.bind_some, scatter_range hul]; rfl, ?_⟩
  have se : ∀ {w r}, setEnv s.env x (some ⟨s.objs.length, List.range v.length⟩) w = some r →
      (w = x ∧ r = ⟨s.objs.length, List.range v.length⟩) ∨ (w ≠ x ∧ s.env w = some r) := by
    intro w r hw
    by_cases e : w = x
    · rw [e, setEnv_self] at hw; cases hw; exact Or.inl ⟨e, rfl⟩
    · rw [setEnv_ne e] at hw; exact Or.inr ⟨e, hw⟩
  have lts : ∀ {w r}, s.env w = some r → r.buf < s.objs.length := by
    intro w r hw
    obtain ⟨_, b, vals, _, h2, _⟩ := h.bound w r hw
    exact lt_of_get h2
  have hn1 : n0 ≤ s.objs.length := by
    cases n0 with
    | zero => exact Nat.zero_le _
    | succ n =>
      obtain ⟨_, h2, _⟩ := h.old n (Nat.lt_succ_self n)
      exact lt_of_get h2
  have hnb : n0 ≤ b := h.new x _ hx h1
  exact
    { out := h.out
      bound := fun w rw hw => by
        rcases se hw with ⟨rfl, rfl⟩ | ⟨hne, hw⟩
        · exact ⟨by rw [hx]; simp, b, v, by show c.env w = _; rw [h1, hwh, hul], by simp, set_get_self h3⟩
        · obtain ⟨hk, bw, vals, e1, e2, e3⟩ := h.bound w rw hw
          have := h.lone hx hn hne h1 hw e1
          exact ⟨hk, bw, vals, e1, get_append e2, by
            show (c.bufs.set b (some v))[bw]? = _
            rw [set_get (Ne.symm this), e3]⟩
      share := fun w u' rw ru bw bu e1 e2 e3 e4 => by
        have e3' : c.env w = some bw := e3
        have e4' : c.env u' = some bu := e4
        rcases se e1 with ⟨rfl, rfl⟩ | ⟨hw, f1⟩ <;> rcases se e2 with ⟨rfl, rfl⟩ | ⟨hu, f2⟩
        · rw [e3'] at e4'; cases e4'; simp
        · have g1 := lts f2
          have g2 := h.lone hx hn hu e3' f2 e4'
          simp only
          constructor
          · intro hh; omega
          · intro hh; exact (g2 hh.symm).elim
        · have g1 := lts f1
          have g2 := h.lone hx hn hw e4' f1 e3'
          simp only
          constructor
          · intro hh; omega
          · intro hh; exact (g2 hh).elim
        · exact h.share w u' rw ru bw bu f1 f2 e3' e4'
      unbound := fun w hw e => by
        by_cases hwx : w = x
        · simp only [hwx, setEnv_self] at e; cases e
        · exact h.unbound w hw (by rw [← e]; exact (setEnv_ne hwx).symm)
      point := fun p rp bp e1 e2 hk => by
        have hpx : p ≠ x := by rintro rfl; rw [hx] at hk; cases hk
        rcases se e1 with ⟨h1, _⟩ | ⟨_, e1⟩
        · exact (hpx h1).elim
        obtain ⟨t, rt, bt, g1, g2, g3, g4, g5⟩ := h.point p rp bp e1 e2 hk
        have htx : t ≠ x := by rintro rfl; exact hn _ g1
        exact ⟨t, rt, bt, g1, g2, by rw [← g3]; exact setEnv_ne htx, g4, g5⟩
      sep := h.sep
      whole := fun y by' vy hy e1 e2 => by
        by_cases e : by'.buf = b
        · have e2' : (c.bufs.set b (some v))[by'.buf]? = some (some vy) := e2
          rw [e, set_get_self h3] at e2'
          cases e2'
          rw [← hul]
          exact h.whole y by' u hy e1 (by rw [e]; exact h3)
        · refine h.whole y by' vy hy e1 ?_
          rw [← e2]
          exact (set_get (Ne.symm e)).symm
      old := fun i hi => by
        obtain ⟨vi, e1, e2⟩ := h.old i hi
        exact ⟨vi, get_append e1, by
          show (c.bufs.set b (some v))[i]? = _
          rw [set_get (by omega), e2]⟩
      ident := fun w rw bw e1 e2 hl => by
        rcases se e1 with ⟨rfl, rfl⟩ | ⟨hne, e1⟩
        · have e2' : c.env w = some bw := e2
          rw [h1] at e2'
          cases e2'
          simp only at hl; omega
        · exact h.ident w rw bw e1 e2 hl
      new := h.new
      args := fun a ha => by
        have hne : a ≠ x := by rintro rfl; rw [hx] at ha; cases ha
        have := h.args a ha
        exact ⟨by rw [← this.1]; exact setEnv_ne hne, this.2⟩
      owned := fun i vi hi e => by
        by_cases hb : b = i
        · exact h.owned i u hi (by rw [← hb]; exact h3)
        · exact h.owned i vi hi (by rw [← e]; exact (set_get hb).symm) }

/-- A pointer. -/
theorem Sim.bind (h : Sim K n0 e0 R s c) {p y : Var} {r : Ref} {pos : List Nat} (hp : K p = some .alias)
    (hr : s.env y = some r) (hmono : ∀ q t, R q t → R' q t)
    (hy : K y ≠ some .alias → R' p y) (hya : K y = some .alias → ∀ t, R y t → R' p t) :
    ∃ b, c.env y = some ⟨b, r.pos⟩ ∧ Sim K n0 e0 R' { s with env := setEnv s.env p (some ⟨r.buf, pos⟩) }
      { c with env := setEnv c.env p (some ⟨b, pos⟩) } := by
  obtain ⟨hky, b, vals, h1, h2, h3⟩ := h.bound y r hr
  refine ⟨b, h1, ?_⟩
  have se : ∀ {w r'}, setEnv s.env p (some (⟨r.buf, pos⟩ : Ref)) w = some r' →
      (w = p ∧ r' = ⟨r.buf, pos⟩) ∨ (w ≠ p ∧ s.env w = some r') := by
    intro w r hw
    by_cases e : w = p
    · rw [e, setEnv_self] at hw; cases hw; exact Or.inl ⟨e, rfl⟩
    · rw [setEnv_ne e] at hw; exact Or.inr ⟨e, hw⟩
  have ce : ∀ {w r'}, setEnv c.env p (some (⟨b, pos⟩ : Ref)) w = some r' →
      (w = p ∧ r' = ⟨b, pos⟩) ∨ (w ≠ p ∧ c.env w = some r') := by
    intro w r hw
    by_cases e : w = p
    · rw [e, setEnv_self] at hw; cases hw; exact Or.inl ⟨e, rfl⟩
    · rw [setEnv_ne e] at hw; exact Or.inr ⟨e, hw⟩
  have ce' : ∀ {w r'}, K w ≠ some .alias → setEnv c.env p (some (⟨b, pos⟩ : Ref)) w = some r' →
      c.env w = some r' := by
    intro w r' hk hw
    rcases ce hw with ⟨rfl, _⟩ | ⟨_, e⟩
    · exact (hk hp).elim
    · exact e
  exact
    { out := h.out
      bound := fun w rw hw => by
        rcases se hw with ⟨rfl, rfl⟩ | ⟨hne, hw⟩
        · exact ⟨by rw [hp]; simp, b, vals, setEnv_self _ _ _, h2, h3⟩
        · obtain ⟨hk, bw, vw, e1, e2, e3⟩ := h.bound w rw hw
          exact ⟨hk, bw, vw, by rw [← e1]; exact setEnv_ne hne, e2, e3⟩
      share := fun w u rw ru bw bu e1 e2 e3 e4 => by
        rcases se e1 with ⟨rfl, rfl⟩ | ⟨hw, f1⟩ <;> rcases se e2 with ⟨rfl, rfl⟩ | ⟨hu, f2⟩
        · rcases ce e3 with ⟨_, rfl⟩ | ⟨g, _⟩
          · rcases ce e4 with ⟨_, rfl⟩ | ⟨g, _⟩
            · simp
            · exact (g rfl).elim
          · exact (g rfl).elim
        · rcases ce e3 with ⟨_, rfl⟩ | ⟨g, _⟩
          · rcases ce e4 with ⟨g, _⟩ | ⟨_, e4⟩
            · exact (hu g).elim
            · exact h.share y u r ru ⟨b, r.pos⟩ bu hr f2 h1 e4
          · exact (g rfl).elim
        · rcases ce e4 with ⟨_, rfl⟩ | ⟨g, _⟩
          · rcases ce e3 with ⟨g, _⟩ | ⟨_, e3⟩
            · exact (hw g).elim
            · exact h.share w y rw r bw ⟨b, r.pos⟩ f1 hr e3 h1
          · exact (g rfl).elim
        · rcases ce e3 with ⟨g, _⟩ | ⟨_, e3⟩
          · exact (hw g).elim
          rcases ce e4 with ⟨g, _⟩ | ⟨_, e4⟩
          · exact (hu g).elim
          exact h.share w u rw ru bw bu f1 f2 e3 e4
      unbound := fun w hw e => by
        have hwp : w ≠ p := by rintro rfl; exact hw hp
        show setEnv c.env p _ w = none
        rw [setEnv_ne hwp]
        exact h.unbound w hw (by rw [← e]; exact (setEnv_ne hwp).symm)
      point := fun q rq bq e1 e2 hk => by
        have keep : ∀ {t : Var} {rt bt : Ref}, K t ≠ some .alias → s.env t = some rt → c.env t = some bt →
            setEnv s.env p (some (⟨r.buf, pos⟩ : Ref)) t = some rt ∧
            setEnv c.env p (some (⟨b, pos⟩ : Ref)) t = some bt := by
          intro t rt bt hk h3 h4
          have htp : t ≠ p := by rintro rfl; exact hk hp
          exact ⟨by rw [setEnv_ne htp, h3], by rw [setEnv_ne htp, h4]⟩
        rcases se e1 with ⟨rfl, rfl⟩ | ⟨hq, e1⟩
        · rcases ce e2 with ⟨_, rfl⟩ | ⟨g, _⟩
          · by_cases hya' : K y = some .alias
            · obtain ⟨t, rt, bt, g1, g2, g3, g4, g5⟩ := h.point y r _ hr h1 hya'
              exact ⟨t, rt, bt, hya hya' t g1, g2, (keep g2 g3 g4).1, (keep g2 g3 g4).2, g5⟩
            · exact ⟨y, r, ⟨b, r.pos⟩, hy hya', hya', (keep hya' hr h1).1, (keep hya' hr h1).2, rfl⟩
          · exact (g rfl).elim
        · rcases ce e2 with ⟨g, _⟩ | ⟨_, e2⟩
          · exact (hq g).elim
          obtain ⟨t, rt, bt, g1, g2, g3, g4, g5⟩ := h.point q rq bq e1 e2 hk
          exact ⟨t, rt, bt, hmono _ _ g1, g2, (keep g2 g3 g4).1, (keep g2 g3 g4).2, g5⟩
      sep := fun x w bx bw hx hw hxw e1 e2 =>
        h.sep x w bx bw hx hw hxw (ce' (by rw [hx]; simp) e1) (ce' hw e2)
      whole := fun x bx vx hx e1 e2 => h.whole x bx vx hx (ce' (by rw [hx]; simp) e1) e2
      old := h.old
      ident := fun w rw bw e1 e2 hl => by
        rcases se e1 with ⟨rfl, rfl⟩ | ⟨hne, e1⟩
        · rcases ce e2 with ⟨_, rfl⟩ | ⟨g, _⟩
          · exact h.ident y r ⟨b, r.pos⟩ hr h1 hl
          · exact (g rfl).elim
        · rcases ce e2 with ⟨g, _⟩ | ⟨_, e2⟩
          · exact (hne g).elim
          · exact h.ident w rw bw e1 e2 hl
      new := fun x bx hx e1 => h.new x bx hx (ce' (by rw [hx]; simp) e1)
      args := fun a ha => by
        have hne : a ≠ p := by rintro rfl; rw [hp] at ha; cases ha
        have := h.args a ha
        exact ⟨by rw [← this.1]; exact setEnv_ne hne, by rw [← this.2]; exact setEnv_ne hne⟩
      owned := fun i vi hi e => by
        obtain ⟨y', by', g1, g2, g3⟩ := h.owned i vi hi e
        have hyp : y' ≠ p := by rintro rfl; rw [hp] at g1; cases g1
        exact ⟨y', by', g1, by rw [← g2]; exact setEnv_ne hyp, g3⟩ }

/-- A pointer is deleted: only in Python. -/
theorem Sim.forget (h : Sim K n0 e0 R s c) {p : Var} (hp : K p = some .alias) :
    Sim K n0 e0 R { s with env := setEnv s.env p none } c := by
  have se : ∀ {w r'}, setEnv s.env p none w = some r' → w ≠ p ∧ s.env w = some r' := by
    intro w r hw
    by_cases e : w = p
    · rw [e, setEnv_self] at hw; cases hw
    · rw [setEnv_ne e] at hw; exact ⟨e, hw⟩
  exact
    { h with
      bound := fun w rw hw => h.bound w rw (se hw).2
      share := fun w u rw ru bw bu e1 e2 => h.share w u rw ru bw bu (se e1).2 (se e2).2
      unbound := fun w hw e => by
        have hwp : w ≠ p := by rintro rfl; exact hw hp
        exact h.unbound w hw (by rw [← e]; exact (setEnv_ne hwp).symm)
      point := fun q rq bq e1 e2 hk => by
        obtain ⟨t, rt, bt, g1, g2, g3, g4, g5⟩ := h.point q rq bq (se e1).2 e2 hk
        have htp : t ≠ p := by rintro rfl; exact g2 hp
        exact ⟨t, rt, bt, g1, g2, by rw [← g3]; exact setEnv_ne htp, g4, g5⟩
      ident := fun w rw bw e1 => h.ident w rw bw (se e1).2
      args := fun a ha => by
        have hne : a ≠ p := by rintro rfl; rw [hp] at ha; cases ha
        have := h.args a ha
        exact ⟨by rw [← this.1]; exact setEnv_ne hne, this.2⟩ }

end Verif.Aliases.Lemmas
