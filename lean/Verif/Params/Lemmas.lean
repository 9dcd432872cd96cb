import Verif.Params.Model

namespace Verif.Params

open Verif.Params.Spec

theorem upd_same {β : Type} (f : Nat → β) (a : Nat) (b : β) : upd f a b a = b := by simp [upd]

theorem upd_ne {β : Type} (f : Nat → β) (a : Nat) (b : β) (x : Nat) (h : x ≠ a) : upd f a b x = f x := by
  simp [upd, h]

/-! ## The loop is a simultaneous assignment -/

theorem elem_congr {n : Nat} (pl : Nat → Nat) (s t : Nat → Arr n) (i : Fin n) (h : ∀ l, s l i = t l i) :
    ∀ e, elem pl s i e = elem pl t i e
  | .var x => h (pl x)
  | .num _ => rfl
  | .bin op a b => by simp only [elem, elem_congr pl s t i h a, elem_congr pl s t i h b]

/-- The store when the elements in `done` are written. -/
def part {n : Nat} (pl : Nat → Nat) (x : Nat) (e : Expr) (st : Nat → Arr n) (done : List (Fin n)) : Nat → Arr n :=
  upd st (pl x) fun j => if j ∈ done then elem pl st j e else st (pl x) j

theorem put_part {n : Nat} (pl : Nat → Nat) (x : Nat) (e : Expr) (st : Nat → Arr n) (done : List (Fin n))
    (i : Fin n) (h : i ∉ done) : put pl x e (part pl x e st done) i = part pl x e st (i :: done) := by
  have he : elem pl (part pl x e st done) i e = elem pl st i e := by
    refine elem_congr pl _ _ i (fun l => ?_) e
    by_cases hl : l = pl x
    · subst hl; simp [part, upd_same, h]
    · simp [part, upd_ne _ _ _ _ hl]
  funext l
  by_cases hl : l = pl x
  · subst hl
    funext j
    simp only [put, part, upd_same, List.mem_cons]
    by_cases hj : j = i
    · subst hj
      simp only [if_true, true_or]
      exact he
    · simp [hj]
  · simp [put, part, upd_ne _ _ _ _ hl]

theorem foldl_part {n : Nat} (pl : Nat → Nat) (x : Nat) (e : Expr) (st : Nat → Arr n) :
    ∀ (l done : List (Fin n)), l.Nodup → (∀ i ∈ l, i ∉ done) →
      l.foldl (put pl x e) (part pl x e st done) = part pl x e st (l.reverse ++ done)
  | [], done, _, _ => rfl
  | i :: l, done, hn, hd => by
    have h := List.nodup_cons.1 hn
    rw [List.foldl_cons, put_part pl x e st done i (hd i (by simp)),
      foldl_part pl x e st l (i :: done) h.2 ?_]
    · simp
    · intro j hj hm
      rcases List.mem_cons.1 hm with rfl | hm
      · exact h.1 hj
      · exact hd j (List.mem_cons_of_mem _ hj) hm

theorem nodup_finRange' (n : Nat) : (List.finRange n).Nodup := by
  rw [List.nodup_iff_pairwise_ne]
  rw [List.pairwise_iff_getElem]
  intro i j hi hj hij
  simp only [List.getElem_finRange]
  intro hc
  have := congrArg Fin.val hc
  simp at this
  omega

theorem store_eq {n : Nat} (pl : Nat → Nat) (x : Nat) (e : Expr) (st : Nat → Arr n) :
    store pl x e st = upd st (pl x) fun i => elem pl st i e := by
  have h0 : part pl x e st [] = st := by
    funext l
    by_cases hl : l = pl x
    · subst hl; funext j; simp [part, upd_same]
    · simp [part, upd_ne _ _ _ _ hl]
  have := foldl_part pl x e st (List.finRange n) [] (nodup_finRange' n) (by simp)
  rw [h0] at this
  rw [store, this]
  funext l
  by_cases hl : l = pl x
  · subst hl; funext j; simp [part, upd_same, List.mem_finRange]
  · simp [part, upd_ne _ _ _ _ hl]

/-! ## Values -/

/-- Every bound variable has the same contents on both sides. -/
def Agree {n : Nat} (pl : Nat → Nat) (m : Mem n) (st : Nat → Arr n) : Prop :=
  ∀ x l, m.env x = some l → m.heap l = st (pl x)

theorem eval_agree {n : Nat} {pl : Nat → Nat} {m : Mem n} {st : Nat → Arr n} (h : Agree pl m st) :
    ∀ (e : Expr) (v : Arr n), eval m e = some v → v = fun i => elem pl st i e
  | .var x, v, hv => by
    simp only [eval, Option.map_eq_some_iff] at hv
    obtain ⟨l, hl, rfl⟩ := hv
    simpa only [elem] using h x l hl
  | .num c, v, hv => by
    simp only [eval, Option.some.injEq] at hv
    exact hv ▸ rfl
  | .bin op a b, v, hv => by
    simp only [eval] at hv
    cases ha : eval m a with
    | none => simp [ha] at hv
    | some u =>
      cases hb : eval m b with
      | none => simp [ha, hb] at hv
      | some w =>
        simp only [ha, hb, Option.some.injEq] at hv
        have h1 := eval_agree h a u ha
        have h2 := eval_agree h b w hb
        subst hv
        funext i
        simp only [elem, h1, h2]

/-! ## No parameter is assigned as a whole -/

/-- The relation between Python's memory and the store, the arrays of the caller included. -/
structure Rel {n : Nat} (args : List Nat) (next : Nat) (m : Mem n) (st : Nat → Arr n) : Prop where
  param : ∀ x l, args[x]? = some l → m.env x = some l
  caller : ∀ l, l < next → m.heap l = st l
  loc : ∀ x l, args[x]? = none → m.env x = some l →
    next ≤ l ∧ l < m.next ∧ m.heap l = st (next + x)
  inj : ∀ x y l, args[x]? = none → args[y]? = none → m.env x = some l → m.env y = some l → x = y
  low : next ≤ m.next

theorem rel_agree {n : Nat} {args : List Nat} {next : Nat} {m : Mem n} {st : Nat → Arr n}
    (ha : ∀ l ∈ args, l < next) (h : Rel args next m st) : Agree (place args next) m st := by
  intro x l hx
  cases hp : args[x]? with
  | some k =>
    have := h.param x k hp
    rw [this] at hx
    obtain rfl := Option.some.inj hx
    simp only [place, hp]
    exact h.caller k (ha k (List.mem_of_getElem? hp))
  | none =>
    simp only [place, hp]
    exact (h.loc x l hp hx).2.2

theorem rel_write {n : Nat} {args : List Nat} {next : Nat} {m : Mem n} {st : Nat → Arr n}
    (ha : ∀ l ∈ args, l < next) (h : Rel args next m st) (x l : Nat) (v : Arr n) (hx : m.env x = some l) :
    Rel args next { m with heap := upd m.heap l v } (upd st (place args next x) v) := by
  cases hp : args[x]? with
  | some k =>
    have := h.param x k hp
    rw [this] at hx
    obtain rfl := Option.some.inj hx
    have hk := ha k (List.mem_of_getElem? hp)
    have pl : place args next x = k := by simp only [place, hp]
    rw [pl]
    refine ⟨h.param, ?_, ?_, h.inj, h.low⟩
    · intro l hl
      by_cases e : l = k
      · subst e; simp [upd_same]
      · simp [upd_ne _ _ _ _ e, h.caller l hl]
    · intro y l hy hl
      obtain ⟨h1, h2, h3⟩ := h.loc y l hy hl
      refine ⟨h1, h2, ?_⟩
      simp only
      rw [upd_ne _ _ _ _ (by omega), upd_ne _ _ _ _ (by omega)]
      exact h3
  | none =>
    obtain ⟨h1, h2, h3⟩ := h.loc x l hp hx
    have pl : place args next x = next + x := by simp only [place, hp]
    rw [pl]
    refine ⟨h.param, ?_, ?_, h.inj, h.low⟩
    · intro l' hl
      simp only
      rw [upd_ne _ _ _ _ (by omega), upd_ne _ _ _ _ (by omega)]
      exact h.caller l' hl
    · intro y l' hy hl
      obtain ⟨g1, g2, g3⟩ := h.loc y l' hy hl
      refine ⟨g1, g2, ?_⟩
      by_cases e : y = x
      · subst e
        simp only at hl
        rw [hx] at hl
        obtain rfl := Option.some.inj hl
        simp [upd_same]
      · have hne : l' ≠ l := by
          intro hh; subst hh
          exact e (h.inj y x l' hy hp hl hx)
        simp only
        rw [upd_ne _ _ _ _ hne, upd_ne _ _ _ _ (by omega)]
        exact g3

theorem rel_new {n : Nat} {args : List Nat} {next : Nat} {m : Mem n} {st : Nat → Arr n}
    (h : Rel args next m st) (x : Nat) (v : Arr n) (hx : args[x]? = none) :
    Rel args next ⟨upd m.env x (some m.next), upd m.heap m.next v, m.next + 1⟩
      (upd st (place args next x) v) := by
  have pl : place args next x = next + x := by simp only [place, hx]
  have hlow := h.low
  rw [pl]
  refine ⟨?_, ?_, ?_, ?_, by simp only; omega⟩
  · intro y l hy
    have hne : y ≠ x := by intro hh; subst hh; rw [hx] at hy; contradiction
    simp only
    rw [upd_ne _ _ _ _ hne]
    exact h.param y l hy
  · intro l hl
    simp only
    rw [upd_ne _ _ _ _ (by omega), upd_ne _ _ _ _ (by omega)]
    exact h.caller l hl
  · intro y l hy hl
    simp only at hl ⊢
    by_cases e : y = x
    · subst e
      rw [upd_same] at hl
      obtain rfl := Option.some.inj hl
      refine ⟨hlow, by omega, by simp [upd_same]⟩
    · rw [upd_ne _ _ _ _ e] at hl
      obtain ⟨h1, h2, h3⟩ := h.loc y l hy hl
      refine ⟨h1, by omega, ?_⟩
      rw [upd_ne _ _ _ _ (by omega), upd_ne _ _ _ _ (by omega)]
      exact h3
  · intro y z l hy hz hl hl'
    simp only at hl hl'
    by_cases e : y = x <;> by_cases e' : z = x
    · rw [e, e']
    · subst e
      rw [upd_same] at hl
      rw [upd_ne _ _ _ _ e'] at hl'
      obtain rfl := Option.some.inj hl
      exact absurd (h.loc z _ hz hl').2.1 (by omega)
    · subst e'
      rw [upd_same] at hl'
      rw [upd_ne _ _ _ _ e] at hl
      obtain rfl := Option.some.inj hl'
      exact absurd (h.loc y _ hy hl).2.1 (by omega)
    · rw [upd_ne _ _ _ _ e] at hl
      rw [upd_ne _ _ _ _ e'] at hl'
      exact h.inj y z l hy hz hl hl'

theorem rel_run {n : Nat} {args : List Nat} {next : Nat} (ha : ∀ l ∈ args, l < next) :
    ∀ (s : Stmt) (m m' : Mem n) (st : Nat → Arr n), NoSet args.length s → Rel args next m st →
      run s m = some m' → Rel args next m' (runC (place args next) s st)
  | .skip, m, m', st, _, h, e => by
    simp only [run, Option.some.injEq] at e
    exact e ▸ h
  | .set x ex, m, m', st, hs, h, e => by
    simp only [run] at e
    cases hv : eval m ex with
    | none => simp [hv] at e
    | some v =>
      simp only [hv, Option.some.injEq] at e
      subst e
      have hv' := eval_agree (rel_agree ha h) ex v hv
      simp only [runC, store_eq, ← hv']
      exact rel_new h x v (List.getElem?_eq_none hs)
  | .fill x ex, m, m', st, _, h, e => by
    simp only [run] at e
    cases hx : m.env x with
    | none => simp [hx] at e
    | some l =>
      cases hv : eval m ex with
      | none => simp [hx, hv] at e
      | some v =>
        simp only [hx, hv, Option.some.injEq] at e
        subst e
        have hv' := eval_agree (rel_agree ha h) ex v hv
        simp only [runC, store_eq, ← hv']
        exact rel_write ha h x l v hx
  | .aug x op ex, m, m', st, _, h, e => by
    simp only [run] at e
    cases hx : m.env x with
    | none => simp [hx] at e
    | some l =>
      cases hv : eval m ex with
      | none => simp [hx, hv] at e
      | some v =>
        simp only [hx, hv, Option.some.injEq] at e
        subst e
        have hv' := eval_agree (rel_agree ha h) ex v hv
        have hl := rel_agree ha h x l hx
        have : (fun i => elem (place args next) st i (.bin op (.var x) ex)) =
            fun i => op (m.heap l i) (v i) := by
          funext i
          simp only [elem, hl, hv']
        simp only [runC, store_eq, this]
        exact rel_write ha h x l _ hx
  | .seq s t, m, m', st, hs, h, e => by
    simp only [run] at e
    cases h1 : run s m with
    | none => simp [h1] at e
    | some m1 =>
      simp only [h1] at e
      exact rel_run ha t m1 m' _ hs.2 (rel_run ha s m m1 st hs.1 h h1) e
  | .rep k s, m, m', st, hs, h, e => by
    have key : ∀ (k : Nat) (m m' : Mem n) (st : Nat → Arr n), Rel args next m st →
        times (run s) k m = some m' → Rel args next m' (iter (runC (place args next) s) k st) := by
      intro k
      induction k with
      | zero =>
        intro m m' st h e
        simp only [times, Option.some.injEq] at e
        exact e ▸ h
      | succ k ih =>
        intro m m' st h e
        simp only [times] at e
        cases h1 : run s m with
        | none => simp [h1] at e
        | some m1 =>
          simp only [h1] at e
          exact ih m1 m' _ (rel_run ha s m m1 st hs h h1) e
    exact key k m m' st h e
  | .ite x c s t, m, m', st, hs, h, e => by
    simp only [run] at e
    cases hx : m.env x with
    | none => simp [hx] at e
    | some l =>
      simp only [hx] at e
      have hl := rel_agree ha h x l hx
      simp only [runC, ← hl]
      split at e
      · rename_i hc
        rw [if_pos hc]
        exact rel_run ha s m m' st hs.1 h e
      · rename_i hc
        rw [if_neg hc]
        exact rel_run ha t m m' st hs.2 h e

/-! ## Arguments that are all different -/

/-- The relation for variables only. -/
structure Rel' {n : Nat} (pl : Nat → Nat) (m : Mem n) (st : Nat → Arr n) : Prop where
  agree : Agree pl m st
  fresh : ∀ x l, m.env x = some l → l < m.next
  inj : ∀ x y l, m.env x = some l → m.env y = some l → x = y

theorem rel'_write {n : Nat} {pl : Nat → Nat} {m : Mem n} {st : Nat → Arr n} (hpl : ∀ x y, pl x = pl y → x = y)
    (h : Rel' pl m st) (x l : Nat) (v : Arr n) (hx : m.env x = some l) :
    Rel' pl { m with heap := upd m.heap l v } (upd st (pl x) v) := by
  refine ⟨?_, h.fresh, h.inj⟩
  intro y k hy
  by_cases e : y = x
  · subst e
    simp only at hy
    rw [hx] at hy
    obtain rfl := Option.some.inj hy
    simp [upd_same]
  · have hne : k ≠ l := by
      intro hh; subst hh
      exact e (h.inj y x k hy hx)
    simp only
    rw [upd_ne _ _ _ _ hne, upd_ne _ _ _ _ (fun hh => e (hpl _ _ hh))]
    exact h.agree y k hy

theorem rel'_new {n : Nat} {pl : Nat → Nat} {m : Mem n} {st : Nat → Arr n} (hpl : ∀ x y, pl x = pl y → x = y)
    (h : Rel' pl m st) (x : Nat) (v : Arr n) :
    Rel' pl ⟨upd m.env x (some m.next), upd m.heap m.next v, m.next + 1⟩ (upd st (pl x) v) := by
  refine ⟨?_, ?_, ?_⟩
  · intro y k hy
    simp only at hy ⊢
    by_cases e : y = x
    · subst e
      rw [upd_same] at hy
      obtain rfl := Option.some.inj hy
      simp [upd_same]
    · rw [upd_ne _ _ _ _ e] at hy
      have := h.fresh y k hy
      rw [upd_ne _ _ _ _ (by omega), upd_ne _ _ _ _ (fun hh => e (hpl _ _ hh))]
      exact h.agree y k hy
  · intro y k hy
    simp only at hy ⊢
    by_cases e : y = x
    · subst e
      rw [upd_same] at hy
      obtain rfl := Option.some.inj hy
      omega
    · rw [upd_ne _ _ _ _ e] at hy
      have := h.fresh y k hy
      omega
  · intro y z k hy hz
    simp only at hy hz
    by_cases e : y = x <;> by_cases e' : z = x
    · rw [e, e']
    · subst e
      rw [upd_same] at hy
      rw [upd_ne _ _ _ _ e'] at hz
      obtain rfl := Option.some.inj hy
      exact absurd (h.fresh z _ hz) (by omega)
    · subst e'
      rw [upd_same] at hz
      rw [upd_ne _ _ _ _ e] at hy
      obtain rfl := Option.some.inj hz
      exact absurd (h.fresh y _ hy) (by omega)
    · rw [upd_ne _ _ _ _ e] at hy
      rw [upd_ne _ _ _ _ e'] at hz
      exact h.inj y z k hy hz

theorem rel'_run {n : Nat} {pl : Nat → Nat} (hpl : ∀ x y, pl x = pl y → x = y) :
    ∀ (s : Stmt) (m m' : Mem n) (st : Nat → Arr n), Rel' pl m st →
      run s m = some m' → Rel' pl m' (runC pl s st)
  | .skip, m, m', st, h, e => by
    simp only [run, Option.some.injEq] at e
    exact e ▸ h
  | .set x ex, m, m', st, h, e => by
    simp only [run] at e
    cases hv : eval m ex with
    | none => simp [hv] at e
    | some v =>
      simp only [hv, Option.some.injEq] at e
      subst e
      have hv' := eval_agree h.agree ex v hv
      simp only [runC, store_eq, ← hv']
      exact rel'_new hpl h x v
  | .fill x ex, m, m', st, h, e => by
    simp only [run] at e
    cases hx : m.env x with
    | none => simp [hx] at e
    | some l =>
      cases hv : eval m ex with
      | none => simp [hx, hv] at e
      | some v =>
        simp only [hx, hv, Option.some.injEq] at e
        subst e
        have hv' := eval_agree h.agree ex v hv
        simp only [runC, store_eq, ← hv']
        exact rel'_write hpl h x l v hx
  | .aug x op ex, m, m', st, h, e => by
    simp only [run] at e
    cases hx : m.env x with
    | none => simp [hx] at e
    | some l =>
      cases hv : eval m ex with
      | none => simp [hx, hv] at e
      | some v =>
        simp only [hx, hv, Option.some.injEq] at e
        subst e
        have hv' := eval_agree h.agree ex v hv
        have hl := h.agree x l hx
        have : (fun i => elem pl st i (.bin op (.var x) ex)) = fun i => op (m.heap l i) (v i) := by
          funext i
          simp only [elem, hl, hv']
        simp only [runC, store_eq, this]
        exact rel'_write hpl h x l _ hx
  | .seq s t, m, m', st, h, e => by
    simp only [run] at e
    cases h1 : run s m with
    | none => simp [h1] at e
    | some m1 =>
      simp only [h1] at e
      exact rel'_run hpl t m1 m' _ (rel'_run hpl s m m1 st h h1) e
  | .rep k s, m, m', st, h, e => by
    have key : ∀ (k : Nat) (m m' : Mem n) (st : Nat → Arr n), Rel' pl m st →
        times (run s) k m = some m' → Rel' pl m' (iter (runC pl s) k st) := by
      intro k
      induction k with
      | zero =>
        intro m m' st h e
        simp only [times, Option.some.injEq] at e
        exact e ▸ h
      | succ k ih =>
        intro m m' st h e
        simp only [times] at e
        cases h1 : run s m with
        | none => simp [h1] at e
        | some m1 =>
          simp only [h1] at e
          exact ih m1 m' _ (rel'_run hpl s m m1 st h h1) e
    exact key k m m' st h e
  | .ite x c s t, m, m', st, h, e => by
    simp only [run] at e
    cases hx : m.env x with
    | none => simp [hx] at e
    | some l =>
      simp only [hx] at e
      have hl := h.agree x l hx
      simp only [runC, ← hl]
      split at e
      · rename_i hc
        rw [if_pos hc]
        exact rel'_run hpl s m m' st h e
      · rename_i hc
        rw [if_neg hc]
        exact rel'_run hpl t m m' st h e

theorem place_inj {args : List Nat} {next : Nat} (ha : ∀ l ∈ args, l < next) (hd : args.Nodup) :
    ∀ x y, place args next x = place args next y → x = y := by
  intro x y h
  unfold place at h
  cases hx : args[x]? with
  | some k =>
    have hk := ha k (List.mem_of_getElem? hx)
    cases hy : args[y]? with
    | some k' =>
      simp only [hx, hy] at h
      subst h
      obtain ⟨h1, h1'⟩ := List.getElem?_eq_some_iff.1 hx
      obtain ⟨h2, h2'⟩ := List.getElem?_eq_some_iff.1 hy
      rw [List.nodup_iff_pairwise_ne, List.pairwise_iff_getElem] at hd
      rcases Nat.lt_trichotomy x y with hh | hh | hh
      · exact absurd (h1'.trans h2'.symm) (hd x y h1 h2 hh)
      · exact hh
      · exact absurd (h2'.trans h1'.symm) (hd y x h2 h1 hh)
    | none => simp only [hx, hy] at h; omega
  | none =>
    cases hy : args[y]? with
    | some k' =>
      have hk := ha k' (List.mem_of_getElem? hy)
      simp only [hx, hy] at h
      omega
    | none => simp only [hx, hy] at h; omega

/-! ## What is written -/

theorem uses_writes {n : Nat} (pl : Nat → Nat) : ∀ (s : Stmt) (st : Nat → Arr n) (x : Nat),
    x ∈ (uses pl s st).1 → x ∈ writes s
  | .skip, st, x, h => h
  | .set y e, st, x, h => h
  | .fill y e, st, x, h => h
  | .aug y op e, st, x, h => h
  | .seq s t, st, x, h => by
    simp only [uses, List.mem_append] at h
    simp only [writes, List.mem_append]
    rcases h with h | h
    · exact Or.inl (uses_writes pl s _ x h)
    · exact Or.inr (uses_writes pl t _ x h)
  | .rep k s, st, x, h => by
    have key : ∀ (k : Nat) (st : Nat → Arr n), x ∈ (uses.usesRep (uses pl s) (runC pl s) k st).1 →
        x ∈ writes s := by
      intro k
      induction k with
      | zero => intro st h; simp [uses.usesRep] at h
      | succ k ih =>
        intro st h
        simp only [uses.usesRep, List.mem_append] at h
        rcases h with h | h
        · exact uses_writes pl s _ x h
        · exact ih _ h
    exact key k st h
  | .ite y c s t, st, x, h => by
    simp only [uses] at h
    simp only [writes, List.mem_append]
    split at h
    · exact Or.inl (uses_writes pl s _ x h)
    · exact Or.inr (uses_writes pl t _ x h)

end Verif.Params
