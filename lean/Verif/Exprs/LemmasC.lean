import Verif.Exprs.LemmasPy
/-
Helper lemmas for C20.
-/
namespace Verif.Exprs

/-- The precedence of the node built for an expression. -/
def Src.prec : Src → Nat
  | .atom _ _ => 17
  | .un .not _ => 6
  | .un _ _ => 14
  | .bin o _ _ => o.prec
  | .ite _ _ _ => 3

theorem prec_build (s : Src) : (build s).prec = s.prec := by
  cases s with
  | atom => rfl
  | un o a => cases o <;> rfl
  | bin o a b =>
    cases o <;> simp only [build, mkBin] <;> try rfl
    · obtain ⟨x, y, h⟩ := mkAnd_form (build a) (build b); rw [h]; rfl
    · obtain ⟨x, y, h⟩ := mkOr_form (build a) (build b); rw [h]; rfl
  | ite => rfl

def cArgT (e : Expr) (t : CTree) : CTree := if e.isOp then .paren t else t
def cCastIfT (c : Bool) (t : CTree) : CTree := if c then .call .castFloat t else t

/-- The syntax tree intended by the C printer. -/
def cstC : Expr → CTree
  | .atom n _ => .atom (.var n)
  | .paren a => .paren (cstC a)
  | .cast .bool a => .paren (.bin .ne (cstC a) (.atom .zero))
  | .cast .int a => .call .castInt (cstC a)
  | .cast .float a => .call .castFloat (cstC a)
  | .un .pos a => .un .add (cstC a)
  | .un .neg a => .un .sub (cstC a)
  | .un .inv a => .un .inv (cstC a)
  | .un .not a => .un .not (cArgT a (cstC a))
  | .bin .pow a b => .call .pow (.bin .comma (cCastIfT (a.ty ≠ .float) (cstC a))
      (cCastIfT (b.ty ≠ .float) (cstC b)))
  | .bin .add a b => .bin .add (cstC a) (cstC b)
  | .bin .sub a b => .bin .sub (cstC a) (cstC b)
  | .bin .mul a b => .bin .mul (cstC a) (cstC b)
  | .bin .div a b =>
    .bin .div (cCastIfT (a.ty = .int ∧ b.ty = .int) (cstC a))
      (cCastIfT (a.ty = .int ∧ b.ty = .int) (cstC b))
  | .bin .mod a b =>
    if a.ty.join b.ty = .int then .call .modulo (.bin .comma (cstC a) (cstC b))
    else .call .fmodulo (.bin .comma (cCastIfT (a.ty = .int) (cstC a))
      (cCastIfT (b.ty = .int) (cstC b)))
  | .bin .fdiv a b =>
    if a.ty ≠ .float ∧ b.ty ≠ .float then .call .floorDiv (.bin .comma (cstC a) (cstC b))
    else .call .floor (.bin .div (cCastIfT (a.ty ≠ .float) (cstC a))
      (cCastIfT (b.ty ≠ .float) (cstC b)))
  | .bin .shl a b => .bin .shl (cstC a) (cstC b)
  | .bin .shr a b => .bin .shr (cstC a) (cstC b)
  | .bin .band a b =>
    .bin (if a.ty = .bool ∧ b.ty = .bool then .land else .band) (cArgT a (cstC a)) (cArgT b (cstC b))
  | .bin .bor a b =>
    .bin (if a.ty = .bool ∧ b.ty = .bool then .lor else .bor) (cArgT a (cstC a)) (cArgT b (cstC b))
  | .bin .bxor a b =>
    .bin (if a.ty = .bool ∧ b.ty = .bool then .ne else .bxor) (cstC a) (cstC b)
  | .bin (.cmp c) a b => .bin c.c (cstC a) (cstC b)
  | .bin .and a b =>
    .bin .land (if a.isAnd then cstC a else cArgT a (cstC a)) (cArgT b (cstC b))
  | .bin .or a b =>
    .bin .lor (if a.isOr then cstC a else cArgT a (cstC a)) (cArgT b (cstC b))
  | .ite c t f => .paren (.tern (cstC c) (cstC t) (cstC f))

theorem flatten_cArgT (e : Expr) (t : CTree) : (cArgT e t).flatten = cArg e t.flatten := by
  unfold cArgT cArg; split <;> rfl

theorem flatten_cCastIfT (c : Bool) (t : CTree) : (cCastIfT c t).flatten = cCastIf c t.flatten := by
  unfold cCastIfT cCastIf; split <;> rfl

theorem flatten_cstC (e : Expr) : (cstC e).flatten = printC e := by
  induction e with
  | atom => rfl
  | paren a ih => simp [cstC, printC, CST.flatten, ih]
  | cast t a ih => cases t <;> simp [cstC, printC, CST.flatten, cCall, ih]
  | un o a ih => cases o <;> simp [cstC, printC, CST.flatten, flatten_cArgT, ih]
  | bin o a b iha ihb =>
    cases o <;> simp only [cstC, printC]
    case mod | fdiv =>
      split <;> simp [CST.flatten, cCall, flatten_cCastIfT, iha, ihb]
    case and | or =>
      simp only [CST.flatten]
      split <;> simp [flatten_cArgT, iha, ihb]
    all_goals simp [CST.flatten, cCall, flatten_cCastIfT, flatten_cArgT, iha, ihb]
  | ite c t f h1 h2 h3 => simp [cstC, printC, CST.flatten, h1, h2, h3]

/-! ### Structure -/

theorem strip_cArgT (e : Expr) (t : CTree) : (cArgT e t).strip = t.strip := by
  unfold cArgT; split <;> rfl

theorem strip_cCastIfT (c : Bool) (t : CTree) :
    (cCastIfT c t).strip = if c then .call .castFloat t.strip else t.strip := by
  unfold cCastIfT; split <;> rfl

theorem stripC_wrap (P i : Nat) (e : Expr) : (cstC (wrap P i e)).strip = (cstC e).strip := by
  unfold wrap; split <;> rfl

theorem stripC_wrapPow (i : Nat) (e : Expr) : (cstC (wrapPow i e)).strip = (cstC e).strip := by
  unfold wrapPow; split <;> rfl

theorem stripC_wrapSign (e : Expr) : (cstC (wrapSign e)).strip = (cstC e).strip := by
  unfold wrapSign; split <;> rfl

theorem stripC_castInt (e : Expr) :
    (cstC (castTo .int e)).strip = cInt e.ty (cstC e).strip := by
  unfold castTo cInt; split <;> rfl

theorem stripC_castBool (e : Expr) :
    (cstC (castTo .bool e)).strip = cBool e.ty (cstC e).strip := by
  unfold castTo cBool; split <;> rfl

theorem stripC_andElem (e : Expr) : (cstC (andElem e)).strip = cBool e.ty (cstC e).strip := by
  unfold andElem; rw [stripC_castBool, stripC_wrap, ty_wrap]

theorem stripC_orElem (e : Expr) : (cstC (orElem e)).strip = cBool e.ty (cstC e).strip := by
  unfold orElem; rw [stripC_castBool]
  split
  · rfl
  · rw [stripC_wrap, ty_wrap]

theorem ty_of_isAnd {e : Expr} (h : e.isAnd = true) : e.ty = .bool := by
  cases e with
  | bin o a b => cases o <;> simp_all [Expr.isAnd, Expr.ty]
  | _ => simp_all [Expr.isAnd]

theorem ty_of_isOr {e : Expr} (h : e.isOr = true) : e.ty = .bool := by
  cases e with
  | bin o a b => cases o <;> simp_all [Expr.isOr, Expr.ty]
  | _ => simp_all [Expr.isOr]

theorem stripC_andHead (e : Expr) : (cstC (andHead e)).strip = cBool e.ty (cstC e).strip := by
  cases h : e.isAnd with
  | true => rw [andHead_of_and _ h, ty_of_isAnd h]; rfl
  | false => rw [andHead_of_not _ h, stripC_andElem]

theorem stripC_orHead (e : Expr) : (cstC (orHead e)).strip = cBool e.ty (cstC e).strip := by
  cases h : e.isOr with
  | true => rw [orHead_of_or _ h, ty_of_isOr h]; rfl
  | false => rw [orHead_of_not _ h, stripC_orElem]

theorem strip_and_or (e : Expr) (c : Bool) :
    (if c then cstC e else cArgT e (cstC e)).strip = (cstC e).strip := by
  split
  · rfl
  · exact strip_cArgT _ _

theorem strip_cstC_build (s : Src) (hn : s.Normal) : (cstC (build s)).strip = s.toC := by
  induction s with
  | atom => rfl
  | un o a ih =>
    have ih := ih hn
    cases o <;> simp [build, mkUn, cstC, CST.strip, Src.toC, stripC_wrap, stripC_wrapSign,
      stripC_castInt, strip_cArgT, ih]
  | bin o a b iha ihb =>
    obtain ⟨n1, n2, n3⟩ := hn
    have iha := iha n1
    have ihb := ihb n2
    cases o
    case and =>
      simp only [build, mkBin, Src.toC]
      rw [mkAnd_of_not _ _ (by rw [isAnd_build]; exact n3)]
      simp only [cstC, CST.strip, strip_and_or, strip_cArgT, stripC_andHead, stripC_andElem,
        ty_build, iha, ihb]
    case or =>
      simp only [build, mkBin, Src.toC]
      rw [mkOr_of_not _ _ (by rw [isOr_build]; exact n3)]
      simp only [cstC, CST.strip, strip_and_or, strip_cArgT, stripC_orHead, stripC_orElem,
        ty_build, iha, ihb]
    case mod =>
      simp only [build, mkBin, Src.toC, cstC, ty_wrapSign, ty_wrap, ty_build]
      split <;> simp [CST.strip, CTree.call2, strip_cCastIfT, stripC_wrap, stripC_wrapSign, iha, ihb]
    case fdiv =>
      simp only [build, mkBin, Src.toC, cstC, ty_wrapSign, ty_wrap, ty_build]
      split
      · simp [CST.strip, CTree.call2, stripC_wrap, stripC_wrapSign, iha, ihb]
      · cases a.ty <;> cases b.ty <;>
        simp [CST.strip, cFloat, strip_cCastIfT, stripC_wrap, stripC_wrapSign, iha, ihb]
    case pow =>
      cases ha : a.ty <;> cases hb : b.ty <;>
      simp [build, mkBin, Src.toC, cstC, CST.strip, CTree.call2, cFloat, strip_cCastIfT,
        stripC_wrapPow, ha, hb, iha, ihb]
    case div =>
      simp only [build, mkBin, Src.toC, cstC, ty_wrapSign, ty_wrap, ty_build]
      split <;> rename_i h <;>
      simp [CST.strip, strip_cCastIfT, stripC_wrap, stripC_wrapSign, iha, ihb, h]
    case band | bor | bxor =>
      simp only [build, mkBin, Src.toC, cstC, ty_castTo, ty_build]
      by_cases h : a.ty = .bool ∧ b.ty = .bool
      · simp [h, CST.strip, strip_cArgT, stripC_castBool, stripC_wrap, cBool, iha, ihb]
      · simp [h, CST.strip, strip_cArgT, stripC_castInt, stripC_wrap, iha, ihb]
    all_goals
      simp [build, mkBin, Src.toC, cstC, CST.strip, stripC_castInt, stripC_wrap, stripC_wrapSign,
        iha, ihb]
  | ite c t f h1 h2 h3 =>
    obtain ⟨n1, n2, n3⟩ := hn
    simp [build, cstC, CST.strip, Src.toC, stripC_wrap, h1 n1, h2 n2, h3 n3]

/-! ### Levels -/

/-- Level of the printed text. -/
def Src.clev : Src → Nat
  | .atom _ _ => 20
  | .un _ _ => 14
  | .bin o a b =>
    match o with
    | .pow | .mod | .fdiv => 20
    | .add | .sub => 12
    | .mul | .div => 13
    | .shl | .shr => 11
    | .band => if a.ty = .bool ∧ b.ty = .bool then 5 else 8
    | .bor => if a.ty = .bool ∧ b.ty = .bool then 4 else 6
    | .bxor => if a.ty = .bool ∧ b.ty = .bool then 9 else 7
    | .cmp c => if c.isEq then 9 else 10
    | .and => 5
    | .or => 4
  | .ite _ _ _ => 20

theorem clev_build (s : Src) : lvl cLang (cstC (build s)) = s.clev := by
  cases s with
  | atom => rfl
  | un o a => cases o <;> rfl
  | bin o a b =>
    cases o <;> simp only [build, mkBin] <;> try rfl
    case mod | fdiv => simp only [cstC]; split <;> rfl
    case band | bor | bxor =>
      simp only [cstC, ty_castTo, ty_build, Src.clev]
      by_cases h : a.ty = .bool ∧ b.ty = .bool <;> simp [h, lvl, cLang, leftAssoc]
    case cmp c => cases c <;> rfl
    case and => obtain ⟨x, y, h⟩ := mkAnd_form (build a) (build b); rw [h]; rfl
    case or => obtain ⟨x, y, h⟩ := mkOr_form (build a) (build b); rw [h]; rfl
  | ite => rfl

def OkC (e : Expr) : Prop := Deriv cLang 0 (cstC e)

theorem okC_wrap {e : Expr} (P i : Nat) (h : OkC e) : OkC (wrap P i e) := by
  unfold wrap; split <;> simpa [OkC, cstC, Deriv] using h

theorem okC_wrapPow {e : Expr} (i : Nat) (h : OkC e) : OkC (wrapPow i e) := by
  unfold wrapPow; split <;> simpa [OkC, cstC, Deriv] using h

theorem okC_wrapSign {e : Expr} (h : OkC e) : OkC (wrapSign e) := by
  unfold wrapSign; split <;> simpa [OkC, cstC, Deriv] using h

theorem okC_castInt {e : Expr} (h : OkC e) : OkC (castTo .int e) := by
  unfold castTo; split <;> simpa [OkC, cstC, Deriv] using h

theorem okC_castBool {e : Expr} (h : OkC e) (hl : e.ty ≠ .bool → 9 ≤ lvl cLang (cstC e)) :
    OkC (castTo .bool e) := by
  unfold castTo; split
  · exact h
  · rename_i ht
    refine ⟨_, rfl, Nat.zero_le _, ?_, trivial⟩
    exact (deriv_iff (by decide)).2 ⟨h, hl ht⟩

theorem lvl_wrap (P i : Nat) (e : Expr) :
    lvl cLang (cstC (wrap P i e)) =
      if e.prec < P ∨ (e.prec = P ∧ i ≠ 0) then 20 else lvl cLang (cstC e) := by
  unfold wrap; split <;> rfl

theorem lvl_wrapPow (i : Nat) (e : Expr) :
    lvl cLang (cstC (wrapPow i e)) =
      if e.prec < 15 ∨ (e.prec = 15 ∧ i ≠ 1) then 20 else lvl cLang (cstC e) := by
  unfold wrapPow; split <;> rfl

theorem lvl_wrapSign (e : Expr) : lvl cLang (cstC e) ≤ lvl cLang (cstC (wrapSign e)) := by
  unfold wrapSign; split
  · simp [cstC, lvl, cLang, TOP]
  · simp [cstC, lvl, cLang, TOP]
  · exact Nat.le_refl _

theorem lvl_castTo (t : Ty) (e : Expr) :
    lvl cLang (cstC (castTo t e)) = if e.ty = t then lvl cLang (cstC e) else 20 := by
  unfold castTo; split
  · rfl
  · cases t <;> rfl

/-- An operator node is printed in parentheses, any other node needs none. -/
theorem deriv_cArgT {e : Expr} (h : OkC e) (n : Nat) (hn : n ≤ TOP) :
    Deriv cLang n (cArgT e (cstC e)) := by
  unfold cArgT; split
  · exact h
  · rename_i ho
    refine (deriv_iff hn).2 ⟨h, ?_⟩
    cases e with
    | atom => exact hn
    | paren => exact hn
    | cast t a => cases t <;> exact hn
    | _ => simp [Expr.isOp] at ho

theorem deriv_cCastIfT {e : Expr} (c : Bool) (n : Nat) (h : Deriv cLang n (cstC e)) (hn : n ≤ TOP) :
    Deriv cLang n (cCastIfT c (cstC e)) := by
  unfold cCastIfT; split
  · exact ((deriv_iff hn).1 h).1
  · exact h

theorem okC_bin {s : CSym} {p : BinRule} {x y : CTree} (e : cLang.bin s = some p)
    (h1 : Deriv cLang p.left x) (h2 : Deriv cLang p.right y) : Deriv cLang 0 (.bin s x y) :=
  ⟨p, e, Nat.zero_le _, h1, h2⟩

/-- Operands of arithmetic and shift operators. -/
theorem prec_le_clev (s : Src) (h : 11 ≤ s.prec) : s.prec ≤ s.clev := by
  cases s with
  | un o a => cases o <;> simp_all [Src.prec, Src.clev]
  | bin o a b => cases o <;> simp_all [Src.prec, Src.clev, BOp.prec]
  | _ => simp_all [Src.prec, Src.clev]

theorem clev_le (s : Src) : 4 ≤ s.clev := by
  cases s with
  | un o a => simp [Src.clev]
  | bin o a b => cases o <;> simp only [Src.clev] <;> first | omega | (split <;> omega)
  | _ => simp [Src.clev]

theorem deriv_wrap {s : Src} (h : OkC (build s)) (P i n : Nat) (hn : n ≤ TOP)
    (hl : ¬ (s.prec < P ∨ (s.prec = P ∧ i ≠ 0)) → n ≤ s.clev) :
    Deriv cLang n (cstC (wrap P i (build s))) := by
  refine (deriv_iff hn).2 ⟨okC_wrap _ _ h, ?_⟩
  rw [lvl_wrap, prec_build, clev_build]
  split
  · exact hn
  · rename_i h'; exact hl h'

theorem deriv_wrapSign {e : Expr} {n : Nat} (hn : n ≤ TOP) (h : Deriv cLang n (cstC e)) :
    Deriv cLang n (cstC (wrapSign e)) := by
  have := (deriv_iff hn).1 h
  exact (deriv_iff hn).2 ⟨okC_wrapSign this.1, Nat.le_trans this.2 (lvl_wrapSign e)⟩

theorem deriv_castInt {e : Expr} {n : Nat} (hn : n ≤ TOP) (h0 : OkC e)
    (h : e.ty = .int → Deriv cLang n (cstC e)) : Deriv cLang n (cstC (castTo .int e)) := by
  unfold castTo; split
  · rename_i ht; exact h ht
  · exact h0

theorem deriv_arith0 {s : Src} (h : OkC (build s)) (P : Nat) (hP : 11 ≤ P) (hn : P ≤ TOP) :
    Deriv cLang P (cstC (wrap P 0 (build s))) :=
  deriv_wrap h P 0 P hn (fun h' => by
    have := prec_le_clev s (by omega); omega)

theorem deriv_arith1 {s : Src} (h : OkC (build s)) (P : Nat) (hP : 11 ≤ P) (hn : P + 1 ≤ TOP) :
    Deriv cLang (P + 1) (cstC (wrap P 1 (build s))) :=
  deriv_wrap h P 1 (P + 1) hn (fun h' => by
    have := prec_le_clev s (by omega); omega)

/-- A number used as a truth value by `and`, `or`. -/
theorem clev_truth (s : Src) (P : Nat) (hP : 4 ≤ P) (ht : s.ty ≠ .bool) (hb : s.isBit = false)
    (hp : P ≤ s.prec) : 9 ≤ s.clev := by
  cases s with
  | un o a => simp [Src.clev]
  | bin o a b =>
    cases o <;> simp_all [Src.clev, Src.isBit, Src.ty]
  | ite => simp [Src.clev]
  | _ => simp [Src.clev]

theorem okC_elem {s : Src} (h : OkC (build s)) (hs : s.ty = .bool ∨ s.isBit = false) :
    OkC (andElem (build s)) ∧ OkC (orElem (build s)) := by
  constructor
  · unfold andElem
    refine okC_castBool (okC_wrap _ _ h) (fun ht => ?_)
    simp only [ty_wrap, ty_build] at ht
    rw [lvl_wrap, prec_build, clev_build]
    split
    · omega
    · exact clev_truth s 5 (by omega) ht (by simpa [ht] using hs) (by omega)
  · cases hx : (build s).isAnd with
    | true =>
      generalize build s = e at h hx
      cases e with
      | bin o x y =>
        cases o <;> simp [Expr.isAnd] at hx
        exact okC_castBool (e := .paren _) h (fun ht => absurd rfl ht)
      | _ => simp [Expr.isAnd] at hx
    | false =>
      rw [orElem_eq _ hx]
      refine okC_castBool (okC_wrap _ _ h) (fun ht => ?_)
      simp only [ty_wrap, ty_build] at ht
      rw [lvl_wrap, prec_build, clev_build]
      split
      · omega
      · exact clev_truth s 4 (by omega) ht (by simpa [ht] using hs) (by omega)

theorem okC_andHead {s : Src} (h : OkC (build s)) (hs : s.ty = .bool ∨ s.isBit = false) :
    OkC (andHead (build s)) := by
  cases hx : (build s).isAnd with
  | true => rw [andHead_of_and _ hx]; exact h
  | false => rw [andHead_of_not _ hx]; exact (okC_elem h hs).1

theorem okC_orHead {s : Src} (h : OkC (build s)) (hs : s.ty = .bool ∨ s.isBit = false) :
    OkC (orHead (build s)) := by
  cases hx : (build s).isOr with
  | true => rw [orHead_of_or _ hx]; exact h
  | false => rw [orHead_of_not _ hx]; exact (okC_elem h hs).2

theorem deriv_andHead {e : Expr} (h : OkC e) :
    Deriv cLang 5 (if e.isAnd then cstC e else cArgT e (cstC e)) := by
  split
  · rename_i hx
    cases e with
    | bin o a b =>
      cases o <;> simp [Expr.isAnd] at hx
      exact (deriv_iff (by decide)).2 ⟨h, Nat.le_refl _⟩
    | _ => simp [Expr.isAnd] at hx
  · exact deriv_cArgT h _ (by decide)

theorem deriv_orHead {e : Expr} (h : OkC e) :
    Deriv cLang 4 (if e.isOr then cstC e else cArgT e (cstC e)) := by
  split
  · rename_i hx
    cases e with
    | bin o a b =>
      cases o <;> simp [Expr.isOr] at hx
      exact (deriv_iff (by decide)).2 ⟨h, Nat.le_refl _⟩
    | _ => simp [Expr.isOr] at hx
  · exact deriv_cArgT h _ (by decide)

/-- Operands of comparisons and boolean `^`. -/
theorem clev_cmp (s : Src) (h : 7 ≤ s.prec) (hb : s.isBit = false) :
    9 ≤ s.clev ∧ (s.isEq = false → 10 ≤ s.clev) ∧ (7 < s.prec → 11 ≤ s.clev) := by
  cases s with
  | un o a => cases o <;> simp_all [Src.prec, Src.clev]
  | bin o a b =>
    cases o <;> simp_all [Src.prec, Src.clev, BOp.prec, Src.isBit, Src.isEq]
    split <;> omega
  | _ => simp_all [Src.prec, Src.clev]

theorem clev_bxor (s : Src) (h : s.isBxor = true) (ht : s.ty = .bool) : s.clev = 9 := by
  cases s with
  | bin o a b =>
    cases o <;> simp [Src.isBxor] at h
    simp only [Src.ty] at ht
    simp only [Src.clev]
    by_cases hh : a.ty = .bool ∧ b.ty = .bool
    · simp [hh]
    · simp [hh] at ht
  | _ => simp [Src.isBxor] at h

theorem clev_bool_xor_arg (s : Src) (h : 9 ≤ s.prec) (ht : s.ty = .bool) (hb : s.isBand = false) :
    9 ≤ s.clev ∧ (9 < s.prec → 10 ≤ s.clev) := by
  cases s with
  | un o a => cases o <;> simp_all [Src.prec, Src.clev]
  | bin o a b =>
    cases o <;> simp [Src.prec, BOp.prec] at h <;> simp [Src.isBand] at hb <;>
      simp [Src.clev, Src.prec, BOp.prec]
    simp only [Src.ty] at ht
    by_cases hh : a.ty = .bool ∧ b.ty = .bool
    · simp [hh]
    · simp [hh] at ht
  | _ => simp_all [Src.prec, Src.clev]

theorem clev_int_xor_arg (s : Src) (h : 9 ≤ s.prec) (ht : s.ty = .int) :
    7 ≤ s.clev ∧ (9 < s.prec → 8 ≤ s.clev) := by
  cases s with
  | un o a => cases o <;> simp_all [Src.prec, Src.clev]
  | bin o a b =>
    cases o <;> simp [Src.prec, BOp.prec] at h <;> simp [Src.clev, Src.prec, BOp.prec]
    all_goals
      simp only [Src.ty] at ht
      by_cases hh : a.ty = .bool ∧ b.ty = .bool
      · simp [hh] at ht
      · simp [hh]
  | _ => simp_all [Src.prec, Src.clev]

theorem cLang_c (c : Cmp) : cLang.bin c.c = leftAssoc (if c.isEq then 9 else 10) := by
  cases c <;> rfl

theorem okC_build (s : Src) (hn : s.Normal) (hs : s.CSafe) : OkC (build s) := by
  induction s with
  | atom => trivial
  | un o a ih =>
    have ih := ih hn hs
    cases o
    case not =>
      refine ⟨_, rfl, Nat.zero_le _, ?_⟩
      exact deriv_cArgT (okC_wrap _ _ ih) _ (by decide)
    case inv =>
      refine ⟨_, rfl, Nat.zero_le _, ?_⟩
      exact deriv_castInt (by decide) (okC_wrap _ _ ih)
        (fun _ => deriv_arith0 ih 14 (by decide) (by decide))
    all_goals
      refine ⟨_, rfl, Nat.zero_le _, ?_⟩
      exact deriv_wrapSign (by decide) (deriv_arith0 ih 14 (by decide) (by decide))
  | bin o a b iha ihb =>
    obtain ⟨n1, n2, n3⟩ := hn
    obtain ⟨s1, s2, s3⟩ := hs
    have iha := iha n1 s1
    have ihb := ihb n2 s2
    have sg0 : ∀ P, 11 ≤ P → P ≤ TOP → Deriv cLang P (cstC (wrapSign (wrap P 0 (build a)))) :=
      fun P h1 h2 => deriv_wrapSign h2 (deriv_arith0 iha P h1 h2)
    have sg1 : ∀ P, 11 ≤ P → P + 1 ≤ TOP →
        Deriv cLang (P + 1) (cstC (wrapSign (wrap P 1 (build b)))) :=
      fun P h1 h2 => deriv_wrapSign h2 (deriv_arith1 ihb P h1 h2)
    have low0 := fun n hn (h : n ≤ 13) => (deriv_iff (t := cstC (wrapSign (wrap 13 0 (build a))))
      (L := cLang) (n := n) hn).2 ⟨((deriv_iff (by decide)).1 (sg0 13 (by decide) (by decide))).1,
        Nat.le_trans h ((deriv_iff (by decide)).1 (sg0 13 (by decide) (by decide))).2⟩
    have low1 := fun n hn (h : n ≤ 14) => (deriv_iff (t := cstC (wrapSign (wrap 13 1 (build b))))
      (L := cLang) (n := n) hn).2 ⟨((deriv_iff (by decide)).1 (sg1 13 (by decide) (by decide))).1,
        Nat.le_trans h ((deriv_iff (by decide)).1 (sg1 13 (by decide) (by decide))).2⟩
    cases o
    case add | sub =>
      exact okC_bin rfl (sg0 12 (by decide) (by decide)) (sg1 12 (by decide) (by decide))
    case mul =>
      exact okC_bin rfl (sg0 13 (by decide) (by decide)) (sg1 13 (by decide) (by decide))
    case div =>
      exact okC_bin rfl (deriv_cCastIfT _ _ (sg0 13 (by decide) (by decide)) (by decide))
        (deriv_cCastIfT _ _ (sg1 13 (by decide) (by decide)) (by decide))
    case mod =>
      show Deriv cLang 0 (cstC (.bin .mod _ _))
      simp only [cstC]
      split
      · exact okC_bin (p := ⟨0, 0, 1⟩) rfl (low0 0 (by decide) (by decide)) (low1 1 (by decide) (by decide))
      · exact okC_bin (p := ⟨0, 0, 1⟩) rfl
          (deriv_cCastIfT _ _ (low0 0 (by decide) (by decide)) (by decide))
          (deriv_cCastIfT _ _ (low1 1 (by decide) (by decide)) (by decide))
    case fdiv =>
      show Deriv cLang 0 (cstC (.bin .fdiv _ _))
      simp only [cstC]
      split
      · exact okC_bin (p := ⟨0, 0, 1⟩) rfl (low0 0 (by decide) (by decide)) (low1 1 (by decide) (by decide))
      · exact okC_bin (p := ⟨13, 13, 14⟩) rfl
          (deriv_cCastIfT _ _ (low0 13 (by decide) (by decide)) (by decide))
          (deriv_cCastIfT _ _ (low1 14 (by decide) (by decide)) (by decide))
    case pow =>
      refine okC_bin (s := .comma) (p := ⟨0, 0, 1⟩) rfl
        (deriv_cCastIfT _ _ (okC_wrapPow 0 iha) (by decide))
        (deriv_cCastIfT _ _ ((deriv_iff (by decide)).2 ⟨okC_wrapPow 1 ihb, ?_⟩) (by decide))
      rw [lvl_wrapPow, clev_build]
      have := clev_le b
      split
      · show 1 ≤ 20; omega
      · show 1 ≤ b.clev; omega
    case shl | shr =>
      exact okC_bin rfl
        (deriv_castInt (by decide) (okC_wrap _ _ iha)
          (fun _ => deriv_arith0 iha 11 (by decide) (by decide)))
        (deriv_castInt (by decide) (okC_wrap _ _ ihb)
          (fun _ => deriv_arith1 ihb 11 (by decide) (by decide)))
    case band | bor =>
      show Deriv cLang 0 (cstC (.bin _ _ _))
      simp only [cstC, ty_castTo, ty_build]
      by_cases h : a.ty = .bool ∧ b.ty = .bool
      · simp only [h, and_self, if_true]
        rw [castTo_of_ty (by simpa using h.1), castTo_of_ty (by simpa using h.2)]
        exact okC_bin rfl (deriv_cArgT (okC_wrap _ _ iha) _ (by decide))
          (deriv_cArgT (okC_wrap _ _ ihb) _ (by decide))
      · simp only [h, if_false]
        exact okC_bin rfl (deriv_cArgT (okC_castInt (okC_wrap _ _ iha)) _ (by decide))
          (deriv_cArgT (okC_castInt (okC_wrap _ _ ihb)) _ (by decide))
    case bxor =>
      show Deriv cLang 0 (cstC (.bin _ _ _))
      simp only [cstC, ty_castTo, ty_build]
      by_cases h : a.ty = .bool ∧ b.ty = .bool
      · simp only [h, and_self, if_true]
        rw [castTo_of_ty (by simpa using h.1), castTo_of_ty (by simpa using h.2)]
        refine okC_bin (p := ⟨9, 9, 10⟩) rfl (deriv_wrap iha _ _ _ (by decide) ?_)
          (deriv_wrap ihb _ _ _ (by decide) ?_)
        · intro h'; exact (clev_bool_xor_arg a (by omega) h.1 (s3 h).1).1
        · intro h'; exact (clev_bool_xor_arg b (by omega) h.2 (s3 h).2).2 (by omega)
      · simp only [h, if_false]
        refine okC_bin (p := ⟨7, 7, 8⟩) rfl
          (deriv_castInt (by decide) (okC_wrap _ _ iha) (fun ht => deriv_wrap iha _ _ _ (by decide) ?_))
          (deriv_castInt (by decide) (okC_wrap _ _ ihb) (fun ht => deriv_wrap ihb _ _ _ (by decide) ?_))
        · intro h'; exact (clev_int_xor_arg a (by omega) (by simpa using ht)).1
        · intro h'; exact (clev_int_xor_arg b (by omega) (by simpa using ht)).2 (by omega)
    case cmp c =>
      obtain ⟨c1, c2, c3⟩ := s3
      cases hc : c.isEq with
      | true =>
        refine okC_bin (p := ⟨9, 9, 10⟩) (by rw [cLang_c, hc]; rfl)
          (deriv_wrap iha _ _ _ (by decide) ?_) (deriv_wrap ihb _ _ _ (by decide) ?_)
        · intro h'
          rcases c1 with h | ⟨_, h1, h2⟩
          · exact (clev_cmp a (by omega) h).1
          · rw [clev_bxor a h1 h2]; exact Nat.le_refl _
        · intro h'
          have := (clev_cmp b (by omega) c2).2.2 (by omega)
          show 10 ≤ _; omega
      | false =>
        refine okC_bin (p := ⟨10, 10, 11⟩) (by rw [cLang_c, hc]; rfl)
          (deriv_wrap iha _ _ _ (by decide) ?_) (deriv_wrap ihb _ _ _ (by decide) ?_)
        · intro h'
          have h : a.isBit = false := by simpa [hc] using c1
          exact (clev_cmp a (by omega) h).2.1 (by simpa [hc] using c3)
        · intro h'
          exact (clev_cmp b (by omega) c2).2.2 (by omega)
    case and =>
      show Deriv cLang 0 (cstC (mkAnd _ _))
      rw [mkAnd_of_not _ _ (by rw [isAnd_build]; exact n3)]
      exact okC_bin rfl (deriv_andHead (okC_andHead iha s3.1))
        (deriv_cArgT (okC_elem ihb s3.2).1 _ (by decide))
    case or =>
      show Deriv cLang 0 (cstC (mkOr _ _))
      rw [mkOr_of_not _ _ (by rw [isOr_build]; exact n3)]
      exact okC_bin rfl (deriv_orHead (okC_orHead iha s3.1))
        (deriv_cArgT (okC_elem ihb s3.2).2 _ (by decide))
  | ite c t f h1 h2 h3 =>
    obtain ⟨n1, n2, n3⟩ := hn
    obtain ⟨s1, s2, s3⟩ := hs
    have l := fun s => clev_le s
    refine ⟨rfl, by omega, ?_, ?_, ?_⟩
    · exact deriv_wrap (h1 n1 s1) _ _ _ (by decide) (fun _ => l c)
    · exact okC_wrap _ _ (h2 n2 s2)
    · exact deriv_wrap (h3 n3 s3) _ _ _ (by decide) (fun _ => by have := l f; omega)

end Verif.Exprs
