import Verif.Exprs.Parser
/-
A text and an abstract syntax tree determine the concrete syntax tree.
-/
namespace Verif.Exprs
variable {S F : Type}

/-- Parentheses opened and not closed. -/
def dep : List (Tok S F) → Int
  | [] => 0
  | .lp :: r => 1 + dep r
  | .rp :: r => -1 + dep r
  | _ :: r => dep r

/-- Number of tokens which are not parentheses. -/
def core : List (Tok S F) → Nat
  | [] => 0
  | .lp :: r => core r
  | .rp :: r => core r
  | _ :: r => 1 + core r

theorem dep_append (a b : List (Tok S F)) : dep (a ++ b) = dep a + dep b := by
  induction a with
  | nil => simp [dep]
  | cons x a ih => cases x <;> simp [dep, ih] <;> omega

theorem core_append (a b : List (Tok S F)) : core (a ++ b) = core a + core b := by
  induction a with
  | nil => simp [core]
  | cons x a ih => cases x <;> simp [core, ih] <;> omega

/-- Texts in which no closing parenthesis comes too early. -/
def Bal (ts : List (Tok S F)) : Prop := dep ts = 0 ∧ ∀ p s, ts = p ++ s → 0 ≤ dep p

theorem bal_append {a b : List (Tok S F)} (ha : Bal a) (hb : Bal b) : Bal (a ++ b) := by
  refine ⟨by rw [dep_append, ha.1, hb.1]; rfl, ?_⟩
  intro p s h
  rcases List.append_eq_append_iff.1 h with ⟨w, h1, h2⟩ | ⟨w, h1, h2⟩
  · rw [h1, dep_append, ha.1]
    have := hb.2 w s h2
    omega
  · exact ha.2 p w h1

theorem bal_wrap {a : List (Tok S F)} (ha : Bal a) : Bal (.lp :: (a ++ [.rp])) := by
  refine ⟨by simp [dep, dep_append, ha.1], ?_⟩
  intro p s h
  cases p with
  | nil => simp [dep]
  | cons x p =>
    simp only [List.cons_append, List.cons.injEq] at h
    obtain ⟨rfl, h⟩ := h
    rcases List.append_eq_append_iff.1 h with ⟨w, h1, h2⟩ | ⟨w, h1, h2⟩
    · rw [h1]
      simp only [dep, dep_append, ha.1]
      rcases w with _ | ⟨y, w⟩
      · simp [dep]
      · simp only [List.cons_append, List.cons.injEq] at h2
        obtain ⟨rfl, h2⟩ := h2
        have : w = [] := by
          cases w with
          | nil => rfl
          | cons => simp at h2
        subst this
        simp [dep]
    · have := ha.2 p w h1
      simp only [dep]
      omega

theorem bal_one {x : Tok S F} (h : x ≠ .lp) (h' : x ≠ .rp) : Bal [x] := by
  refine ⟨by cases x <;> simp_all [dep], ?_⟩
  intro p s e
  cases p with
  | nil => simp [dep]
  | cons y p =>
    simp only [List.cons_append, List.cons.injEq] at e
    obtain ⟨rfl, e⟩ := e
    have : p = [] := by
      cases p with
      | nil => rfl
      | cons => simp at e
    subst this
    cases x <;> simp_all [dep]

theorem bal_flatten : ∀ t : CST S F, Bal t.flatten
  | .atom a => bal_one (by simp) (by simp)
  | .paren t => bal_wrap (bal_flatten t)
  | .call f t => by
    have := bal_append (bal_one (x := (Tok.fn f : Tok S F)) (by simp) (by simp))
      (bal_wrap (bal_flatten t))
    exact this
  | .un s t => bal_append (bal_one (x := (Tok.sym s : Tok S F)) (by simp) (by simp))
      (bal_flatten t)
  | .bin s a b => bal_append (bal_flatten a)
      (bal_append (bal_one (x := (Tok.sym s : Tok S F)) (by simp) (by simp)) (bal_flatten b))
  | .tern a b c => bal_append (bal_flatten a)
      (bal_append (bal_one (x := (Tok.q1 : Tok S F)) (by simp) (by simp))
        (bal_append (bal_flatten b)
          (bal_append (bal_one (x := (Tok.q2 : Tok S F)) (by simp) (by simp)) (bal_flatten c))))

theorem core_strip : ∀ t : CST S F, core t.flatten = core t.strip.flatten
  | .atom a => rfl
  | .paren t => by simp [CST.flatten, CST.strip, core, core_append, core_strip t]
  | .call f t => by simp [CST.flatten, CST.strip, core, core_append, core_strip t]
  | .un s t => by simp [CST.flatten, CST.strip, core, core_strip t]
  | .bin s a b => by
    simp [CST.flatten, CST.strip, core, core_append, core_strip a, core_strip b]
  | .tern a b c => by
    simp [CST.flatten, CST.strip, core, core_append, core_strip a, core_strip b, core_strip c]

theorem core_eq {t u : CST S F} (h : t.strip = u.strip) : core t.flatten = core u.flatten := by
  rw [core_strip, core_strip u, h]

/-- Two texts of equally many tokens, each followed by a token which is not a parenthesis. -/
theorem cut {a a' r r' : List (Tok S F)} {x x' : Tok S F} (hx : x ≠ .lp ∧ x ≠ .rp)
    (hx' : x' ≠ .lp ∧ x' ≠ .rp) (hc : core a = core a') (h : a ++ x :: r = a' ++ x' :: r') :
    a = a' ∧ x = x' ∧ r = r' := by
  have key : ∀ (y : Tok S F) (w : List (Tok S F)), y ≠ .lp ∧ y ≠ .rp → 0 < core (y :: w) := by
    intro y w hy
    cases y <;> simp_all [core] <;> omega
  rcases List.append_eq_append_iff.1 h with ⟨w, h1, h2⟩ | ⟨w, h1, h2⟩
  · cases w with
    | nil => simp_all
    | cons y w =>
      simp only [List.cons_append, List.cons.injEq] at h2
      obtain ⟨rfl, _⟩ := h2
      have := key x w hx
      rw [h1, core_append] at hc
      omega
  · cases w with
    | nil => simp_all
    | cons y w =>
      simp only [List.cons_append, List.cons.injEq] at h2
      obtain ⟨rfl, _⟩ := h2
      have := key x' w hx'
      rw [h1, core_append] at hc
      omega

/-- A parenthesised text is not an operand followed by an operator. -/
theorem not_cut {t r a : List (Tok S F)} {x : Tok S F} (hx : x ≠ .lp ∧ x ≠ .rp) (hb : Bal t)
    (ha : Bal a) (hc : core t = core a + core (x :: r)) (hn : a ≠ [])
    (h : Tok.lp :: (t ++ [.rp]) = a ++ x :: r) : False := by
  have hx1 : 0 < core (x :: r) := by cases x <;> simp_all [core] <;> omega
  rw [← List.cons_append] at h
  rcases List.append_eq_append_iff.1 h with ⟨w, h1, h2⟩ | ⟨w, h1, h2⟩
  · rw [h1, core_append] at hc
    simp only [core] at hc
    omega
  · cases a with
    | nil => exact hn rfl
    | cons y p =>
      simp only [List.cons_append, List.cons.injEq] at h1
      obtain ⟨rfl, h1⟩ := h1
      have h3 := hb.2 p w h1
      have h4 := ha.1
      simp only [dep] at h4
      omega

theorem flatten_ne : ∀ t : CST S F, t.flatten ≠ []
  | .atom _ | .paren _ | .call _ _ | .un _ _ => by simp [CST.flatten]
  | .bin _ _ _ | .tern _ _ _ => by simp [CST.flatten]

theorem strip_paren_of {t : CST S F} : (CST.paren t).strip = t.strip := rfl

/-- A text and an abstract syntax tree determine the concrete syntax tree. -/
theorem same_text : ∀ t u : CST S F, t.strip = u.strip → t.flatten = u.flatten → t = u
  | .paren t, .paren u, hs, hf => by
    simp only [CST.flatten, List.cons.injEq, true_and] at hf
    rw [same_text t u hs (List.append_cancel_right hf)]
  | .atom a, .atom b, hs, _ => hs
  | .call f t, .call g u, hs, hf => by
    simp only [CST.strip, CST.call.injEq] at hs
    simp only [CST.flatten, List.cons.injEq, true_and] at hf
    rw [hs.1, same_text t u hs.2 (List.append_cancel_right hf.2)]
  | .un s t, .un s' u, hs, hf => by
    simp only [CST.strip, CST.un.injEq] at hs
    simp only [CST.flatten, List.cons.injEq, true_and] at hf
    rw [hs.1, same_text t u hs.2 hf.2]
  | .bin s a b, .bin s' a' b', hs, hf => by
    simp only [CST.strip, CST.bin.injEq] at hs
    simp only [CST.flatten] at hf
    obtain ⟨h1, h2, h3⟩ := cut (by simp) (by simp) (core_eq hs.2.1) hf
    rw [hs.1, same_text a a' hs.2.1 h1, same_text b b' hs.2.2 h3]
  | .tern a b c, .tern a' b' c', hs, hf => by
    simp only [CST.strip, CST.tern.injEq] at hs
    simp only [CST.flatten] at hf
    obtain ⟨h1, _, h3⟩ := cut (by simp) (by simp) (core_eq hs.1) hf
    obtain ⟨h4, _, h5⟩ := cut (by simp) (by simp) (core_eq hs.2.1) h3
    rw [same_text a a' hs.1 h1, same_text b b' hs.2.1 h4, same_text c c' hs.2.2 h5]
  | .paren t, .bin s a b, hs, hf => by
    exfalso
    have := core_eq hs
    simp only [CST.flatten, core, core_append] at this hf
    exact not_cut (x := .sym s) (by simp) (bal_flatten t) (bal_flatten a)
      (by simp only [core]; omega) (flatten_ne a) hf
  | .bin s a b, .paren t, hs, hf => by
    exfalso
    have := core_eq hs
    simp only [CST.flatten, core, core_append] at this hf
    exact not_cut (x := .sym s) (by simp) (bal_flatten t) (bal_flatten a)
      (by simp only [core]; omega) (flatten_ne a) hf.symm
  | .paren t, .tern a b c, hs, hf => by
    exfalso
    have := core_eq hs
    simp only [CST.flatten, core, core_append] at this hf
    exact not_cut (x := .q1) (by simp) (bal_flatten t) (bal_flatten a)
      (by simp only [core, core_append]; omega) (flatten_ne a) hf
  | .tern a b c, .paren t, hs, hf => by
    exfalso
    have := core_eq hs
    simp only [CST.flatten, core, core_append] at this hf
    exact not_cut (x := .q1) (by simp) (bal_flatten t) (bal_flatten a)
      (by simp only [core, core_append]; omega) (flatten_ne a) hf.symm
  | .paren t, .atom _, _, hf | .paren t, .call _ _, _, hf | .paren t, .un _ _, _, hf => by
    simp [CST.flatten] at hf
  | .atom _, .paren t, _, hf | .call _ _, .paren t, _, hf | .un _ _, .paren t, _, hf => by
    simp [CST.flatten] at hf
  | .atom _, .call _ _, hs, _ | .atom _, .un _ _, hs, _ | .atom _, .bin _ _ _, hs, _
  | .atom _, .tern _ _ _, hs, _ | .call _ _, .atom _, hs, _ | .call _ _, .un _ _, hs, _
  | .call _ _, .bin _ _ _, hs, _ | .call _ _, .tern _ _ _, hs, _ | .un _ _, .atom _, hs, _
  | .un _ _, .call _ _, hs, _ | .un _ _, .bin _ _ _, hs, _ | .un _ _, .tern _ _ _, hs, _
  | .bin _ _ _, .atom _, hs, _ | .bin _ _ _, .call _ _, hs, _ | .bin _ _ _, .un _ _, hs, _
  | .bin _ _ _, .tern _ _ _, hs, _ | .tern _ _ _, .atom _, hs, _ | .tern _ _ _, .call _ _, hs, _
  | .tern _ _ _, .un _ _, hs, _ | .tern _ _ _, .bin _ _ _, hs, _ => by simp [CST.strip] at hs

/-- A text written after the tree `t` is read as that tree exactly if `t` follows the grammar. -/
theorem read_iff (L : Lang S) (t : CST S F) :
    (∃ u, Parses L t.flatten u ∧ u.strip = t.strip) ↔ Deriv L 0 t := by
  constructor
  · rintro ⟨u, ⟨hf, hd⟩, hs⟩
    rw [← same_text u t hs hf]
    exact hd
  · intro h
    exact ⟨t, ⟨rfl, h⟩, rfl⟩

end Verif.Exprs
