import Verif.Source.Model

/-!
# The text of a function given to epyccel: lemmas
-/

namespace Verif.Source.Lemmas
open Verif.Source.Spec Verif.Source.Model

theorem ws_iff (c : Char) : ws c = true ↔ White c := by
  simp [ws, White, or_assoc]

theorem word_iff (c : Char) : word c = true ↔ NameChar c := by
  simp [word, NameChar, or_assoc]

theorem ws_decide : (fun c => decide (White c)) = ws := by
  funext c
  cases h : ws c
  · have : ¬ White c := fun hw => by rw [(ws_iff c).2 hw] at h; cases h
    simp [this]
  · simp [(ws_iff c).1 h]

theorem mem_takeWhile_imp {p : Char → Bool} {l : List Char} {x : Char} (h : x ∈ l.takeWhile p) :
    p x = true := by
  induction l with
  | nil => cases h
  | cons y t ih =>
    rw [List.takeWhile_cons] at h
    split at h
    · rename_i hy
      rcases List.mem_cons.1 h with rfl | h
      · exact hy
      · exact ih h
    · cases h

theorem leading_eq (l : Line) : leading l = indent l := by
  unfold leading indent
  rw [ws_decide]
  have h := congrArg List.length (List.takeWhile_append_dropWhile (p := ws) (l := l))
  rw [List.length_append] at h
  omega

theorem dropWhile_ws {a : List Char} (h : ∀ x ∈ a, White x) (b : List Char) :
    (a ++ b).dropWhile ws = b.dropWhile ws := by
  induction a with
  | nil => rfl
  | cons x t ih =>
    have hx : ws x = true := (ws_iff x).2 (h x (by simp))
    simp only [List.cons_append, List.dropWhile_cons, hx, if_true]
    exact ih fun y hy => h y (by simp [hy])

theorem takeWhile_all {p : Char → Bool} {a : List Char} (h : ∀ x ∈ a, p x = true) (c : Char)
    (b : List Char) (hc : p c = false) : (a ++ c :: b).takeWhile p = a := by
  induction a with
  | nil => simp [hc]
  | cons x t ih =>
    simp only [List.cons_append, List.takeWhile_cons, h x (by simp), if_true]
    rw [ih fun y hy => h y (by simp [hy])]

theorem dropWhile_all {p : Char → Bool} {a : List Char} (h : ∀ x ∈ a, p x = true) (c : Char)
    (b : List Char) (hc : p c = false) : (a ++ c :: b).dropWhile p = c :: b := by
  induction a with
  | nil => simp [hc]
  | cons x t ih =>
    simp only [List.cons_append, List.dropWhile_cons, h x (by simp), if_true]
    exact ih fun y hy => h y (by simp [hy])

theorem word_not_ws {c : Char} (h : word c = true) : ws c = false := by
  cases hw : ws c with
  | false => rfl
  | true =>
    exfalso
    rcases (ws_iff c).1 hw with rfl | rfl | rfl | rfl <;> exact absurd h (by decide)

theorem ws_not_word {c : Char} (h : ws c = true) : word c = false := by
  cases hw : word c with
  | false => rfl
  | true => rw [word_not_ws hw] at h; cases h

/-- The regular expression finds exactly the lines that define a function. -/
theorem protoName_iff (l : Line) (n : Name) : protoName l = some n ↔ Defines l n := by
  constructor
  · intro h
    unfold protoName at h
    split at h
    · rename_i r hr
      unfold afterDef at h
      simp only at h
      split at h
      · rename_i hc
        obtain ⟨h1, h2, h3⟩ := hc
        have hn : (r.dropWhile ws).takeWhile word = n := by simpa using h
        obtain ⟨rest, hrest⟩ : ∃ rest, (((r.dropWhile ws).dropWhile word).dropWhile ws) = '(' :: rest := by
          cases hh : (((r.dropWhile ws).dropWhile word).dropWhile ws) with
          | nil => rw [hh] at h3; cases h3
          | cons c t => rw [hh] at h3; simp at h3; exact ⟨t, by rw [h3]⟩
        refine ⟨l.takeWhile ws, r.takeWhile ws, ((r.dropWhile ws).dropWhile word).takeWhile ws,
          rest, ?_, ?_, h1, ?_, ?_, ?_, ?_⟩
        · have e1 := List.takeWhile_append_dropWhile (p := ws) (l := l)
          have e2 := List.takeWhile_append_dropWhile (p := ws) (l := r)
          have e3 := List.takeWhile_append_dropWhile (p := word) (l := r.dropWhile ws)
          have e4 := List.takeWhile_append_dropWhile (p := ws) (l := (r.dropWhile ws).dropWhile word)
          rw [hrest] at e4
          rw [hn] at e3
          rw [hr] at e1
          calc l = l.takeWhile ws ++ 'd' :: 'e' :: 'f' :: r := e1.symm
            _ = l.takeWhile ws ++ 'd' :: 'e' :: 'f' :: (r.takeWhile ws ++ (n ++
                  (((r.dropWhile ws).dropWhile word).takeWhile ws ++ '(' :: rest))) := by
                rw [e4, e3, e2]
            _ = _ := by simp
        · intro x hx; exact (ws_iff x).1 (mem_takeWhile_imp hx)
        · intro x hx; exact (ws_iff x).1 (mem_takeWhile_imp hx)
        · rw [← hn]; exact h2
        · intro x hx; rw [← hn] at hx; exact (word_iff x).1 (mem_takeWhile_imp hx)
        · intro x hx; exact (ws_iff x).1 (mem_takeWhile_imp hx)
      · cases h
    · cases h
  · rintro ⟨a, b, c, r, rfl, ha, hb, hbw, hn, hnw, hc⟩
    have h1 : (a ++ chars! "def" ++ b ++ n ++ c ++ '(' :: r).dropWhile ws
        = 'd' :: 'e' :: 'f' :: (b ++ n ++ c ++ '(' :: r) := by
      have : a ++ chars! "def" ++ b ++ n ++ c ++ '(' :: r
          = a ++ 'd' :: ('e' :: 'f' :: (b ++ n ++ c ++ '(' :: r)) := by simp
      rw [this]
      exact dropWhile_all (fun x hx => (ws_iff x).2 (ha x hx)) _ _ (by decide)
    unfold protoName
    rw [h1]
    simp only
    obtain ⟨x, n', rfl⟩ := List.exists_cons_of_ne_nil hn
    have hx : word x = true := (word_iff x).2 (hnw x (by simp))
    have h2 : (b ++ (x :: n') ++ c ++ '(' :: r).dropWhile ws = x :: n' ++ (c ++ '(' :: r) := by
      have : b ++ (x :: n') ++ c ++ '(' :: r = b ++ x :: (n' ++ (c ++ '(' :: r)) := by simp
      rw [this]
      exact dropWhile_all (fun y hy => (ws_iff y).2 (hbw y hy)) _ _ (word_not_ws hx)
    have h3 : (b ++ (x :: n') ++ c ++ '(' :: r).takeWhile ws = b := by
      have : b ++ (x :: n') ++ c ++ '(' :: r = b ++ x :: (n' ++ (c ++ '(' :: r)) := by simp
      rw [this]
      exact takeWhile_all (fun y hy => (ws_iff y).2 (hbw y hy)) _ _ (word_not_ws hx)
    have hw : ∀ y ∈ x :: n', word y = true := fun y hy => (word_iff y).2 (hnw y hy)
    have h4 : (x :: n' ++ (c ++ '(' :: r)).takeWhile word = x :: n' ∧
        (x :: n' ++ (c ++ '(' :: r)).dropWhile word = c ++ '(' :: r := by
      cases c with
      | nil => exact ⟨takeWhile_all hw _ _ (by decide), dropWhile_all hw _ _ (by decide)⟩
      | cons y c' =>
        have hy : word y = false := ws_not_word ((ws_iff y).2 (hc y (by simp)))
        exact ⟨takeWhile_all hw _ _ hy, dropWhile_all hw _ _ hy⟩
    have h5 : (c ++ '(' :: r).dropWhile ws = '(' :: r :=
      dropWhile_all (fun y hy => (ws_iff y).2 (hc y hy)) _ _ (by decide)
    unfold afterDef
    simp only [h2, h3, h4.1, h4.2, h5]
    simp [hb]

/-! ## Comments and colons -/

theorem beforeLastHash_none {l : Line} (h : '#' ∉ l) : beforeLastHash l = none := by
  induction l with
  | nil => rfl
  | cons c t ih =>
    have hc : c ≠ '#' := fun e => h (by simp [e])
    simp [beforeLastHash, ih fun e => h (by simp [e]), hc]

theorem beforeLastHash_hash {a c : Line} (h : '#' ∉ c) :
    beforeLastHash (a ++ '#' :: c) = some a := by
  induction a with
  | nil => simp [beforeLastHash, beforeLastHash_none h]
  | cons x t ih => simp [beforeLastHash, ih]

theorem cut_head {h : HeadLine} (hs : h.Simple) : cut h.text = h.code := by
  obtain ⟨h1, h2, -⟩ := hs
  unfold cut HeadLine.text
  cases hc : h.comment with
  | none =>
    have hn : '#' ∉ h.code ++ ['\n'] := by simp [h1]
    simp [beforeLastHash_none hn]
  | some c =>
    have hn : '#' ∉ c ++ ['\n'] := by simp [h2 c hc]
    simp [beforeLastHash_hash hn]

theorem commentless_head {h : HeadLine} (hs : h.Simple) : commentless h.text = h.code ++ ['\n'] := by
  unfold commentless
  rw [cut_head hs, if_pos hs.2.2]

theorem endsColon_code (code : List Char) : endsColon (code ++ ['\n']) = true ↔ EndsWithColon code := by
  unfold endsColon
  have hn : ws '\n' = true := by decide
  rw [List.reverse_append]
  simp only [List.reverse_cons, List.reverse_nil, List.nil_append, List.cons_append,
    List.dropWhile_cons, hn, if_true]
  constructor
  · intro h
    have hh : (code.reverse.dropWhile ws).head? = some ':' := by simpa using h
    cases hd : code.reverse.dropWhile ws with
    | nil => rw [hd] at hh; cases hh
    | cons c t =>
      rw [hd] at hh
      simp at hh
      subst hh
      refine ⟨t.reverse, (code.reverse.takeWhile ws).reverse, ?_, ?_⟩
      · have e := List.takeWhile_append_dropWhile (p := ws) (l := code.reverse)
        rw [hd] at e
        have := congrArg List.reverse e
        simpa using this.symm
      · intro x hx
        exact (ws_iff x).1 (mem_takeWhile_imp (List.mem_reverse.1 hx))
  · rintro ⟨a, w, rfl, hw⟩
    have : (a ++ ':' :: w).reverse = w.reverse ++ ':' :: a.reverse := by simp
    rw [this, dropWhile_all (fun x hx => (ws_iff x).2 (hw x (List.mem_reverse.1 hx))) _ _ (by decide)]
    simp

theorem findIdx_head (f : HeadLine) (o : List HeadLine) (rest : List Line)
    (hs : ∀ h ∈ f :: o, h.Simple)
    (hno : ∀ h ∈ (f :: o).dropLast, ¬ EndsWithColon h.code)
    (hl : ∀ h, (f :: o).getLast? = some h → EndsWithColon h.code) :
    (((f :: o).map fun h => commentless h.text) ++ rest).findIdx? endsColon = some o.length := by
  induction o generalizing f with
  | nil =>
    have : endsColon (commentless f.text) = true := by
      rw [commentless_head (hs f (by simp))]
      exact (endsColon_code _).2 (hl f (by simp))
    simp [List.findIdx?_cons, this]
  | cons g o ih =>
    have : endsColon (commentless f.text) = false := by
      rw [commentless_head (hs f (by simp))]
      cases hc : endsColon (f.code ++ ['\n']) with
      | false => rfl
      | true => exact absurd ((endsColon_code _).1 hc) (hno f (by simp))
    have ih' := ih g (fun h hh => hs h (List.mem_cons_of_mem _ hh))
      (fun h hh => hno h (by
        rw [List.dropLast_cons_of_ne_nil (by simp)]
        exact List.mem_cons_of_mem _ hh))
      (fun h hh => hl h (by rw [List.getLast?_cons_cons]; exact hh))
    rw [List.map_cons, List.cons_append, List.findIdx?_cons]
    simp only [this, Bool.false_eq_true, if_false]
    rw [ih']
    simp

/-! ## Indices of the definitions -/

theorem lastDef_append (n : Name) (a b : List Line) (i : Nat) (acc : Option Nat) :
    lastDef n (a ++ b) i acc = lastDef n b (i + a.length) (lastDef n a i acc) := by
  induction a generalizing i acc with
  | nil => simp [lastDef]
  | cons l t ih =>
    simp only [List.cons_append, lastDef, ih, List.length_cons]
    congr 1
    omega

theorem lastDef_none {n : Name} {b : List Line} (h : ∀ l ∈ b, ¬ Defines l n) (i : Nat)
    (acc : Option Nat) : lastDef n b i acc = acc := by
  induction b generalizing i acc with
  | nil => rfl
  | cons l t ih =>
    have hl : protoName l ≠ some n := fun e => h l (by simp) ((protoName_iff l n).1 e)
    simp only [lastDef, hl, if_false]
    exact ih (fun x hx => h x (by simp [hx])) _ _

theorem lastDef_at {n : Name} {a b : List Line} {l : Line} (hl : Defines l n)
    (h : ∀ x ∈ b, ¬ Defines x n) : lastDef n (a ++ l :: b) 0 none = some a.length := by
  rw [lastDef_append]
  simp only [lastDef, (protoName_iff l n).2 hl, if_true, Nat.zero_add]
  exact lastDef_none h _ _

theorem lastDef_some {n : Name} {b : List Line} {i j : Nat} {acc : Option Nat}
    (h : lastDef n b i acc = some j) :
    acc = some j ∨ ∃ k l, j = i + k ∧ b[k]? = some l ∧ Defines l n := by
  induction b generalizing i acc with
  | nil => exact Or.inl h
  | cons l t ih =>
    simp only [lastDef] at h
    rcases ih h with h1 | ⟨k, x, hk, hx, hd⟩
    · split at h1
      · rename_i hp
        refine Or.inr ⟨0, l, ?_, by simp, (protoName_iff l n).1 hp⟩
        simp at h1; omega
      · exact Or.inl h1
    · exact Or.inr ⟨k + 1, x, by omega, by simpa using hx, hd⟩

theorem lastDef_line {n : Name} {L : List Line} {j : Nat} (h : lastDef n L 0 none = some j) :
    ∃ l, L[j]? = some l ∧ Defines l n := by
  rcases lastDef_some h with h1 | ⟨k, l, hk, hl, hd⟩
  · cases h1
  · exact ⟨l, by rw [hk, Nat.zero_add]; exact hl, hd⟩

theorem Defines_unique {l : Line} {n m : Name} (h : Defines l n) (h' : Defines l m) : n = m := by
  have h1 := (protoName_iff l n).2 h
  have h2 := (protoName_iff l m).2 h'
  rw [h1] at h2
  simpa using h2

/-! ## The loop -/

/-- The lines of the pieces after the removal of the indentation. -/
def linesOf (k : Nat) : Piece → List Line
  | .text l => [l]
  | .blank l => [l.drop k]
  | .header f o _ _ => f.text :: o.map HeadLine.text

theorem loop_skip (cl L : List Line) (ms : List (Name × List Char)) (i k : Nat) (X : List Line)
    (h : ∀ j, i ≤ j → j < i + k → ∀ m ∈ ms, ∀ l, L[j]? = some l → ¬ Defines l m.1) :
    loop cl L ms (i + k) X = loop cl L ms i X := by
  induction k with
  | zero => rfl
  | succ k ih =>
    have hf : (ms.find? fun m => lastDef m.1 L 0 none == some (i + k)) = none := by
      rw [List.find?_eq_none]
      intro m hm hc
      obtain ⟨l, hl, hd⟩ := lastDef_line (by simpa using hc)
      exact h (i + k) (by omega) (by omega) m hm l hl hd
    rw [← Nat.add_assoc, loop, hf]
    exact ih fun j h1 h2 => h j h1 (by omega)

theorem blank_not_def {l : Line} (h : ∀ x ∈ l, White x) (n : Name) : ¬ Defines l n := by
  rintro ⟨a, b, c, r, rfl, -⟩
  have := h 'd' (by simp)
  revert this
  decide

/-- Lines of pieces that are not first lines of headers define no method. -/
def quiet (names : List Name) (l : Line) : Prop := ∀ n ∈ names, ¬ Defines l n

theorem regular_lines {names : List Name} {k : Nat} {p : Piece} (h : p.Regular names) :
    (∀ l ∈ linesOf k p, quiet names l) ∨
      ∃ f o n s, p = .header f o n s ∧ Defines f.text n ∧ ∀ l ∈ o.map HeadLine.text, quiet names l := by
  cases p with
  | text l =>
    left
    intro x hx
    simp only [linesOf, List.mem_singleton] at hx
    subst hx
    exact h
  | blank l =>
    left
    intro x hx
    simp only [linesOf, List.mem_singleton] at hx
    subst hx
    intro n _
    exact blank_not_def (fun y hy => h y (List.mem_of_mem_drop hy)) n
  | header f o n s =>
    right
    refine ⟨f, o, n, s, rfl, h.1, ?_⟩
    intro l hl
    obtain ⟨g, hg, rfl⟩ := List.mem_map.1 hl
    exact h.2.2.1 g hg

theorem mem_methodsOf {f : HeadLine} {o : List HeadLine} {n : Name} {s : List Char}
    {ps : List Piece} (h : Piece.header f o n s ∈ ps) : (n, s) ∈ methodsOf ps := by
  induction ps with
  | nil => cases h
  | cons p t ih =>
    rcases List.mem_cons.1 h with rfl | h
    · simp [methodsOf]
    · have := ih h
      cases p <;> simp [methodsOf, this]

theorem of_mem_methodsOf {m : Name × List Char} {ps : List Piece} (h : m ∈ methodsOf ps) :
    ∃ a f o b, ps = a ++ Piece.header f o m.1 m.2 :: b := by
  induction ps with
  | nil => cases h
  | cons p t ih =>
    cases p with
    | header f o n s =>
      rw [methodsOf] at h
      rcases List.mem_cons.1 h with rfl | h
      · exact ⟨[], f, o, t, rfl⟩
      · obtain ⟨a, f', o', b, rfl⟩ := ih h
        exact ⟨_ :: a, f', o', b, rfl⟩
    | text l =>
      obtain ⟨a, f', o', b, rfl⟩ := ih h
      exact ⟨_ :: a, f', o', b, rfl⟩
    | blank l =>
      obtain ⟨a, f', o', b, rfl⟩ := ih h
      exact ⟨_ :: a, f', o', b, rfl⟩

theorem methodsOf_append (a b : List Piece) : methodsOf (a ++ b) = methodsOf a ++ methodsOf b := by
  induction a with
  | nil => rfl
  | cons p t ih => cases p <;> simp [methodsOf, ih]

/-- No line of pieces without a header of `n` defines `n`. -/
theorem no_def_of_not_mem {names : List Name} {k : Nat} {ps : List Piece}
    (h : ∀ p ∈ ps, p.Regular names) {n : Name} (hn : n ∈ names)
    (hm : n ∉ (methodsOf ps).map Prod.fst) : ∀ l ∈ ps.flatMap (linesOf k), ¬ Defines l n := by
  intro l hl hd
  obtain ⟨p, hp, hlp⟩ := List.mem_flatMap.1 hl
  rcases regular_lines (k := k) (h p hp) with hq | ⟨f, o, n', s, rfl, hdf, hq⟩
  · exact hq l hlp n hn hd
  · rw [linesOf] at hlp
    rcases List.mem_cons.1 hlp with rfl | hlo
    · have := Defines_unique hd hdf
      subst this
      exact hm (List.mem_map.2 ⟨_, mem_methodsOf hp, rfl⟩)
    · exact hq l hlo n hn hd

/-- The header of a method is found at its place. -/
theorem lastDef_header {names : List Name} {k : Nat} {a b : List Piece} {f : HeadLine}
    {o : List HeadLine} {n : Name} {s : List Char}
    (h : ∀ p ∈ a ++ Piece.header f o n s :: b, p.Regular names) (hn : n ∈ names)
    (hnd : ((methodsOf (a ++ Piece.header f o n s :: b)).map Prod.fst).Nodup) :
    lastDef n ((a ++ Piece.header f o n s :: b).flatMap (linesOf k)) 0 none
      = some (a.flatMap (linesOf k)).length := by
  have hreg := h (Piece.header f o n s) (by simp)
  rw [List.flatMap_append, List.flatMap_cons, linesOf, List.cons_append]
  refine lastDef_at hreg.1 ?_
  intro x hx
  rcases List.mem_append.1 hx with hx | hx
  · obtain ⟨g, hg, rfl⟩ := List.mem_map.1 hx
    exact hreg.2.2.1 g hg n hn
  · refine no_def_of_not_mem (fun p hp => h p (by simp [hp])) hn ?_ x hx
    rw [methodsOf_append, methodsOf, List.map_append, List.map_cons, List.nodup_append] at hnd
    exact (List.nodup_cons.1 hnd.2.1).1

theorem eq_of_nodup_fst {l : List (Name × List Char)} (h : (l.map Prod.fst).Nodup)
    {x y : Name × List Char} (hx : x ∈ l) (hy : y ∈ l) (e : x.1 = y.1) : x = y := by
  induction l with
  | nil => cases hx
  | cons z t ih =>
    rw [List.map_cons, List.nodup_cons] at h
    rcases List.mem_cons.1 hx with h1 | h1 <;> rcases List.mem_cons.1 hy with h2 | h2
    · rw [h1, h2]
    · exact (h.1 (List.mem_map.2 ⟨y, h2, by rw [← e, h1]⟩)).elim
    · exact (h.1 (List.mem_map.2 ⟨x, h1, by rw [e, h2]⟩)).elim
    · exact ih h.2 h1 h2

theorem loop_pieces (k : Nat) (ms : List (Name × List Char)) (ps : List Piece)
    (hreg : ∀ p ∈ ps, p.Regular (ms.map Prod.fst))
    (hnd : ((methodsOf ps).map Prod.fst).Nodup) (hms : ∀ m, m ∈ ms ↔ m ∈ methodsOf ps)
    (ind : List Char) (hind : ind.length = k) :
    ∀ (b a : List Piece), ps = a ++ b →
      loop ((ps.flatMap (linesOf k)).map commentless) (ps.flatMap (linesOf k)) ms
          (ps.flatMap (linesOf k)).length (ps.flatMap (linesOf k))
        = loop ((ps.flatMap (linesOf k)).map commentless) (ps.flatMap (linesOf k)) ms
          (a.flatMap (linesOf k)).length (a.flatMap (linesOf k) ++ b.flatMap (wanted ind)) := by
  intro b
  induction b with
  | nil => intro a h; subst h; simp
  | cons p t ih =>
    intro a h
    rw [ih (a ++ [p]) (by simp [h])]
    have hpreg := hreg p (by simp [h])
    have hL : ps.flatMap (linesOf k)
        = a.flatMap (linesOf k) ++ (linesOf k p ++ t.flatMap (linesOf k)) := by
      rw [h]; simp
    have hlen : ((a ++ [p]).flatMap (linesOf k)).length
        = (a.flatMap (linesOf k)).length + (linesOf k p).length := by simp
    rw [hlen]
    -- lines of this piece, by their index
    have hidx : ∀ j, (ps.flatMap (linesOf k))[(a.flatMap (linesOf k)).length + j]?
        = (linesOf k p ++ t.flatMap (linesOf k))[j]? := by
      intro j
      rw [hL, List.getElem?_append_right (by omega)]
      congr 1
      omega
    rcases regular_lines (k := k) hpreg with hq | ⟨f, o, n, s, rfl, hdf, hq⟩
    · rw [loop_skip]
      · congr 1
        cases p with
        | text l => simp [linesOf, wanted]
        | blank l => simp [linesOf, wanted, hind]
        | header f o n s =>
          exfalso
          refine hq f.text (by simp [linesOf]) n ?_ hpreg.1
          exact List.mem_map.2 ⟨(n, s), (hms _).2 (mem_methodsOf (f := f) (o := o) (by rw [h]; simp)), rfl⟩
      · intro j h1 h2 m hm l hl
        obtain ⟨i, rfl⟩ : ∃ i, j = (a.flatMap (linesOf k)).length + i := ⟨_, (Nat.add_sub_cancel' h1).symm⟩
        rw [hidx, List.getElem?_append_left (by omega)] at hl
        exact hq l (List.mem_of_getElem? hl) m.1 (List.mem_map.2 ⟨m, hm, rfl⟩)
    · have hmem : (n, s) ∈ methodsOf ps := mem_methodsOf (f := f) (o := o) (by rw [h]; simp)
      have hmm : (n, s) ∈ ms := (hms _).2 hmem
      have hlp : (linesOf k (Piece.header f o n s)).length = 1 + o.length := by
        simp [linesOf, Nat.add_comm]
      rw [hlp, ← Nat.add_assoc, loop_skip]
      · -- the first line of the header
        have hfind : (ms.find? fun m => lastDef m.1 (ps.flatMap (linesOf k)) 0 none
            == some (a.flatMap (linesOf k)).length) = some (n, s) := by
          have hex : lastDef n (ps.flatMap (linesOf k)) 0 none
              = some (a.flatMap (linesOf k)).length := by
            rw [h]
            rw [h] at hreg hnd
            exact lastDef_header hreg (List.mem_map.2 ⟨_, hmm, rfl⟩) hnd
          cases hf : ms.find? fun m => lastDef m.1 (ps.flatMap (linesOf k)) 0 none
            == some (a.flatMap (linesOf k)).length with
          | none =>
            rw [List.find?_eq_none] at hf
            exact absurd (by simpa using hex) (hf (n, s) hmm)
          | some m =>
            have h1 := List.find?_some hf
            have h2 := List.mem_of_find?_eq_some hf
            obtain ⟨l, hl, hd⟩ := lastDef_line (eq_of_beq h1)
            have h0 := hidx 0
            rw [Nat.add_zero] at h0
            rw [h0] at hl
            simp only [linesOf, List.cons_append, List.getElem?_cons_zero, Option.some.injEq] at hl
            subst hl
            have := eq_of_nodup_fst hnd ((hms m).1 h2) hmem (Defines_unique hd hdf)
            rw [this]
        rw [loop, hfind]
        simp only
        have hend : endOf ((ps.flatMap (linesOf k)).map commentless) (a.flatMap (linesOf k)).length
            = some (o.length + (a.flatMap (linesOf k)).length) := by
          unfold endOf
          rw [hL, List.map_append, List.drop_append_of_le_length (by simp), List.drop_of_length_le (by simp),
            List.nil_append, List.map_append]
          have e : (linesOf k (Piece.header f o n s)).map commentless
              = (f :: o).map fun h => commentless h.text := by
            simp [linesOf, Function.comp_def]
          rw [e, findIdx_head f o _ hpreg.2.1 hpreg.2.2.2.1 hpreg.2.2.2.2]
          rfl
        have hrw : rewrite ((ps.flatMap (linesOf k)).map commentless) (n, s)
            (a.flatMap (linesOf k)).length
            ((a ++ [Piece.header f o n s]).flatMap (linesOf k) ++ t.flatMap (wanted ind))
            = some (a.flatMap (linesOf k) ++ (Piece.header f o n s :: t).flatMap (wanted ind)) := by
          unfold rewrite
          rw [hend]
          simp only [Option.map_some, List.flatMap_append, List.flatMap_cons, List.flatMap_nil,
            List.append_nil, linesOf, List.append_assoc, List.cons_append, wanted]
          generalize a.flatMap (linesOf k) = A
          generalize t.flatMap (wanted ind) = T
          have hget : ((A ++ f.text :: (o.map HeadLine.text ++ T))[A.length]?).getD [] = f.text := by
            simp
          rw [hget]
          have hpro : prototype f.text n s
              = List.replicate (indent f.text) ' ' ++ chars! "def " ++ n ++ s ++ chars! ":\n" := by
            unfold prototype
            rw [leading_eq]
          rw [hpro]
          have htd : (if A.length < o.length + A.length then
              (A ++ f.text :: (o.map HeadLine.text ++ T)).take (A.length + 1)
                ++ (A ++ f.text :: (o.map HeadLine.text ++ T)).drop (o.length + A.length + 1)
              else A ++ f.text :: (o.map HeadLine.text ++ T)) = A ++ f.text :: T := by
            split
            · rw [List.take_append, List.drop_append]
              have e1 : A.length + 1 - A.length = 1 := by omega
              have e2 : o.length + A.length + 1 - A.length = o.length + 1 := by omega
              rw [e1, e2, List.take_of_length_le (by omega), List.drop_of_length_le (by omega)]
              simp only [List.take_succ_cons, List.take_zero, List.nil_append, List.drop_succ_cons]
              rw [List.drop_append, List.drop_of_length_le (by simp)]
              simp
            · rename_i hlt
              have : o = [] := List.eq_nil_of_length_eq_zero (by omega)
              subst this
              rfl
          rw [htd]
          simp
        rw [hrw]
        rfl
      · intro j h1 h2 m hm l hl
        obtain ⟨i, rfl⟩ : ∃ i, j = (a.flatMap (linesOf k)).length + 1 + i := ⟨_, (Nat.add_sub_cancel' h1).symm⟩
        rw [Nat.add_assoc, hidx, linesOf, Nat.add_comm 1 i, List.cons_append, List.getElem?_cons_succ,
          List.getElem?_append_left (by simp; omega)] at hl
        exact hq l (List.mem_of_getElem? hl) m.1 (List.mem_map.2 ⟨m, hm, rfl⟩)

/-! ## The indentation -/

theorem drop_ind (ind l : List Char) : (ind ++ l).drop ind.length = l := by simp

theorem leading_ind {ind : List Char} (h : ∀ x ∈ ind, White x) {c : Char} (hc : ¬ White c)
    (r : List Char) : leading (ind ++ c :: r) = ind.length := by
  unfold leading
  rw [dropWhile_all (fun x hx => (ws_iff x).2 (h x hx)) _ _ (by
    cases hw : ws c with
    | false => rfl
    | true => exact absurd ((ws_iff c).1 hw) hc)]
  simp

theorem inFile_drop (ind : List Char) (p : Piece) :
    (inFile ind p).map (fun x => x.drop ind.length) = linesOf ind.length p := by
  cases p <;> simp [inFile, linesOf, Function.comp_def]

theorem unindent_inFile {ind : List Char} (h : ∀ x ∈ ind, White x) {ps : List Piece}
    (hs : StartsAt ps) : unindent (ps.flatMap (inFile ind)) = ps.flatMap (linesOf ind.length) := by
  have key : ∀ l t, ps.flatMap (inFile ind) = l :: t → leading l = ind.length →
      unindent (ps.flatMap (inFile ind)) = ps.flatMap (linesOf ind.length) := by
    intro l t e hl
    rw [e, unindent, hl, ← e, List.map_flatMap]
    congr 1
    funext p
    exact inFile_drop ind p
  match ps, hs, key with
  | .text (c :: r) :: t, hs, key =>
    exact key (ind ++ c :: r) _ (by rw [List.flatMap_cons, inFile]; rfl) (leading_ind h hs r)
  | .header f o n s :: t, hs, key =>
    obtain ⟨c, r, e, hc⟩ := hs
    exact key (ind ++ f.text) _ (by rw [List.flatMap_cons, inFile]; rfl) (by rw [e]; exact leading_ind h hc r)

end Verif.Source.Lemmas
