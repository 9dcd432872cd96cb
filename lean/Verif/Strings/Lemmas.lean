import Verif.Strings.Model

/-! Helper lemmas on UTF-8, blanks and buffers. -/

namespace Verif.Strings

theorem enc_inj {c d : Nat} (hc : Scalar c) (hd : Scalar d) {r r' : Str}
    (h : enc c ++ r = enc d ++ r') : c = d ∧ r = r' := by
  unfold Scalar at hc hd
  unfold enc at h
  split at h <;> split at h <;> (try split at h) <;> (try split at h) <;>
    (try split at h) <;> (try split at h) <;>
    simp only [List.cons_append, List.nil_append, List.cons.injEq] at h <;>
    (first
      | exact ⟨by omega, h.2⟩
      | exact ⟨by omega, h.2.2⟩
      | exact ⟨by omega, h.2.2.2⟩
      | exact ⟨by omega, h.2.2.2.2⟩
      | (exfalso; omega))

theorem enc_ne_nil (c : Nat) : enc c ≠ [] := by
  unfold enc
  split <;> (try split) <;> (try split) <;> simp

theorem utf8_cons (c : Nat) (s : Str) : utf8 (c :: s) = enc c ++ utf8 s := by
  simp [utf8]

theorem utf8_append (s t : Str) : utf8 (s ++ t) = utf8 s ++ utf8 t := by
  simp [utf8]

theorem utf8_inj : ∀ {s t : Str}, (∀ c ∈ s, Scalar c) → (∀ c ∈ t, Scalar c) →
    utf8 s = utf8 t → s = t
  | [], [], _, _, _ => rfl
  | [], d :: t, _, _, h => by
    rw [utf8_cons] at h
    have := enc_ne_nil d
    simp [utf8] at h
    exact absurd h.1 this
  | c :: s, [], _, _, h => by
    rw [utf8_cons] at h
    have := enc_ne_nil c
    simp [utf8] at h
    exact absurd h.1 this
  | c :: s, d :: t, hs, ht, h => by
    rw [utf8_cons, utf8_cons] at h
    obtain ⟨h1, h2⟩ := enc_inj (hs c List.mem_cons_self) (ht d List.mem_cons_self) h
    rw [h1, utf8_inj (fun x hx => hs x (List.mem_cons_of_mem _ hx))
      (fun x hx => ht x (List.mem_cons_of_mem _ hx)) h2]

theorem enc_len (c : Nat) : 1 ≤ (enc c).length ∧ ((enc c).length = 1 ↔ c < 128) := by
  unfold enc
  split
  · simp; assumption
  · split
    · simp; omega
    · split
      · simp; omega
      · simp; omega

theorem utf8_len : ∀ s : Str, s.length ≤ (utf8 s).length ∧
    ((utf8 s).length = s.length ↔ Ascii s)
  | [] => by simp [utf8, Ascii]
  | c :: s => by
    obtain ⟨h1, h2⟩ := utf8_len s
    obtain ⟨g1, g2⟩ := enc_len c
    rw [utf8_cons, List.length_append, List.length_cons]
    refine ⟨by omega, ?_⟩
    constructor
    · intro h
      have a1 : (enc c).length = 1 := by omega
      have a2 : (utf8 s).length = s.length := by omega
      intro x hx
      rcases List.mem_cons.1 hx with rfl | hx
      · exact g2.1 a1
      · exact h2.1 a2 x hx
    · intro h
      have a1 := g2.2 (h c List.mem_cons_self)
      have a2 := h2.2 (fun x hx => h x (List.mem_cons_of_mem _ hx))
      omega

theorem enc_nul (c : Nat) : (0 ∈ enc c ↔ c = 0) := by
  unfold enc
  split
  · simp; omega
  · split
    · simp; omega
    · split <;> simp <;> omega

theorem upToNul_append {a : Str} (b : Str) (h : 0 ∉ a) :
    upToNul (a ++ b) = a ++ upToNul b := by
  unfold upToNul
  rw [List.takeWhile_append_of_pos]
  intro x hx
  have : x ≠ 0 := fun e => h (e ▸ hx)
  simpa using this

theorem upToNul_utf8 : ∀ s : Str, upToNul (utf8 s) = utf8 (upToNul s)
  | [] => rfl
  | c :: s => by
    have ih := upToNul_utf8 s
    by_cases hc : c = 0
    · subst hc
      simp [utf8, enc, upToNul]
    · rw [utf8_cons, upToNul_append _ (fun h => hc ((enc_nul c).1 h)), ih]
      have : upToNul (c :: s) = c :: upToNul s := by
        simp [upToNul, hc]
      rw [this, utf8_cons]

theorem upToNul_eq_self {s : Str} : upToNul s = s ↔ 0 ∉ s := by
  constructor
  · intro h hm
    have : (0 : Nat) ∈ upToNul s := by rw [h]; exact hm
    have aux : ∀ l : Str, (0 : Nat) ∉ upToNul l := by
      intro l
      induction l with
      | nil => simp [upToNul]
      | cons c l ih =>
        by_cases hc : c = 0
        · simp [upToNul, hc]
        · simp only [upToNul] at ih ⊢
          simp [hc, ih]
          omega
    exact aux s this
  · intro h
    have := upToNul_append (a := s) [] h
    simpa [upToNul] using this

theorem upToNul_mem {s : Str} {c : Nat} (h : c ∈ upToNul s) : c ∈ s :=
  (List.takeWhile_sublist _).subset h

/-! ### blanks -/

theorem rstrip_blank (a : Str) : rstrip (a ++ [32]) = rstrip a := by
  simp [rstrip]

theorem rstrip_blanks (a : Str) : ∀ n, rstrip (a ++ List.replicate n 32) = rstrip a
  | 0 => by simp
  | n + 1 => by
    rw [List.replicate_succ', ← List.append_assoc, rstrip_blank, rstrip_blanks a n]

theorem rstrip_last {a : Str} {c : Nat} (h : c ≠ 32) : rstrip (a ++ [c]) = a ++ [c] := by
  simp [rstrip, h]

theorem rstrip_spec (a : Str) : ∃ n, a = rstrip a ++ List.replicate n 32 := by
  have key : ∀ r : Str, ∃ n, r.reverse = rstrip r.reverse ++ List.replicate n 32 := by
    intro r
    induction r with
    | nil => exact ⟨0, by simp [rstrip]⟩
    | cons c r ih =>
      rw [List.reverse_cons]
      by_cases hc : c = 32
      · subst hc
        obtain ⟨n, hn⟩ := ih
        refine ⟨n + 1, ?_⟩
        rw [rstrip_blank, List.replicate_succ', ← List.append_assoc, ← hn]
      · exact ⟨0, by rw [rstrip_last hc]; simp⟩
  have := key a.reverse
  rwa [List.reverse_reverse] at this

theorem fEq_iff (a b : Str) : fEq a b = true ↔ rstrip a = rstrip b := by
  unfold fEq
  simp only [beq_iff_eq]
  constructor
  · intro h
    have := congrArg rstrip h
    rwa [rstrip_blanks, rstrip_blanks] at this
  · intro h
    obtain ⟨m, hm⟩ := rstrip_spec a
    obtain ⟨n, hn⟩ := rstrip_spec b
    have la : a.length = (rstrip a).length + m := by
      have := congrArg List.length hm
      simpa using this
    have lb : b.length = (rstrip a).length + n := by
      have := congrArg List.length hn
      rw [← h] at this
      simpa using this
    rw [la, lb]
    rw [show a ++ List.replicate (max ((rstrip a).length + m) ((rstrip a).length + n)
        - ((rstrip a).length + m)) 32
      = rstrip a ++ List.replicate (max m n) 32 from ?_,
      show b ++ List.replicate (max ((rstrip a).length + m) ((rstrip a).length + n)
        - ((rstrip a).length + n)) 32
      = rstrip a ++ List.replicate (max m n) 32 from ?_]
    · conv => lhs; arg 1; rw [hn, ← h]
      rw [List.append_assoc, List.replicate_append_replicate]
      congr 2
      omega
    · conv => lhs; arg 1; rw [hm]
      rw [List.append_assoc, List.replicate_append_replicate]
      congr 2
      omega

theorem enc_last (c : Nat) (h : c ≠ 32) : ∃ l x, enc c = l ++ [x] ∧ x ≠ 32 := by
  unfold enc
  split
  · exact ⟨[], c, rfl, h⟩
  · split
    · exact ⟨[_], _, rfl, by omega⟩
    · split
      · exact ⟨[_, _], _, rfl, by omega⟩
      · exact ⟨[_, _, _], _, rfl, by omega⟩

theorem rstrip_utf8 (s : Str) : rstrip (utf8 s) = utf8 (rstrip s) := by
  have key : ∀ r : Str, rstrip (utf8 r.reverse) = utf8 (rstrip r.reverse) := by
    intro r
    induction r with
    | nil => rfl
    | cons c r ih =>
      rw [List.reverse_cons, utf8_append]
      by_cases hc : c = 32
      · subst hc
        rw [show utf8 [32] = [32] from rfl, rstrip_blank, rstrip_blank, ih]
      · obtain ⟨l, x, h1, h2⟩ := enc_last c hc
        rw [rstrip_last hc, utf8_append,
          show utf8 [c] = l ++ [x] from by simp [utf8, h1],
          ← List.append_assoc, rstrip_last h2]
  have := key s.reverse
  rwa [List.reverse_reverse] at this

theorem rstrip_mem {s : Str} {c : Nat} (h : c ∈ rstrip s) : c ∈ s := by
  obtain ⟨n, hn⟩ := rstrip_spec s
  rw [hn]
  exact List.mem_append_left _ h

/-! ### loops -/

theorem fArg_eq (s : Str) : fArg s = (utf8 s).take s.length := by
  unfold fArg
  have key : ∀ n, (List.range n).foldl (fun x i => x ++ ((utf8 s)[i]?).toList) []
      = (utf8 s).take n := by
    intro n
    induction n with
    | zero => simp
    | succ n ih =>
      rw [List.range_succ, List.foldl_append, ih]
      simp only [List.foldl_cons, List.foldl_nil]
      rw [List.take_succ]
  exact key _

theorem fBuf_eq (a : Str) : fBuf a = a.map some ++ [some 0] := by
  unfold fBuf
  have key : ∀ n, n ≤ a.length →
      (List.range n).foldl (fun b i => b.set i a[i]?)
        (List.replicate (a.length + 1) (none : Option Nat))
      = (a.take n).map some ++ List.replicate (a.length + 1 - n) none := by
    intro n
    induction n with
    | zero => simp
    | succ n ih =>
      intro hn
      rw [List.range_succ, List.foldl_append, ih (by omega)]
      simp only [List.foldl_cons, List.foldl_nil]
      have hl : ((a.take n).map some).length = n := by simp; omega
      rw [List.set_append_right _ _ (by omega), hl, Nat.sub_self,
        show a.length + 1 - n = (a.length + 1 - (n + 1)) + 1 by omega,
        List.replicate_succ, List.set_cons_zero,
        List.take_succ, List.getElem?_eq_getElem (by omega : n < a.length),
        List.map_append, List.append_assoc]
      rfl
  rw [key a.length (Nat.le_refl _)]
  have hl : ((a.take a.length).map some).length = a.length := by simp
  rw [List.set_append_right _ _ (by omega), hl, Nat.sub_self, Nat.add_sub_cancel_left]
  simp

theorem readC_buf : ∀ a : Str, readC (a.map some ++ [some 0]) = some (upToNul a)
  | [] => rfl
  | c :: a => by
    have ih := readC_buf a
    by_cases hc : c = 0
    · subst hc
      simp [readC, upToNul]
    · obtain ⟨n, rfl⟩ : ∃ n, c = n + 1 := ⟨c - 1, by omega⟩
      simp only [List.map_cons, List.cons_append, readC, ih, Option.map_some]
      simp [upToNul]

end Verif.Strings
