import Verif.Funcs.Model

/-! Helper lemmas for the theorems of `Funcs/Props.lean`. -/

namespace Verif.Funcs

theorem inB_iff : ∀ (i s : List Nat), inB i s = true ↔ InB i s
  | [], [] => by simp [inB, InB]
  | [], _ :: _ => by simp [inB, InB]
  | _ :: _, [] => by simp [inB, InB]
  | i :: is, n :: ns => by simp [inB, InB, inB_iff is ns]

theorem InB.len : ∀ {i s : List Nat}, InB i s → i.length = s.length
  | [], [], _ => rfl
  | _ :: is, _ :: ns, h => by simp [InB.len h.2]

theorem mem_box : ∀ (s i : List Nat), i ∈ box s ↔ InB i s
  | [], [] => by simp [box, InB]
  | [], _ :: _ => by simp [box, InB]
  | n :: ns, [] => by simp [box, InB]
  | n :: ns, i :: is => by
    have ih := mem_box ns is
    simp only [box, List.mem_flatMap, List.mem_range, List.mem_map, InB]
    constructor
    · rintro ⟨j, hj, l, hl, he⟩
      simp only [List.cons.injEq] at he
      obtain ⟨rfl, rfl⟩ := he
      exact ⟨hj, ih.1 hl⟩
    · rintro ⟨h1, h2⟩
      exact ⟨i, h1, is, ih.2 h2, rfl⟩

theorem nodup_box : ∀ s : List Nat, (box s).Nodup
  | [] => by simp [box]
  | n :: ns => by
    have ih := nodup_box ns
    simp only [box]
    rw [List.nodup_iff_pairwise_ne, List.pairwise_flatMap]
    constructor
    · intro i _
      rw [List.pairwise_map]
      rw [List.nodup_iff_pairwise_ne] at ih
      exact ih.imp (fun h he => h (List.cons.inj he).2)
    · have := List.nodup_range (n := n)
      rw [List.nodup_iff_pairwise_ne] at this
      refine this.imp ?_
      intro i j hij x hx y hy hxy
      simp only [List.mem_map] at hx hy
      obtain ⟨a, _, rfl⟩ := hx
      obtain ⟨b, _, rfl⟩ := hy
      exact hij (List.cons.inj hxy).1

theorem zip_stretch : ∀ (idx : List Nat) (s : List Dim) (e : List Nat),
    (∀ (i : Nat) (d : Dim) (x : Nat),
      s[i]? = some d → e[i]? = some x → (d.isOne = true ↔ x = 1)) →
    idx.length = e.length → e.length ≤ s.length →
    List.zipWith (fun i (d : Dim) => if d.isOne then 0 else i) idx s = stretch e idx
  | [], _, [], _, _, _ => by simp [stretch]
  | i :: is, d :: ds, x :: xs, h, h1, h2 => by
    have h0 := h 0 d x rfl rfl
    have ih := zip_stretch is ds xs
      (fun i a b ha hb => h (i + 1) a b (by simpa using ha) (by simpa using hb))
      (by simpa using h1) (by simpa using h2)
    simp only [List.zipWith_cons_cons, stretch, ih]
    by_cases hd : d.isOne = true
    · simp [hd, h0.1 hd]
    · have : ¬ x = 1 := fun hx => hd (h0.2 hx)
      simp [hd, this]
  | [], _, _ :: _, _, h1, _ => by simp at h1
  | _ :: _, _, [], _, h1, _ => by simp at h1
  | _ :: _, [], _ :: _, _, _, h2 => by simp at h2

theorem stretch_left : ∀ (m n i : List Nat), Compat m n → InB i (common m n) →
    InB (stretch m i) m
  | [], [], [], _, _ => trivial
  | [], [], _ :: _, _, h => h.elim
  | _ :: _, _ :: _, [], _, h => h.elim
  | x :: xs, y :: ys, i :: is, hc, h => by
    obtain ⟨h1, h2⟩ := h
    refine ⟨?_, stretch_left xs ys is hc.2 h2⟩
    split
    · omega
    · rename_i hx; rw [if_neg hx] at h1; exact h1

theorem stretch_right : ∀ (m n i : List Nat), Compat m n → InB i (common m n) →
    InB (stretch n i) n
  | [], [], [], _, _ => trivial
  | [], [], _ :: _, _, h => h.elim
  | _ :: _, _ :: _, [], _, h => h.elim
  | x :: xs, y :: ys, i :: is, hc, h => by
    obtain ⟨h1, h2⟩ := h
    refine ⟨?_, stretch_right xs ys is hc.2 h2⟩
    have h0 := hc.1
    split
    · omega
    · rename_i hy
      split at h1 <;> omega

theorem stretch_self : ∀ (s i : List Nat), InB i s → stretch s i = i
  | [], [], _ => rfl
  | n :: ns, i :: is, h => by
    have ih := stretch_self ns is h.2
    have h1 := h.1
    simp only [stretch, ih]
    split
    · congr 1; omega
    · rfl

theorem inB_insert : ∀ (ax : Nat) (l s : List Nat) (n k : Nat),
    InB l (s.eraseIdx ax) → s[ax]? = some n → k < n → InB (l.insertIdx ax k) s
  | 0, l, [], n, k, _, h2, _ => by simp at h2
  | 0, l, x :: s, n, k, h1, h2, h3 => by
    simp at h2
    subst h2
    simp only [List.insertIdx_zero]
    exact ⟨h3, by simpa using h1⟩
  | ax + 1, l, [], n, k, _, h2, _ => by simp at h2
  | ax + 1, [], x :: s, n, k, h1, _, _ => by
    simp [InB] at h1
  | ax + 1, y :: l, x :: s, n, k, h1, h2, h3 => by
    simp only [List.eraseIdx_cons_succ] at h1
    simp only [List.insertIdx_succ_cons]
    exact ⟨h1.1, inB_insert ax l s n k h1.2 (by simpa using h2) h3⟩

theorem insert_inj : ∀ (ax : Nat) (l l' : List Nat) (k k' : Nat),
    l.length = l'.length → ax ≤ l.length →
    l.insertIdx ax k = l'.insertIdx ax k' → l = l' ∧ k = k'
  | 0, l, l', k, k', _, _, h => by
    simp at h; exact ⟨h.2, h.1⟩
  | ax + 1, [], _, _, _, _, h2, _ => by simp at h2
  | ax + 1, _ :: _, [], _, _, h1, _, _ => by simp at h1
  | ax + 1, x :: l, y :: l', k, k', h1, h2, h => by
    simp only [List.insertIdx_succ_cons, List.cons.injEq] at h
    have := insert_inj ax l l' k k' (by simpa using h1) (by simpa using h2) h.2
    exact ⟨by rw [h.1, this.1], this.2⟩

theorem nums_erase (s : List Dim) (ax : Nat) :
    nums (s.eraseIdx ax) = (nums s).eraseIdx ax := by
  simp only [nums]
  induction s generalizing ax with
  | nil => rfl
  | cons d ds ih =>
    cases ax with
    | zero => rfl
    | succ n => simp [List.eraseIdx_cons_succ, ih]

theorem nums_zip : ∀ (x y : List Dim), (∀ e ∈ x, e.n = 1 → e.lit = true) →
    nums (List.zipWith (fun x y => if x.isOne then y else x) x y)
      = common (nums x) (nums y)
  | [], _, _ => by simp [nums, common]
  | _ :: _, [], _ => by simp [nums, common]
  | d :: ds, e :: es, h => by
    have ih := nums_zip ds es (fun z hz => h z (List.mem_cons_of_mem _ hz))
    have h0 := h d List.mem_cons_self
    simp only [nums] at ih
    simp only [nums, List.zipWith_cons_cons, List.map_cons, common, ih]
    congr 1
    by_cases h1 : d.n = 1
    · simp [Dim.isOne, h1, h0 h1]
    · simp [Dim.isOne, h1]

theorem compat_len : ∀ (m n : List Nat), Compat m n →
    (common m n).length = m.length ∧ (common m n).length = n.length
  | [], [], _ => by simp [common]
  | _ :: xs, _ :: ys, h => by
    have := compat_len xs ys h.2
    simp [common, this.1, this.1.symm.trans this.2]

/-- Writing three elements of `c`. -/
def put3 (σ : Store) (c : Nat) (i : Nat → List Nat) (x : Nat → Rat) : Store :=
  fun w j => if w = c ∧ j = i 2 then x 2 else if w = c ∧ j = i 1 then x 1
    else if w = c ∧ j = i 0 then x 0 else σ w j

theorem body_eq (q : Cross) (σ : Store) (idx : List Nat)
    (hca : q.c ≠ q.a) (hcb : q.c ≠ q.b)
    (ha : ∀ k, k < 3 → inB (putIdx (q.sh q.a) q.axa idx k) (nums (q.sh q.a)) = true)
    (hb : ∀ k, k < 3 → inB (putIdx (q.sh q.b) q.axb idx k) (nums (q.sh q.b)) = true)
    (hc : ∀ k, k < 3 → inB (putIdx (q.sh q.c) q.axc idx k) (nums (q.sh q.c)) = true) :
    body q σ idx = some (put3 σ q.c (putIdx (q.sh q.c) q.axc idx)
      (crossP (fun k => σ q.a (putIdx (q.sh q.a) q.axa idx k))
        (fun k => σ q.b (putIdx (q.sh q.b) q.axb idx k)))) := by
  have hac : q.a ≠ q.c := fun h => hca h.symm
  have hbc : q.b ≠ q.c := fun h => hcb h.symm
  simp [body, rd, wr, ha, hb, hc, hac, hbc]
  rfl

/-- The state after some iterations. -/
theorem runIts_spec (q : Cross) (σ₀ : Store) (B : List Nat → Prop)
    (hca : q.c ≠ q.a) (hcb : q.c ≠ q.b)
    (ha : ∀ i k, B i → k < 3 →
      inB (putIdx (q.sh q.a) q.axa i k) (nums (q.sh q.a)) = true)
    (hb : ∀ i k, B i → k < 3 →
      inB (putIdx (q.sh q.b) q.axb i k) (nums (q.sh q.b)) = true)
    (hc : ∀ i k, B i → k < 3 →
      inB (putIdx (q.sh q.c) q.axc i k) (nums (q.sh q.c)) = true)
    (inj : ∀ i j k l, B i → B j → putIdx (q.sh q.c) q.axc i k
      = putIdx (q.sh q.c) q.axc j l → i = j ∧ k = l) :
    ∀ (L done : List (List Nat)) (σ : Store), (∀ i ∈ L, B i) → (∀ i ∈ done, B i) →
      (done ++ L).Nodup → (∀ v, v ≠ q.c → σ v = σ₀ v) →
      (∀ i ∈ done, ∀ k, k < 3 → σ q.c (putIdx (q.sh q.c) q.axc i k)
        = crossP (fun k => σ₀ q.a (putIdx (q.sh q.a) q.axa i k))
            (fun k => σ₀ q.b (putIdx (q.sh q.b) q.axb i k)) k) →
      ∃ τ, runIts q L σ = some τ ∧ (∀ v, v ≠ q.c → τ v = σ₀ v) ∧
        ∀ i ∈ done ++ L, ∀ k, k < 3 → τ q.c (putIdx (q.sh q.c) q.axc i k)
          = crossP (fun k => σ₀ q.a (putIdx (q.sh q.a) q.axa i k))
            (fun k => σ₀ q.b (putIdx (q.sh q.b) q.axb i k)) k
  | [], done, σ, _, _, _, h4, h5 => ⟨σ, rfl, h4, by simpa using h5⟩
  | j :: L, done, σ, h1, h2, h3, h4, h5 => by
    have hj := h1 j List.mem_cons_self
    have hbody := body_eq q σ j hca hcb (fun k => ha j k hj) (fun k => hb j k hj)
      (fun k => hc j k hj)
    rw [h4 q.a (Ne.symm hca), h4 q.b (Ne.symm hcb)] at hbody
    simp only [runIts, hbody, Option.bind_some]
    have hnj : j ∉ done := by
      intro hm
      rw [List.nodup_append] at h3
      exact h3.2.2 j hm j List.mem_cons_self rfl
    have key := runIts_spec q σ₀ B hca hcb ha hb hc inj L (done ++ [j])
      (put3 σ q.c (putIdx (q.sh q.c) q.axc j)
        (crossP (fun k => σ₀ q.a (putIdx (q.sh q.a) q.axa j k))
          (fun k => σ₀ q.b (putIdx (q.sh q.b) q.axb j k))))
      (fun i hi => h1 i (List.mem_cons_of_mem _ hi))
      (by
        intro i hi
        rw [List.mem_append, List.mem_singleton] at hi
        rcases hi with hi | rfl
        · exact h2 i hi
        · exact hj)
      (by simpa using h3)
      (by
        intro v hv
        funext w
        simp [put3, hv, h4 v hv])
      (by
        intro i hi k hk
        rw [List.mem_append, List.mem_singleton] at hi
        rcases hi with hi | rfl
        · have hne : ∀ l, ¬ putIdx (q.sh q.c) q.axc i k = putIdx (q.sh q.c) q.axc j l := by
            intro l he
            exact hnj ((inj i j k l (h2 i hi) hj he).1 ▸ hi)
          simp only [put3, hne, and_false, if_false]
          exact h5 i hi k hk
        · have hne : ∀ l, l ≠ k →
              ¬ putIdx (q.sh q.c) q.axc i k = putIdx (q.sh q.c) q.axc i l :=
            fun l hl he => hl (inj i i k l hj hj he).2.symm
          simp only [put3]
          match k, hk with
          | 0, _ => simp [hne 2 (by decide), hne 1 (by decide)]
          | 1, _ => simp [hne 2 (by decide)]
          | 2, _ => simp)
    obtain ⟨τ, k1, k2, k3⟩ := key
    exact ⟨τ, k1, k2, by simpa using k3⟩

/-! ### complex numbers -/

theorem le_refl' {z : Cx} (h : z.hasNan = false) : z.le z := by
  obtain ⟨r, i⟩ := z
  cases r <;> cases i <;> simp [Cx.hasNan] at h
  exact ⟨_, _, _, _, rfl, rfl, Or.inr ⟨rfl, Rat.le_refl⟩⟩

theorem le_trans' {x y z : Cx} (h : x.le y) (g : y.le z) : x.le z := by
  obtain ⟨a, b, c, d, rfl, rfl, h⟩ := h
  obtain ⟨c', d', e, f, h1, rfl, g⟩ := g
  simp only [Cx.mk.injEq, Option.some.injEq] at h1
  obtain ⟨rfl, rfl⟩ := h1
  refine ⟨a, b, e, f, rfl, rfl, ?_⟩
  grind

/-- A step function that returns the smaller (larger) of its arguments in the
order `R`. -/
structure Picks (f : Cx → Cx → Cx) (R : Cx → Cx → Prop) : Prop where
  mem : ∀ x y, f x y = x ∨ f x y = y
  left : ∀ x y, x.hasNan = false → y.hasNan = false → R (f x y) x
  right : ∀ x y, x.hasNan = false → y.hasNan = false → R (f x y) y

theorem fold_picks {f : Cx → Cx → Cx} {R : Cx → Cx → Prop} (p : Picks f R)
    (refl : ∀ x : Cx, x.hasNan = false → R x x)
    (trans : ∀ x y z, R x y → R y z → R x z) :
    ∀ (l : List Cx) (z : Cx), z.hasNan = false → (∀ x ∈ l, x.hasNan = false) →
      (l.foldl f z = z ∨ l.foldl f z ∈ l) ∧ R (l.foldl f z) z ∧
        ∀ x ∈ l, R (l.foldl f z) x
  | [], z, hz, _ => ⟨Or.inl rfl, refl z hz, by simp⟩
  | y :: l, z, hz, hl => by
    have hy := hl y List.mem_cons_self
    have hf : (f z y).hasNan = false := by
      rcases p.mem z y with h | h <;> rw [h] <;> assumption
    obtain ⟨h1, h2, h3⟩ := fold_picks p refl trans l (f z y) hf
      (fun x hx => hl x (List.mem_cons_of_mem _ hx))
    simp only [List.foldl_cons]
    refine ⟨?_, trans _ _ _ h2 (p.left z y hz hy), ?_⟩
    · rcases h1 with h1 | h1
      · rcases p.mem z y with h | h <;> rw [h1, h] <;> simp
      · exact Or.inr (List.mem_cons_of_mem _ h1)
    · intro x hx
      rcases List.mem_cons.1 hx with rfl | hx
      · exact trans _ _ _ h2 (p.right z x hz hy)
      · exact h3 x hx

theorem cx_some {z : Cx} (h : z.hasNan = false) : ∃ r i, z = ⟨some r, some i⟩ := by
  obtain ⟨r, i⟩ := z
  cases r <;> cases i <;> simp [Cx.hasNan] at h
  exact ⟨_, _, rfl⟩

theorem le_mk (a b c d : Rat) :
    Cx.le ⟨some a, some b⟩ ⟨some c, some d⟩ ↔ a < c ∨ (a = c ∧ b ≤ d) := by
  constructor
  · rintro ⟨_, _, _, _, h1, h2, h⟩
    simp only [Cx.mk.injEq, Option.some.injEq] at h1 h2
    obtain ⟨rfl, rfl⟩ := h1
    obtain ⟨rfl, rfl⟩ := h2
    exact h
  · intro h
    exact ⟨_, _, _, _, rfl, rfl, h⟩

theorem picks_cmin : Picks complexMin Cx.le := by
  constructor
  · intro x y; unfold complexMin; split <;> simp
  all_goals
    intro x y hx hy
    obtain ⟨a, b, rfl⟩ := cx_some hx
    obtain ⟨c, d, rfl⟩ := cx_some hy
    have hl : cLt ⟨some a, some b⟩ ⟨some c, some d⟩ = true ↔
        (a < c ∨ (a = c ∧ b < d)) := by
      simp only [cLt, feq, flt]
      by_cases h : a = c <;> simp [h] <;> grind
    simp only [complexMin]
    by_cases h : cLt ⟨some a, some b⟩ ⟨some c, some d⟩ = true
    · rw [if_pos h, le_mk]
      have := hl.1 h
      grind
    · rw [if_neg h, le_mk]
      have := mt hl.2 h
      grind

theorem picks_cmax : Picks complexMax (fun x y => Cx.le y x) := by
  constructor
  · intro x y; unfold complexMax; split <;> simp
  all_goals
    intro x y hx hy
    obtain ⟨a, b, rfl⟩ := cx_some hx
    obtain ⟨c, d, rfl⟩ := cx_some hy
    have hl : cLt ⟨some a, some b⟩ ⟨some c, some d⟩ = true ↔
        (a < c ∨ (a = c ∧ b < d)) := by
      simp only [cLt, feq, flt]
      by_cases h : a = c <;> simp [h] <;> grind
    simp only [complexMax]
    by_cases h : cLt ⟨some a, some b⟩ ⟨some c, some d⟩ = true
    · rw [if_pos h, le_mk]
      have := hl.1 h
      grind
    · rw [if_neg h, le_mk]
      have := mt hl.2 h
      grind

theorem picks_fmin : Picks fMinStep Cx.le := by
  constructor
  · intro x y; unfold fMinStep; split <;> simp
  all_goals
    intro x y hx hy
    obtain ⟨a, b, rfl⟩ := cx_some hx
    obtain ⟨c, d, rfl⟩ := cx_some hy
    simp only [fMinStep, feq, flt, Bool.or_eq_true, Bool.and_eq_true, decide_eq_true_eq]
    by_cases h : c < a ∨ (c = a ∧ d < b)
    · rw [if_pos h, le_mk]; grind
    · rw [if_neg h, le_mk]; grind

theorem picks_fmax : Picks fMaxStep (fun x y => Cx.le y x) := by
  constructor
  · intro x y; unfold fMaxStep; split <;> simp
  all_goals
    intro x y hx hy
    obtain ⟨a, b, rfl⟩ := cx_some hx
    obtain ⟨c, d, rfl⟩ := cx_some hy
    simp only [fMaxStep, feq, flt, Bool.or_eq_true, Bool.and_eq_true, decide_eq_true_eq]
    by_cases h : a < c ∨ (c = a ∧ b < d)
    · rw [if_pos h, le_mk]; grind
    · rw [if_neg h, le_mk]; grind

end Verif.Funcs
