import Verif.Iterate.Model

namespace Verif.Iterate
open Spec Model

variable {σ α : Type}

/-! ## Lists -/

theorem fLoop_brk' (body : Body σ α) : ∀ (m k : Nat) (s : σ) (l : List α) (s' : σ) (l' : List α),
    fLoop body m k s l = .ok (s', l', .brk) → ∃ j, PyLoop body k s l j s' l' .brk := by
  intro m
  induction m with
  | zero => intro k s l s' l' h; simp [fLoop] at h
  | succ m ih =>
    intro k s l s' l' h
    simp only [fLoop] at h
    split at h
    · cases h
    · rename_i x hx
      split at h
      · rename_i s1 ops hb
        cases h
        exact ⟨_, .brk hx hb⟩
      · rename_i s1 ops hb
        obtain ⟨j, hj⟩ := ih _ _ _ _ _ h
        exact ⟨j, .next hx hb hj⟩

theorem fLoop_brk (body : Body σ α) {s : σ} {l : List α} {s' : σ} {l' : List α}
    (h : fFor body s l = .ok (s', l', .brk)) : ∃ j, PyFor body s l j s' l' .brk :=
  fLoop_brk' body _ _ _ _ _ _ h

theorem fLoop_next' (body : Body σ α) : ∀ (m k : Nat) (s : σ) (l : List α) (s' : σ) (l' : List α),
    fLoop body m k s l = .ok (s', l', .next) →
    (PyLoop body k s l (k + m) s' l' .next ↔ l'.length ≤ k + m) := by
  intro m
  induction m with
  | zero =>
    intro k s l s' l' h
    simp [fLoop] at h
    obtain ⟨rfl, rfl⟩ := h
    refine ⟨?_, fun h => .done h⟩
    intro hp
    cases hp with
    | done h => exact h
    | next hx hb hr =>
      exfalso
      have : ∀ {k s} {l : List α} {j s' l' c}, PyLoop body k s l j s' l' c → k ≤ j := by
        intro k s l j s' l' c h
        induction h <;> omega
      have := this hr
      omega
  | succ m ih =>
    intro k s l s' l' h
    simp only [fLoop] at h
    split at h
    · cases h
    · rename_i x hx
      split at h
      · cases h
      · rename_i s1 ops hb
        have := ih _ _ _ _ _ h
        rw [show k + (m + 1) = k + 1 + m by omega, ← this]
        constructor
        · intro hp
          have hk := (List.getElem?_eq_some_iff.1 hx).1
          generalize hj : k + 1 + m = j at hp
          cases hp with
          | done h => omega
          | next hx' hb' hr =>
            rw [hx] at hx'
            cases hx'
            rw [hb] at hb'
            cases hb'
            exact hj ▸ hr
        · intro hp
          exact .next hx hb hp

theorem fLoop_next (body : Body σ α) {s : σ} {l : List α} {s' : σ} {l' : List α}
    (h : fFor body s l = .ok (s', l', .next)) :
    PyFor body s l (0 + l.length) s' l' .next ↔ l'.length ≤ 0 + l.length :=
  fLoop_next' body _ _ _ _ _ _ h

theorem pyLoop_le {body : Body σ α} {k s} {l : List α} {j s' l' c}
    (h : PyLoop body k s l j s' l' c) : k ≤ j := by
  induction h <;> omega

theorem fLoop_ub (body : Body σ α) : ∀ (m k : Nat) (s : σ) (l : List α),
    fLoop body m k s l = .ub ↔ ∃ j s' l', PyLoop body k s l j s' l' .next ∧ j < k + m := by
  intro m
  induction m with
  | zero =>
    intro k s l
    simp only [fLoop, reduceCtorEq, false_iff]
    rintro ⟨j, s', l', h, hj⟩
    have := pyLoop_le h
    omega
  | succ m ih =>
    intro k s l
    simp only [fLoop]
    split
    · rename_i hx
      simp only [true_iff]
      exact ⟨k, s, l, .done (List.getElem?_eq_none_iff.1 hx), by omega⟩
    · rename_i x hx
      have hk := (List.getElem?_eq_some_iff.1 hx).1
      split
      · rename_i s1 ops hb
        simp only [reduceCtorEq, false_iff]
        rintro ⟨j, s', l', h, hj⟩
        cases h with
        | done h => omega
        | next hx' hb' hr =>
          rw [hx] at hx'
          cases hx'
          rw [hb] at hb'
          cases hb'
      · rename_i s1 ops hb
        rw [ih]
        constructor
        · rintro ⟨j, s', l', h, hj⟩
          exact ⟨j, s', l', .next hx hb h, by omega⟩
        · rintro ⟨j, s', l', h, hj⟩
          cases h with
          | done h => omega
          | next hx' hb' hr =>
            rw [hx] at hx'
            cases hx'
            rw [hb] at hb'
            cases hb'
            exact ⟨j, s', l', hr, by omega⟩

theorem runAll_set_length (ops : List (Op α)) (h : ∀ o ∈ ops, ∃ k v, o = .set k v) (l : List α) :
    (runAll l ops).length = l.length := by
  induction ops generalizing l with
  | nil => rfl
  | cons o r ih =>
    obtain ⟨k, v, rfl⟩ := h o (by simp)
    simp only [runAll, List.foldl_cons] at ih ⊢
    rw [ih (fun o ho => h o (by simp [ho]))]
    simp [Op.run]

theorem vec_set (g : Growth) (ops : List (Op α)) (h : ∀ o ∈ ops, ∃ k v, o = .set k v)
    (l : List α) (rest : List (Option α)) :
    (Vec.mk l rest).runAll g ops = (⟨runAll l ops, rest⟩, false) := by
  induction ops generalizing l with
  | nil => rfl
  | cons o r ih =>
    obtain ⟨k, v, rfl⟩ := h o (by simp)
    simp only [Vec.runAll, Vec.run]
    rw [ih (fun o ho => h o (by simp [ho]))]
    simp [runAll, Op.run]

theorem buf_get (l : List α) (rest : List (Option α)) (k : Nat) (x : α) (h : l[k]? = some x) :
    (l.map some ++ rest)[k]? = some (some x) := by
  have hk := (List.getElem?_eq_some_iff.1 h).1
  rw [List.getElem?_append_left (by simpa using hk)]
  simp [h]

theorem set_loop (g : Growth) (body : Body σ α)
    (hb : ∀ x s l, ∀ o ∈ (body x s l).2.1, ∃ k v, o = .set k v) :
    ∀ (m k : Nat) (s : σ) (l : List α) (rest : List (Option α)), k + m = l.length →
    ∃ j s' l' c, PyLoop body k s l j s' l' c ∧ l'.length = l.length ∧
      fLoop body m k s l = .ok (s', l', c) ∧ cLoop g body m k s ⟨l, rest⟩ false = .ok (s', l', c) := by
  intro m
  induction m with
  | zero =>
    intro k s l rest hk
    exact ⟨k, s, l, .next, .done (by omega), rfl, rfl, rfl⟩
  | succ m ih =>
    intro k s l rest hk
    have hx : l[k]? = some l[k] := by simp
    have hops := hb l[k] s l
    rcases hbody : body l[k] s l with ⟨s1, ops, c1⟩
    rw [hbody] at hops
    simp only at hops
    have hvec := vec_set g ops hops l rest
    have hlen := runAll_set_length ops hops l
    cases c1 with
    | brk =>
      refine ⟨_, _, _, _, .brk hx hbody, hlen, ?_, ?_⟩
      · simp only [fLoop, hx, hbody]
      · simp only [cLoop, buf_get l rest k _ hx, hbody, hvec]
        simp
    | next =>
      obtain ⟨j, s', l', c, h1, h2, h3, h4⟩ := ih (k + 1) s1 (runAll l ops) rest (by omega)
      refine ⟨j, s', l', c, .next hx hbody h1, by omega, ?_, ?_⟩
      · simp only [fLoop, hx, hbody, h3]
      · simp only [cLoop, buf_get l rest k _ hx, hbody, hvec, h4]
        simp

theorem vec_push (g : Growth) (ops : List (Op α))
    (h : ∀ o ∈ ops, (∃ k v, o = .set k v) ∨ ∃ v, o = .push v) (v : Vec α) :
    (v.runAll g ops).1.live = runAll v.live ops ∧ v.live.length ≤ (runAll v.live ops).length := by
  induction ops generalizing v with
  | nil => exact ⟨rfl, Nat.le_refl _⟩
  | cons o r ih =>
    have ih := ih (fun o ho => h o (by simp [ho]))
    rcases h o (by simp) with ⟨k, x, rfl⟩ | ⟨x, rfl⟩
    · simp only [Vec.runAll, Vec.run]
      have := ih { v with live := v.live.set k x }
      simp only [runAll, List.foldl_cons, Op.run] at this ⊢
      simpa using this
    · have := ih (v.run g (.push x)).1
      have hl : (v.run g (.push x)).1.live = v.live ++ [x] := by
        simp only [Vec.run]; split <;> rfl
      rw [hl] at this
      simp only [Vec.runAll, runAll, List.foldl_cons, Op.run] at this ⊢
      refine ⟨this.1, ?_⟩
      have := this.2
      simp at this
      omega

theorem push_loop (g : Growth) (body : Body σ α)
    (hb : ∀ x s l, ∀ o ∈ (body x s l).2.1, (∃ k v, o = .set k v) ∨ ∃ v, o = .push v) :
    ∀ (m k : Nat) (s : σ) (l : List α) (rest : List (Option α)) (mv : Bool) (r : σ × List α × Ctl),
    k + m ≤ l.length → cLoop g body m k s ⟨l, rest⟩ mv = .ok r → fLoop body m k s l = .ok r := by
  intro m
  induction m with
  | zero => intro k s l rest mv r _ h; simpa [cLoop, fLoop] using h
  | succ m ih =>
    intro k s l rest mv r hk h
    have hx : l[k]? = some l[k] := by simp
    have hops := hb l[k] s l
    rcases hbody : body l[k] s l with ⟨s1, ops, c1⟩
    rw [hbody] at hops
    simp only at hops
    have hvec := vec_push g ops hops ⟨l, rest⟩
    simp only [cLoop, buf_get l rest k _ hx, hbody] at h
    split at h
    · cases h
    · cases c1 with
      | brk =>
        simp only [fLoop, hx, hbody]
        simp only [hvec.1] at h
        exact h
      | next =>
        simp only [fLoop, hx, hbody]
        simp only at h
        have hv : ((Vec.mk l rest).runAll g ops).1 =
            ⟨runAll l ops, ((Vec.mk l rest).runAll g ops).1.rest⟩ := by rw [← hvec.1]
        rw [hv] at h
        refine ih (k + 1) s1 (runAll l ops) _ _ r ?_ h
        have := hvec.2
        simp only at this
        omega

/-! ## Arrays -/

theorem arun_write (ops : List (AOp α)) (h : ∀ o ∈ ops, ∃ k v, o = .write k v) (a : List α) :
    ops.foldl AOp.run ⟨a, none⟩ = ⟨ops.foldl aRun a, none⟩ ∧ (ops.foldl aRun a).length = a.length := by
  induction ops generalizing a with
  | nil => exact ⟨rfl, rfl⟩
  | cons o r ih =>
    obtain ⟨k, v, rfl⟩ := h o (by simp)
    have := ih (fun o ho => h o (by simp [ho])) (a.set k v)
    simp only [List.foldl_cons, AOp.run, aRun]
    simpa using this

theorem arr_py (body : ABody σ α)
    (hb : ∀ x s a, ∀ o ∈ (body x s a).2.1, ∃ k v, o = .write k v) :
    ∀ (m k : Nat) (s : σ) (a : List α), k + m = a.length →
    ∃ s' a' c, pyArr body m k s ⟨a, none⟩ = (s', ⟨a', none⟩, c) ∧ CArr body k s a s' a' c ∧
      fArr body m k s a = .ok (s', a', c) := by
  intro m
  induction m with
  | zero =>
    intro k s a hk
    exact ⟨s, a, .next, rfl, .done (by omega), rfl⟩
  | succ m ih =>
    intro k s a hk
    have hx : a[k]? = some a[k] := by simp
    have hops := hb a[k] s a
    rcases hbody : body a[k] s a with ⟨s1, ops, c1⟩
    rw [hbody] at hops
    simp only at hops
    have hw := arun_write ops hops a
    have hcur : (Bound.mk a none).cur = a := rfl
    cases c1 with
    | brk =>
      refine ⟨s1, ops.foldl aRun a, .brk, ?_, .brk hx hbody, ?_⟩
      · simp only [pyArr, hx, hcur, hbody, hw.1]
      · simp only [fArr, hx, hbody]
    | next =>
      obtain ⟨s', a', c, h1, h2, h3⟩ := ih (k + 1) s1 (ops.foldl aRun a) (by omega)
      refine ⟨s', a', c, ?_, .next hx hbody h2, ?_⟩
      · simp only [pyArr, hx, hcur, hbody, hw.1, h1]
      · simp only [fArr, hx, hbody, h3]

theorem cArr_det {body : ABody σ α} {k s a s1 a1 c1 s2 a2 c2} (h1 : CArr body k s a s1 a1 c1)
    (h2 : CArr body k s a s2 a2 c2) : s1 = s2 ∧ a1 = a2 ∧ c1 = c2 := by
  induction h1 with
  | done h =>
    cases h2 with
    | done _ => exact ⟨rfl, rfl, rfl⟩
    | brk hx _ => have := (List.getElem?_eq_some_iff.1 hx).1; omega
    | next hx _ _ => have := (List.getElem?_eq_some_iff.1 hx).1; omega
  | brk hx hb =>
    cases h2 with
    | done h => have := (List.getElem?_eq_some_iff.1 hx).1; omega
    | brk hx' hb' =>
      rw [hx] at hx'; cases hx'
      rw [hb] at hb'; cases hb'
      exact ⟨rfl, rfl, rfl⟩
    | next hx' hb' _ =>
      rw [hx] at hx'; cases hx'
      rw [hb] at hb'; cases hb'
  | next hx hb _ ih =>
    cases h2 with
    | done h => have := (List.getElem?_eq_some_iff.1 hx).1; omega
    | brk hx' hb' =>
      rw [hx] at hx'; cases hx'
      rw [hb] at hb'; cases hb'
    | next hx' hb' hr =>
      rw [hx] at hx'; cases hx'
      rw [hb] at hb'; cases hb'
      exact ih hr

theorem arr_loop (body : ABody σ α)
    (hb : ∀ x s a, ∀ o ∈ (body x s a).2.1, ∃ k v, o = .write k v) (s : σ) (a : List α)
    (s' : σ) (a' : List α) (c : Ctl) :
    (pyArrFor body s a = (s', a', c) ↔ CArrFor body s a s' a' c) ∧
    (pyArrFor body s a = (s', a', c) ↔ fArrFor body s a = .ok (s', a', c)) := by
  obtain ⟨s1, a1, c1, h1, h2, h3⟩ := arr_py body hb a.length 0 s a (by simp)
  have hp : pyArrFor body s a = (s1, a1, c1) := by simp only [pyArrFor, h1]; rfl
  constructor
  · rw [hp]
    constructor
    · intro h; cases h; exact h2
    · intro h
      obtain ⟨rfl, rfl, rfl⟩ := cArr_det h2 h
      rfl
  · rw [hp]
    simp only [fArrFor, h3, Out.ok.injEq]

/-! ## Dictionaries -/

theorem place_perm {ν : Type} (p : Int × ν) (l : List (Int × ν)) : (place p l).Perm (p :: l) := by
  induction l with
  | nil => exact .refl _
  | cons q r ih =>
    simp only [place]
    split
    · exact .refl _
    · exact (ih.cons q).trans (.swap p q r)

theorem sorted_perm {ν : Type} (d : List (Int × ν)) : (sorted d).Perm d := by
  induction d with
  | nil => exact .refl _
  | cons p r ih => exact (place_perm p _).trans (ih.cons p)

theorem place_sorted {ν : Type} (p : Int × ν) (l : List (Int × ν))
    (h : l.Pairwise (fun p q => p.1 ≤ q.1)) : (place p l).Pairwise (fun p q => p.1 ≤ q.1) := by
  induction l with
  | nil => simp [place]
  | cons q r ih =>
    simp only [place]
    rw [List.pairwise_cons] at h
    split
    · rename_i hpq
      rw [List.pairwise_cons, List.pairwise_cons]
      refine ⟨?_, h⟩
      intro z hz
      rcases List.mem_cons.1 hz with rfl | hz
      · exact hpq
      · have := h.1 z hz; omega
    · rename_i hpq
      rw [List.pairwise_cons]
      refine ⟨?_, ih h.2⟩
      intro z hz
      rcases List.mem_cons.1 ((place_perm p r).mem_iff.1 hz) with rfl | hz
      · omega
      · exact h.1 z hz

theorem sorted_sorted {ν : Type} (d : List (Int × ν)) :
    (sorted d).Pairwise (fun p q => p.1 ≤ q.1) := by
  induction d with
  | nil => simp [sorted]
  | cons p r ih => exact place_sorted p _ ih

theorem sorted_of_pairwise {ν : Type} (d : List (Int × ν)) (h : d.Pairwise (fun p q => p.1 ≤ q.1)) :
    sorted d = d := by
  induction d with
  | nil => rfl
  | cons p r ih =>
    rw [List.pairwise_cons] at h
    simp only [sorted, ih h.2]
    cases r with
    | nil => rfl
    | cons q t => simp [place, h.1 q (by simp)]

theorem visit_record {κ ν : Type} (d : List (κ × ν)) (r : List (κ × ν)) :
    visit (fun k v r => (r ++ [(k, v)], .next)) d r = r ++ d := by
  induction d generalizing r with
  | nil => simp [visit]
  | cons p t ih => obtain ⟨k, v⟩ := p; simp [visit, ih]

theorem order_iff {ν : Type} (d : List (Int × ν)) (hd : Keys d) :
    fDict (fun k v r => (r ++ [(k, v)], .next)) d [] = pyDict (fun k v r => (r ++ [(k, v)], .next)) d []
      ↔ d.Pairwise (fun p q => p.1 < q.1) := by
  simp only [fDict, pyDict, visit_record, List.nil_append]
  constructor
  · intro h
    have h1 := sorted_sorted d
    rw [h] at h1
    unfold Keys at hd
    rw [List.nodup_iff_pairwise_ne, List.pairwise_map] at hd
    refine (h1.and hd).imp ?_
    rintro p q ⟨h1, h2⟩
    omega
  · intro h
    exact sorted_of_pairwise d (h.imp Int.le_of_lt)

theorem visit_perm {κ ν : Type} {body : DBody σ κ ν} (hb : Commutes body) {d e : List (κ × ν)}
    (h : d.Perm e) (s : σ) : visit body d s = visit body e s := by
  have hv : ∀ (l : List (κ × ν)) (s : σ),
      visit body l s = l.foldl (fun s p => (body p.1 p.2 s).1) s := by
    intro l
    induction l with
    | nil => intro s; rfl
    | cons p r ih =>
      intro s
      obtain ⟨k, v⟩ := p
      have := hb.1 k v s
      simp only [visit, List.foldl_cons]
      rcases hk : body k v s with ⟨s', c⟩
      rw [hk] at this
      simp only at this
      subst this
      simp only [ih]
  rw [hv, hv]
  induction h generalizing s with
  | nil => rfl
  | cons p _ ih => simp only [List.foldl_cons]; exact ih _
  | swap p q l => simp only [List.foldl_cons]; rw [hb.2]
  | trans _ _ ih1 ih2 => rw [ih1, ih2]

end Verif.Iterate
