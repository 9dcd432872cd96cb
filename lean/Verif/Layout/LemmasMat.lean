import Verif.Layout.LemmasArr

namespace Verif.Layout.Model
open Spec

/-! ## Nested lists -/

theorem regular_shape {n : Nat} {s : List Nat} {x : Nest n} (h : Nest.Regular n s x) :
    nestShape n x = some s := by
  induction n generalizing s with
  | zero => simp only [Nest.Regular] at h; subst h; rfl
  | succ n ih =>
    match s, h with
    | k :: s, ⟨h1, h2, h3⟩ =>
      unfold nestShape
      split
      · rename_i e
        rw [e] at h1; simp at h1; omega
      · rename_i y ys e
        rw [e] at h1 h3
        have := ih (h3 y (by simp))
        simp only [List.length_cons] at h1
        simp [this, h1]

theorem nestCode_rep {n : Nat} {s : List Nat} {x : Nest n} (h : Nest.Regular n s x) :
    ∃ f, nestCode n x = some f ∧ Rep (some .C) ⟨s, Nest.val n x⟩ f := by
  induction n generalizing s with
  | zero =>
    simp only [Nest.Regular] at h
    subst h
    refine ⟨⟨[], fun _ => x.num⟩, rfl, rfl, ?_⟩
    intro i _
    cases i <;> rfl
  | succ n ih =>
    have hsh := regular_shape h
    match s, h with
    | k :: s, ⟨h1, h2, h3⟩ =>
      have hall : ∀ xs : List (Nest n), (∀ x ∈ xs, Nest.Regular n s x) → ∃ fs, xs.mapM (nestCode n) = some fs ∧
          Reps (some .C) s (xs.map (fun x => (⟨s, Nest.val n x⟩ : Arr))) fs := by
        intro xs hr
        induction xs with
        | nil =>
          refine ⟨[], rfl, by simp, ?_⟩
          intro k f x hf; simp at hf
        | cons y ys ihy =>
          obtain ⟨f, hf, hrf⟩ := ih (hr y (by simp))
          obtain ⟨fs, hfs, hrs⟩ := ihy (fun z hz => hr z (by simp [hz]))
          refine ⟨f :: fs, by simp [List.mapM_cons, hf, hfs], ?_⟩
          exact Reps.cons.mpr ⟨⟨hrf, rfl⟩, hrs⟩
      obtain ⟨fs, hfs, hrs⟩ := hall x.elems h3
      have hfl : fs.length = k := by rw [← hrs.1, List.length_map, h1]
      obtain ⟨v, hv, hr⟩ := listCode_rep hrs (Or.inl rfl)
      refine ⟨v, ?_, ?_⟩
      · unfold nestCode
        rw [hsh, hfs]
        simp only [Option.bind_some]
        simpa [listCode, hfl] using hv
      · obtain ⟨r1, r2⟩ := hr
        constructor
        · rw [r1]; simp [stack, h1]
        · intro i hi
          have hi' : i ∈ indices (stack s (x.elems.map (fun x => (⟨s, Nest.val n x⟩ : Arr)))).shape := by
            simpa [stack, h1] using hi
          rw [r2 i hi']
          obtain ⟨j, is, rfl, hj, -⟩ := indices_cons.mp hi
          have hj' : j < x.elems.length := by omega
          have hj'' : x.elems[j]? = some (x.elems[j]) := List.getElem?_eq_getElem hj'
          simp only [stack, Nest.val, List.getElem?_map]
          rw [hj'']
          rfl

/-! ## Transposition -/

theorem transposed_flip {o : Order} {a : Arr} {f : FArr} (h : Rep (some o) a f) :
    ∀ o', o' ≠ o → Rep (some o') (transposed a) f := by
  intro o' ho
  constructor
  · rw [h.1]
    cases o <;> cases o' <;> simp [revUnlessF, transposed] at ho ⊢
  · intro i hi
    have hi' : i.reverse ∈ indices a.shape := by
      have := mem_indices_reverse hi
      simpa [transposed] using this
    have := h.2 _ hi'
    cases o <;> cases o' <;> simp [revUnlessF, transposed] at ho this ⊢ <;> exact this

theorem transposed_twice (a : Arr) : transposed (transposed a) = a := by
  cases a; simp [transposed]

theorem printTranspose_rep {o : Order} {a : Arr} {f : FArr} (l : Order) (h : Rep (some o) a f) :
    ∃ g, printTranspose (some (some l)) (some o) a.shape f = some g ∧ Rep (some l) (transposed a) g := by
  unfold printTranspose
  by_cases hl : l = o
  · subst hl
    rw [if_neg (by simp)]
    -- the transposed array in the order `o`
    by_cases h2 : a.shape.length = 2
    · rw [if_pos h2]
      obtain ⟨g, hg, hr⟩ := fTranspose_rep h2 h
      refine ⟨g, hg, ?_⟩
      cases l with
      | C => exact transposed_flip (hr .F (by simp)) .C (by simp)
      | F => exact transposed_flip (hr .C (by simp)) .F (by simp)
    · rw [if_neg h2]
      have hlen : prod (if some l = some Order.F then a.shape.reverse else a.shape) ≤ f.flat.length := by
        rw [flat_length, h.1]
        apply Nat.le_of_eq
        cases l <;> simp [revUnlessF, prod_reverse]
      have hl2 : (if some l = some Order.F then a.shape.reverse else a.shape).length = a.shape.length := by
        split <;> simp
      obtain ⟨g, hg, g1, g2⟩ := reshape_backwards hlen
      rw [hl2] at hg
      refine ⟨g, hg, ?_, ?_⟩
      · rw [g1]; cases l <;> simp [revUnlessF, transposed]
      · intro i hi
        have hi' : i.reverse ∈ indices a.shape := by
          have := mem_indices_reverse hi
          simpa [transposed] using this
        have hflat := flat_get f (i := revUnlessF (some l) i.reverse)
          (by rw [h.1]; exact mem_indices_rev (some l) hi')
        rw [h.2 _ hi', h.1] at hflat
        show g.get (revUnlessF (some l) i) = a.get i.reverse
        rw [← hflat]
        cases l with
        | C =>
          simp only [revUnlessF, reduceCtorEq, Option.some.injEq, if_false] at g2 ⊢
          rw [g2 _ hi']
        | F =>
          simp only [revUnlessF, if_true] at g2 ⊢
          rw [g2 _ hi]
          simp
  · rw [if_pos ⟨by simp, by simpa using hl⟩]
    exact ⟨f, rfl, transposed_flip h l hl⟩

/-! ## `matmul` in Fortran -/

theorem sum_congr {n : Nat} {f g : Nat → Int} (h : ∀ k, k < n → f k = g k) : sum n f = sum n g := by
  induction n with
  | zero => rfl
  | succ n ih => simp only [sum]; rw [ih (fun k hk => h k (by omega)), h n (by omega)]

theorem mem2 {n m x y : Nat} (hx : x < n) (hy : y < m) : [x, y] ∈ indices [n, m] :=
  indices_cons.mpr ⟨x, [y], rfl, hx, indices_cons.mpr ⟨y, [], rfl, hy, by simp [indices]⟩⟩

theorem mem1 {n x : Nat} (hx : x < n) : [x] ∈ indices [n] :=
  indices_cons.mpr ⟨x, [], rfl, hx, by simp [indices]⟩

theorem of_mem2 {n m : Nat} {i : List Nat} (h : i ∈ indices [n, m]) : ∃ x y, i = [x, y] ∧ x < n ∧ y < m := by
  obtain ⟨x, is, rfl, hx, h⟩ := indices_cons.mp h
  obtain ⟨y, js, rfl, hy, h⟩ := indices_cons.mp h
  simp [indices] at h
  subst h
  exact ⟨x, y, rfl, hx, hy⟩

theorem of_mem1 {n : Nat} {i : List Nat} (h : i ∈ indices [n]) : ∃ x, i = [x] ∧ x < n := by
  obtain ⟨x, is, rfl, hx, h⟩ := indices_cons.mp h
  simp [indices] at h
  subst h
  exact ⟨x, rfl, hx⟩

theorem printMatmul_rep {oa ob : Option Order} {a b r : Arr} {fa fb : FArr} (ha : Rep oa a fa)
    (hb : Rep ob b fb) (hoa : oa = none ↔ a.shape.length < 2) (hob : ob = none ↔ b.shape.length < 2)
    (hr : matmul a b = some r) (hm : oa ≠ none → ob ≠ none → oa = ob)
    (hF : oa = none → ob ≠ some .F) :
    ∃ g, printMatmul oa ob fa fb = some g ∧ Rep (matmulOrder r.shape.length none oa ob) r g := by
  obtain ⟨sa, va⟩ := a
  obtain ⟨sb, vb⟩ := b
  unfold matmul at hr
  obtain ⟨ha1, ha2⟩ := ha
  obtain ⟨hb1, hb2⟩ := hb
  simp only at hr ha1 ha2 hb1 hb2 hoa hob
  split at hr
  · rename_i n m m' p
    split at hr
    · rename_i hmm
      subst hmm
      simp only [Option.some.injEq] at hr
      subst hr
      have ea : oa ≠ none := fun e => by have := hoa.mp e; simp at this
      have eb : ob ≠ none := fun e => by have := hob.mp e; simp at this
      have hab := hm ea eb
      subst hab
      obtain ⟨o, rfl⟩ := Option.ne_none_iff_exists'.mp ea
      cases o with
      | C =>
        simp [revUnlessF] at ha1 hb1
        refine ⟨⟨[p, n], fun i => match i with
            | [x, y] => sum m (fun k => fb.get [x, k] * fa.get [k, y])
            | _ => 0⟩, ?_, ?_, ?_⟩
        · simp [printMatmul, fMatmul, ha1, hb1]
          rfl
        · simp [matmulOrder, revUnlessF]
        · intro i hi
          obtain ⟨x, y, rfl, hx, hy⟩ := of_mem2 hi
          simp only [matmulOrder, revUnlessF]
          simp
          refine sum_congr (fun k hk => ?_)
          have h1 := ha2 [x, k] (mem2 hx hk)
          have h2 := hb2 [k, y] (mem2 hk hy)
          simp [revUnlessF] at h1 h2
          rw [h1, h2, Int.mul_comm]
      | F =>
        simp [revUnlessF] at ha1 hb1
        refine ⟨⟨[n, p], fun i => match i with
            | [x, y] => sum m (fun k => fa.get [x, k] * fb.get [k, y])
            | _ => 0⟩, ?_, ?_, ?_⟩
        · simp [printMatmul, fMatmul, ha1, hb1]
          rfl
        · simp [matmulOrder, revUnlessF]
        · intro i hi
          obtain ⟨x, y, rfl, hx, hy⟩ := of_mem2 hi
          simp only [matmulOrder, revUnlessF]
          simp
          refine sum_congr (fun k hk => ?_)
          have h1 := ha2 [x, k] (mem2 hx hk)
          have h2 := hb2 [k, y] (mem2 hk hy)
          simp [revUnlessF] at h1 h2
          rw [h1, h2]
    · simp at hr
  · rename_i n m m'
    split at hr
    · rename_i hmm
      subst hmm
      simp only [Option.some.injEq] at hr
      subst hr
      have ea : oa ≠ none := fun e => by have := hoa.mp e; simp at this
      have eb : ob = none := hob.mpr (by simp)
      subst eb
      rw [revUnlessF_short _ (by simp)] at hb1
      obtain ⟨o, rfl⟩ := Option.ne_none_iff_exists'.mp ea
      cases o with
      | C =>
        simp [revUnlessF] at ha1
        refine ⟨⟨[n], fun i => match i with
            | [x] => sum m (fun k => fb.get [k] * fa.get [k, x])
            | _ => 0⟩, ?_, ?_, ?_⟩
        · simp [printMatmul, fMatmul, ha1, hb1]
          rfl
        · simp [matmulOrder, revUnlessF]
        · intro i hi
          obtain ⟨x, rfl, hx⟩ := of_mem1 hi
          simp only [matmulOrder, revUnlessF]
          simp
          refine sum_congr (fun k hk => ?_)
          have h1 := ha2 [x, k] (mem2 hx hk)
          have h2 := hb2 [k] (mem1 hk)
          simp [revUnlessF] at h1 h2
          rw [h1, h2, Int.mul_comm]
      | F =>
        simp [revUnlessF] at ha1
        refine ⟨⟨[n], fun i => match i with
            | [x] => sum m (fun k => fa.get [x, k] * fb.get [k])
            | _ => 0⟩, ?_, ?_, ?_⟩
        · simp [printMatmul, fMatmul, ha1, hb1]
          rfl
        · simp [matmulOrder, revUnlessF]
        · intro i hi
          obtain ⟨x, rfl, hx⟩ := of_mem1 hi
          simp only [matmulOrder, revUnlessF]
          simp
          refine sum_congr (fun k hk => ?_)
          have h1 := ha2 [x, k] (mem2 hx hk)
          have h2 := hb2 [k] (mem1 hk)
          simp [revUnlessF] at h1 h2
          rw [h1, h2]
    · simp at hr
  · rename_i m m' p
    split at hr
    · rename_i hmm
      subst hmm
      simp only [Option.some.injEq] at hr
      subst hr
      have ea : oa = none := hoa.mpr (by simp)
      have eb : ob ≠ none := fun e => by have := hob.mp e; simp at this
      subst ea
      rw [revUnlessF_short _ (by simp)] at ha1
      have hnF := hF rfl
      obtain ⟨o, rfl⟩ := Option.ne_none_iff_exists'.mp eb
      cases o with
      | F => exact absurd rfl hnF
      | C =>
        simp [revUnlessF] at hb1
        refine ⟨⟨[p], fun i => match i with
            | [x] => sum m (fun k => fb.get [x, k] * fa.get [k])
            | _ => 0⟩, ?_, ?_, ?_⟩
        · simp [printMatmul, fMatmul, ha1, hb1]
          rfl
        · simp [matmulOrder, revUnlessF]
        · intro i hi
          obtain ⟨x, rfl, hx⟩ := of_mem1 hi
          simp only [matmulOrder, revUnlessF]
          simp
          refine sum_congr (fun k hk => ?_)
          have h1 := ha2 [k] (mem1 hk)
          have h2 := hb2 [k, x] (mem2 hk hx)
          simp [revUnlessF] at h1 h2
          rw [h1, h2, Int.mul_comm]
    · simp at hr
  · simp at hr

/-! ## `matmul` in C -/

theorem hput_same (h : Heap) (a : Addr) (v : Int) : h.put a v a = v := by simp [Heap.put]

theorem hput_other {h : Heap} {a b : Addr} (v : Int) (e : b ≠ a) : h.put a v b = h b := by
  simp [Heap.put, e]

/-- The inner loop computes a sum of products. -/
theorem accumulate_eq {out : Addr} {a b : Nat → Addr} {m : Nat} (h : Heap)
    (ha : ∀ j, j < m → a j ≠ out) (hb : ∀ j, j < m → b j ≠ out) :
    accumulate out a b m h = h.put out (sum m (fun j => h (a j) * h (b j))) := by
  unfold accumulate
  induction m with
  | zero => rfl
  | succ m ih =>
    rw [List.range_succ, List.foldl_append, ih (fun j hj => ha j (by omega)) (fun j hj => hb j (by omega))]
    simp only [List.foldl_cons, List.foldl_nil, sum]
    rw [hput_same, hput_other _ (ha m (by omega)), hput_other _ (hb m (by omega))]
    funext x
    simp only [Heap.put]
    split <;> rfl

/-- A loop that computes one element of the result in each step. -/
theorem loop_eq {α : Type} {m : Nat} {out : α → Addr} {a b : α → Nat → Addr} (cs : List α) (h : Heap)
    (hn : (cs.map out).Nodup)
    (ha : ∀ c ∈ cs, ∀ d ∈ cs, ∀ j, j < m → a c j ≠ out d)
    (hb : ∀ c ∈ cs, ∀ d ∈ cs, ∀ j, j < m → b c j ≠ out d) :
    let h' := cs.foldl (fun h c => accumulate (out c) (a c) (b c) m h) h
    (∀ c ∈ cs, h' (out c) = sum m (fun j => h (a c j) * h (b c j))) ∧
    ∀ x, (∀ c ∈ cs, x ≠ out c) → h' x = h x := by
  induction cs generalizing h with
  | nil => simp
  | cons c cs ih =>
    simp only [List.map_cons, List.nodup_cons] at hn
    have e := accumulate_eq (m := m) (out := out c) (a := a c) (b := b c) h (ha c (by simp) c (by simp))
      (hb c (by simp) c (by simp))
    have := ih (accumulate (out c) (a c) (b c) m h) hn.2
      (fun x hx y hy => ha x (by simp [hx]) y (by simp [hy]))
      (fun x hx y hy => hb x (by simp [hx]) y (by simp [hy]))
    simp only at this
    obtain ⟨i1, i2⟩ := this
    simp only [List.foldl_cons]
    refine ⟨?_, ?_⟩
    · intro d hd
      rcases List.mem_cons.mp hd with rfl | hd'
      · rw [i2 _ (fun c hc => fun heq => hn.1 (by rw [heq]; exact List.mem_map_of_mem hc))]
        rw [e, hput_same]
      · rw [i1 d hd']
        refine sum_congr (fun j hj => ?_)
        rw [e, hput_other _ (ha d hd c (by simp) j hj), hput_other _ (hb d hd c (by simp) j hj)]
    · intro x hx
      rw [i2 x (fun d hd => hx d (by simp [hd])), e, hput_other _ (hx c (by simp))]

theorem cell2_eq {w : View} {d e : Dim} (hw : w.dims = [d, e]) {i j : Nat} (hi : i < d.len) (hj : j < e.len) :
    w.cell [i, j] = some (cell2 w i j) := by
  simp [View.cell, addr, hw, hi, hj, cell2]; omega

theorem cell1_eq {w : View} {d : Dim} (hw : w.dims = [d]) {i : Nat} (hi : i < d.len) :
    w.cell [i] = some (cell1 w i) := by
  simp [View.cell, addr, hw, hi, cell1]

theorem nodup_map {α : Type} {f : α → Addr} {cs : List α} (hc : cs.Nodup)
    (h : ∀ c ∈ cs, ∀ d ∈ cs, f c = f d → c = d) : (cs.map f).Nodup := by
  induction cs with
  | nil => simp
  | cons c cs ih =>
    simp only [List.nodup_cons] at hc
    simp only [List.map_cons, List.nodup_cons]
    refine ⟨?_, ih hc.2 (fun x hx y hy => h x (by simp [hx]) y (by simp [hy]))⟩
    intro hm
    obtain ⟨d, hd, e⟩ := List.mem_map.mp hm
    have := h c (by simp) d (by simp [hd]) e.symm
    subst this
    exact hc.1 hd

theorem mem_grid {n p : Nat} {c : Nat × Nat} :
    c ∈ (List.range n).flatMap (fun i => (List.range p).map (fun k => (i, k))) ↔ c.1 < n ∧ c.2 < p := by
  obtain ⟨x, y⟩ := c
  simp only [List.mem_flatMap, List.mem_range, List.mem_map, Prod.mk.injEq]
  constructor
  · rintro ⟨i, hi, k, hk, rfl, rfl⟩; exact ⟨hi, hk⟩
  · rintro ⟨hi, hk⟩; exact ⟨x, hi, y, hk, rfl, rfl⟩

theorem nodup_grid (n p : Nat) :
    ((List.range n).flatMap (fun i => (List.range p).map (fun k => (i, k)))).Nodup := by
  induction n with
  | zero => simp
  | succ n ih =>
    rw [List.range_succ, List.flatMap_append]
    refine List.nodup_append.mpr ⟨ih, ?_, ?_⟩
    · simp only [List.flatMap_cons, List.flatMap_nil, List.append_nil]
      have : (List.range p).Nodup := List.nodup_range
      exact List.Pairwise.map _ (fun a b hab e => hab (by simpa using e)) this
    · intro c hc d hd e
      subst e
      have h1 := mem_grid.mp hc
      simp only [List.flatMap_cons, List.flatMap_nil, List.append_nil, List.mem_map] at hd
      obtain ⟨k, -, rfl⟩ := hd
      simp at h1

theorem dims2 {w : View} {n m : Nat} (h : w.dims.map (·.len) = [n, m]) :
    ∃ d e, w.dims = [d, e] ∧ d.len = n ∧ e.len = m := by
  match hq : w.dims with
  | [d, e] => rw [hq] at h; simp at h; exact ⟨d, e, rfl, h.1, h.2⟩
  | [] => rw [hq] at h; simp at h
  | [_] => rw [hq] at h; simp at h
  | _ :: _ :: _ :: _ => rw [hq] at h; simp at h

theorem dims1 {w : View} {n : Nat} (h : w.dims.map (·.len) = [n]) : ∃ d, w.dims = [d] ∧ d.len = n := by
  match hq : w.dims with
  | [d] => rw [hq] at h; simp at h; exact ⟨d, rfl, h⟩
  | [] => rw [hq] at h; simp at h
  | _ :: _ :: _ => rw [hq] at h; simp at h

theorem value2 {w : View} {h : Heap} {d e : Dim} (hw : w.dims = [d, e]) {i j : Nat} (hi : i < d.len)
    (hj : j < e.len) : (w.value h).get [i, j] = h (cell2 w i j) := by
  simp [View.value, cell2_eq hw hi hj]

theorem value1 {w : View} {h : Heap} {d : Dim} (hw : w.dims = [d]) {i : Nat} (hi : i < d.len) :
    (w.value h).get [i] = h (cell1 w i) := by
  simp [View.value, cell1_eq hw hi]

/-- `np.matmul` computed by the functions of `pyc_math_c`. -/
theorem matmulC_eq {out a b : View} {h : Heap} {r : Arr} (hi : out.Inj) (ha : a.Apart out)
    (hb : b.Apart out) (hr : matmul (a.value h) (b.value h) = some r)
    (hs : out.dims.map (·.len) = r.shape) :
    ∃ h', matmulC out a b h = some h' ∧ (out.value h').same r ∧
      ∀ x, (∀ i, out.cell i ≠ some x) → h' x = h x := by
  unfold matmul at hr
  split at hr
  · rename_i n m m' p ea eb
    split at hr
    · rename_i hmm
      subst hmm
      simp only [Option.some.injEq] at hr
      subst hr
      obtain ⟨da, ea', hda, la1, la2⟩ := dims2 (w := a) ea
      obtain ⟨db, eb', hdb, lb1, lb2⟩ := dims2 (w := b) eb
      obtain ⟨d, e, hdo, lo1, lo2⟩ := dims2 (w := out) hs
      have hla : a.len 0 = n ∧ a.len 1 = m := by simp [View.len, hda, la1, la2]
      have hlb : b.len 0 = m ∧ b.len 1 = p := by simp [View.len, hdb, lb1, lb2]
      have hlo : out.len 0 = n ∧ out.len 1 = p := by simp [View.len, hdo, lo1, lo2]
      have hco : ∀ c : Nat × Nat, c.1 < n → c.2 < p → out.cell [c.1, c.2] = some (cell2 out c.1 c.2) :=
        fun c h1 h2 => cell2_eq hdo (by omega) (by omega)
      have key := loop_eq (m := m) (out := fun c : Nat × Nat => cell2 out c.1 c.2)
        (a := fun c j => cell2 a c.1 j) (b := fun c j => cell2 b j c.2)
        ((List.range n).flatMap (fun i => (List.range p).map (fun k => (i, k)))) h
        (nodup_map (nodup_grid n p) (fun x hx y hy hxy => by
          obtain ⟨x1, x2⟩ := x
          obtain ⟨y1, y2⟩ := y
          have h1 := mem_grid.mp hx
          have h2 := mem_grid.mp hy
          have := hi _ _ _ (hco _ h1.1 h1.2) (by rw [hxy]; exact hco _ h2.1 h2.2)
          simpa using this))
        (fun x hx y hy j hj heq => by
          have h1 := mem_grid.mp hx
          have h2 := mem_grid.mp hy
          exact ha _ _ _ (cell2_eq (i := x.1) (j := j) hda (by omega) (by omega)) (by rw [heq]; exact hco _ h2.1 h2.2))
        (fun x hx y hy j hj heq => by
          have h1 := mem_grid.mp hx
          have h2 := mem_grid.mp hy
          exact hb _ _ _ (cell2_eq (i := j) (j := x.2) hdb (by omega) (by omega)) (by rw [heq]; exact hco _ h2.1 h2.2))
      simp only [List.foldl_flatMap, List.foldl_map] at key
      obtain ⟨k1, k2⟩ := key
      have hm : matmulC out a b h = some
        ((List.range n).foldl (fun h i => (List.range p).foldl (fun h k =>
          accumulate (cell2 out i k) (fun j => cell2 a i j) (fun j => cell2 b j k) m h) h) h) := by
        simp [matmulC, hda, hdb, hla, hlb, hlo]
      refine ⟨_, hm, ⟨hs, ?_⟩, ?_⟩
      · intro i hi
        have hi' : i ∈ indices [n, p] := by
          have hs' : out.dims.map (·.len) = [n, p] := hs
          rw [← hs']; exact hi
        obtain ⟨x, y, rfl, hx, hy⟩ := of_mem2 hi'
        rw [value2 hdo (by omega) (by omega)]
        refine (k1 (x, y) (mem_grid.mpr ⟨hx, hy⟩)).trans (sum_congr (fun k hk => ?_))
        rw [value2 hda (by omega) (by omega), value2 hdb (by omega) (by omega)]
      · intro x hx
        refine k2 x (fun c hc heq => ?_)
        have h1 := mem_grid.mp hc
        exact hx _ (by rw [heq]; exact hco c h1.1 h1.2)
    · simp at hr
  · rename_i n m m' ea eb
    split at hr
    · rename_i hmm
      subst hmm
      simp only [Option.some.injEq] at hr
      subst hr
      obtain ⟨da, ea', hda, la1, la2⟩ := dims2 (w := a) ea
      obtain ⟨db, hdb, lb1⟩ := dims1 (w := b) eb
      obtain ⟨d, hdo, lo1⟩ := dims1 (w := out) hs
      have hla : a.len 0 = n ∧ a.len 1 = m := by simp [View.len, hda, la1, la2]
      have hlb : b.len 0 = m := by simp [View.len, hdb, lb1]
      have hlo : out.len 0 = n := by simp [View.len, hdo, lo1]
      have hco : ∀ c, c < n → out.cell [c] = some (cell1 out c) :=
        fun c h1 => cell1_eq hdo (by omega)
      have key := loop_eq (m := m) (out := fun c => cell1 out c)
        (a := fun c j => cell2 a c j) (b := fun _ j => cell1 b j) (List.range n) h
        (nodup_map List.nodup_range (fun x hx y hy hxy => by
          have h1 := List.mem_range.mp hx
          have h2 := List.mem_range.mp hy
          have := hi _ _ _ (hco _ h1) (by rw [hxy]; exact hco _ h2)
          simpa using this))
        (fun x hx y hy j hj heq => by
          have h1 := List.mem_range.mp hx
          have h2 := List.mem_range.mp hy
          exact ha _ _ _ (cell2_eq (i := x) (j := j) hda (by omega) (by omega)) (by rw [heq]; exact hco _ h2))
        (fun x hx y hy j hj heq => by
          have h2 := List.mem_range.mp hy
          exact hb _ _ _ (cell1_eq (i := j) hdb (by omega)) (by rw [heq]; exact hco _ h2))
      simp only at key
      obtain ⟨k1, k2⟩ := key
      have hm : matmulC out a b h = some
        ((List.range n).foldl (fun h i =>
          accumulate (cell1 out i) (fun j => cell2 a i j) (fun j => cell1 b j) m h) h) := by
        simp [matmulC, hda, hdb, hla, hlb, hlo]
      refine ⟨_, hm, ⟨hs, ?_⟩, ?_⟩
      · intro i hi
        have hi' : i ∈ indices [n] := by
          have hs' : out.dims.map (·.len) = [n] := hs
          rw [← hs']; exact hi
        obtain ⟨x, rfl, hx⟩ := of_mem1 hi'
        rw [value1 hdo (by omega)]
        refine (k1 x (List.mem_range.mpr hx)).trans (sum_congr (fun k hk => ?_))
        rw [value2 hda (by omega) (by omega), value1 hdb (by omega)]
      · intro x hx
        refine k2 x (fun c hc heq => ?_)
        exact hx _ (by rw [heq]; exact hco c (List.mem_range.mp hc))
    · simp at hr
  · rename_i m m' p ea eb
    split at hr
    · rename_i hmm
      subst hmm
      simp only [Option.some.injEq] at hr
      subst hr
      obtain ⟨da, hda, la1⟩ := dims1 (w := a) ea
      obtain ⟨db, eb', hdb, lb1, lb2⟩ := dims2 (w := b) eb
      obtain ⟨d, hdo, lo1⟩ := dims1 (w := out) hs
      have hla : a.len 0 = m := by simp [View.len, hda, la1]
      have hlb : b.len 0 = m ∧ b.len 1 = p := by simp [View.len, hdb, lb1, lb2]
      have hlo : out.len 0 = p := by simp [View.len, hdo, lo1]
      have hco : ∀ c, c < p → out.cell [c] = some (cell1 out c) :=
        fun c h1 => cell1_eq hdo (by omega)
      have key := loop_eq (m := m) (out := fun c => cell1 out c)
        (a := fun _ j => cell1 a j) (b := fun c j => cell2 b j c) (List.range p) h
        (nodup_map List.nodup_range (fun x hx y hy hxy => by
          have h1 := List.mem_range.mp hx
          have h2 := List.mem_range.mp hy
          have := hi _ _ _ (hco _ h1) (by rw [hxy]; exact hco _ h2)
          simpa using this))
        (fun x hx y hy j hj heq => by
          have h2 := List.mem_range.mp hy
          exact ha _ _ _ (cell1_eq (i := j) hda (by omega)) (by rw [heq]; exact hco _ h2))
        (fun x hx y hy j hj heq => by
          have h1 := List.mem_range.mp hx
          have h2 := List.mem_range.mp hy
          exact hb _ _ _ (cell2_eq (i := j) (j := x) hdb (by omega) (by omega)) (by rw [heq]; exact hco _ h2))
      simp only at key
      obtain ⟨k1, k2⟩ := key
      have hm : matmulC out a b h = some
        ((List.range p).foldl (fun h i =>
          accumulate (cell1 out i) (fun j => cell1 a j) (fun j => cell2 b j i) m h) h) := by
        simp [matmulC, hda, hdb, hla, hlb, hlo]
      refine ⟨_, hm, ⟨hs, ?_⟩, ?_⟩
      · intro i hi
        have hi' : i ∈ indices [p] := by
          have hs' : out.dims.map (·.len) = [p] := hs
          rw [← hs']; exact hi
        obtain ⟨x, rfl, hx⟩ := of_mem1 hi'
        rw [value1 hdo (by omega)]
        refine (k1 x (List.mem_range.mpr hx)).trans (sum_congr (fun k hk => ?_))
        rw [value1 hda (by omega), value2 hdb (by omega) (by omega)]
      · intro x hx
        refine k2 x (fun c hc heq => ?_)
        exact hx _ (by rw [heq]; exact hco c (List.mem_range.mp hc))
    · simp at hr
  · simp at hr

end Verif.Layout.Model
