import Verif.Views.Lemmas
/-
Property C18.
-/
namespace Verif.Views
open Spec

/-- **C18** (views with nested strides, any rank, both orderings).  The compiled code sees the
shape NumPy reports, and at every index the element NumPy stores there.

Missing: views whose strides do not divide each other, negative strides, zero strides and empty
views; see the counterexamples below. -/
theorem C18_view_partial (cOrder : Bool) (item : Int) (dims : List NpDim) (hi : 0 < item)
    (h : Representable cOrder item dims) :
    ∃ ps, getParts true cOrder item dims = some ps ∧
      seenShape ps = some (dims.map NpDim.shape) ∧
      ∀ idx, InRange dims idx → item * seenOffset cOrder ps idx = byteOffset dims idx := by
  cases cOrder with
  | false => simpa [getParts, seenOffset] using viewPartsF_spec hi h
  | true =>
    have h' : Representable false item dims.reverse := by simpa [Representable] using h
    obtain ⟨ps, h1, h2, h3⟩ := viewPartsF_spec hi h'
    refine ⟨ps.reverse, by simp [getParts, viewPartsC, h1], ?_, ?_⟩
    · have := mapM_reverse_some Part.extent h2
      rw [seenShape, this]; simp
    · intro idx hr
      have := h3 idx.reverse (inRange_reverse hr)
      rw [byteOffset_reverse (inRange_length hr)] at this
      simpa [seenOffset] using this

/-- `a[:, 2, ::2, :]` with `a` of shape `(2,3,4,5)` (the example in the C source). -/
example : Representable true 8 [⟨2, 480⟩, ⟨2, 80⟩, ⟨5, 8⟩] := by
  refine ⟨by decide, by decide, by decide, by decide, by decide, by decide, ?_⟩
  refine ⟨by decide, by decide, by decide, by decide, ?_⟩
  show (0 : Int) < 2; decide

/-- Along nested dimensions of length at least 2 the strides increase strictly. -/
theorem orderOk_nested {item : Int} : ∀ (d : NpDim) (rest : List NpDim) (prev : Int), 0 < prev →
    0 < d.stride → Nested prev d rest → (∀ x ∈ d :: rest, 2 ≤ x.shape) →
    (d :: rest).Pairwise (fun x y => x.stride < y.stride)
  | d, [], _, _, _, _, _ => by simp
  | d, e :: rest, prev, hp, hd, h, h2 => by
    obtain ⟨h3, h4, h5, h6, h7⟩ := h
    have ih := orderOk_nested (item := item) e rest e.stride h4 h4 h7
      (fun x hx => h2 x (List.mem_cons_of_mem _ hx))
    have hde : d.stride < e.stride := by
      have := h2 d (by simp)
      nlinarith
    rw [List.pairwise_cons]
    refine ⟨fun x hx => ?_, ih⟩
    rcases List.mem_cons.1 hx with rfl | hx
    · exact hde
    · exact lt_trans hde ((List.pairwise_cons.1 ih).1 x hx)

theorem orderOk_iff (cOrder : Bool) : ∀ dims : List NpDim, orderOk cOrder dims = true ↔
    dims.Pairwise (fun x y => if cOrder then x.stride ≥ y.stride else x.stride ≤ y.stride)
  | [] => by simp [orderOk]
  | [d] => by simp [orderOk]
  | d :: e :: rest => by
    have ih := orderOk_iff cOrder (e :: rest)
    rw [List.pairwise_cons, ← ih]
    cases cOrder with
    | false =>
      simp only [orderOk, Bool.false_eq_true, if_false, Bool.and_eq_true, decide_eq_true_eq] at ih ⊢
      refine ⟨fun ⟨a, b⟩ => ⟨fun x hx => ?_, b⟩, fun ⟨a, b⟩ => ⟨a e (by simp), b⟩⟩
      rcases List.mem_cons.1 hx with rfl | hx
      · exact a
      · exact le_trans a ((List.pairwise_cons.1 (ih.1 b)).1 x hx)
    | true =>
      simp only [orderOk, if_true, Bool.and_eq_true, decide_eq_true_eq] at ih ⊢
      refine ⟨fun ⟨a, b⟩ => ⟨fun x hx => ?_, b⟩, fun ⟨a, b⟩ => ⟨a e (by simp), b⟩⟩
      rcases List.mem_cons.1 hx with rfl | hx
      · exact a
      · exact le_trans ((List.pairwise_cons.1 (ih.1 b)).1 x hx) a

/-- **C18** (ordering check).  A view of the stated form, with at least two positions in every
dimension, passes the ordering check of its own ordering, and, from rank 2 on, fails the check of
the other ordering: a row-major array is never accepted as column-major or conversely. -/
theorem C18_order_partial (cOrder : Bool) (item : Int) (dims : List NpDim) (hi : 0 < item)
    (h : Representable cOrder item dims) (h2 : ∀ d ∈ dims, 2 ≤ d.shape) :
    orderOk cOrder dims = true ∧ (2 ≤ dims.length → orderOk (!cOrder) dims = false) := by
  have key : ∀ ds : List NpDim, Representable false item ds → (∀ d ∈ ds, 2 ≤ d.shape) →
      ds.Pairwise (fun x y => x.stride < y.stride) := by
    intro ds h h2
    cases ds with
    | nil => simp
    | cons d rest =>
      obtain ⟨a, b, c⟩ := h
      exact orderOk_nested (item := item) d rest item hi a c h2
  cases cOrder with
  | false =>
    have hs := key dims h h2
    refine ⟨(orderOk_iff _ _).2 (hs.imp (fun h => by simpa using le_of_lt h)), fun hl => ?_⟩
    match dims, hl, hs with
    | d :: e :: rest, _, hs =>
      have := (List.pairwise_cons.1 hs).1 e (by simp)
      simp [orderOk]; intro hh; omega
  | true =>
    have hs := key dims.reverse (by simpa [Representable] using h) (by simpa using h2)
    rw [List.pairwise_reverse] at hs
    refine ⟨(orderOk_iff _ _).2 (hs.imp (fun h => by simpa using le_of_lt h)), fun hl => ?_⟩
    match dims, hl, hs with
    | d :: e :: rest, _, hs =>
      have := (List.pairwise_cons.1 hs).1 e (by simp)
      simp [orderOk]; intro hh; omega

/-- **C18** (slices of contiguous arrays).  A basic slice with positive steps of a contiguous
array (either ordering) is seen correctly whatever the steps in the innermost and outermost
dimensions, provided the steps of the dimensions in between divide as stated; in particular
every such slice of rank 1 or 2 is.  The dimensions of the slice are listed innermost first. -/
theorem C18_slice_partial (cOrder : Bool) (item : Int) (c : Cut) (cs : List Cut) (hi : 0 < item)
    (hok : ∀ x ∈ c :: cs, x.Ok) (hdiv : InnerStepsDivide cs) :
    ∃ ps, getParts true cOrder item
        (if cOrder then (cutDims item (c :: cs)).reverse else cutDims item (c :: cs)) = some ps ∧
      ∀ idx, InRange (cutDims item (c :: cs)) idx →
        item * seenOffset cOrder ps (if cOrder then idx.reverse else idx) =
          byteOffset (cutDims item (c :: cs)) idx := by
  obtain ⟨h1, h2, h3⟩ := hok c (by simp)
  have hsz : 0 < c.size := by nlinarith
  have hn : Nested item ⟨c.count, c.step * item⟩ (cutDims (item * c.size) cs) := by
    cases cs with
    | nil => exact h2
    | cons e cs =>
      obtain ⟨e1, e2, e3⟩ := hok e (by simp)
      refine ⟨h2, ?_, ⟨e.step * c.size, by simp; ring⟩, ?_, ?_⟩
      · show 0 < e.step * (item * c.size); positivity
      · show (c.count - 1) * (c.step * item) + item ≤ e.step * (item * c.size)
        have h5 : item * ((c.count - 1) * c.step + 1) ≤ item * c.size :=
          mul_le_mul_of_nonneg_left h3 (le_of_lt hi)
        have h6 : item * c.size ≤ e.step * (item * c.size) := by
          have : 0 < item * c.size := by positivity
          nlinarith
        nlinarith
      · exact cut_nested cs _ _ e (by positivity) (by positivity)
          (fun x hx => hok x (by simp_all)) hdiv rfl
  have hrep : Representable false item (cutDims item (c :: cs)) := by
    simp only [Representable, Bool.false_eq_true, if_false, cutDims]
    exact ⟨by show 0 < c.step * item; positivity, ⟨c.step, by show c.step * item = item * c.step; ring⟩, hn⟩
  cases cOrder with
  | false =>
    obtain ⟨ps, a, _, b⟩ := C18_view_partial false item _ hi hrep
    exact ⟨ps, by simpa using a, fun idx hidx => by simpa using b idx hidx⟩
  | true =>
    have hrep' : Representable true item (cutDims item (c :: cs)).reverse := by
      simpa [Representable] using hrep
    obtain ⟨ps, a, _, b⟩ := C18_view_partial true item _ hi hrep'
    refine ⟨ps, by simpa using a, fun idx hidx => ?_⟩
    have := b idx.reverse (inRange_reverse hidx)
    rw [byteOffset_reverse (inRange_length hidx)] at this
    simpa using this

/-- `a[::2, ::3]` with `a` of shape `(5, 7)`. -/
example : (∀ x ∈ [(⟨7, 3, 3⟩ : Cut), ⟨5, 2, 3⟩], x.Ok) ∧ InnerStepsDivide [(⟨5, 2, 3⟩ : Cut)] := by
  simp [Cut.Ok, InnerStepsDivide]

/-- **C18** (arrays that are not views).  A contiguous array that owns its data is seen
correctly in either ordering; dimensions are listed innermost first. -/
theorem C18_owned (cOrder : Bool) (item : Int) (ns : List Int) (idx : List Int)
    (hns : ∀ n ∈ ns, 0 < n) (hidx : ns.length = idx.length) :
    let dims := contiguousDims item ns
    ∃ ps, getParts false cOrder item (if cOrder then dims.reverse else dims) = some ps ∧
      seenShape ps = some (if cOrder then ns.reverse else ns) ∧
      item * seenOffset cOrder ps (if cOrder then idx.reverse else idx) = byteOffset dims idx := by
  intro dims
  have hs : dims.map (fun d => (⟨d.shape, d.shape, 1⟩ : Part)) = ns.map fun n => ⟨n, n, 1⟩ := by
    conv_rhs => rw [← contiguous_shape ns item]
    simp [dims]
  refine ⟨_, rfl, ?_, ?_⟩
  · have he : seenShape (ns.map fun n => (⟨n, n, 1⟩ : Part)) = some ns := owned_shape ns hns
    cases cOrder with
    | false => simpa [hs] using he
    | true => simpa [hs, seenShape] using mapM_reverse_some Part.extent he
  · rw [contiguous_spec ns item idx hidx]
    cases cOrder <;> simp [seenOffset, hs]

example : contiguousDims 8 [5, 3, 2] = [⟨5, 8⟩, ⟨3, 40⟩, ⟨2, 120⟩] := by decide

/-- **C18 fails** for strides that do not divide each other: `a[:, ::2, :]` with `a` of shape
`(2, 3, 5)` passes the ordering check, but the compiled code finds element `(0, 1, 0)` at item
offset 5 where NumPy stores it at offset 10. -/
theorem C18_nondivisible_violated :
    let dims : List NpDim := [⟨2, 120⟩, ⟨2, 80⟩, ⟨5, 8⟩]
    orderOk true dims = true ∧ InRange dims [1, 1, 0] ∧
    ∃ ps, getParts true true 8 dims = some ps ∧
      byteOffset dims [1, 1, 0] = 200 ∧ 8 * seenOffset true ps [1, 1, 0] = 160 := by
  refine ⟨by decide, by simp [InRange], _, rfl, by decide, by decide⟩

/-- **C18 fails** for reversed views: `a[::-1]` with `a` of length 3 passes the ordering check,
and the compiled code gets a slice with a negative upper bound and step. -/
theorem C18_negative_stride_violated :
    orderOk true [⟨3, -8⟩] = true ∧
    ∃ ps, getParts true true 8 [⟨3, -8⟩] = some ps ∧ ps = [⟨-3, -1, -1⟩] ∧ seenShape ps = none :=
  ⟨by decide, _, rfl, by decide, by decide⟩

/-- **C18 fails** for broadcast views: `np.broadcast_to(x, (2, 3, 4))` with a 0-d `x` passes the ordering check and makes the wrapper divide by zero. -/
theorem C18_zero_stride_violated :
    orderOk true [⟨2, 0⟩, ⟨3, 0⟩, ⟨4, 0⟩] = true ∧
    getParts true true 8 [⟨2, 0⟩, ⟨3, 0⟩, ⟨4, 0⟩] = none := by decide

end Verif.Views
