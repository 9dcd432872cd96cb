import Verif.Views.Model
import Mathlib.Tactic.Linarith
import Mathlib.Tactic.Ring
import Mathlib.Tactic.LinearCombination
import Mathlib.Tactic.Positivity
namespace Verif.Views
open Spec

theorem fillDims_spec (rest : List NpDim) : ∀ (cur st : Int) (d : NpDim),
    0 < cur → 0 < st → d.stride = cur * st → Nested cur d rest →
    ∃ ps, fillDims cur ((d.shape - 1) * st + 1) st d rest = some ps ∧
      seenShape ps = some ((d :: rest).map NpDim.shape) ∧
      ∀ idx, InRange (d :: rest) idx → cur * seenOffsetF ps idx = byteOffset (d :: rest) idx := by
  induction rest with
  | nil =>
    intro cur st d hc hs hd hn
    simp only [Nested] at hn
    refine ⟨_, rfl, ?_, ?_⟩
    · have h1 : 0 < (d.shape - 1) * st + 1 := by nlinarith
      have h2 : (d.shape - 1) * st + 1 ≤ d.shape * st := by nlinarith
      simp [seenShape, Part.extent, hs, h1, h2, Int.mul_ediv_cancel _ (ne_of_gt hs)]
    · intro idx hi
      match idx, hi with
      | [i], _ => simp [seenOffsetF, byteOffset, hd]; ring
  | cons e rest ih =>
    intro cur st d hc hs hd hn
    simp only [Nested] at hn
    obtain ⟨hsh, he, ⟨b, hb⟩, hle, hrest⟩ := hn
    have hbp : 0 < b := by
      by_contra h
      have : cur * b ≤ 0 := by nlinarith
      omega
    have htd : e.stride.tdiv cur = b := by
      rw [hb]; exact Int.mul_tdiv_cancel_left _ (ne_of_gt hc)
    obtain ⟨ps, h1, h2, h3⟩ := ih e.stride 1 e he (by omega) (by ring) hrest
    have h1' : fillDims (cur * b) e.shape 1 e rest = some ps := by
      rw [← hb]; simpa using h1
    refine ⟨⟨b, (d.shape - 1) * st + 1, st⟩ :: ps, ?_, ?_, ?_⟩
    · simp [fillDims, ne_of_gt hc, htd, h1']
    · have p1 : 0 < (d.shape - 1) * st + 1 := by nlinarith
      have p2 : (d.shape - 1) * st + 1 ≤ b := by
        rw [hd, hb] at hle
        have : cur * ((d.shape - 1) * st + 1) ≤ cur * b := by nlinarith
        exact le_of_mul_le_mul_left this hc
      simp only [seenShape] at h2
      simp [seenShape, Part.extent, hs, p1, p2, Int.mul_ediv_cancel _ (ne_of_gt hs), h2]
    · intro idx hi
      match idx, hi with
      | i :: is, hi =>
        have := h3 is hi.2
        simp only [seenOffsetF, byteOffset] at this ⊢
        rw [← this, hd, hb]; ring

theorem viewPartsF_spec {item : Int} (hi : 0 < item) {dims : List NpDim}
    (h : Representable false item dims) :
    ∃ ps, viewPartsF item dims = some ps ∧ seenShape ps = some (dims.map NpDim.shape) ∧
      ∀ idx, InRange dims idx → item * seenOffsetF ps idx = byteOffset dims idx := by
  cases dims with
  | nil => simp [Representable] at h
  | cons d rest =>
    simp only [Representable, Bool.false_eq_true, if_false] at h
    obtain ⟨hd, ⟨st, hst⟩, hn⟩ := h
    have h0 : 0 < st := by
      by_contra h
      have : item * st ≤ 0 := by nlinarith
      omega
    have htd : d.stride.tdiv item = st := by
      rw [hst]; exact Int.mul_tdiv_cancel_left _ (ne_of_gt hi)
    simpa [viewPartsF, htd] using fillDims_spec rest item st d hi h0 hst hn

theorem inRange_length : ∀ {dims : List NpDim} {idx}, InRange dims idx → dims.length = idx.length
  | [], [], _ => rfl
  | _ :: _, _ :: _, h => by simp [inRange_length h.2]
  | [], _ :: _, h => h.elim
  | _ :: _, [], h => h.elim

theorem byteOffset_append {a : List NpDim} {i : List Int} (h : a.length = i.length) (b j) :
    byteOffset (a ++ b) (i ++ j) = byteOffset a i + byteOffset b j := by
  induction a generalizing i with
  | nil => cases i <;> simp_all [byteOffset]
  | cons d a ih => cases i with
    | nil => simp at h
    | cons x i => simp [byteOffset, ih (by simpa using h)]; ring

theorem byteOffset_reverse {a : List NpDim} {i : List Int} (h : a.length = i.length) :
    byteOffset a.reverse i.reverse = byteOffset a i := by
  induction a generalizing i with
  | nil => cases i <;> simp_all [byteOffset]
  | cons d a ih => cases i with
    | nil => simp at h
    | cons x i =>
      have h' : a.length = i.length := by simpa using h
      simp only [List.reverse_cons, byteOffset]
      rw [byteOffset_append (by simpa using h'), ih h']
      simp [byteOffset]; ring

theorem inRange_append {a : List NpDim} {i : List Int} {b j} (h : InRange a i) (g : InRange b j) :
    InRange (a ++ b) (i ++ j) := by
  induction a generalizing i with
  | nil => cases i with
    | nil => exact g
    | cons => exact h.elim
  | cons d a ih => cases i with
    | nil => exact h.elim
    | cons x i => exact ⟨h.1, ih h.2⟩

theorem inRange_reverse {a : List NpDim} {i : List Int} (h : InRange a i) :
    InRange a.reverse i.reverse := by
  induction a generalizing i with
  | nil => cases i with
    | nil => trivial
    | cons => exact h.elim
  | cons d a ih => cases i with
    | nil => exact h.elim
    | cons x i =>
      simp only [List.reverse_cons]
      exact inRange_append (ih h.2) ⟨h.1, trivial⟩

theorem mapM_append_some {α β} (f : α → Option β) {l m : List α} {a b : List β}
    (h : l.mapM f = some a) (g : m.mapM f = some b) : (l ++ m).mapM f = some (a ++ b) := by
  simp [List.mapM_append, h, g]

theorem mapM_reverse_some {α β} (f : α → Option β) {l : List α} {a : List β}
    (h : l.mapM f = some a) : l.reverse.mapM f = some a.reverse := by
  induction l generalizing a with
  | nil => simp_all
  | cons x l ih =>
    rw [List.mapM_cons] at h
    cases hx : f x with
    | none => simp [hx] at h
    | some y =>
      cases hl : l.mapM f with
      | none => simp [hx, hl] at h
      | some ys =>
        simp only [hx, hl, Option.bind_eq_bind, Option.bind_some, Option.pure_def,
          Option.some.injEq] at h
        subst h
        simp only [List.reverse_cons]
        exact mapM_append_some f (ih hl) (by simp [hx])

theorem cut_nested (cs : List Cut) : ∀ (prev block : Int) (c : Cut), 0 < prev → 0 < block →
    (∀ x ∈ c :: cs, x.Ok) → InnerStepsDivide (c :: cs) → prev = c.step * block →
    Nested prev ⟨c.count, c.step * block⟩ (cutDims (block * c.size) cs) := by
  induction cs with
  | nil =>
    intro prev block c hp hb hok _ _
    exact (hok c (by simp)).2.1
  | cons e cs ih =>
    intro prev block c hp hb hok hdiv hprev
    obtain ⟨h1, h2, h3⟩ := hok c (by simp)
    obtain ⟨e1, e2, e3⟩ := hok e (by simp)
    have hsz : 0 < c.size := by nlinarith
    have hbs : 0 < block * c.size := by positivity
    simp only [cutDims, Nested]
    obtain ⟨⟨q, hq⟩, hdiv'⟩ := hdiv
    have hst : e.step * (block * c.size) = prev * q := by
      rw [hprev]; linear_combination block * hq
    refine ⟨h2, by positivity, ⟨q, hst⟩, ?_, ?_⟩
    · have hcq : c.count - 1 < q := by
        have : c.step * (c.count - 1) < c.step * q := by nlinarith
        exact lt_of_mul_lt_mul_left this (le_of_lt h1)
      have : prev * c.count ≤ prev * q := mul_le_mul_of_nonneg_left (by omega) (le_of_lt hp)
      rw [hst, ← hprev]; linarith
    · exact ih _ _ e (by positivity) hbs (fun x hx => hok x (by simp_all)) hdiv' rfl

theorem contiguous_spec (ns : List Int) : ∀ (block : Int) (idx : List Int),
    ns.length = idx.length →
    byteOffset (contiguousDims block ns) idx =
      block * seenOffsetF (ns.map fun n => ⟨n, n, 1⟩) idx := by
  induction ns with
  | nil => intro block idx h; cases idx <;> simp_all [contiguousDims, byteOffset, seenOffsetF]
  | cons n ns ih =>
    intro block idx h
    cases idx with
    | nil => simp at h
    | cons i is =>
      simp only [contiguousDims, byteOffset, List.map_cons, seenOffsetF]
      rw [ih _ _ (by simpa using h)]; ring

theorem contiguous_shape (ns : List Int) : ∀ block,
    (contiguousDims block ns).map NpDim.shape = ns := by
  induction ns with
  | nil => intro; rfl
  | cons n ns ih => intro b; simp [contiguousDims, ih]

theorem owned_shape (ns : List Int) (h : ∀ n ∈ ns, 0 < n) :
    seenShape (ns.map fun n => (⟨n, n, 1⟩ : Part)) = some ns := by
  induction ns with
  | nil => rfl
  | cons n ns ih =>
    have h1 := h n (by simp)
    have := ih fun x hx => h x (by simp [hx])
    simp only [seenShape] at this
    simp [seenShape, Part.extent, h1, this]

theorem contiguous_length (ns : List Int) (block) : (contiguousDims block ns).length = ns.length := by
  conv_rhs => rw [← contiguous_shape ns block]
  simp

end Verif.Views
