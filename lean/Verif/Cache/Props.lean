import Verif.Cache.Lemmas3
/-!
# Types do not depend on what was compiled before (C54)

A history is the list of all annotations that one process has met.
-/

namespace Verif.Cache

open Verif.Cache.Spec Verif.Cache.Obj

/-- C54 (part): after any history the object for an annotation describes the type that was written.
Missing: annotations with `Final` inside of another type, see `C54_type_violated`. -/
theorem C54_type_partial (hist : List Ty) (hh : ∀ t ∈ hist, t.outer = true) (t : Ty)
    (ht : t.outer = true) : (get t (after hist .init)).1.shape = t.meaning := by
  obtain ⟨reg, hi, _⟩ := after_inv hist (inv_init fun _ => .generic) hh
  obtain ⟨reg', h⟩ := get_called_outer t hi ht
  exact h.shape

/-- C54 (part): at two moments of any history the objects for the same annotation are equal for
Python.  Missing: annotations with a `tuple[A, B, …]` in them and those that are `Final` of a type
without parameters, see `C54_equal_violated` and `C54_self_equal_violated`, and those with `Final`
inside. -/
theorem C54_equal_partial (hist hist' : List Ty) (hh : ∀ t ∈ hist, t.outer = true)
    (hh' : ∀ t ∈ hist', t.outer = true) (t : Ty) (ht : t.outer = true) (hi : t.noInhom = true)
    (hb : t.finalBasic = false) :
    pyEq (get t (after hist .init)).1 (get t (after hist' .init)).1 = true := by
  have h1 := C54_type_partial hist hh t ht
  have h2 := C54_type_partial hist' hh' t ht
  generalize (get t (after hist .init)).1 = x at h1 ⊢
  generalize (get t (after hist' .init)).1 = y at h2 ⊢
  cases t with
  | final t =>
    have hp := meaning_plain (show t.plain = true from ht)
    have hn := meaning_noInhom (show t.noInhom = true by simpa using hi)
    simp only [Ty.meaning, base_plain hp] at h1 h2
    cases x <;> simp at h1
    cases y <;> simp at h2
    next i x j y =>
    have hm := meth_of_hash x y (h1 ▸ hp) (h2 ▸ hp)
      (hash_of_shape x y (h1 ▸ hp) (h2 ▸ hp) (h1 ▸ hn) (h1.trans h2.symm))
    have hx := strip_plain (x := x) (h1 ▸ hp)
    have hy := strip_plain (x := y) (h2 ▸ hp)
    refine pyEq_of_meth ?_
    show meth x (.final j y) = some true
    cases x with
    | basic n => simp [Ty.finalBasic, ← h1] at hb
    | inhom => rw [← h1] at hn; simp at hn
    | final => rw [← h1] at hp; simp at hp
    | generic => rfl
    | _ => simpa [meth, hy] using hm
  | _ =>
    all_goals
      have hp := meaning_plain (show Ty.plain _ = true from ht)
      have hn := meaning_noInhom hi
      exact pyEq_of_meth (meth_of_hash x y (h1 ▸ hp) (h2 ▸ hp)
        (hash_of_shape x y (h1 ▸ hp) (h2 ▸ hp) (h1 ▸ hn) (h1.trans h2.symm)))

/-- C54 (part): at two moments of one history the objects for annotations whose types hold different
values are not equal for Python.  Missing: annotations with `Final` inside.  (A type that is not
known is equal to everything, and `np.int64` is equal to `int`, by intention.) -/
theorem C54_different_partial (hist hist' : List Ty) (hh : ∀ t ∈ hist, t.outer = true)
    (hh' : ∀ t ∈ hist', t.outer = true) (t u : Ty) (ht : t.outer = true) (hu : u.outer = true)
    (kt : t.known = true) (ku : u.known = true)
    (hne : t.meaning.base.value ≠ u.meaning.base.value) :
    let s := after hist .init
    let s' := after hist' (get t s).2
    pyEq (get t s).1 (get u s').1 = false ∧ pyEq (get u s').1 (get t s).1 = false := by
  intro s s'
  obtain ⟨reg, hi, _⟩ := after_inv hist (inv_init fun _ => .generic) hh
  obtain ⟨reg1, h1⟩ := get_called_outer t hi ht
  obtain ⟨reg2, h2, n2, e2⟩ := after_inv hist' h1.inv hh'
  obtain ⟨reg3, h3⟩ := get_called_outer u h2 hu
  have gx : Good reg3 (get u s').2.next (get t s).1 := by
    refine (h1.good.mono n2 e2).mono h3.next h3.ext
  have gy : Good reg3 (get u s').2.next (get u s').1 := h3.good
  have sx : (get t s).1.shape = t.meaning := h1.shape
  have sy : (get u s').1.shape = u.meaning := h3.shape
  generalize (get u s').2.next = n at gx gy
  generalize (get t s).1 = x at gx sx ⊢
  generalize (get u s').1 = y at gy sy ⊢
  have hs : ∀ x : Obj, x.strip.shape = x.shape.base := by
    intro x
    induction x using obj_ind with
    | final i t ih => exact ih
    | _ => rfl
  have hbase : ∀ t : Ty, t.outer = true → t.meaning.base.plain = true := by
    intro t ht
    cases t with
    | final t =>
      have hp := meaning_plain (show t.plain = true from ht)
      simp only [Ty.meaning, Ty.base, base_plain hp, hp]
    | _ =>
      all_goals
        have hp := meaning_plain (show Ty.plain _ = true from ht)
        rw [base_plain hp]; exact hp
  have hkb : ∀ t : Ty, t.known = true → t.base.known = true := by
    intro t
    induction t using ty_ind with
    | final t ih => simpa [Ty.base] using ih
    | _ => intros; assumption
  have kx : x.shape.known = true := by rw [sx]; exact meaning_known kt
  have ky : y.shape.known = true := by rw [sy]; exact meaning_known ku
  have px : x.strip.shape.plain = true := by rw [hs, sx]; exact hbase t ht
  have py : y.strip.shape.plain = true := by rw [hs, sy]; exact hbase u hu
  have kx' : x.strip.shape.known = true := by rw [hs]; exact hkb _ kx
  have ky' : y.strip.shape.known = true := by rw [hs]; exact hkb _ ky
  have hv : x.strip.shape.value ≠ y.strip.shape.value := by rw [hs, hs, sx, sy]; exact hne
  constructor
  · rw [← Bool.not_eq_true]
    exact fun h => hv (value_of_eq (value_of_meth x y px py kx ky' gx gy) gx gy ky h)
  · rw [← Bool.not_eq_true]
    exact fun h => hv (value_of_eq (value_of_meth y x py px ky kx' gy gx) gy gx kx h).symm

/-- C54 (part): the object for an annotation is the very same as before, as long as the annotation
and those since then have at most 128 parametrised types.  Missing: longer histories, see
`C54_same_object_violated`, and annotations with `Final` inside. -/
theorem C54_same_object_partial (hist hist' : List Ty) (hh : ∀ t ∈ hist, t.outer = true)
    (hh' : ∀ t ∈ hist', t.outer = true) (t : Ty) (ht : t.outer = true)
    (hn : t.size + Ty.sizes hist' ≤ 128) :
    let s := after hist .init
    (get t (after hist' (get t s).2)).1 = (get t s).1 := by
  intro s
  obtain ⟨reg, hi, _⟩ := after_inv hist (inv_init fun _ => .generic) hh
  obtain ⟨reg1, h1⟩ := get_called_outer t hi ht
  obtain ⟨reg2, h2, _⟩ := after_inv hist' h1.inv hh'
  have hw := get_warm_outer t hi ht (show t.size ≤ maxsize by unfold maxsize; omega)
  exact get_again_outer t h2 ht (warm_mono (fun c o h => (after_stored hist' h hn).kept) t _ hw)

/-! ## What goes wrong -/

/-- `int` and `np.int64`. -/
def int : Ty := .basic (.native .int)

/-- C54 fails: after a `list[Final[int]]`, such as `[x]` for a variable `x: Final[int]`, each
`list[int]` of the process is a `list[Final[int]]`, whose items cannot be assigned ("Cannot modify
variable marked as Final"): `Final[int]` and `int` are equal and have the same hash value, so the
cache does not distinguish them. -/
theorem C54_type_violated : ∃ hist t, t.plain = true ∧
    (get t State.init).1.shape = .list int ∧ (get t (after hist .init)).1.shape = .list (.final int) :=
  ⟨[.list (.final int)], .list int, rfl, rfl, rfl⟩

/-- 128 annotations `tuple[int, A]`, where `A` is a class. -/
def tuples : List Ty := (List.range 128).map fun n => .inhom [int, .basic (.other n)]

/-- `tuple[int, float]` -/
def pair : Ty := .inhom [int, .basic (.native .float)]

theorem pair_ident : (get pair (after tuples (get pair State.init).2)).1.ident = .made 129 := by
  decide +kernel

theorem pair_shape : (get pair (after tuples (get pair State.init).2)).1.shape = pair :=
  C54_type_partial (pair :: tuples) (by decide +kernel) pair rfl

/-- C54 fails: after 128 other annotations of this kind a `tuple[int, float]` is a new object, which
is not equal to the old one, though it describes the same type. -/
theorem C54_equal_violated : ∃ hist t, (∀ u ∈ t :: hist, u.plain = true) ∧
    (get t (after hist (get t State.init).2)).1.shape = (get t State.init).1.shape ∧
    pyEq (get t State.init).1 (get t (after hist (get t State.init).2)).1 = false := by
  refine ⟨tuples, pair, by decide +kernel, pair_shape, ?_⟩
  have h1 := pair_shape
  have h2 := pair_ident
  generalize (get pair (after tuples (get pair State.init).2)).1 = y at h1 h2
  cases y <;> simp [pair, int] at h1
  cases h2
  rfl

/-- C54 fails: one parametrised type more than in `C54_same_object_partial` and the object is a new
one. -/
theorem C54_same_object_violated : ∃ hist t, (∀ u ∈ t :: hist, u.plain = true) ∧
    t.size + Ty.sizes hist = 129 ∧
    same (get t State.init).1 (get t (after hist (get t State.init).2)).1 = false := by
  refine ⟨tuples, pair, by decide +kernel, by decide +kernel, ?_⟩
  unfold same
  rw [pair_ident]
  rfl

/-- C54 fails: the object for `Final[np.int64]` is not equal to itself.  So `[x, x]` with a variable
`x: Final[np.int64]` is rejected ("Can't create an inhomogeneous list"). -/
theorem C54_self_equal_violated : ∃ t : Ty, t.outer = true ∧
    pyEq (get t State.init).1 (get t State.init).1 = false :=
  ⟨.final (.basic (.numpy .int 8)), rfl, rfl⟩

/-- C54 fails: whether two types are equal depends on which of them is asked, when one is not known:
`GenericType() == list[int]` but not `list[int] == GenericType()`. -/
theorem C54_symmetric_violated : ∃ t u : Ty, t.plain = true ∧ u.plain = true ∧
    pyEq (get t State.init).1 (get u State.init).1 = true ∧
    pyEq (get u State.init).1 (get t State.init).1 = false :=
  ⟨.generic, .list int, rfl, rfl, rfl, rfl⟩

/-- C54: an object is equal to itself, unless `Final[np.…]` is in it. -/
theorem C54_self_equal_partial (hist : List Ty) (hh : ∀ t ∈ hist, t.outer = true) (t : Ty)
    (ht : t.plain = true) :
    pyEq (get t (after hist .init)).1 (get t (after hist .init)).1 = true := by
  obtain ⟨reg, hi, _⟩ := after_inv hist (inv_init fun _ => .generic) hh
  obtain ⟨reg', h⟩ := get_called t hi ht
  have hp : (get t (after hist .init)).1.shape.plain = true := by
    rw [h.shape]; exact meaning_plain ht
  exact pyEq_of_meth (meth_of_hash _ _ hp hp rfl)

/-! ## The hypotheses can be met -/

/-- `dict[str, list[tuple[int, float]]]` -/
example : ∃ t : Ty, t.outer = true ∧ t.plain = true ∧ t.known = true ∧ t.size = 3 ∧
    (get t (after [.final (.list int), .list int, .array (.numpy .float 8) 2 (some .c)] .init)).1.shape
      = .dict .string (.list (.inhom [int, .basic (.native .float)])) :=
  ⟨.dict .string (.list (.inhom [int, .basic (.native .float)])), rfl, rfl, rfl, rfl, rfl⟩

/-- `Final[dict[int, list[np.int32]]]`, with two equal objects in different processes. -/
example : ∃ (t : Ty) (hist : List Ty), (∀ u ∈ t :: hist, u.outer = true) ∧ t.noInhom = true ∧
    t.finalBasic = false ∧ t.size + Ty.sizes hist ≤ 128 ∧
    same (get t State.init).1 (get t (after hist .init)).1 = false ∧
    pyEq (get t State.init).1 (get t (after hist .init)).1 = true :=
  ⟨.final (.dict int (.list (.basic (.numpy .int 4)))), [.list .string, .set int],
    by decide, rfl, rfl, by decide, rfl, rfl⟩

example : (Ty.list int).meaning.base.value ≠ (Ty.list (.basic (.numpy .int 4))).meaning.base.value ∧
    pyEq (get (.list int) State.init).1 (get (.list (.basic (.numpy .int 4))) State.init).1 = false ∧
    pyEq (get (.list int) State.init).1 (get (.list (.basic (.numpy .int 8))) State.init).1 = true := by
  refine ⟨?_, rfl, rfl⟩
  simp [Ty.meaning, Ty.base, Ty.value, int, Atom.value]

end Verif.Cache
