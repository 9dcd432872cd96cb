import Verif.Cache.Model
/-!
# Lemmas on type objects
-/

namespace Verif.Cache

open Verif.Cache.Spec

/-! ## Induction -/

theorem ty_ind {P : Ty → Prop} (basic : ∀ n, P (.basic n)) (generic : P .generic)
    (string : P .string) (final : ∀ t, P t → P (.final t)) (tuple : ∀ t, P t → P (.tuple t))
    (list : ∀ t, P t → P (.list t)) (set : ∀ t, P t → P (.set t))
    (inhom : ∀ ts, (∀ t ∈ ts, P t) → P (.inhom ts))
    (dict : ∀ k v, P k → P v → P (.dict k v)) (array : ∀ n r o, P (.array n r o)) : ∀ t, P t :=
  fun t => Ty.rec (motive_1 := P) (motive_2 := fun ts => ∀ t ∈ ts, P t) basic generic string final
    tuple list set inhom dict array (by intro t h; cases h)
    (by
      intro t ts h1 h2 x hx
      rcases List.mem_cons.1 hx with rfl | hx
      · exact h1
      · exact h2 x hx) t

theorem obj_ind {P : Obj → Prop} (basic : ∀ n, P (.basic n)) (generic : P .generic)
    (string : P .string) (final : ∀ i t, P t → P (.final i t)) (tuple : ∀ i t, P t → P (.tuple i t))
    (list : ∀ i t, P t → P (.list i t)) (set : ∀ i t, P t → P (.set i t))
    (inhom : ∀ i ts, (∀ t ∈ ts, P t) → P (.inhom i ts))
    (dict : ∀ i k v, P k → P v → P (.dict i k v)) (array : ∀ i n r o, P (.array i n r o)) :
    ∀ t, P t :=
  fun t => Obj.rec (motive_1 := P) (motive_2 := fun ts => ∀ t ∈ ts, P t) basic generic string final
    tuple list set inhom dict array (by intro t h; cases h)
    (by
      intro t ts h1 h2 x hx
      rcases List.mem_cons.1 hx with rfl | hx
      · exact h1
      · exact h2 x hx) t

/-! ## Predicates on types -/

section every
variable (p : Ty → Bool)

theorem everys_iff (ts : List Ty) : Ty.everys p ts = true ↔ ∀ t ∈ ts, Ty.every p t = true := by
  induction ts with
  | nil => simp [Ty.everys]
  | cons t ts ih => simp [Ty.everys, ih]

theorem meanings_eq (ts : List Ty) : Ty.meanings ts = ts.map Ty.meaning := by
  induction ts with
  | nil => rfl
  | cons t ts ih => simp [Ty.meanings, ih]

theorem values_eq (ts : List Ty) : Ty.values ts = ts.map Ty.value := by
  induction ts with
  | nil => rfl
  | cons t ts ih => simp [Ty.values, ih]

theorem shapes_eq (ts : List Obj) : Obj.shapes ts = ts.map Obj.shape := by
  induction ts with
  | nil => rfl
  | cons t ts ih => simp [Obj.shapes, ih]

end every

@[simp] theorem plain_basic (n) : (Ty.basic n).plain = true := rfl
@[simp] theorem plain_generic : Ty.generic.plain = true := rfl
@[simp] theorem plain_string : Ty.string.plain = true := rfl
@[simp] theorem plain_final (t) : (Ty.final t).plain = false := by simp [Ty.plain, Ty.every]
@[simp] theorem plain_tuple (t) : (Ty.tuple t).plain = t.plain := by simp [Ty.plain, Ty.every]
@[simp] theorem plain_list (t) : (Ty.list t).plain = t.plain := by simp [Ty.plain, Ty.every]
@[simp] theorem plain_set (t) : (Ty.set t).plain = t.plain := by simp [Ty.plain, Ty.every]
@[simp] theorem plain_inhom (ts) : (Ty.inhom ts).plain = true ↔ ∀ t ∈ ts, t.plain = true := by
  simp [Ty.plain, Ty.every, everys_iff]
@[simp] theorem plain_dict (k v) : (Ty.dict k v).plain = (k.plain && v.plain) := by
  simp [Ty.plain, Ty.every]
@[simp] theorem plain_array (n r o) : (Ty.array n r o).plain = true := rfl

@[simp] theorem known_basic (n) : (Ty.basic n).known = true := rfl
@[simp] theorem known_generic : Ty.generic.known = false := rfl
@[simp] theorem known_string : Ty.string.known = true := rfl
@[simp] theorem known_final (t) : (Ty.final t).known = t.known := by simp [Ty.known, Ty.every]
@[simp] theorem known_tuple (t) : (Ty.tuple t).known = t.known := by simp [Ty.known, Ty.every]
@[simp] theorem known_list (t) : (Ty.list t).known = t.known := by simp [Ty.known, Ty.every]
@[simp] theorem known_set (t) : (Ty.set t).known = t.known := by simp [Ty.known, Ty.every]
@[simp] theorem known_inhom (ts) : (Ty.inhom ts).known = true ↔ ∀ t ∈ ts, t.known = true := by
  simp [Ty.known, Ty.every, everys_iff]
@[simp] theorem known_dict (k v) : (Ty.dict k v).known = (k.known && v.known) := by
  simp [Ty.known, Ty.every]
@[simp] theorem known_array (n r o) : (Ty.array n r o).known = true := rfl

@[simp] theorem noInhom_basic (n) : (Ty.basic n).noInhom = true := rfl
@[simp] theorem noInhom_generic : Ty.generic.noInhom = true := rfl
@[simp] theorem noInhom_string : Ty.string.noInhom = true := rfl
@[simp] theorem noInhom_final (t) : (Ty.final t).noInhom = t.noInhom := by
  simp [Ty.noInhom, Ty.every]
@[simp] theorem noInhom_tuple (t) : (Ty.tuple t).noInhom = t.noInhom := by
  simp [Ty.noInhom, Ty.every]
@[simp] theorem noInhom_list (t) : (Ty.list t).noInhom = t.noInhom := by simp [Ty.noInhom, Ty.every]
@[simp] theorem noInhom_set (t) : (Ty.set t).noInhom = t.noInhom := by simp [Ty.noInhom, Ty.every]
@[simp] theorem noInhom_inhom (ts) : (Ty.inhom ts).noInhom = false := by
  simp [Ty.noInhom, Ty.every]
@[simp] theorem noInhom_dict (k v) : (Ty.dict k v).noInhom = (k.noInhom && v.noInhom) := by
  simp [Ty.noInhom, Ty.every]
@[simp] theorem noInhom_array (n r o) : (Ty.array n r o).noInhom = true := rfl

theorem base_plain {t : Ty} (h : t.plain = true) : t.base = t := by
  cases t <;> first | rfl | simp at h

theorem meaning_plain {t : Ty} : t.plain = true → t.meaning.plain = true := by
  induction t using ty_ind with
  | basic | generic | string => exact fun h => h
  | final => simp
  | tuple t ih | list t ih | set t ih => simpa [Ty.meaning] using ih
  | inhom ts ih =>
    intro h
    simp only [Ty.meaning, meanings_eq, plain_inhom, List.mem_map] at h ⊢
    rintro _ ⟨t, ht, rfl⟩
    exact ih t ht (h t ht)
  | dict k v h1 h2 =>
    intro h
    simp only [Ty.meaning, plain_dict, Bool.and_eq_true] at h ⊢
    exact ⟨h1 h.1, h2 h.2⟩
  | array n r o => intro _; cases r <;> rfl

theorem meaning_known {t : Ty} : t.known = true → t.meaning.known = true := by
  have hb : ∀ t : Ty, t.known = true → t.base.known = true := by
    intro t
    induction t using ty_ind with
    | final t ih => simpa [Ty.base] using ih
    | _ => intros; assumption
  induction t using ty_ind with
  | basic | generic | string => exact fun h => h
  | final t ih => intro h; exact hb _ (ih (by simpa using h))
  | tuple t ih | list t ih | set t ih => simpa [Ty.meaning] using ih
  | inhom ts ih =>
    intro h
    simp only [Ty.meaning, meanings_eq, known_inhom, List.mem_map] at h ⊢
    rintro _ ⟨t, ht, rfl⟩
    exact ih t ht (h t ht)
  | dict k v h1 h2 =>
    intro h
    simp only [Ty.meaning, known_dict, Bool.and_eq_true] at h ⊢
    exact ⟨h1 h.1, h2 h.2⟩
  | array n r o => intro _; cases r <;> rfl

theorem meaning_noInhom {t : Ty} : t.noInhom = true → t.meaning.noInhom = true := by
  have hb : ∀ t : Ty, t.noInhom = true → t.base.noInhom = true := by
    intro t
    induction t using ty_ind with
    | final t ih => simpa [Ty.base] using ih
    | _ => intros; assumption
  induction t using ty_ind with
  | basic | generic | string => exact fun h => h
  | final t ih => intro h; exact hb _ (ih (by simpa using h))
  | tuple t ih | list t ih | set t ih => simpa [Ty.meaning] using ih
  | inhom ts ih => simp
  | dict k v h1 h2 =>
    intro h
    simp only [Ty.meaning, noInhom_dict, Bool.and_eq_true] at h ⊢
    exact ⟨h1 h.1, h2 h.2⟩
  | array n r o => intro _; cases r <;> rfl

/-! ## Equality -/

namespace Obj

attribute [simp] Obj.shape Obj.hash Obj.strip

theorem strip_plain {x : Obj} (h : x.shape.plain = true) : x.strip = x := by
  cases x <;> first | rfl | simp at h

theorem derived_plain {x y : Obj} (h : y.shape.plain = true) : derived x y = false := by
  cases x <;> first | rfl | (cases y <;> first | rfl | simp at h)

/-- `leafMeth` is `__eq__` where it is used. -/
theorem meth_leaf {x y : Obj} (h : meth x y = none) : leafMeth y x = meth y x := by
  have hx : ∀ x : Obj, meth x y = none → (∃ n, x.strip = .basic n) ∨ ∃ i ts, x.strip = .inhom i ts := by
    intro x
    induction x using obj_ind with
    | basic n => intro _; exact .inl ⟨n, rfl⟩
    | inhom i ts => intro _; exact .inr ⟨i, ts, rfl⟩
    | final i t ih => intro h; exact ih h
    | generic => intro h; cases h
    | string | tuple | list | set | dict | array => intro h; simp only [meth] at h; split at h <;> cases h
  replace hx := hx x h
  clear h
  revert hx
  induction y using obj_ind with
  | final i t ih => exact ih
  | basic | generic | inhom => intro _; rfl
  | string | tuple | list | set | dict | array =>
    intro hx
    rcases hx with ⟨n, hx⟩ | ⟨i, ts, hx⟩ <;> simp [leafMeth, meth, hx]

theorem atom_refl (n : Atom) (x : Obj) (h : x.ident = .cls n) : atomMeth n x = some true := by
  cases n <;> simp [atomMeth, h]

/-- Python's protocol for `a == b`. -/
theorem pyEq_protocol {a b : Obj} (hd : derived a b = false) :
    pyEq a b = (meth a b).getD ((meth b a).getD (same a b)) := by
  unfold pyEq eqOf
  rw [hd]
  cases h : meth a b with
  | some r => rfl
  | none =>
    rw [← meth_leaf h]
    cases leafMeth b a <;> rfl

/-- Python's protocol for `a == b` if `b` is `Final[a]`, where `b` is asked first. -/
theorem pyEq_protocol_final {a : Obj} (i : Nat) (h : ∀ j u, a ≠ .final j u) :
    pyEq a (.final i a) =
      (meth (.final i a) a).getD ((meth a (.final i a)).getD (same a (.final i a))) := by
  cases a with
  | basic n =>
    have : meth (.final i (.basic n)) (.basic n) = some true := atom_refl n _ rfl
    simp [this, pyEq, eqOf, derived]
  | inhom j ts =>
    rw [pyEq_protocol rfl]
    have : meth (.final i (.inhom j ts)) (.inhom j ts) = some true := by simp [meth, ident]
    simp only [this, Option.getD_some]
    cases h : meth (.inhom j ts) (.final i (.inhom j ts)) with
    | none => rfl
    | some r =>
      simp only [meth] at h
      split at h
      · cases h; rfl
      · cases h
  | final j t => exact absurd rfl (h j t)
  | generic => rfl
  | string => rfl
  | tuple j t => rfl
  | list j t => rfl
  | set j t => rfl
  | dict j k v => rfl
  | array j n r o => rfl

theorem pyEq_of_meth {a b : Obj} (h : meth a b = some true) : pyEq a b = true := by
  unfold pyEq eqOf
  split
  · rfl
  · rw [h]

/-- Objects with the same hash value are equal, when nothing in them is `Final`. -/
theorem meth_of_hash : ∀ x y : Obj, x.shape.plain = true → y.shape.plain = true →
    x.hash = y.hash → meth x y = some true := by
  intro x
  induction x using obj_ind with
  | final => intro y h; simp at h
  | basic n =>
    intro y _ hy h
    cases y <;> simp at h hy
    subst h; exact atom_refl _ _ rfl
  | generic => intros; rfl
  | string =>
    intro y _ hy h
    cases y <;> simp at h hy
    rfl
  | tuple i t ih | set i t ih =>
    intro y hx hy h
    cases y <;> simp at h hx hy
    simp only [meth, strip]
    congr 1
    exact pyEq_of_meth (ih _ hx hy h)
  | list i t ih =>
    intro y hx hy h
    cases y <;> simp at h hx hy
    have := pyEq_of_meth (ih _ hx hy h.1)
    unfold pyEq at this
    simp only [meth, strip, h.2, this, decide_true, Bool.and_self]
  | inhom i ts =>
    intro y hx hy h
    cases y <;> simp at h hy
    subst h; simp [meth, ident]
  | dict i k v h1 h2 =>
    intro y hx hy h
    cases y <;> simp at h hx hy
    have e1 := pyEq_of_meth (h1 _ hx.1 hy.1 h.1)
    have e2 := pyEq_of_meth (h2 _ hx.2 hy.2 h.2)
    unfold pyEq at e1 e2
    simp only [meth, strip, e1, e2, Bool.and_self]
  | array i n r o =>
    intro y hx hy h
    cases y <;> simp at h hx hy
    obtain ⟨rfl, rfl, rfl⟩ := h
    have := pyEq_of_meth (show meth (basic n) (basic n) = some true from atom_refl n (basic n) rfl)
    unfold pyEq at this
    simp only [meth] at this
    simp only [meth, strip, this, decide_true, Bool.and_self]

/-- The hash value is a function of the type, when there are no `tuple[A, B, …]` in it. -/
theorem hash_of_shape : ∀ x y : Obj, x.shape.plain = true → y.shape.plain = true →
    x.shape.noInhom = true → x.shape = y.shape → x.hash = y.hash := by
  intro x
  induction x using obj_ind with
  | final => intro y h; simp at h
  | basic | generic | string | array =>
    intro y _ hy _ h
    cases y <;> simp_all
  | tuple i t ih | set i t ih =>
    intro y hx hy hn h
    cases y <;> simp at h hx hy hn
    simpa using ih _ hx hy hn h
  | list i t ih =>
    intro y hx hy hn h
    cases y <;> simp at h hx hy hn
    simpa [h] using ih _ hx hy hn h
  | inhom => intro y _ _ h; simp at h
  | dict i k v h1 h2 =>
    intro y hx hy hn h
    cases y <;> simp at h hx hy hn
    simpa using ⟨h1 _ hx.1 hy.1 hn.1 h.1, h2 _ hx.2 hy.2 hn.2 h.2⟩

/-! ## Registered objects -/

mutual
/-- The object and its parts. -/
def nodes : Obj → List Obj
  | basic n => [basic n]
  | generic => [generic]
  | string => [string]
  | final i t => final i t :: nodes t
  | tuple i t => tuple i t :: nodes t
  | list i t => list i t :: nodes t
  | set i t => set i t :: nodes t
  | inhom i ts => inhom i ts :: nodess ts
  | dict i k v => dict i k v :: (nodes k ++ nodes v)
  | array i n r o => [array i n r o]
termination_by structural t => t
/-- `nodes` for each object of a list. -/
def nodess : List Obj → List Obj
  | [] => []
  | t :: ts => nodes t ++ nodess ts
termination_by structural ts => ts
end

theorem self_mem (x : Obj) : x ∈ x.nodes := by
  cases x <;> simp [nodes]

theorem nodess_eq (ts : List Obj) : nodess ts = ts.flatMap nodes := by
  induction ts with
  | nil => rfl
  | cons t ts ih => simp [nodess, ih]

/-- Each made part of the object has a number below `n`, and is the one registered there. -/
def Good (reg : Nat → Ty) (n : Nat) (x : Obj) : Prop :=
  ∀ y ∈ x.nodes, ∀ i, y.ident = .made i → i < n ∧ reg i = y.shape

theorem Good.mono {reg reg' : Nat → Ty} {n n' : Nat} {x : Obj} (h : Good reg n x) (hn : n ≤ n')
    (hr : ∀ i < n, reg' i = reg i) : Good reg' n' x := by
  intro y hy i hi
  obtain ⟨h1, h2⟩ := h y hy i hi
  exact ⟨by omega, by rw [hr i h1, h2]⟩

theorem Good.sub {reg : Nat → Ty} {n : Nat} {x y : Obj} (h : Good reg n x)
    (hy : ∀ z ∈ y.nodes, z ∈ x.nodes) : Good reg n y := fun z hz => h z (hy z hz)

theorem Good.self {reg : Nat → Ty} {n i : Nat} {x : Obj} (h : Good reg n x) (hi : x.ident = .made i) :
    i < n ∧ reg i = x.shape := h x (self_mem x) i hi

/-- Registered objects with the same hash value are of the same type. -/
theorem shape_of_hash {reg : Nat → Ty} {n : Nat} : ∀ x y : Obj, x.shape.plain = true →
    y.shape.plain = true → Good reg n x → Good reg n y → x.hash = y.hash → x.shape = y.shape := by
  intro x
  induction x using obj_ind with
  | final => intro y h; simp at h
  | basic | generic | string | array =>
    intro y _ hy _ _ h
    cases y <;> simp at h hy <;> simp_all
  | tuple i t ih | set i t ih =>
    intro y hx hy gx gy h
    cases y <;> simp at h hx hy
    simpa using ih _ hx hy (gx.sub fun z hz => by simp [nodes, hz])
      (gy.sub fun z hz => by simp [nodes, hz]) h
  | list i t ih =>
    intro y hx hy gx gy h
    cases y <;> simp at h hx hy
    simpa using ih _ hx hy (gx.sub fun z hz => by simp [nodes, hz])
      (gy.sub fun z hz => by simp [nodes, hz]) h.1
  | inhom i ts ih =>
    intro y hx hy gx gy h
    cases y with
    | inhom j ts' =>
      simp at h
      subst h
      rw [← (gx.self rfl).2, ← (gy.self rfl).2]
    | final => simp at hy
    | _ => simp at h
  | dict i k v h1 h2 =>
    intro y hx hy gx gy h
    cases y <;> simp at h hx hy
    simpa using ⟨h1 _ hx.1 hy.1 (gx.sub fun z hz => by simp [nodes, hz])
      (gy.sub fun z hz => by simp [nodes, hz]) h.1, h2 _ hx.2 hy.2
      (gx.sub fun z hz => by simp [nodes, hz]) (gy.sub fun z hz => by simp [nodes, hz]) h.2⟩

/-- Registered objects with the same identity are of the same type. -/
theorem shape_of_same {reg : Nat → Ty} {n : Nat} {x y : Obj} (gx : Good reg n x) (gy : Good reg n y)
    (h : x.ident = y.ident) : x.shape = y.shape := by
  by_cases hx : ∃ i, x.ident = .made i
  · obtain ⟨i, hi⟩ := hx
    rw [← (gx.self hi).2, ← (gy.self (h ▸ hi)).2]
  · cases x with
    | basic => cases y <;> simp_all [ident]
    | generic => cases y <;> simp_all [ident]
    | string => cases y <;> simp_all [ident]
    | _ => simp [ident] at hx

/-! ## Equal objects hold the same values -/

theorem Good.strip {reg : Nat → Ty} {n : Nat} {x : Obj} (h : Good reg n x) : Good reg n x.strip := by
  induction x using obj_ind with
  | final i t ih => exact ih (h.sub fun z hz => by simp [nodes, hz])
  | _ => exact h

theorem value_of_atom {n : Atom} {x : Obj} (h : atomMeth n x = some true) :
    x.strip.shape.value = (Ty.basic n).value := by
  have hid : ∀ a, x.ident = .cls a → x = .basic a := by
    intro a ha
    cases x <;> simp_all [ident]
  cases n with
  | numpy k p =>
    simp only [atomMeth] at h
    split at h
    · next h1 => rw [hid _ h1]; rfl
    · split at h
      · cases h
      · next h' =>
        simp only [Option.some.injEq, twin, Bool.and_eq_true, decide_eq_true_eq] at h
        obtain ⟨rfl, rfl⟩ := h
        rw [h']; rfl
      · cases h
  | native k =>
    simp only [atomMeth] at h
    split at h
    · next h1 => rw [hid _ h1]; rfl
    · cases h
  | other k =>
    simp only [atomMeth] at h
    split at h
    · next h1 => rw [hid _ h1]; rfl
    · cases h

theorem value_of_leaf {reg : Nat → Ty} {n : Nat} {x : Obj} (gx : Good reg n x) : ∀ y : Obj,
    Good reg n y → y.shape.known = true → leafMeth y x = some true →
    x.strip.shape.value = y.strip.shape.value := by
  intro y
  induction y using obj_ind with
  | final i t ih =>
    intro gy hk h
    exact ih (gy.sub fun z hz => by simp [nodes, hz]) (by simpa using hk) h
  | basic m => intro _ _ h; exact value_of_atom h
  | generic => intro _ h; cases h
  | inhom i ts =>
    intro gy hk h
    simp only [leafMeth] at h
    split at h
    · next h1 =>
      have := shape_of_same gx gy h1
      cases x <;> simp at this
      simp [this]
    · cases h
  | string | tuple | list | set | dict | array => intro _ _ h; cases h

theorem eq_cases {a b : Obj} (h : eqOf (meth a b) a b = true) :
    derived a b = true ∨ meth a b = some true ∨ leafMeth b a = some true ∨ same a b = true := by
  unfold eqOf at h
  split at h
  · exact .inl ‹_›
  · split at h
    · next h' => exact .inr (.inl (h' ▸ h ▸ rfl))
    · split at h
      · next h' => exact .inr (.inr (.inl (h' ▸ h ▸ rfl)))
      · exact .inr (.inr (.inr h))

theorem value_of_same {reg : Nat → Ty} {n : Nat} {x y : Obj} (gx : Good reg n x) (gy : Good reg n y)
    (h : same x y = true) : x.strip.shape.value = y.strip.shape.value := by
  have h := shape_of_same gx gy (by simpa [same] using h)
  have : ∀ x : Obj, x.strip.shape = x.shape.base := by
    intro x
    induction x using obj_ind with
    | final i t ih => exact ih
    | _ => rfl
  rw [this, this, h]

theorem value_of_eq {reg : Nat → Ty} {n : Nat} {x y : Obj}
    (ih : meth x y = some true → x.strip.shape.value = y.strip.shape.value)
    (gx : Good reg n x) (gy : Good reg n y) (hk : y.shape.known = true)
    (h : eqOf (meth x y) x y = true) : x.strip.shape.value = y.strip.shape.value := by
  rcases eq_cases h with h | h | h | h
  · unfold derived at h
    split at h
    · simp at h; subst h; rfl
    · cases h
  · exact ih h
  · exact value_of_leaf gx y gy hk h
  · exact value_of_same gx gy h

/-- Registered objects that are equal hold the same values, when the types in them are known. -/
theorem value_of_meth {reg : Nat → Ty} {n : Nat} : ∀ x y : Obj, x.strip.shape.plain = true →
    y.strip.shape.plain = true → x.shape.known = true → y.strip.shape.known = true → Good reg n x →
    Good reg n y → meth x y = some true → x.strip.shape.value = y.strip.shape.value := by
  intro x
  induction x using obj_ind with
  | final i t ih =>
    intro y hx hy kx ky gx gy h
    exact ih y hx hy (by simpa using kx) ky (gx.sub fun z hz => by simp [nodes, hz]) gy h
  | basic m => intro y _ _ _ _ _ _ h; exact (value_of_atom h).symm
  | generic => intro y _ _ h; cases h
  | string =>
    intro y _ _ _ _ _ _ h
    simp only [meth] at h
    split at h
    · next h1 => rw [h1]; rfl
    · cases h
  | tuple i t ih | set i t ih =>
    intro y hx hy kx ky gx gy h
    simp only [meth] at h
    split at h
    · next j t' h' =>
      have gy' := h' ▸ gy.strip
      rw [h'] at hy ky ⊢
      simp at hx hy kx ky h
      have gx' := gx.sub (y := t) fun z hz => by simp [nodes, hz]
      have gy' := gy'.sub (y := t') fun z hz => by simp [nodes, hz]
      have := value_of_eq (ih t' (by rwa [strip_plain hx]) (by rwa [strip_plain hy]) kx
        (by rwa [strip_plain hy]) gx' gy') gx' gy' ky h
      rw [strip_plain hx, strip_plain hy] at this
      simpa [Ty.value] using this
    · cases h
  | list i t ih =>
    intro y hx hy kx ky gx gy h
    simp only [meth] at h
    split at h
    · next j t' h' =>
      have gy' := h' ▸ gy.strip
      rw [h'] at hy ky ⊢
      simp at hx hy kx ky h
      have gx' := gx.sub (y := t) fun z hz => by simp [nodes, hz]
      have gy' := gy'.sub (y := t') fun z hz => by simp [nodes, hz]
      have := value_of_eq (ih t' (by rwa [strip_plain hx]) (by rwa [strip_plain hy]) kx
        (by rwa [strip_plain hy]) gx' gy') gx' gy' ky h.1
      rw [strip_plain hx, strip_plain hy] at this
      simpa [Ty.value] using this
    · cases h
  | inhom i ts =>
    intro y hx hy kx ky gx gy h
    simp only [meth] at h
    split at h
    · next h1 => exact value_of_same gx gy (decide_eq_true h1.symm)
    · cases h
  | dict i k v h1 h2 =>
    intro y hx hy kx ky gx gy h
    simp only [meth] at h
    split at h
    · next j k' v' h' =>
      have gy' := h' ▸ gy.strip
      rw [h'] at hy ky ⊢
      simp at hx hy kx ky h
      have gx1 := gx.sub (y := k) fun z hz => by simp [nodes, hz]
      have gy1 := gy'.sub (y := k') fun z hz => by simp [nodes, hz]
      have gx2 := gx.sub (y := v) fun z hz => by simp [nodes, hz]
      have gy2 := gy'.sub (y := v') fun z hz => by simp [nodes, hz]
      have e1 := value_of_eq (h1 k' (by rw [strip_plain hx.1]; exact hx.1) (by rw [strip_plain hy.1]; exact hy.1) kx.1
        (by rw [strip_plain hy.1]; exact ky.1) gx1 gy1) gx1 gy1 ky.1 h.1
      have e2 := value_of_eq (h2 v' (by rw [strip_plain hx.2]; exact hx.2) (by rw [strip_plain hy.2]; exact hy.2) kx.2
        (by rw [strip_plain hy.2]; exact ky.2) gx2 gy2) gx2 gy2 ky.2 h.2
      rw [strip_plain hx.1, strip_plain hy.1] at e1
      rw [strip_plain hx.2, strip_plain hy.2] at e2
      simpa [Ty.value] using ⟨e1, e2⟩
    · cases h
  | array i m r o =>
    intro y hx hy kx ky gx gy h
    simp only [meth] at h
    split at h
    · next j m' r' o' h' =>
      rw [h']
      simp at h
      obtain ⟨⟨h, rfl⟩, rfl⟩ := h
      have g : ∀ m, Good reg n (basic m) := by intro m y hy i hi; simp [nodes] at hy; subst hy; cases hi
      have := value_of_eq (x := .basic m) (y := .basic m') (fun h => (value_of_atom h).symm) (g _) (g _)
        rfl h
      simpa [Ty.value] using this
    · cases h

end Obj

end Verif.Cache
