import Verif.Calls.Model
import Mathlib.Tactic.Ring
import Mathlib.Tactic.Linarith
/-!
# Lemmas about the choice of an overload
-/

namespace Verif.Calls
open Spec

section
variable {Ty Obj : Type} [DecidableEq Ty]

theorem foldl_types_mem (col acc : List Ty) (t : Ty) :
    t ∈ col.foldl (fun acc t => if t ∈ acc then acc else acc ++ [t]) acc ↔ t ∈ acc ∨ t ∈ col := by
  induction col generalizing acc with
  | nil => simp
  | cons a l ih =>
    rw [List.foldl_cons, ih]
    by_cases h : a ∈ acc
    · simp only [h, if_true, List.mem_cons]
      constructor
      · rintro (h' | h') <;> tauto
      · rintro (h' | rfl | h') <;> tauto
    · simp [h]; tauto

theorem mem_possibleTypes (col : List Ty) (t : Ty) : t ∈ possibleTypes col ↔ t ∈ col := by
  simp [possibleTypes, foldl_types_mem]

/-- Arithmetic of mixed radix digits. -/
theorem digit_inj {i j n a b s : Nat} (hs : 0 < s) (hi : i < n) (hj : j < n)
    (h : i * s + s * n * a = j * s + s * n * b) : i = j ∧ a = b := by
  have h1 : i + n * a = j + n * b := by
    have : s * (i + n * a) = s * (j + n * b) := by
      rw [Nat.mul_add, Nat.mul_add, ← Nat.mul_assoc, ← Nat.mul_assoc, Nat.mul_comm s i,
        Nat.mul_comm s j]
      exact h
    exact Nat.eq_of_mul_eq_mul_left hs this
  have h2 : i = j := by
    have := congrArg (· % n) h1
    simpa [Nat.add_mul_mod_self_left, Nat.mod_eq_of_lt hi, Nat.mod_eq_of_lt hj] using this
  subst h2
  refine ⟨rfl, ?_⟩
  have : n * a = n * b := by omega
  exact Nat.eq_of_mul_eq_mul_left (by omega) this

theorem flag_dvd (cols : List (List Ty)) (dfl : List Bool) (ts : List Ty) (s : Nat) :
    ∃ a, flag cols dfl ts s = s * a := by
  induction cols generalizing dfl ts s with
  | nil => exact ⟨0, by simp [flag]⟩
  | cons col cols ih =>
    match dfl, ts with
    | [], _ => exact ⟨0, by simp [flag]⟩
    | _ :: _, [] => exact ⟨0, by simp [flag]⟩
    | d :: dfl, t :: ts =>
      obtain ⟨a, ha⟩ := ih dfl ts (s * (possibleTypes col).length)
      rw [flag, ha]
      refine ⟨(if d = true then 0 else if (possibleTypes col).length ≠ 1 then
        typeIndex (possibleTypes col) t else 0) + (possibleTypes col).length * a, ?_⟩
      split
      · ring
      · split <;> ring

theorem typeCheck_dvd (check : Obj → Ty → Bool) (cols : List (List Ty)) (dfl : List Bool)
    (xs : List Obj) (s m : Nat) (h : typeCheck check cols dfl xs s = some m) : ∃ a, m = s * a := by
  induction cols generalizing dfl xs s m with
  | nil => exact ⟨0, by simp [typeCheck] at h; omega⟩
  | cons col cols ih =>
    match dfl, xs with
    | [], _ => exact ⟨0, by simp [typeCheck] at h; omega⟩
    | _ :: _, [] => exact ⟨0, by simp [typeCheck] at h; omega⟩
    | d :: dfl, x :: xs =>
      rw [typeCheck] at h
      split at h
      · obtain ⟨a, rfl⟩ := ih _ _ _ _ h
        exact ⟨(possibleTypes col).length * a, by ring⟩
      · split at h
        · split at h
          · rw [Option.map_eq_some_iff] at h
            obtain ⟨m', hm', rfl⟩ := h
            obtain ⟨a, rfl⟩ := ih _ _ _ _ hm'
            exact ⟨_ + (possibleTypes col).length * a, by rw [Nat.mul_add]; ring_nf⟩
          · cases h
        · split at h
          · split at h
            · obtain ⟨a, rfl⟩ := ih _ _ _ _ h
              exact ⟨_, (Nat.mul_assoc _ _ _)⟩
            · cases h
          · cases h

/-- The arguments whose parameter has no default have the types `ts`. -/
def Matches (check : Obj → Ty → Bool) : List Ty → List Bool → List Obj → Prop
  | t :: ts, d :: ds, x :: xs => (d = false → check x t = true) ∧ Matches check ts ds xs
  | _, _, _ => True

/-- Every entry of the row appears in its column; one column, flag and argument
per entry, and no two types of a column both accept the argument. -/
inductive Fits (check : Obj → Ty → Bool) :
    List (List Ty) → List Bool → List Ty → List Obj → Prop
  | nil : Fits check [] [] [] []
  | cons {col cols d dfl t ts x xs} : t ∈ col →
      (d = false → ∀ u ∈ col, ∀ v ∈ col, check x u = true → check x v = true → u = v) →
      Fits check cols dfl ts xs → Fits check (col :: cols) (d :: dfl) (t :: ts) (x :: xs)

theorem possibleTypes_pos {col : List Ty} {t : Ty} (h : t ∈ col) :
    0 < (possibleTypes col).length :=
  List.length_pos_of_mem ((mem_possibleTypes col t).2 h)

theorem typeIndex_lt {col : List Ty} {t : Ty} (h : t ∈ col) :
    typeIndex (possibleTypes col) t < (possibleTypes col).length :=
  List.idxOf_lt_length_iff.2 ((mem_possibleTypes col t).2 h)

theorem typeIndex_get {col : List Ty} {t : Ty} (h : t ∈ col) :
    (possibleTypes col)[typeIndex (possibleTypes col) t]? = some t := by
  rw [List.getElem?_eq_getElem (typeIndex_lt h)]
  simp [typeIndex]

/-- The flag computed for the arguments is the flag of a row exactly when the row
accepts the arguments. -/
theorem typeCheck_eq_flag (check : Obj → Ty → Bool) {cols : List (List Ty)} {dfl : List Bool}
    {ts : List Ty} {xs : List Obj} (h : Fits check cols dfl ts xs) (s : Nat) (hs : 0 < s) :
    typeCheck check cols dfl xs s = some (flag cols dfl ts s) ↔ Matches check ts dfl xs := by
  induction h generalizing s with
  | nil => simp [typeCheck, flag, Matches]
  | @cons col cols d dfl t ts x xs hmem hdis hrest ih =>
    have hpos := possibleTypes_pos hmem
    have hlt := typeIndex_lt hmem
    have hget := typeIndex_get hmem
    have hs' : 0 < s * (possibleTypes col).length := Nat.mul_pos hs hpos
    have ih' := ih (s * (possibleTypes col).length) hs'
    rw [typeCheck, flag, Matches]
    cases d with
    | true => simpa using ih'
    | false =>
      simp only [Bool.false_eq_true, if_false, forall_const]
      by_cases hn : (possibleTypes col).length = 1
      · have htl : possibleTypes col = [t] := by
          obtain ⟨u, hu⟩ := List.length_eq_one_iff.1 hn
          have := (mem_possibleTypes col t).2 hmem
          rw [hu] at this ⊢
          simp at this
          rw [this]
        simp only [htl, List.length_singleton, ne_eq, not_true_eq_false, if_false,
          Nat.mul_one, Nat.zero_add]
        rw [htl] at ih'
        simp only [List.length_singleton, Nat.mul_one] at ih'
        by_cases hc : check x t = true
        · simp [hc, ih']
        · simp [hc]
      · simp only [ne_eq, hn, not_false_eq_true, if_true]
        cases hf : (possibleTypes col).findIdx? (fun t => check x t) with
        | none =>
          rw [List.findIdx?_eq_none_iff] at hf
          have := hf t ((mem_possibleTypes col t).2 hmem)
          simp [this]
        | some i =>
          obtain ⟨hi, hci, hmin⟩ := List.findIdx?_eq_some_iff_getElem.1 hf
          simp only [Option.map_eq_some_iff]
          constructor
          · rintro ⟨m, hm, he⟩
            obtain ⟨a, rfl⟩ := typeCheck_dvd check _ _ _ _ _ hm
            obtain ⟨b, hb⟩ := flag_dvd cols dfl ts (s * (possibleTypes col).length)
            rw [hb] at he
            obtain ⟨h1, h2⟩ := digit_inj hs hi hlt he
            subst h2
            refine ⟨?_, ih'.1 (hb ▸ hm)⟩
            subst h1
            rw [List.getElem?_eq_getElem hlt, Option.some.injEq] at hget
            exact hget ▸ hci
          · rintro ⟨h1, h2⟩
            refine ⟨_, ih'.2 h2, ?_⟩
            have hu : (possibleTypes col)[i] = t :=
              hdis rfl _ ((mem_possibleTypes col _).1 (List.getElem_mem hi)) _ hmem hci h1
            have hit : i = typeIndex (possibleTypes col) t := by
              rw [typeIndex]
              have h3 : ¬ typeIndex (possibleTypes col) t < i := by
                intro hlt'
                have := hmin _ hlt'
                rw [List.getElem?_eq_getElem hlt, Option.some.injEq] at hget
                rw [hget] at this
                exact this h1
              have h4 : (possibleTypes col).idxOf t ≤ i := by
                by_contra hlt'
                have := List.not_of_lt_findIdx (p := (· == t)) (Nat.lt_of_not_le hlt')
                simp [hu] at this
              unfold typeIndex at h3
              omega
            rw [hit]

theorem flag_lt (check : Obj → Ty → Bool) {cols : List (List Ty)} {dfl : List Bool}
    {ts : List Ty} {xs : List Obj} (h : Fits check cols dfl ts xs) (s : Nat) (hs : 0 < s) :
    flag cols dfl ts s < s * (cols.map (fun c => (possibleTypes c).length)).prod := by
  induction h generalizing s with
  | nil => simpa [flag] using hs
  | @cons col cols d dfl t ts x xs hmem hdis hrest ih =>
    have hpos := possibleTypes_pos hmem
    have hlt := typeIndex_lt hmem
    have ih' := ih (s * (possibleTypes col).length) (Nat.mul_pos hs hpos)
    rw [flag, List.map_cons, List.prod_cons]
    obtain ⟨b, hb⟩ := flag_dvd cols dfl ts (s * (possibleTypes col).length)
    rw [hb] at ih' ⊢
    generalize (cols.map (fun c => (possibleTypes c).length)).prod = P at ih'
    have hbP : b + 1 ≤ P := by
      have := Nat.lt_of_mul_lt_mul_left ih'
      omega
    generalize (possibleTypes col).length = n at *
    have hd : ∀ k, k < n → k * s + s * n * b < s * (n * P) := by
      intro k hk
      have h1 : s * (n * (b + 1)) ≤ s * (n * P) :=
        Nat.mul_le_mul_left _ (Nat.mul_le_mul_left _ hbP)
      have h2 : s * (k + 1) ≤ s * n := Nat.mul_le_mul_left _ hk
      nlinarith
    split
    · simpa using hd 0 hpos
    · split
      · exact hd _ hlt
      · simpa using hd 0 hpos

theorem fits_range (check : Obj → Ty → Bool) (n : Nat) (g : Nat → List Ty) (dfl : List Bool)
    (ts : List Ty) (xs : List Obj) (h1 : dfl.length = n) (h2 : ts.length = n)
    (h3 : xs.length = n) (hmem : ∀ (i : Nat) t, ts[i]? = some t → t ∈ g i)
    (hdis : ∀ (i : Nat) x, dfl[i]? = some false → xs[i]? = some x →
      ∀ u ∈ g i, ∀ v ∈ g i, check x u = true → check x v = true → u = v) :
    Fits check ((List.range n).map g) dfl ts xs := by
  induction n generalizing g dfl ts xs with
  | zero =>
    rw [List.length_eq_zero_iff] at h1 h2 h3
    subst h1 h2 h3
    exact .nil
  | succ n ih =>
    match dfl, ts, xs with
    | d :: dfl, t :: ts, x :: xs =>
      rw [List.range_succ_eq_map, List.map_cons, List.map_map]
      refine .cons (hmem 0 t rfl) ?_ (ih (g ∘ Nat.succ) dfl ts xs (by simpa using h1)
        (by simpa using h2) (by simpa using h3) ?_ ?_)
      · intro hd
        subst hd
        exact hdis 0 x rfl rfl
      · intro i t' ht
        exact hmem (i + 1) t' (by simpa using ht)
      · intro i x' hd hx
        exact hdis (i + 1) x' (by simpa using hd) (by simpa using hx)

theorem mem_column (fs : List (Overload Ty)) (f : Overload Ty) (hf : f ∈ fs) (i : Nat) (t : Ty)
    (h : f[i]? = some t) : t ∈ fs.filterMap (fun f => f[i]?) :=
  List.mem_filterMap.2 ⟨f, hf, h⟩

theorem column_mem (fs : List (Overload Ty)) (i : Nat) (t : Ty)
    (h : t ∈ fs.filterMap (fun f => f[i]?)) : ∃ f ∈ fs, f[i]? = some t := by
  obtain ⟨f, hf, h⟩ := List.mem_filterMap.1 h
  exact ⟨f, hf, h⟩

/-- No argument without default is accepted by two different types used by the
overloads at its position. -/
def DisjointAt (check : Obj → Ty → Bool) (fs : List (Overload Ty)) (dfl : List Bool)
    (xs : List Obj) : Prop :=
  ∀ (i : Nat) (x : Obj), dfl[i]? = some false → xs[i]? = some x →
    ∀ f ∈ fs, ∀ g ∈ fs, ∀ u v, f[i]? = some u → g[i]? = some v →
      check x u = true → check x v = true → u = v

theorem fits_columns (check : Obj → Ty → Bool) (fs : List (Overload Ty)) (dfl : List Bool)
    (xs : List Obj) (hlen : ∀ f ∈ fs, f.length = dfl.length) (hx : xs.length = dfl.length)
    (hdis : DisjointAt check fs dfl xs) (f : Overload Ty) (hf : f ∈ fs) :
    Fits check (columns fs dfl.length) dfl f xs := by
  refine fits_range check _ _ dfl f xs rfl (hlen f hf) hx (fun i t h => mem_column fs f hf i t h) ?_
  intro i x hd hx u hu v hv
  obtain ⟨f1, hf1, hu⟩ := column_mem fs i u hu
  obtain ⟨f2, hf2, hv⟩ := column_mem fs i v hv
  exact hdis i x hd hx f1 hf1 f2 hf2 u v hu hv

theorem findIdx?_first {α : Type} (p : α → Bool) (l : List α) (k : Nat) :
    l.findIdx? p = some k ↔ First (fun a => p a = true) l k := by
  rw [List.findIdx?_eq_some_iff_getElem, First]
  constructor
  · rintro ⟨h, h1, h2⟩
    refine ⟨⟨l[k], List.getElem?_eq_getElem h, h1⟩, ?_⟩
    intro j a hj ha
    obtain ⟨hj', rfl⟩ := List.getElem?_eq_some_iff.1 ha
    exact h2 j hj
  · rintro ⟨⟨a, ha, h1⟩, h2⟩
    obtain ⟨h, rfl⟩ := List.getElem?_eq_some_iff.1 ha
    exact ⟨h, h1, fun j hj => h2 j _ hj (List.getElem?_eq_getElem (by omega))⟩

theorem first_congr {α : Type} {P Q : α → Prop} {l : List α} (h : ∀ a ∈ l, P a ↔ Q a) (k : Nat) :
    First P l k ↔ First Q l k := by
  unfold First
  constructor
  · rintro ⟨⟨a, ha, h1⟩, h2⟩
    exact ⟨⟨a, ha, (h a (List.mem_of_getElem? ha)).1 h1⟩,
      fun j b hj hb hq => h2 j b hj hb ((h b (List.mem_of_getElem? hb)).2 hq)⟩
  · rintro ⟨⟨a, ha, h1⟩, h2⟩
    exact ⟨⟨a, ha, (h a (List.mem_of_getElem? ha)).2 h1⟩,
      fun j b hj hb hq => h2 j b hj hb ((h b (List.mem_of_getElem? hb)).1 hq)⟩

/-- The dispatch chooses the first overload whose types match the arguments
without default. -/
theorem dispatch_iff (check : Obj → Ty → Bool) (fs : List (Overload Ty)) (dfl : List Bool)
    (xs : List Obj) (hlen : ∀ f ∈ fs, f.length = dfl.length) (hx : xs.length = dfl.length)
    (hdis : DisjointAt check fs dfl xs) (k : Nat) :
    dispatch check fs dfl xs = some k ↔ First (fun f => Matches check f dfl xs) fs k := by
  have key : ∀ f ∈ fs, typeCheck check (columns fs dfl.length) dfl xs 1 =
      some (flag (columns fs dfl.length) dfl f 1) ↔ Matches check f dfl xs := fun f hf =>
    typeCheck_eq_flag check (fits_columns check fs dfl xs hlen hx hdis f hf) 1 Nat.one_pos
  unfold dispatch
  cases hc : typeCheck check (columns fs dfl.length) dfl xs 1 with
  | none =>
    simp only [hc, Option.bind_eq_bind, Option.bind_none, reduceCtorEq, false_iff]
    rintro ⟨⟨f, hf, hm⟩, -⟩
    have := (key f (List.mem_of_getElem? hf)).2 hm
    rw [hc] at this
    cases this
  | some m =>
    simp only [hc, Option.bind_eq_bind, Option.bind_some]
    rw [findIdx?_first]
    refine first_congr (fun f hf => ?_) k
    rw [← key f hf, hc, Option.some.injEq, decide_eq_true_iff, eq_comm]

/-- The checks of the defaulted parameters in the wrapper of one overload. -/
def defaultsOk (check : Obj → Ty → Bool) (f : Overload Ty) (dfl : List Bool)
    (xs : List (Option Obj)) : Bool :=
  ((f.zip dfl).zip xs).all (fun p => !p.1.2 || (p.2.all (fun o => check o p.1.1)))

theorem accepts_iff (check : Obj → Ty → Bool) (f : Overload Ty) (dfl : List Bool)
    (xs : List (Option Obj)) (h1 : f.length = dfl.length) (h2 : xs.length = dfl.length) :
    Accepts check f dfl xs ↔
      Matches (fun (x : Option Obj) t => x.any (fun o => check o t)) f dfl xs ∧
        defaultsOk check f dfl xs = true := by
  induction f generalizing dfl xs with
  | nil =>
    have : dfl = [] := List.length_eq_zero_iff.1 (by simpa using h1.symm)
    subst this
    have : xs = [] := List.length_eq_zero_iff.1 (by simpa using h2)
    subst this
    simp [Accepts, Matches, defaultsOk]
  | cons t f ih =>
    match dfl, xs with
    | d :: dfl, x :: xs =>
      have ih' := ih dfl xs (by simpa using h1) (by simpa using h2)
      have hd : defaultsOk check (t :: f) (d :: dfl) (x :: xs) =
          ((!d || x.all (fun o => check o t)) && defaultsOk check f dfl xs) := by
        simp [defaultsOk]
      rw [hd, Matches]
      cases x with
      | none =>
        rw [Accepts, ih']
        cases d <;> simp
      | some o =>
        rw [Accepts, ih']
        cases d <;> simp <;> tauto

theorem defaultsOk_congr (check : Obj → Ty → Bool) (f g : Overload Ty) (dfl : List Bool)
    (xs : List (Option Obj)) (h1 : f.length = dfl.length) (h2 : g.length = dfl.length)
    (h : ∀ i : Nat, dfl[i]? = some true → f[i]? = g[i]?) :
    defaultsOk check f dfl xs = defaultsOk check g dfl xs := by
  induction dfl generalizing f g xs with
  | nil => simp [defaultsOk]
  | cons d dfl ih =>
    match f, g, xs with
    | _ :: _, _ :: _, [] => simp [defaultsOk]
    | t :: f, u :: g, x :: xs =>
      have ih' := ih f g xs (by simpa using h1) (by simpa using h2)
        (fun i hi => by simpa using h (i + 1) (by simpa using hi))
      unfold defaultsOk at ih' ⊢
      simp only [List.zip_cons_cons, List.all_cons, ih']
      cases d with
      | false => simp
      | true =>
        have := h 0 rfl
        simp at this
        rw [this]

end
end Verif.Calls
