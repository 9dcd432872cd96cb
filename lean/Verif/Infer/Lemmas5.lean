import Verif.Infer.Lemmas4

namespace Verif.Infer
open Verif.Types (addT)
open Verif.Types.Spec (Num)

/-- All numbers written in the expression, and all casts, have types in `S`; there is no `a if c else b`. -/
def ExprInS (S : Num → Bool) : Expr → Prop
  | .lit t _ => S t = true
  | .var _ => True
  | .elem _ _ => True
  | .bin _ a b => ExprInS S a ∧ ExprInS S b
  | .cast t a => S t = true ∧ ExprInS S a
  | .cond _ _ _ => False

/-- The same for a right-hand side. -/
def RhsInS (S : Num → Bool) : Rhs → Prop
  | .one e => ExprInS S e
  | .tup es | .list es => ∀ e ∈ es, ExprInS S e
  | .copy _ => True

/-- A program on numbers, tuples and lists whose types are in `S`; an element of a list gets a value of a type that is equal, in the sense of pyccel, to the
element type of the list. -/
def Plain (S : Num → Bool) : (Nat → Option STy) → Stmt → Prop
  | _, .skip => True
  | _, .assign _ r | _, .ret r => RhsInS S r
  | Γ, .setElem x _ e => ExprInS S e ∧ ∀ t u, Γ x = some (.list t) → typ Γ e = some u → eqT u t = true
  | _, .aug _ _ e => ExprInS S e
  | Γ, .seq a b => Plain S Γ a ∧ ∀ Γ', infer Γ a = some Γ' → Plain S Γ' b
  | Γ, .ite c a b => ExprInS S c ∧ Plain S Γ a ∧ ∀ Γ', infer Γ a = some Γ' → Plain S Γ' b
  | Γ, .loop c a => ExprInS S c ∧ Plain S Γ a

/-- A type with one element type, in `S`. -/
def InTy (S : Num → Bool) : STy → Prop
  | .num t | .htup t _ | .list t => S t = true
  | .tup _ => False

/-- All variables have such types. -/
def AllTy (S : Num → Bool) (Γ : Nat → Option STy) : Prop := ∀ x T, Γ x = some T → InTy S T

/-- No tuple is stored in several variables. -/
def NoTup (Γ : Nat → Option STy) : Prop := ∀ x ts, Γ x ≠ some (.tup ts)

theorem eqT_symm {a b : Num} : eqT a b = true → eqT b a = true := by revert a b; decide +kernel

theorem typ_inS {S : Num → Bool} (hS : Closed S) {Γ : Nat → Option STy} (hΓ : AllTy S Γ) {e : Expr} {t : Num} (he : ExprInS S e)
    (h : typ Γ e = some t) : S t = true := by
  induction e generalizing t with
  | lit u q => cases h; exact he
  | var x =>
    simp only [typ] at h
    split at h
    · next e1 => cases h; exact hΓ _ _ e1
    · simp at h
  | elem x i =>
    simp only [typ] at h
    split at h
    · next e1 => cases h; exact hΓ _ _ e1
    · next e1 => exact (hΓ _ _ e1).elim
    · next e1 => cases h; exact hΓ _ _ e1
    · simp at h
  | bin o a b iha ihb =>
    simp only [typ] at h
    split at h
    · next e1 e2 =>
      rw [dynT_addT] at h
      cases h
      exact hS.dyn (iha he.1 e1) (ihb he.2 e2)
    · simp at h
  | cast u a iha =>
    simp only [typ, Option.map_eq_some_iff] at h
    obtain ⟨-, -, rfl⟩ := h
    exact he.1
  | cond => exact he.elim

theorem typs_inS {S : Num → Bool} (hS : Closed S) {Γ : Nat → Option STy} (hΓ : AllTy S Γ) {es : List Expr} {us : List Num}
    (he : ∀ e ∈ es, ExprInS S e) (h : typs Γ es = some us) : ∀ u ∈ us, S u = true := by
  induction es generalizing us with
  | nil => cases h; simp
  | cons e es ih =>
    simp only [typs] at h
    split at h
    · next e1 e2 =>
      cases h
      intro u hu
      rcases List.mem_cons.1 hu with rfl | hu
      · exact typ_inS hS hΓ (he e (by simp)) e1
      · exact ih (fun e h => he e (by simp [h])) e2 u hu
    · simp at h

theorem strictE_inS {S : Num → Bool} {Γ : Nat → Option STy} {e : Expr} (he : ExprInS S e) : StrictE (EqIn S) Γ e := by
  induction e with
  | lit u q => exact ⟨he, he, eqT_refl u⟩
  | var x => trivial
  | elem => trivial
  | bin o a b iha ihb => exact ⟨iha he.1, ihb he.2⟩
  | cast u a iha => exact ⟨⟨he.1, he.1, eqT_refl u⟩, iha he.2⟩
  | cond => exact he.elim

/-- The element types of a tuple literal with one element type. -/
theorem tupT_htup {ts : List Num} {u : Num} {n : Nat} (h : tupT ts = some (.htup u n)) : u ∈ ts ∧ ∀ t ∈ ts, eqT t u = true := by
  unfold tupT at h
  split at h
  · simp at h
  · next v hv =>
    split at h
    · next ha =>
      cases h
      exact ⟨List.mem_of_getLast? hv, by simpa using ha⟩
    · simp at h

theorem tupT_cases {ts : List Num} {U : STy} (h : tupT ts = some U) : (∃ u n, U = .htup u n) ∨ U = .tup ts := by
  unfold tupT at h
  split at h
  · simp at h
  · split at h
    · cases h; exact .inl ⟨_, _, rfl⟩
    · cases h; exact .inr rfl

theorem listT_list {ts : List Num} {U : STy} (h : listT ts = some U) : ∃ u, U = .list u ∧ u ∈ ts ∧ ∀ t ∈ ts, eqT t u = true := by
  unfold listT at h
  split at h
  · simp at h
  · next t ts =>
    split at h
    · next ha =>
      cases h
      refine ⟨t, rfl, by simp, ?_⟩
      intro u hu
      rcases List.mem_cons.1 hu with rfl | hu
      · exact eqT_refl u
      · exact eqT_symm (List.all_eq_true.1 ha u hu)
    · simp at h

theorem assign_inS {S : Num → Bool} (hS : Closed S) {Γ Γ' : Nat → Option STy} (hΓ : AllTy S Γ) (hN : NoTup Γ') {x : Nat} {e : Rhs}
    (he : RhsInS S e) (h : assignT Γ x e = some Γ') :
    AllTy S Γ' ∧ ∀ T, Γ' x = some T → StrictA (EqIn S) Γ x e T := by
  have htr : ∀ {a b c}, EqIn S a b → EqIn S b c → EqIn S a c := hS.cong.trans
  -- the type of the right-hand side, and what it tells about the elements
  have key : ∀ U, rhsT Γ e = some U → (∀ ts, U ≠ .tup ts) → InTy S U ∧ StrictA (EqIn S) Γ x e U := by
    intro U hU hn
    cases e with
    | one e =>
      simp only [rhsT, Option.map_eq_some_iff] at hU
      obtain ⟨u, hu, rfl⟩ := hU
      have hin := typ_inS hS hΓ he hu
      refine ⟨hin, strictE_inS he, fun v hv => ?_⟩
      rw [hu] at hv; cases hv
      exact ⟨hin, hin, eqT_refl u⟩
    | tup es =>
      simp only [rhsT, Option.bind_eq_some_iff] at hU
      obtain ⟨us, hu, hU⟩ := hU
      have hin := typs_inS hS hΓ he hu
      rcases tupT_cases hU with ⟨u, n, rfl⟩ | rfl
      · obtain ⟨h1, h2⟩ := tupT_htup hU
        refine ⟨hin u h1, fun e h => strictE_inS (he e h), fun vs hv => ?_⟩
        rw [hu] at hv; cases hv
        exact fun v hv => ⟨hin v hv, hin u h1, h2 v hv⟩
      · exact (hn us rfl).elim
    | list es =>
      simp only [rhsT, Option.bind_eq_some_iff] at hU
      obtain ⟨us, hu, hU⟩ := hU
      have hin := typs_inS hS hΓ he hu
      obtain ⟨u, rfl, h1, h2⟩ := listT_list hU
      refine ⟨hin u h1, fun e h => strictE_inS (he e h), fun vs hv => ?_⟩
      rw [hu] at hv; cases hv
      exact fun v hv => ⟨hin v hv, hin u h1, h2 v hv⟩
    | copy y =>
      simp only [rhsT] at hU
      split at hU
      · next t n e1 =>
        cases hU
        have := hΓ _ _ e1
        exact ⟨this, t, n, e1, this, this, eqT_refl t⟩
      · next e1 => exact (hΓ _ _ e1).elim
      · simp at hU
  unfold assignT at h
  split at h
  · next U hx hu =>
    cases h
    have hn : ∀ ts, U ≠ .tup ts := by
      intro ts hU
      exact hN x ts (by simp [upd, hU])
    obtain ⟨k1, k2⟩ := key U hu hn
    refine ⟨?_, ?_⟩
    · intro y T hy
      unfold upd at hy
      split at hy
      · cases hy; exact k1
      · exact hΓ _ _ hy
    · intro T hT
      simp only [upd, if_true] at hT
      cases hT
      exact k2
  · next T U hx hu =>
    split at h
    · next hok0 =>
      cases h
      refine ⟨hΓ, fun T' hT => ?_⟩
      rw [hx] at hT
      cases hT
      have hT := hΓ _ _ hx
      have hok : matchT T U = true := by
        unfold assignT.ok at hok0
        split at hok0
        · exact hT.elim
        · exact hok0
      cases T with
      | tup ts => exact hT.elim
      | num t =>
        cases U with
        | num u =>
          obtain ⟨k1, k2⟩ := key _ hu (by simp)
          cases e with
          | one e =>
            refine ⟨k2.1, fun v hv => ?_⟩
            have := k2.2 v hv
            exact htr this ⟨k1, hT, hok⟩
          | tup => exact k2.elim
          | list => exact k2.elim
          | copy => exact k2.elim
        | _ => simp [matchT] at hok
      | list t =>
        cases U with
        | list u =>
          obtain ⟨k1, k2⟩ := key _ hu (by simp)
          cases e with
          | list es => exact ⟨k2.1, fun us hv v hm => htr (k2.2 us hv v hm) ⟨k1, hT, hok⟩⟩
          | tup => exact k2.elim
          | one => exact k2.elim
          | copy => exact k2.elim
        | _ => simp [matchT] at hok
      | htup t m =>
        cases U with
        | htup u n =>
          obtain ⟨k1, k2⟩ := key _ hu (by simp)
          cases e with
          | tup es => exact ⟨k2.1, fun us hv v hm => htr (k2.2 us hv v hm) ⟨k1, hT, hok⟩⟩
          | copy y =>
            obtain ⟨w, k, h1, h2⟩ := k2
            exact ⟨w, k, h1, htr h2 ⟨k1, hT, hok⟩⟩
          | list => exact k2.elim
          | one => exact k2.elim
        | tup us =>
          simp only [matchT, List.all_eq_true] at hok
          cases e with
          | tup es =>
            simp only [rhsT, Option.bind_eq_some_iff] at hu
            obtain ⟨vs, hv, hU⟩ := hu
            have hin := typs_inS hS hΓ he hv
            rcases tupT_cases hU with ⟨u, n, h⟩ | h
            · cases h
            · cases h
              refine ⟨fun e h => strictE_inS (he e h), fun ws hw => ?_⟩
              rw [hv] at hw; cases hw
              exact fun v hm => ⟨hin v hm, hT, hok v hm⟩
          | copy y =>
            simp only [rhsT] at hu
            split at hu
            · simp at hu
            · next e1 => exact (hΓ _ _ e1).elim
            · simp at hu
          | list es =>
            simp only [rhsT, Option.bind_eq_some_iff] at hu
            obtain ⟨vs, hv, hU⟩ := hu
            obtain ⟨u, h, -⟩ := listT_list hU
            cases h
          | one e => simp [rhsT] at hu
        | _ => simp [matchT] at hok
    · simp at h
  · simp at h

theorem noTup_ext {Γ Δ : Nat → Option STy} (h : Ext Γ Δ) (hN : NoTup Δ) : NoTup Γ := fun x ts hx => hN x ts (h x _ hx)

/-- The check of pyccel is enough for programs with numbers, homogeneous tuples and lists. -/
theorem plain_strict {S : Num → Bool} (hS : Closed S) {s : Stmt} {Γ Γ' : Nat → Option STy} (hΓ : AllTy S Γ) (hN : NoTup Γ') (hn : Plain S Γ s)
    (h : infer Γ s = some Γ') : AllTy S Γ' ∧ Strict (EqIn S) Γ s := by
  induction s generalizing Γ Γ' with
  | skip => cases h; exact ⟨hΓ, trivial⟩
  | assign x r =>
    refine ⟨(assign_inS hS hΓ hN hn h).1, ?_⟩
    intro Γ1 T h1 hT
    have h' : assignT Γ x r = some Γ' := h
    rw [h'] at h1
    cases h1
    exact (assign_inS hS hΓ hN hn h).2 T hT
  | ret r =>
    refine ⟨(assign_inS hS hΓ hN hn h).1, ?_⟩
    intro Γ1 T h1 hT
    have h' : assignT Γ 0 r = some Γ' := h
    rw [h'] at h1
    cases h1
    exact (assign_inS hS hΓ hN hn h).2 T hT
  | setElem x i e =>
    simp only [infer] at h
    split at h
    · next e1 e2 =>
      cases h
      refine ⟨hΓ, strictE_inS hn.1, fun t u h1 h2 => ?_⟩
      exact ⟨typ_inS hS hΓ hn.1 h2, hΓ _ _ h1, hn.2 t u h1 h2⟩
    · simp at h
  | aug x o e =>
    simp only [infer] at h
    split at h
    · next t u e1 e2 =>
      split at h
      · next w e3 =>
        split at h
        · next hc =>
          cases h
          refine ⟨hΓ, strictE_inS hn, ?_⟩
          intro t' u' v' h1 h2 h3
          rw [e1] at h1; rw [e2] at h2
          cases h1; cases h2
          rw [e3] at h3
          cases h3
          have ht : S t = true := hΓ _ _ e1
          have hu := typ_inS hS hΓ hn e2
          rw [dynT_addT] at e3
          cases e3
          refine ⟨hS.dyn ht hu, ht, ?_⟩
          simp only [Bool.or_eq_true, decide_eq_true_eq, dynT_addT, Option.any_some] at hc
          rcases hc with hc | hc
          · exact hc
          · exact hS.aug ht hu hc
        · simp at h
      · simp at h
    · simp at h
  | seq a b iha ihb =>
    simp only [infer, Option.bind_eq_some_iff] at h
    obtain ⟨Γ1, h1, h2⟩ := h
    have ka := iha hΓ (noTup_ext (infer_ext h2) hN) hn.1 h1
    have kb := ihb ka.1 hN (hn.2 _ h1) h2
    refine ⟨kb.1, ka.2, fun Γ2 h3 => ?_⟩
    rw [h1] at h3
    cases h3
    exact kb.2
  | ite c a b iha ihb =>
    simp only [infer] at h
    split at h
    · simp only [Option.bind_eq_some_iff] at h
      obtain ⟨Γ1, h1, h2⟩ := h
      have ka := iha hΓ (noTup_ext (infer_ext h2) hN) hn.2.1 h1
      have kb := ihb ka.1 hN (hn.2.2 _ h1) h2
      refine ⟨kb.1, strictE_inS hn.1, ka.2, fun Γ2 h3 => ?_⟩
      rw [h1] at h3
      cases h3
      exact kb.2
    · simp at h
  | loop c a iha =>
    simp only [infer] at h
    split at h
    · have ka := iha hΓ hN hn.2 h
      exact ⟨ka.1, strictE_inS hn.1, ka.2⟩
    · simp at h

theorem rel2_mono {α β : Type} {p q : α → β → Prop} (h : ∀ a b, p a b → q a b) : ∀ {l : List α} {m : List β}, Rel2 p l m → Rel2 q l m
  | [], [], _ => trivial
  | [], _ :: _, h' => h'.elim
  | _ :: _, [], h' => h'.elim
  | _ :: _, _ :: _, h' => ⟨h _ _ h'.1, rel2_mono h h'.2⟩

theorem hasTy_mono {r q : Num → Num → Prop} (h : ∀ a b, r a b → q a b) {v : PVal} {T : STy} (hv : HasTy r v T) : HasTy q v T := by
  cases v with
  | num d x =>
    cases T with
    | num t => exact ⟨h _ _ hv.1, hv.2⟩
    | _ => exact hv.elim
  | tup l =>
    cases T with
    | htup t n => exact fun p hp => ⟨h _ _ (hv p hp).1, (hv p hp).2⟩
    | tup ts => exact rel2_mono (fun a b k => ⟨h _ _ k.1, k.2⟩) hv
    | num t => exact False.elim hv
    | list t => exact False.elim hv
  | list l =>
    cases T with
    | list t => exact fun p hp => ⟨h _ _ (hv p hp).1, (hv p hp).2⟩
    | num t => exact False.elim hv
    | tup t => exact False.elim hv
    | htup t => exact False.elim hv

/-! ### What the check ensures -/

/-- Two types have the same kind and size. -/
def SameSize (t u : Num) : Prop := t.kind = u.kind ∧ t.width = u.width

/-- The numbers in a value of type `U` have the kind and size that a variable of type `T` has. -/
def Agree : STy → STy → Prop
  | .num t, .num u | .htup t _, .htup u _ | .list t, .list u => SameSize u t
  | .htup t _, .tup us => ∀ u ∈ us, SameSize u t
  | .tup ts, .tup us => Rel2 SameSize us ts
  | _, _ => False

theorem eqT_size {a b : Num} : eqT a b = true → SameSize a b := by
  unfold SameSize; revert a b; decide +kernel

theorem eqTs_rel : ∀ {us ts : List Num}, us.length = ts.length → eqTs us ts = true → Rel2 SameSize us ts
  | [], [], _, _ => trivial
  | [], _ :: _, h, _ => by simp at h
  | _ :: _, [], h, _ => by simp at h
  | u :: us, t :: ts, h, he => by
    simp only [eqTs, Bool.and_eq_true] at he
    exact ⟨eqT_size he.1, eqTs_rel (by simpa using h) he.2⟩

theorem matchT_agree {T U : STy} (h : matchT T U = true) (hn : ∀ ts u n, ¬ (T = .tup ts ∧ U = .htup u n)) : Agree T U := by
  unfold matchT at h
  split at h
  · exact eqT_size h
  · exact eqT_size h
  · exact eqT_size h
  · exact (hn _ _ _ ⟨rfl, rfl⟩).elim
  · simp only [Bool.and_eq_true, decide_eq_true_eq] at h
    exact eqTs_rel h.1 h.2
  · exact fun u hu => eqT_size (List.all_eq_true.1 h u hu)
  · simp at h

end Verif.Infer
