import Verif.TypeTests.Lemmas
namespace Verif.TypeTests.Lemmas
open Verif.TypeTests.Spec Verif.TypeTests.Model

variable {bases : Nat → List Nat}

theorem single_family {fuel : Nat} {t : Ty} {d f : Cls} {b : Bool} (he : expected d = some (.family f))
    (h : single bases fuel t d = some (some b)) : b = inFamily t f := by
  unfold single at h
  rw [he] at h
  simpa using h.symm

/-- The classes that the compiled program takes a value of the type for. -/
def says (t : Ty) : List Cls :=
  match t.strip with
  | .bool => [.bool, .npBool, .int]
  | _ => [own t]

theorem expected_cases (d : Cls) {x : Expected} (h : expected d = some x) :
    (x = .family d ∧ d ∈ [.list, .set, .dict, .tuple, .ndarray]) ∨
    ∃ e, x = .type e ∧ e.strip = e ∧ e ≠ .void ∧ (e = .bool ∧ d ∈ [.bool, .npBool] ∨ e ≠ .bool ∧ d = own e ∧ d ∉ [.list, .set, .dict, .tuple, .ndarray]) := by
  cases d <;> simp only [expected] at h <;> first
    | cases h
    | (split at h <;> cases h)
    | skip
  all_goals first
    | exact Or.inl ⟨rfl, by decide⟩
    | exact Or.inr ⟨_, rfl, rfl, by simp, Or.inl ⟨rfl, by decide⟩⟩
    | exact Or.inr ⟨_, rfl, rfl, by simp, Or.inr ⟨by simp, by simp [own, Ty.strip], by simp⟩⟩

theorem single_says {fuel : Nat} {t : Ty} (hv : t.strip ≠ .void) (hu : ∀ k, t.strip ≠ .custom k) {d : Cls} {b : Bool}
    (h : single bases fuel t d = some (some b)) : b = true ↔ d ∈ says t := by
  cases hx : expected d with
  | none => unfold single at h; rw [hx] at h; cases h
  | some x =>
    rcases expected_cases d hx with ⟨rfl, hd⟩ | ⟨e, rfl, hes, hev, he⟩
    · rw [single_family hx h]
      unfold inFamily says own
      cases hs : t.strip with
      | final u => exact absurd hs (strip_not_final t u)
      | _ =>
        simp only [List.mem_cons, List.not_mem_nil, or_false] at hd
        rcases hd with rfl | rfl | rfl | rfl | rfl <;> simp
    · have hcb := clsBase_strip t
      cases hs : t.strip with
      | final u => exact absurd hs (strip_not_final t u)
      | void => exact absurd hs hv
      | custom k => exact absurd hs (hu k)
      | bool =>
        rw [hs] at hcb
        rw [single_type hx hcb h, hs]
        simp only [says, hs]
        constructor
        · rintro (rfl | ⟨f, hf, hft⟩)
          · rcases he with ⟨_, he⟩ | ⟨he, _⟩
            · simp only [List.mem_cons, List.not_mem_nil, or_false] at he
              rcases he with rfl | rfl <;> simp
            · exact absurd rfl he
          · rcases reach_bool hf with rfl | rfl
            · cases hft
              rcases he with ⟨_, he⟩ | ⟨he, _⟩
              · simp only [List.mem_cons, List.not_mem_nil, or_false] at he
                rcases he with rfl | rfl <;> simp
              · exact absurd rfl he
            · cases hft
              rcases he with ⟨he, _⟩ | ⟨_, rfl, _⟩
              · cases he
              · simp [own, Ty.strip]
        · intro hd
          simp only [List.mem_cons, List.not_mem_nil, or_false] at hd
          rcases hd with rfl | rfl | rfl
          · cases hx; exact Or.inl rfl
          · cases hx; exact Or.inl rfl
          · cases hx; exact Or.inr ⟨.int, .step (by simp [supers]) (.refl _), rfl⟩
      | _ =>
        all_goals
          rw [hs] at hcb
          rw [single_type hx hcb h, hs]
          simp only [says, hs, List.mem_singleton]
          constructor
          · rintro (rfl | ⟨f, hf, hft⟩)
            · rcases he with ⟨he, _⟩ | ⟨_, rfl, _⟩
              · cases he
              · simp [own, hs, Ty.strip]
            · rw [reach_leaf rfl hf] at hft
              cases hft <;>
              (rcases he with ⟨he, _⟩ | ⟨_, rfl, _⟩
               · cases he
               · simp [own, hs, Ty.strip])
          · intro hd
            simp only [own, hs] at hd
            subst hd
            first
              | (cases hx <;> exact Or.inl rfl)
              | (simp only [expected] at hx; split at hx <;> cases hx; exact Or.inl rfl)

theorem single_user {fuel : Nat} {t : Ty} {k : Nat} (hs : t.strip = .custom k) {d : Cls} {b : Bool}
    (h : single bases fuel t d = some (some b)) : b = true ↔ Sub bases (.user k) d := by
  cases hx : expected d with
  | none => unfold single at h; rw [hx] at h; cases h
  | some x =>
    rcases expected_cases d hx with ⟨rfl, hd⟩ | ⟨e, rfl, hes, hev, he⟩
    · rw [single_family hx h]
      unfold inFamily
      rw [hs]
      simp only [Bool.false_eq_true, false_iff]
      intro hsub
      obtain ⟨b, rfl, _⟩ := sub_user hsub
      simp at hd
    · have hcb := clsBase_strip t
      rw [hs] at hcb
      rw [single_type hx hcb h, hs]
      constructor
      · rintro (rfl | ⟨f, hf, hft⟩)
        · rcases he with ⟨he, _⟩ | ⟨_, rfl, _⟩
          · cases he
          · exact .refl _
        · obtain ⟨b, rfl, hsub⟩ := reach_user hf
          cases hft
          rcases he with ⟨he, _⟩ | ⟨_, rfl, _⟩
          · cases he
          · exact hsub
      · intro hsub
        obtain ⟨b, rfl, hr⟩ := sub_user hsub
        cases hx
        exact Or.inr ⟨_, hr, rfl⟩

theorem accepts_cases {t : Ty} {c : Cls} (h : accepts false t c = true) :
    (own t = c ∧ t.strip ≠ .void) ∨ (t.strip = .bool ∧ c = .npBool) ∨ (t.strip = .float ∧ c = .npFloat 64) ∨
      (t.strip = .complex ∧ c = .npComplex 128) := by
  unfold accepts at h
  unfold own
  simp only [Bool.false_and, Bool.false_or] at h
  split at h <;> simp_all

theorem single_exact {fuel : Nat} {t : Ty} {c d : Cls} {b : Bool} (ha : accepts false t c = true)
    (h : single bases fuel t d = some (some b)) : (b = true ↔ Sub bases c d) ↔ d ∉ exceptions (own t) c := by
  rcases accepts_cases ha with ⟨rfl, hv⟩ | ⟨hs, rfl⟩ | ⟨hs, rfl⟩ | ⟨hs, rfl⟩
  · cases hs : t.strip with
    | custom k =>
      have : own t = .user k := by simp [own, hs]
      rw [this, single_user hs h]
      simp [exceptions]
    | final u => exact absurd hs (strip_not_final t u)
    | void => exact absurd hs hv
    | bool =>
      have ho : own t = .bool := by simp [own, hs]
      rw [single_says hv (by simp [hs]) h, ho, sub_ups (by simp)]
      simp only [says, hs, ups, exceptions]
      cases d <;> simp
    | npFloat w =>
      have ho : own t = .npFloat w := by simp [own, hs]
      rw [single_says hv (by simp [hs]) h, ho, sub_ups (by simp)]
      by_cases hw : w = 64
      · subst hw
        simp only [says, hs, ups, exceptions, ho]
        cases d <;> simp
      · have h1 : ups (.npFloat w) = [.npFloat w] := by unfold ups; split <;> simp_all
        have h2 : exceptions (.npFloat w) (.npFloat w) = [] := by unfold exceptions; split <;> simp_all
        rw [h1, h2]
        simp [says, hs, ho]
    | npComplex w =>
      have ho : own t = .npComplex w := by simp [own, hs]
      rw [single_says hv (by simp [hs]) h, ho, sub_ups (by simp)]
      by_cases hw : w = 128
      · subst hw
        simp only [says, hs, ups, exceptions, ho]
        cases d <;> simp
      · have h1 : ups (.npComplex w) = [.npComplex w] := by unfold ups; split <;> simp_all
        have h2 : exceptions (.npComplex w) (.npComplex w) = [] := by unfold exceptions; split <;> simp_all
        rw [h1, h2]
        simp [says, hs, ho]
    | _ =>
      all_goals
        rw [single_says hv (by simp [hs]) h, sub_ups (by simp [own, hs])]
        simp [says, hs, own, ups, exceptions]
  · have ho : own t = .bool := by simp [own, hs]
    rw [single_says (by simp [hs]) (by simp [hs]) h, ho, sub_ups (by simp)]
    simp only [says, hs, ups, exceptions]
    cases d <;> simp
  · have ho : own t = .float := by simp [own, hs]
    rw [single_says (by simp [hs]) (by simp [hs]) h, ho, sub_ups (by simp)]
    simp only [says, hs, ups, exceptions, ho]
    cases d <;> simp
  · have ho : own t = .complex := by simp [own, hs]
    rw [single_says (by simp [hs]) (by simp [hs]) h, ho, sub_ups (by simp)]
    simp only [says, hs, ups, exceptions, ho]
    cases d <;> simp

theorem build_ok {fuel : Nat} {t : Ty} {c : Cls} (ha : accepts false t c = true) : ∀ (test : Test) {b : Bool},
    (∀ d ∈ test.classes, d ∉ exceptions (own t) c) → build bases fuel t test = some (some b) → (b = true ↔ Inst bases c test)
  | .cls d, b, hd, h => (single_exact ha h).2 (hd d (by simp [Test.classes]))
  | .nil, b, _, h => by simp only [build, Option.some.injEq] at h; subst h; simp [Inst]
  | .cons x y, b, hd, h => by
    simp only [build, Option.bind_eq_some_iff, Option.map_eq_some_iff] at h
    obtain ⟨p, hp, q, hq, h⟩ := h
    obtain ⟨u, rfl, w, rfl, rfl⟩ := h
    have h1 := build_ok ha x (fun d h => hd d (by simp [Test.classes, h])) hp
    have h2 := build_ok ha y (fun d h => hd d (by simp [Test.classes, h])) hq
    simp [Inst, h1, h2]

end Verif.TypeTests.Lemmas
