import Verif.Lifetimes.LemmasStep

/-
Without cycles, everything which is alive is reachable from a variable.
-/
namespace Verif.Lifetimes.C

def rank (os : List PyObj) (o : Nat) : Nat :=
  match os[o]? with
  | some p => if p.kind.isLeaf then 0 else o + 1
  | Option.none => 0

theorem rank_le (os : List PyObj) (o : Nat) : rank os o ≤ os.length := by
  simp only [rank]
  cases h : os[o]? with
  | none => simp
  | some p =>
    have := lt_of_get h
    simp only
    split <;> omega

theorem reach {s : State} (h : Inv s []) (hr : Ranked s.objs) (n : Nat) :
    ∀ o, LiveO s.objs o → s.objs.length - rank s.objs o ≤ n →
      ∃ x ∈ s.vars, Keeps s.objs x.2 o := by
  induction n with
  | zero =>
    intro o ho hn
    obtain ⟨p, hp, h0⟩ := ho
    have hc := h.o.rc o p hp
    simp only [List.count_nil] at hc
    by_cases hv : o ∈ s.vars.map Prod.snd
    · obtain ⟨x, hx, rfl⟩ := List.mem_map.1 hv
      exact ⟨x, hx, .refl _⟩
    · have hf : o ∈ flat s.objs := by
        have := List.count_eq_zero.2 hv
        exact List.count_pos_iff.1 (by omega)
      obtain ⟨a, q, hq, hm⟩ := mem_flat.1 hf
      obtain ⟨h1, h2⟩ := hr a o q p hq hm hp
      exfalso
      have ha := lt_of_get hq
      have hlt := lt_of_get hp
      have hro : rank s.objs o < rank s.objs a := by
        simp only [rank, hq, hp, h1]
        rcases h2 with h2 | h2
        · simp [h2]
        · split <;> simp <;> omega
      have := rank_le s.objs a
      omega
  | succ n ih =>
    intro o ho hn
    obtain ⟨p, hp, h0⟩ := ho
    have hc := h.o.rc o p hp
    simp only [List.count_nil] at hc
    by_cases hv : o ∈ s.vars.map Prod.snd
    · obtain ⟨x, hx, rfl⟩ := List.mem_map.1 hv
      exact ⟨x, hx, .refl _⟩
    · have hf : o ∈ flat s.objs := by
        have := List.count_eq_zero.2 hv
        exact List.count_pos_iff.1 (by omega)
      obtain ⟨a, q, hq, hm⟩ := mem_flat.1 hf
      obtain ⟨h1, h2⟩ := hr a o q p hq hm hp
      have hro : rank s.objs o < rank s.objs a := by
        simp only [rank, hq, hp, h1]
        rcases h2 with h2 | h2
        · simp [h2]
        · split <;> simp <;> omega
      have hal : LiveO s.objs a := ⟨q, hq, fun hz => by
        have := h.o.dead a q hq hz
        rw [this] at hm; simp at hm⟩
      have := rank_le s.objs a
      obtain ⟨x, hx, hk⟩ := ih a hal (by omega)
      exact ⟨x, hx, hk.trans (.step hq hm (.refl _))⟩

theorem reach_all {s : State} (h : Inv s []) (hr : Ranked s.objs) {o} (ho : LiveO s.objs o) :
    ∃ x ∈ s.vars, Keeps s.objs x.2 o := reach h hr _ o ho (Nat.le_refl _)

theorem OwnB.live {os w b} (h : OwnB os w b) : LiveO os w := by
  obtain ⟨p, h1, h2, _⟩ := h; exact ⟨p, h1, h2⟩

theorem OwnD.live {os m w d} (h : OwnD os m w d) : LiveO os w := by
  rcases h with ⟨p, h1, h2, _⟩ | ⟨_, _, hb, _⟩
  · exact ⟨p, h1, h2⟩
  · exact hb.live

end Verif.Lifetimes.C
