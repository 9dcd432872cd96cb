import Verif.Vectors.Lemmas4

/-!
# Fusing loops

When a line is put into the last loop nest, the result is the same as with a loop nest of its own, if
it commutes with the later iterations of the lines that are there already.
-/

namespace Verif.Vectors.Lemmas
open Spec Model

/-- Two actions can be swapped. -/
def Cm (a b : St → Option St) : Prop := ∀ st, (a st).bind b = (b st).bind a

theorem Cm.symm {a b : St → Option St} (h : Cm a b) : Cm b a := fun st => (h st).symm

theorem cm_some (a : St → Option St) : Cm some a := by
  intro st
  cases h : a st <;> simp [h]

theorem cm_bind {a b c : St → Option St} (h1 : Cm a c) (h2 : Cm b c) :
    Cm (fun st => (a st).bind b) c := by
  intro st
  rw [Option.bind_assoc]
  have : (fun x => (b x).bind c) = fun x => (c x).bind b := funext h2
  rw [this, ← Option.bind_assoc, h1 st, Option.bind_assoc]

theorem cm_loop {g : Nat → St → Option St} {h : St → Option St} (n : Nat)
    (hg : ∀ i, i < n → Cm (g i) h) : Cm (loop g n) h := by
  induction n with
  | zero => exact cm_some h
  | succ n ih => exact cm_bind (ih fun i hi => hg i (by omega)) (hg n (by omega))

theorem loop_congr {f g : Nat → St → Option St} (n : Nat) (h : ∀ i, i < n → f i = g i) :
    loop f n = loop g n := by
  induction n with
  | zero => rfl
  | succ n ih =>
    funext st
    simp only [loop]
    rw [ih fun i hi => h i (by omega), h n (by omega)]

theorem loop_fuse {f g : Nat → St → Option St} (n : Nat)
    (h : ∀ i j, i < j → j < n → Cm (g i) (f j)) (st : St) :
    loop (fun i st => (f i st).bind (g i)) n st = (loop f n st).bind (loop g n) := by
  induction n generalizing st with
  | zero => rfl
  | succ n ih =>
    have hc : Cm (loop g n) (f n) := cm_loop n fun i hi => h i n hi (by omega)
    simp only [loop]
    rw [ih fun i j hij hj => h i j hij (by omega)]
    simp only [Option.bind_assoc]
    congr 1
    funext st1
    have := hc st1
    rw [← Option.bind_assoc, this, Option.bind_assoc]

/-! ## Lines in a forest -/

mutual
/-- Every line satisfies `Q`, which also sees the lengths of the loops around it. -/
def tall (Q : Line → List Size → Prop) (pre : List Size) : Tree → Prop
  | .item i => (∃ m, i = .line m ∧ Q m pre) ∨ pre = []
  | .loop n b => fall Q (pre ++ [n]) b
def fall (Q : Line → List Size → Prop) (pre : List Size) : Forest → Prop
  | .nil => True
  | .snoc f t => fall Q pre f ∧ tall Q pre t
end

/-- The lines of the last member do. -/
def flast (Q : Line → List Size → Prop) (pre : List Size) : Forest → Prop
  | .nil => True
  | .snoc _ t => tall Q pre t

theorem fall_last {Q : Line → List Size → Prop} {pre : List Size} {f : Forest} (h : fall Q pre f) :
    flast Q pre f := by
  cases f with
  | nil => trivial
  | snoc f t => rw [fall] at h; exact h.2

mutual
theorem tall_mono {Q Q' : Line → List Size → Prop} (h : ∀ m pre, Q m pre → Q' m pre)
    (pre : List Size) : (t : Tree) → tall Q pre t → tall Q' pre t
  | .item i, ht => by
    rw [tall] at ht ⊢
    rcases ht with ⟨m, rfl, hm⟩ | ht
    · exact .inl ⟨m, rfl, h m pre hm⟩
    · exact .inr ht
  | .loop n b, ht => by
    rw [tall] at ht ⊢
    exact fall_mono h _ b ht
theorem fall_mono {Q Q' : Line → List Size → Prop} (h : ∀ m pre, Q m pre → Q' m pre)
    (pre : List Size) : (f : Forest) → fall Q pre f → fall Q' pre f
  | .nil, _ => by rw [fall]; trivial
  | .snoc f t, hf => by
    rw [fall] at hf ⊢
    exact ⟨fall_mono h pre f hf.1, tall_mono h pre t hf.2⟩
end

theorem flast_mono {Q Q' : Line → List Size → Prop} (h : ∀ m pre, Q m pre → Q' m pre)
    {pre : List Size} {f : Forest} (hf : flast Q pre f) : flast Q' pre f := by
  cases f with
  | nil => trivial
  | snoc f t => exact tall_mono h pre t hf

theorem tall_nest {Q : Line → List Size → Prop} {l : Line} (pre ss : List Size)
    (h : Q l (pre ++ ss)) : tall Q pre (nest ss l) := by
  induction ss generalizing pre with
  | nil => exact .inl ⟨l, rfl, by simpa using h⟩
  | cons s ss ih =>
    rw [nest, tall, fall]
    exact ⟨by rw [fall]; trivial, ih _ (by simpa using h)⟩

theorem place_all {Q : Line → List Size → Prop} {l : Line} (k : Nat) (ss : List Size) (f f' : Forest)
    (pre : List Size) (hp : place k ss l f = some f') (hf : flast Q pre f) (hl : Q l (pre ++ ss))
    (hfull : pre ≠ [] → fall Q pre f) : flast Q pre f' ∧ (pre ≠ [] → fall Q pre f') := by
  induction k generalizing ss f f' pre with
  | zero =>
    simp only [place, Option.some.injEq] at hp
    subst hp
    exact ⟨tall_nest pre ss hl, fun h => by rw [fall]; exact ⟨hfull h, tall_nest pre ss hl⟩⟩
  | succ k ih =>
    cases ss with
    | nil =>
      simp only [place, Option.some.injEq] at hp
      subst hp
      exact ⟨tall_nest pre [] hl, fun h => by rw [fall]; exact ⟨hfull h, tall_nest pre [] hl⟩⟩
    | cons s ss =>
      cases f with
      | nil => simp [place] at hp
      | snoc f t =>
        cases t with
        | item i => simp [place] at hp
        | loop n b =>
          rw [place] at hp
          split at hp
          · rename_i hn
            subst hn
            obtain ⟨b', hb, rfl⟩ := Option.map_eq_some_iff.1 hp
            have hb0 : fall Q (pre ++ [n]) b := by rw [flast, tall] at hf; exact hf
            have := (ih ss b b' (pre ++ [n]) hb (fall_last hb0) (by simpa using hl)
              fun _ => hb0).2 (by simp)
            refine ⟨by rw [flast, tall]; exact this, fun h => ?_⟩
            have := hfull h
            rw [fall] at this ⊢
            exact ⟨this.1, by rw [tall]; assumption⟩
          · simp only [Option.some.injEq] at hp
            subst hp
            exact ⟨tall_nest pre _ hl, fun h => by rw [fall]; exact ⟨hfull h, tall_nest pre _ hl⟩⟩

/-! ## Fusion -/

/-- A line in a nest of loops. -/
def nestRun (W : World) (l : Line) : Nat → Env → List Size → St → Option St
  | _, env, [] => fun st => (Item.line l).run W env st
  | lv, env, s :: ss => loop (fun i => nestRun W l (lv + 1) (upd env lv i) ss) (s.val W.ρ)

theorem trun_nest (W : World) (l : Line) (lv : Nat) (env : Env) (ss : List Size) (st : St) :
    trun W lv env st (nest ss l) = nestRun W l lv env ss st := by
  induction ss generalizing lv env st with
  | nil => simp [nest, trun, nestRun]
  | cons s ss ih =>
    simp only [nest, trun, nestRun, frun, Option.bind_some]
    congr 1
    funext i st
    exact ih ..

/-- `l`, in loops of the lengths `to`, commutes with the later iterations of `m`, in loops of the
lengths `pre`. -/
def Late (W : World) (l : Line) (to : List Size) (m : Line) (pre : List Size) : Prop :=
  ∀ env env' : Env, Within W env 0 pre → Within W env' 0 to → ∀ p, p < pre.length → p < to.length →
    pre.take (p + 1) = to.take (p + 1) → (∀ q, q < p → env q = env' q) → env' p < env p →
    Cm (fun st => (Item.line m).run W env st) (fun st => (Item.line l).run W env' st)

theorem within_snoc {W : World} {env : Env} {pre : List Size} (h : Within W env 0 pre) (n : Size)
    (i : Nat) (hi : i < n.val W.ρ) : Within W (upd env pre.length i) 0 (pre ++ [n]) := by
  intro q s hq
  simp only [upd, Nat.zero_add]
  by_cases hl : q < pre.length
  · rw [List.getElem?_append_left hl] at hq
    rw [if_neg (by omega)]
    have := h q s hq
    simpa using this
  · rw [List.getElem?_append_right (by omega)] at hq
    have : q = pre.length := by
      rcases Nat.lt_or_ge (q - pre.length) 1 with h | h
      · omega
      · rw [List.getElem?_eq_none (by simpa using h)] at hq; simp at hq
    subst this
    simp at hq
    subst hq
    simpa using hi

mutual
theorem tree_comm {W : World} {l : Line} {to : List Size} {env' : Env} (hw' : Within W env' 0 to)
    {p : Nat} (hpt : p < to.length) (pre : List Size) (env : Env) (hp : p < pre.length)
    (htake : pre.take (p + 1) = to.take (p + 1)) (hq : ∀ q, q < p → env q = env' q)
    (hlt : env' p < env p) (hw : Within W env 0 pre) : (t : Tree) → tall (Late W l to) pre t →
    Cm (fun st => trun W pre.length env st t) (fun st => (Item.line l).run W env' st)
  | .item i, ht => by
    rw [tall] at ht
    rcases ht with ⟨m, rfl, hm⟩ | ht
    · simp only [trun]
      exact hm env env' hw hw' p hp hpt htake hq hlt
    · subst ht; simp at hp
  | .loop n b, ht => by
    rw [tall] at ht
    simp only [trun]
    refine cm_loop (n.val W.ρ) fun i hi => ?_
    have := forest_comm hw' hpt (pre ++ [n]) (upd env pre.length i) (by simp; omega)
      (by rw [List.take_append_of_le_length (by omega), htake])
      (fun q h => by simp only [upd]; rw [if_neg (by omega)]; exact hq q h)
      (by simp only [upd]; rw [if_neg (by omega)]; exact hlt) (within_snoc hw n i hi) b ht
    rw [List.length_append] at this
    exact this
theorem forest_comm {W : World} {l : Line} {to : List Size} {env' : Env} (hw' : Within W env' 0 to)
    {p : Nat} (hpt : p < to.length) (pre : List Size) (env : Env) (hp : p < pre.length)
    (htake : pre.take (p + 1) = to.take (p + 1)) (hq : ∀ q, q < p → env q = env' q)
    (hlt : env' p < env p) (hw : Within W env 0 pre) : (f : Forest) → fall (Late W l to) pre f →
    Cm (fun st => frun W pre.length env st f) (fun st => (Item.line l).run W env' st)
  | .nil, _ => by simp only [frun]; exact cm_some _
  | .snoc f t, hf => by
    rw [fall] at hf
    simp only [frun]
    exact cm_bind (forest_comm hw' hpt pre env hp htake hq hlt hw f hf.1)
      (tree_comm hw' hpt pre env hp htake hq hlt hw t hf.2)
end

theorem nest_comm {W : World} {l : Line} {a : St → Option St} (to pre ss : List Size)
    (hto : to = pre ++ ss) (env : Env) (hw : Within W env 0 pre) {p : Nat} (hp : p < pre.length)
    (h : ∀ env' : Env, Within W env' 0 to → (∀ q, q ≤ p → env' q = env q) →
      Cm a (fun st => (Item.line l).run W env' st)) :
    Cm a (nestRun W l pre.length env ss) := by
  induction ss generalizing pre env with
  | nil =>
    simp only [nestRun]
    exact h env (by rw [hto]; simpa using hw) fun _ _ => rfl
  | cons s ss ih =>
    simp only [nestRun]
    refine (cm_loop (s.val W.ρ) fun i hi => Cm.symm ?_).symm
    have := ih (pre ++ [s]) (by simp [hto]) (upd env pre.length i) (within_snoc hw s i hi)
      (by simp; omega) (fun env' hw' hq => h env' hw' fun q hl => by
        rw [hq q hl]; simp only [upd]; rw [if_neg (by omega)])
    rw [List.length_append] at this
    exact this

theorem place_run (W : World) (l : Line) (k : Nat) (ss : List Size) (f f' : Forest)
    (pre : List Size) (hp : place k ss l f = some f') (hf : flast (Late W l (pre ++ ss)) pre f)
    (env : Env) (hw : Within W env 0 pre) (st : St) :
    frun W pre.length env st f' =
      (frun W pre.length env st f).bind (nestRun W l pre.length env ss) := by
  have base : ∀ f ss, frun W pre.length env st (f.snoc (nest ss l)) =
      (frun W pre.length env st f).bind (nestRun W l pre.length env ss) := by
    intro f ss
    simp only [frun]
    congr 1
    funext st
    exact trun_nest ..
  induction k generalizing ss f f' pre env st with
  | zero =>
    simp only [place, Option.some.injEq] at hp
    subst hp
    exact base f ss
  | succ k ih =>
    cases ss with
    | nil =>
      simp only [place, Option.some.injEq] at hp
      subst hp
      exact base f []
    | cons s ss =>
      cases f with
      | nil => simp [place] at hp
      | snoc f t =>
        cases t with
        | item i => simp [place] at hp
        | loop n b =>
          rw [place] at hp
          split at hp
          · rename_i hn
            subst hn
            obtain ⟨b', hb, rfl⟩ := Option.map_eq_some_iff.1 hp
            have hb0 : fall (Late W l (pre ++ n :: ss)) (pre ++ [n]) b := by
              rw [flast, tall] at hf; exact hf
            simp only [frun, Option.bind_assoc]
            congr 1
            funext st
            simp only [trun, nestRun]
            rw [← loop_fuse]
            · apply congrFun (loop_congr _ _) st
              intro i hi
              funext st
              have := ih ss b b' (pre ++ [n]) hb
                (by simpa using fall_last hb0) (upd env pre.length i) (within_snoc hw n i hi) st
                (by
                  intro f ss
                  simp only [frun]
                  congr 1
                  funext st
                  exact trun_nest ..)
              rw [List.length_append] at this
              exact this
            · intro i j hij hj
              have hx := nest_comm (W := W) (l := l)
                (a := fun st => frun W (pre.length + 1) (upd env pre.length j) st b)
                (pre ++ n :: ss) (pre ++ [n]) ss (by simp) (upd env pre.length i)
                (within_snoc hw n i (by omega)) (p := pre.length) (by simp)
                (by
                  intro env' hw' hq
                  have := forest_comm (l := l) hw' (p := pre.length) (by simp) (pre ++ [n])
                    (upd env pre.length j) (by simp) (by simp [List.take_append])
                    (by
                      intro q hq'
                      rw [hq q (by omega)]
                      simp only [upd]
                      rw [if_neg (by omega), if_neg (by omega)])
                    (by
                      rw [hq _ (Nat.le_refl _)]
                      simpa [upd] using hij) (within_snoc hw n j hj) b hb0
                  rw [List.length_append] at this
                  exact this)
              rw [List.length_append] at hx
              exact hx.symm
          · simp only [Option.some.injEq] at hp
            subst hp
            exact base _ _

end Verif.Vectors.Lemmas
