import Verif.Lifetimes.LemmasReach

/-
Properties of objects of compiled classes.

A *compiled file* (`Prog`) has classes and functions; a *Python program* (`List Op`)
creates arrays and objects, reads and assigns attributes, calls functions and methods
and forgets variables.  `Py.run` is what plain Python does; `C.run` is what the compiled
extension does: a result, a Python exception, or undefined behaviour (`ub`).
-/
namespace Verif.Lifetimes

/-! ## C97  compiled objects never touch freed memory -/

/-- C97: a Python program which uses a compiled file never reads, writes or frees memory
which has been freed, whatever it creates, shares, deletes and in which order, and what
it prints is what plain Python prints.  For every compiled file and every Python program,
of any length, with arrays and objects shared in any way, views of attributes which
outlive the objects, and variables deleted in any order.

Partial: the file has no objects inside objects, only methods store arrays or objects
and only in attributes of their own object (`plainProg`); attributes of an object which
has itself been read from an attribute are not assigned (`tidy`).  The theorems below
show that each of these conditions is needed.  Nothing is said about when exceptions are
raised. -/
theorem C97_partial (p : Prog) (ops : List Op) (hp : plainProg p = true) (ht : tidy p ops = true) :
    C.run p C.empty ops ≠ .ub ∧
      ∀ s out, C.run p C.empty ops = .ok (s, out) → ∃ ps, Py.run p Py.empty ops = some (ps, out) := by
  rcases C.run_sim ops hp (C.rel_empty false) ht with h | ⟨s, ps, out, w, h1, h2, _⟩
  · rw [h]; exact ⟨by simp, by simp⟩
  · rw [h1]
    refine ⟨by simp, fun s' out' hs => ?_⟩
    cases hs
    exact ⟨ps, h2⟩

/-- C97: at the end the compiled program and the plain one have the same variables.
Conditions as in `C97_partial`. -/
theorem C97_vars_partial (p : Prog) (ops : List Op) (hp : plainProg p = true) (ht : tidy p ops = true)
    (s : C.State) (out : List Int) (hr : C.run p C.empty ops = .ok (s, out)) :
    ∃ ps, Py.run p Py.empty ops = some (ps, out) ∧
      ∀ x, ps.env x = .none ↔ s.vars.find? (fun e => e.1 == x) = none := by
  rcases C.run_sim ops hp (C.rel_empty false) ht with h | ⟨s', ps, out', w, h1, h2, hR⟩
  · rw [h] at hr; cases hr
  · rw [h1] at hr; cases hr
    refine ⟨ps, h2, fun x => ?_⟩
    rw [hR.vars.env x]
    simp only [C.kindOf]
    cases hf : s.vars.find? (fun e => e.1 == x) with
    | none => simp [C.optVal]
    | some e =>
      have hm := List.mem_map_of_mem (f := Prod.snd) (List.mem_of_find?_eq_some hf)
      obtain ⟨q, hq, _⟩ := hR.inv.o.live_var hm
      have : (C.kinds s.objs)[e.2]? = some q.kind := C.kinds_get.2 ⟨q, hq, rfl⟩
      simp [this, C.optVal, C.val_ne_none]

/-- The classes and functions used below:
```
class A:                              class B:                       class N:
    def __init__(self, x : 'float[:]'):   def __init__(self, a : A):     def __init__(self, n : int):
        self.x = x                            self.a = a                     self.d = np.full(3, 7)
    def set(self, y : 'float[:]'):        def deep(self, y):                 self.n = n
        self.x = y                            self.a.x = y               def resize(self):
    def keep(self):                       def local(self, y):                self.d = np.full(5, 9)
        p = self.x; self.x = p                b = self.a; b.x = y    class M:
    def view(self):                       def first(self):               def __init__(self):
        return self.x                         return self.a                  self.inner = N0()
def link(a : A, y : 'float[:]'): a.x = y
def make(y : 'float[:]'): return A(y)
``` -/
def lib : Prog where
  classes := [[.leaf (.arg .arr 0)], [.leaf (.arg .obj 0)], [.leaf (.fresh 7), .leaf (.arg .num 0)],
    [.sub [.fresh 7]]]
  funcs := [
    ⟨2, true, .store ⟨0, []⟩ 0 ⟨1, []⟩, .none⟩,                                   -- 0 A.set
    ⟨1, true, .skip, .old .arr ⟨0, [0]⟩⟩,                                          -- 1 A.view
    ⟨1, true, .skip, .old .obj ⟨0, [0]⟩⟩,                                          -- 2 B.first
    ⟨1, true, .ite ⟨0, [1]⟩ (.fill ⟨0, [0]⟩ 3) (.setNum ⟨0, []⟩ 1 ⟨0, [1]⟩), .num ⟨0, [1]⟩⟩,  -- 3 N.f
    ⟨0, false, .skip, .fresh 4⟩,                                                    -- 4 zeros
    ⟨1, false, .skip, .make 2 [⟨0, []⟩]⟩,                                           -- 5 N maker
    ⟨2, false, .seq (.bind 2 ⟨0, [0]⟩) (.fill ⟨2, []⟩ 8), .old .arr ⟨2, []⟩⟩,      -- 6 local pointer
    ⟨2, false, .store ⟨0, []⟩ 0 ⟨1, []⟩, .none⟩,                                  -- 7 link
    ⟨2, true, .store ⟨0, [0]⟩ 0 ⟨1, []⟩, .none⟩,                                  -- 8 B.deep
    ⟨2, true, .seq (.bind 2 ⟨0, [0]⟩) (.store ⟨2, []⟩ 0 ⟨1, []⟩), .none⟩,          -- 9 B.local
    ⟨1, false, .skip, .make 0 [⟨0, []⟩]⟩,                                           -- 10 make
    ⟨1, true, .renew ⟨0, []⟩ 0 9, .none⟩,                                          -- 11 N.resize
    ⟨1, true, .seq (.bind 1 ⟨0, [0]⟩) (.store ⟨0, []⟩ 0 ⟨1, []⟩), .none⟩]          -- 12 A.keep

/-- The part of `lib` the theorem is about. -/
def safe : Prog := ⟨lib.classes.take 3, lib.funcs.take 7⟩

/-- What a run prints, if it ends without exception or undefined behaviour. -/
def prints (p : Prog) (ops : List Op) : Option (List Int) :=
  match C.run p C.empty ops with
  | .ok r => some r.2
  | _ => .none

/-- A program with most features: the array passed to the constructor is forgotten, the
attribute is replaced by another array through a method and through the setter, views
outlive their objects. -/
def busy : List Op :=
  [.arr 0 1, .new 1 0 [0], .get 2 1 0, .del 0, .print 2,
   .arr 3 5, .call 9 0 [1, 3], .del 3, .get 4 1 0, .print 4, .print 2,
   .new 5 1 [1], .call 6 2 [5], .call 7 1 [6], .print 7, .del 1, .del 5, .del 6, .print 7,
   .num 8 2, .new 10 2 [8], .call 11 3 [10], .print 11, .get 12 10 0, .print 12, .setNum 10 1 (-4),
   .call 11 3 [10], .print 11, .copy 13 10, .del 10, .fill 12 6, .get 14 13 0, .print 14,
   .call 15 4 [], .print 15, .call 16 5 [8], .get 17 16 1, .print 17,
   .arr 18 21, .new 19 0 [15], .set 19 0 18, .del 18, .call 20 6 [19, 8], .print 20,
   .del 19, .print 20]

-- The hypotheses are met by a non-trivial file and program, and the run succeeds.
example : plainProg safe = true ∧ tidy safe busy = true ∧
    prints safe busy = some [1, 5, 1, 5, 5, 2, 3, -4, 6, 4, 2, 8, 8] := by
  decide +kernel

/-- C97 fails: a function which is not a method and stores one argument in an attribute
of another (`def link(a : A, y): a.x = y`) does not make `a` keep `y` alive.  After
`link(a, y); del y`, reading `a.x` reads freed memory. -/
theorem C97_violated_function :
    C.run lib C.empty [.arr 0 1, .new 1 0 [0], .arr 2 5, .call 9 7 [1, 2], .del 2, .get 3 1 0,
      .print 3] = .ub := by decide +kernel

/-- C97 fails: a method which stores its argument in an attribute of an attribute
(`self.a.x = y`) makes `self` keep `y` alive, but not `self.a`: if `self` is deleted
first, the other object points at freed memory. -/
theorem C97_violated_nested :
    C.run lib C.empty [.arr 0 1, .new 1 0 [0], .new 2 1 [1], .arr 3 5, .call 9 8 [2, 3], .del 3,
      .del 2, .get 3 1 0, .print 3] = .ub := by decide +kernel

/-- C97 fails: the same with a local variable (`b = self.a; b.x = y`): nothing keeps `y`
alive, not even `self`. -/
theorem C97_violated_local :
    C.run lib C.empty [.arr 0 1, .new 1 0 [0], .new 2 1 [1], .arr 3 5, .call 9 9 [2, 3], .del 3,
      .get 4 1 0, .print 4] = .ub := by decide +kernel

/-- C97 fails: `b.a.x = y` in the Python program.  `b.a` is a temporary Python object; it
keeps `y` alive instead of the object it stands for, and disappears at once. -/
theorem C97_violated_setter :
    C.run lib C.empty [.arr 0 1, .new 1 0 [0], .new 2 1 [1], .get 3 2 0, .arr 4 5, .set 3 0 4,
      .del 3, .del 4, .get 5 1 0, .print 5] = .ub := by decide +kernel

/-- C97 fails: a function which returns a new object built from its argument
(`def make(y): return A(y)`) returns an object which does not keep `y` alive. -/
theorem C97_violated_made :
    C.run lib C.empty [.arr 0 1, .call 1 10 [0], .del 0, .get 2 1 0, .print 2] = .ub := by
  decide +kernel

/-- C97 fails: a method which allocates an array attribute again (`self.d = np.full(5, 9)`)
frees the array while the Python program still has a view of it. -/
theorem C97_violated_resize :
    C.run lib C.empty [.num 8 2, .new 0 2 [8], .get 1 0 0, .print 1, .call 9 11 [0], .print 1] = .ub := by
  decide +kernel

/-- C97 fails: `m.inner`, for an object which is part of another one, is a Python object
which frees memory that was never allocated on its own as soon as it is forgotten. -/
theorem C97_violated_inner :
    C.run lib C.empty [.new 0 3 [], .get 1 0 0, .del 1] = .ub := by decide +kernel

/-- In each of these cases plain Python has no trouble. -/
theorem C97_violated_python :
    ((Py.run lib Py.empty [.arr 0 1, .new 1 0 [0], .arr 2 5, .call 9 7 [1, 2], .del 2, .get 3 1 0,
        .print 3]).map Prod.snd = some [5]) ∧
    ((Py.run lib Py.empty [.arr 0 1, .new 1 0 [0], .new 2 1 [1], .arr 3 5, .call 9 8 [2, 3], .del 3,
        .del 2, .get 3 1 0, .print 3]).map Prod.snd = some [5]) ∧
    ((Py.run lib Py.empty [.arr 0 1, .new 1 0 [0], .new 2 1 [1], .arr 3 5, .call 9 9 [2, 3], .del 3,
        .get 4 1 0, .print 4]).map Prod.snd = some [5]) ∧
    ((Py.run lib Py.empty [.arr 0 1, .new 1 0 [0], .new 2 1 [1], .get 3 2 0, .arr 4 5, .set 3 0 4,
        .del 3, .del 4, .get 5 1 0, .print 5]).map Prod.snd = some [5]) ∧
    ((Py.run lib Py.empty [.arr 0 1, .call 1 10 [0], .del 0, .get 2 1 0, .print 2]).map Prod.snd =
        some [1]) ∧
    ((Py.run lib Py.empty [.num 8 2, .new 0 2 [8], .get 1 0 0, .print 1, .call 9 11 [0],
        .print 1]).map Prod.snd = some [7, 7]) ∧
    ((Py.run lib Py.empty [.new 0 3 [], .get 1 0 0, .del 1]).map Prod.snd = some []) := by
  decide +kernel

/-! ## C98  memory is released -/

/-- The object number `o` can be reached from a variable. -/
def Reachable (s : C.State) (o : Nat) : Prop := ∃ x ∈ s.vars, C.Keeps s.objs x.2 o

/-- C98: memory which the Python program can no longer reach is released.  At every point
of every program, the elements of every array and every structure which has not been
freed belong to a Python object which can be reached from a variable, and every Python
object which cannot be reached is destroyed.

Partial: conditions as in C97, and older objects are not made to refer to newer ones
(`bottomUp`: what is assigned to attributes after construction is a number or an array
which does not belong to an object); cycles are never collected
(`C98_violated_view`, `C98_violated_self`).  The structures counted by `leaked` are
lost (`C98_violated_getter`). -/
theorem C98_partial (p : Prog) (ops : List Op) (hp : plainProg p = true)
    (ht : bottomUp p ops = true) (s : C.State) (out : List Int)
    (hr : C.run p C.empty ops = .ok (s, out)) :
    (∀ (d : Nat) (v : Int), s.mem.data[d]? = some (some v) →
      ∃ o, C.OwnD s.objs s.mem o d ∧ Reachable s o) ∧
    (∀ (b : Nat) (i : C.Inst), s.mem.insts[b]? = some (some i) →
      ∃ o, C.OwnB s.objs o b ∧ Reachable s o) ∧
    (∀ (o : Nat) (q : C.PyObj), s.objs[o]? = some q → q.rc ≠ 0 → Reachable s o) := by
  rcases C.run_sim ops hp (C.rel_empty true) ht with h | ⟨s', ps, out', w, h1, _, hR⟩
  · rw [h] at hr; cases hr
  · rw [h1] at hr; cases hr
    have hk := hR.ranked rfl
    refine ⟨fun d v hd => ?_, fun b i hi => ?_, fun o q hq h0 => ?_⟩
    · obtain ⟨o, ho⟩ := hR.inv.m.aliveD d v hd
      exact ⟨o, ho, C.reach_all hR.inv hk ho.live⟩
    · obtain ⟨o, ho⟩ := hR.inv.m.aliveB b i hi
      exact ⟨o, ho, C.reach_all hR.inv hk ho.live⟩
    · exact C.reach_all hR.inv hk ⟨q, hq, h0⟩

/-- C98: once all variables are deleted, all memory is freed. -/
theorem C98_end_partial (p : Prog) (ops : List Op) (hp : plainProg p = true)
    (ht : bottomUp p ops = true) (s : C.State) (out : List Int)
    (hr : C.run p C.empty ops = .ok (s, out)) (hv : s.vars = []) :
    (∀ x ∈ s.mem.data, x = none) ∧ (∀ x ∈ s.mem.insts, x = none) ∧ ∀ o ∈ s.objs, o.rc = 0 := by
  obtain ⟨h1, h2, h3⟩ := C98_partial p ops hp ht s out hr
  have nr : ∀ o, ¬ Reachable s o := fun o ⟨x, hx, _⟩ => by rw [hv] at hx; simp at hx
  refine ⟨fun x hx => ?_, fun x hx => ?_, fun o ho => ?_⟩
  · cases x with
    | none => rfl
    | some v =>
      obtain ⟨d, hd⟩ := List.getElem?_of_mem hx
      obtain ⟨o, _, hn⟩ := h1 d v hd
      exact absurd hn (nr o)
  · cases x with
    | none => rfl
    | some v =>
      obtain ⟨d, hd⟩ := List.getElem?_of_mem hx
      obtain ⟨o, _, hn⟩ := h2 d v hd
      exact absurd hn (nr o)
  · obtain ⟨d, hd⟩ := List.getElem?_of_mem ho
    exact Classical.byContradiction fun hc => nr d (h3 d o hd hc)

/-- What is left when the program has ended: live arrays, structures and Python objects,
and structures whose address was lost. -/
def left (p : Prog) (ops : List Op) : Option (Nat × Nat × Nat × Nat) :=
  match C.run p C.empty ops with
  | .ok (s, _) => some ((s.mem.data.filter Option.isSome).length,
      (s.mem.insts.filter Option.isSome).length, (s.objs.filter (fun o => o.rc != 0)).length, s.leaked)
  | _ => .none

/-- All variables of `busy`, deleted at the end. -/
def tidyUp : List Op := [.del 2, .del 4, .del 7, .del 8, .del 11, .del 12, .del 13, .del 14, .del 15,
  .del 16, .del 17, .del 20]

-- The hypotheses are met, and `busy` leaves nothing behind but the structures of the
-- objects it has got from `B.first`.
example : bottomUp safe (busy ++ tidyUp) = true ∧ left safe (busy ++ tidyUp) = some (0, 0, 0, 1) ∧
    (left safe busy).isSome = true := by decide +kernel

/-- C98 fails: `x = a.x; a.x = x` (reading an array attribute and assigning it again)
makes `a` and the array refer to each other; neither is ever released. -/
theorem C98_violated_view :
    left lib [.arr 0 1, .new 1 0 [0], .get 2 1 0, .set 1 0 2, .del 0, .del 1, .del 2] =
      some (1, 1, 3, 0) := by decide +kernel

/-- C98 fails: a method which stores a pointer to its own attribute
(`p = self.x; self.x = p`) makes the object refer to itself; it is never released. -/
theorem C98_violated_self :
    left lib [.arr 0 1, .new 1 0 [0], .call 9 12 [1], .del 0, .del 1] = some (1, 1, 2, 0) := by
  decide +kernel

/-- The state after `x = np…; a = A(x); b = B(a)` and `n` times `c = b.a; del c`. -/
def readTimes (n : Nat) : C.State where
  mem := ⟨[some 1], [some ⟨false, [.ptr 0]⟩, some ⟨false, [.obj 0]⟩]⟩
  objs := ⟨.arr 0 true, [], 2⟩ :: ⟨.inst 0 false, [0], 2⟩ :: ⟨.inst 1 false, [1], 1⟩ ::
    List.replicate n ⟨.inst 0 true, [], 0⟩
  vars := [(2, 2), (1, 1), (0, 0)]
  leaked := n

theorem modify_last {α} (n : Nat) (a b : α) (f : α → α) :
    (List.replicate n a ++ [b]).modify n f = List.replicate n a ++ [f b] := by
  induction n with
  | zero => rfl
  | succ n ih => simp [List.replicate_succ, ih]

theorem readTimes_step (n : Nat) :
    C.run lib (readTimes n) [.get 3 2 0, .del 3] = .ok (readTimes (n + 1), []) := by
  have e : (List.replicate n (⟨.inst 0 true, [], 0⟩ : C.PyObj) ++ [⟨.inst 0 true, [2], 1⟩])[n]? =
      some ⟨.inst 0 true, [2], 1⟩ := by
    rw [List.getElem?_append_right (by simp)]; simp
  simp [C.run, C.step, C.look, readTimes, C.getter, C.getField, C.getInst, C.Res.bind, C.Res.map,
    C.assignNew, C.newWith, C.newObj, C.appendAll, C.append, C.incref, C.assign, C.unbind, C.drop,
    C.total, C.release, C.destroy, e, modify_last, List.replicate_succ']

theorem run_append (p : Prog) (a b : List Op) (s s' : C.State) (out : List Int)
    (h : C.run p s a = .ok (s', out)) :
    C.run p s (a ++ b) = (C.run p s' b).map fun r => (r.1, out ++ r.2) := by
  induction a generalizing s out with
  | nil =>
    simp only [C.run] at h
    cases h
    simp only [List.nil_append, C.Res.map]
    cases h : C.run p s' b <;> rfl
  | cons o os ih =>
    simp only [C.run, List.cons_append] at h ⊢
    cases h1 : C.step p s o with
    | raise => simp [h1, C.Res.bind] at h
    | ub => simp [h1, C.Res.bind] at h
    | ok r =>
      simp only [h1, C.Res.bind] at h ⊢
      cases h2 : C.run p r.1 os with
      | raise => simp [h2, C.Res.map] at h
      | ub => simp [h2, C.Res.map] at h
      | ok r2 =>
        simp only [h2, C.Res.map] at h
        cases h
        rw [ih r.1 r2.2 h2]
        cases C.run p r2.1 b <;> simp [C.Res.map]

/-- C98 fails: each time an attribute which is a pointer to an object is read (and each
time a method returns such an object) a structure is allocated and lost, so that reading
`b.a` in a loop uses more and more memory. -/
theorem C98_violated_getter (n : Nat) :
    ∃ s out, C.run lib C.empty ([.arr 0 1, .new 1 0 [0], .new 2 1 [1]] ++
      (List.replicate n [Op.get 3 2 0, .del 3]).flatten) = .ok (s, out) ∧ s.leaked = n := by
  have h0 : C.run lib C.empty [.arr 0 1, .new 1 0 [0], .new 2 1 [1]] = .ok (readTimes 0, []) := by
    decide +kernel
  have h : ∀ m k, C.run lib (readTimes k) (List.replicate m [Op.get 3 2 0, .del 3]).flatten =
      .ok (readTimes (k + m), []) := by
    intro m
    induction m with
    | zero => intro k; rfl
    | succ m ih =>
      intro k
      rw [List.replicate_succ, List.flatten_cons, run_append _ _ _ _ _ _ (readTimes_step k), ih]
      simp [C.Res.map, Nat.add_assoc, Nat.add_comm 1]
  refine ⟨readTimes n, [], ?_, rfl⟩
  rw [run_append _ _ _ _ _ _ h0, h]
  simp [C.Res.map]

/-- The state after `k = 5; a = N(k)` and `n` times `a.n = 5`. -/
def writeTimes (n : Nat) : C.State where
  mem := ⟨[some 7], [some ⟨false, [.own 0, .num 5]⟩]⟩
  objs := ⟨.num 5, [], 1⟩ :: ⟨.inst 0 false, (List.range n).map (· + 2), 1⟩ ::
    List.replicate n ⟨.num 5, [], 1⟩
  vars := [(1, 1), (0, 0)]
  leaked := 0

theorem writeTimes_step (n : Nat) :
    C.run lib (writeTimes n) [.setNum 1 1 5] = .ok (writeTimes (n + 1), []) := by
  have e : (List.replicate n (⟨.num 5, [], 1⟩ : C.PyObj) ++ [⟨.num 5, [], 2⟩])[n]? =
      some ⟨.num 5, [], 2⟩ := by
    rw [List.getElem?_append_right (by simp)]; simp
  simp [C.run, C.step, C.look, writeTimes, C.setter, C.setField, C.getField, C.getInst, C.Res.bind,
    C.Res.map, C.newObj, C.append, C.incref, C.drop,
    C.total, C.release, C.destroy, e, modify_last, List.replicate_succ', List.range_succ]

/-- C98 fails: each time a number is assigned to an attribute (`a.n = 5`), the Python
object for the number is kept alive until `a` is destroyed, so that assigning in a loop
uses more and more memory, although there is one attribute. -/
theorem C98_violated_number (n : Nat) :
    ∃ s out, C.run lib C.empty ([.num 0 5, .new 1 2 [0]] ++ List.replicate n (.setNum 1 1 5)) =
        .ok (s, out) ∧
      (s.objs.filter fun o => o.rc != 0).length = n + 2 ∧ s.vars.length = 2 := by
  have h0 : C.run lib C.empty [.num 0 5, .new 1 2 [0]] = .ok (writeTimes 0, []) := by
    decide +kernel
  have h : ∀ m k, C.run lib (writeTimes k) (List.replicate m (Op.setNum 1 1 5)) =
      .ok (writeTimes (k + m), []) := by
    intro m
    induction m with
    | zero => intro k; rfl
    | succ m ih =>
      intro k
      rw [List.replicate_succ, ← List.singleton_append,
        run_append _ _ _ _ _ _ (writeTimes_step k), ih]
      simp [C.Res.map, Nat.add_assoc, Nat.add_comm 1]
  refine ⟨writeTimes n, [], ?_, ?_, rfl⟩
  · rw [run_append _ _ _ _ _ _ h0, h]
    simp [C.Res.map]
  · simp [writeTimes, List.filter_cons, List.filter_replicate]

/-- C98 fails: an array which has been stored in an attribute stays alive until the object
is destroyed, even when the attribute has since been given another array. -/
theorem C98_violated_replaced :
    left lib [.arr 0 1, .new 1 0 [0], .arr 2 5, .set 1 0 2, .del 0, .del 2] = some (2, 1, 3, 0) := by
  decide +kernel

end Verif.Lifetimes
