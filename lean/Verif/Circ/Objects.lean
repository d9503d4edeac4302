import Verif.Circ.Props

/-!
# `ArrayCircular` objects that are copied, moved and destroyed

`include/bss-util/ArrayCircular.h:25-34`, `:100-129`, with the moves of `ArrayBase` (`Array.h:110-133`). A block is given back only when no element lives in it, which is checked here.
-/

namespace Verif.Circ

variable {α : Type}

/-- `Clear()`, and then the block is given back; `none` if an element still lives in it (it would never be destroyed). -/
def release (c : Circ α) : Option Unit := (clear c).bind fun d => if d.arr.all (·.isNone) then some () else none

/-- `ArrayCircular.h:25`: the copy constructor starts with an empty block and assigns. -/
def copyNew (p : Circ α) : Option (Circ α) := assign ⟨[], -1, 0⟩ p

/-- `ArrayCircular.h:26-30`: the new object and the source. -/
def moveNew (p : Circ α) : Circ α × Circ α := (⟨p.arr, p.cur, p.len⟩, ⟨[], -1, 0⟩)

/-- `ArrayCircular.h:100-120` for two objects: `assign` of C14; the block of the target is given back. -/
def copyAssign (c p : Circ α) : Option (Circ α) := (release c).bind fun _ => assign c p

/-- `ArrayCircular.h:121-129` for two objects: the target and the source. -/
def moveAssign (c p : Circ α) : Option (Circ α × Circ α) := (release c).map fun _ => (⟨p.arr, p.cur, p.len⟩, ⟨[], -1, 0⟩)

/-- `ArrayCircular.h:100-120` of an object to itself: after `Clear` there is nothing left to copy. -/
def selfAssign (c : Circ α) : Option (Circ α) := (clear c).bind fun d => assign d d

/-- Operations on named objects. -/
inductive OOp (α : Type)
  | new (o n : Nat)
  | call (o : Nat) (a : Op α)
  | copyNew (o p : Nat)
  | moveNew (o p : Nat)
  | copyAssign (o p : Nat)
  | moveAssign (o p : Nat)
  | destroy (o : Nat)

/-- Objects by name. -/
def put {β : Type} (w : Nat → Option β) (o : Nat) (s : Option β) : Nat → Option β := fun p => if p = o then s else w p

/-- One operation; a name is used for a new object only when it is free. -/
def ostep : OOp α → (Nat → Option (Circ α)) → Option ((Nat → Option (Circ α)) × Option α)
  | .new o n, w => if (w o).isSome then none else some (put w o (some (Circ.new n)), none)
  | .call o a, w => (w o).bind fun c => (exec a c).map fun r => (put w o (some r.1), r.2)
  | .copyNew o p, w => if (w o).isSome then none else (w p).bind fun d => (Circ.copyNew d).map fun c => (put w o (some c), none)
  | .moveNew o p, w => if (w o).isSome then none else (w p).map fun d => (put (put w o (some (Circ.moveNew d).1)) p (some (Circ.moveNew d).2), none)
  | .copyAssign o p, w => if o = p then none else (w o).bind fun c => (w p).bind fun d => (Circ.copyAssign c d).map fun e => (put w o (some e), none)
  | .moveAssign o p, w => if o = p then none else (w o).bind fun c => (w p).bind fun d => (Circ.moveAssign c d).map fun e => (put (put w o (some e.1)) p (some e.2), none)
  | .destroy o, w => (w o).bind fun c => (release c).map fun _ => (put w o none, none)

/-! ## Specification -/

/-- Every object is a capacity and a list of values, newest first; copies are the same value, a source of a move is an empty array without capacity. -/
def ospec : OOp α → (Nat → Option (Nat × List α)) → Option ((Nat → Option (Nat × List α)) × Option α)
  | .new o n, V => if (V o).isSome then none else some (fun q => if q = o then some (n, []) else V q, none)
  | .call o a, V => (V o).bind fun c => (spec a c).map fun r => (fun q => if q = o then some r.1 else V q, r.2)
  | .copyNew o p, V => if (V o).isSome then none else (V p).map fun d => (fun q => if q = o then some d else V q, none)
  | .moveNew o p, V => if (V o).isSome then none else (V p).map fun d => (fun q => if q = p then some (0, []) else if q = o then some d else V q, none)
  | .copyAssign o p, V => if o = p then none else (V o).bind fun _ => (V p).map fun d => (fun q => if q = o then some d else V q, none)
  | .moveAssign o p, V => if o = p then none else (V o).bind fun _ => (V p).map fun d => (fun q => if q = p then some (0, []) else if q = o then some d else V q, none)
  | .destroy o, V => (V o).map fun _ => (fun q => if q = o then none else V q, none)

/-- Run a list of operations, collecting the returned values. -/
def orun {σ : Type} (f : OOp α → σ → Option (σ × Option α)) : List (OOp α) → σ → Option (σ × List (Option α))
  | [], s => some (s, [])
  | o :: os, s => (f o s).bind fun r => (orun f os r.1).map fun t => (t.1, r.2 :: t.2)

/-! ## Proofs -/

/-- An object and its value. -/
def RelO : Option (Circ α) → Option (Nat × List α) → Prop
  | none, none => True
  | some c, some (n, l) => Rep c l ∧ c.arr.length = n ∧ Exact c
  | _, _ => False

theorem rel_isSome {a : Option (Circ α)} {b : Option (Nat × List α)} (h : RelO a b) : a.isSome = b.isSome := by
  cases a <;> cases b <;> first | rfl | exact h.elim

theorem rel_some {a : Option (Circ α)} {n : Nat} {l : List α} (h : RelO a (some (n, l))) : ∃ c, a = some c ∧ Rep c l ∧ c.arr.length = n ∧ Exact c := by
  cases a with
  | none => exact h.elim
  | some c => exact ⟨c, rfl, h⟩

theorem rel_put {w : Nat → Option (Circ α)} {V : Nat → Option (Nat × List α)} (h : ∀ o, RelO (w o) (V o)) (o : Nat) {a : Option (Circ α)} {b : Option (Nat × List α)} (hab : RelO a b) :
    ∀ q, RelO (put w o a q) (if q = o then b else V q) := by
  intro q
  by_cases e : q = o
  · simp only [put, if_pos e]; exact hab
  · simp only [put, if_neg e]; exact h q

theorem rel_nil : RelO (some (⟨[], -1, 0⟩ : Circ α)) (some (0, [])) := ⟨by simpa [new] using Rep.new (α := α) 0, rfl, by simpa [new] using Exact.new (α := α) 0⟩

theorem release_ok {c : Circ α} {l : List α} (h : Rep c l) (hx : Exact c) : release c = some () := by
  obtain ⟨d, e1, _, _, _, e4⟩ := clear_spec h
  rw [release, e1]
  refine if_pos (List.all_eq_true.2 fun s hs => ?_)
  obtain ⟨j, hj⟩ := List.getElem?_of_mem hs
  cases s with
  | none => rfl
  | some x => exact absurd hj (e4 hx j x)

theorem ostep_sim {w : Nat → Option (Circ α)} {V V' : Nat → Option (Nat × List α)} (h : ∀ o, RelO (w o) (V o)) (a : OOp α) {r : Option α} (hs : ospec a V = some (V', r)) :
    ∃ w', ostep a w = some (w', r) ∧ ∀ o, RelO (w' o) (V' o) := by
  cases a with
  | new o n =>
    simp only [ospec] at hs
    split at hs
    · cases hs
    · next hn =>
      cases hs
      have hr : RelO (some (Circ.new n : Circ α)) (some (n, [])) := ⟨Rep.new n, by simp [Circ.new], Exact.new n⟩
      exact ⟨_, by rw [ostep, rel_isSome (h o), if_neg hn], rel_put h o hr⟩
  | call o a =>
    obtain ⟨⟨n, l⟩, h1, h2⟩ := Option.bind_eq_some_iff.1 hs
    obtain ⟨⟨⟨n', l'⟩, r'⟩, h3, h4⟩ := Option.map_eq_some_iff.1 h2
    cases h4
    obtain ⟨c, e1, e2, e3, e4⟩ := rel_some (h1 ▸ h o)
    obtain ⟨c', f1, f2, f3, f4⟩ := exec_sim e2 e3 e4 a h3
    exact ⟨put w o (some c'), by simp [ostep, e1, f1], rel_put h o ⟨f2, f3, f4⟩⟩
  | copyNew o p =>
    simp only [ospec] at hs
    split at hs
    · cases hs
    · next hn =>
      obtain ⟨⟨n, l⟩, h1, h2⟩ := Option.map_eq_some_iff.1 hs
      cases h2
      obtain ⟨c, e1, e2, e3, e4⟩ := rel_some (h1 ▸ h p)
      obtain ⟨c', f1, f2, f3, f4⟩ := assign_spec rel_nil.1 e2
      exact ⟨put w o (some c'), by rw [ostep, rel_isSome (h o), if_neg hn]; simp [e1, Circ.copyNew, f1], rel_put h o ⟨f2, by omega, f4 e4⟩⟩
  | moveNew o p =>
    simp only [ospec] at hs
    split at hs
    · cases hs
    · next hn =>
      obtain ⟨⟨n, l⟩, h1, h2⟩ := Option.map_eq_some_iff.1 hs
      cases h2
      obtain ⟨c, e1, e2⟩ := rel_some (h1 ▸ h p)
      exact ⟨_, by rw [ostep, rel_isSome (h o), if_neg hn, e1]; rfl, rel_put (rel_put h o (a := some ⟨c.arr, c.cur, c.len⟩) (b := some (n, l)) e2) p rel_nil⟩
  | copyAssign o p =>
    simp only [ospec] at hs
    split at hs
    · cases hs
    · next hn =>
      obtain ⟨⟨k, m⟩, h0, h1⟩ := Option.bind_eq_some_iff.1 hs
      obtain ⟨⟨n, l⟩, h3, h2⟩ := Option.map_eq_some_iff.1 h1
      cases h2
      obtain ⟨g, d1, d2, d3, d4⟩ := rel_some (h0 ▸ h o)
      obtain ⟨c, e1, e2, e3, e4⟩ := rel_some (h3 ▸ h p)
      obtain ⟨c', f1, f2, f3, f4⟩ := assign_spec d2 e2
      exact ⟨put w o (some c'), by rw [ostep, if_neg hn]; simp [d1, e1, Circ.copyAssign, release_ok d2 d4, f1], rel_put h o ⟨f2, by omega, f4 e4⟩⟩
  | moveAssign o p =>
    simp only [ospec] at hs
    split at hs
    · cases hs
    · next hn =>
      obtain ⟨⟨k, m⟩, h0, h1⟩ := Option.bind_eq_some_iff.1 hs
      obtain ⟨⟨n, l⟩, h3, h2⟩ := Option.map_eq_some_iff.1 h1
      cases h2
      obtain ⟨g, d1, d2, d3, d4⟩ := rel_some (h0 ▸ h o)
      obtain ⟨c, e1, e2⟩ := rel_some (h3 ▸ h p)
      refine ⟨put (put w o (some ⟨c.arr, c.cur, c.len⟩)) p (some ⟨[], -1, 0⟩), ?_, rel_put (rel_put h o (a := some ⟨c.arr, c.cur, c.len⟩) (b := some (n, l)) e2) p rel_nil⟩
      rw [ostep, if_neg hn]
      simp [d1, e1, Circ.moveAssign, release_ok d2 d4]
  | destroy o =>
    obtain ⟨⟨n, l⟩, h1, h2⟩ := Option.map_eq_some_iff.1 hs
    cases h2
    obtain ⟨c, e1, e2, e3, e4⟩ := rel_some (h1 ▸ h o)
    exact ⟨put w o none, by simp [ostep, e1, release_ok e2 e4], rel_put h o (b := none) trivial⟩

theorem orun_sim : ∀ (os : List (OOp α)) {w : Nat → Option (Circ α)} {V V' : Nat → Option (Nat × List α)} {rs : List (Option α)}, (∀ o, RelO (w o) (V o)) → orun ospec os V = some (V', rs) →
    ∃ w', orun ostep os w = some (w', rs) ∧ ∀ o, RelO (w' o) (V' o)
  | [], w, V, V', rs, h, hs => by cases hs; exact ⟨w, rfl, h⟩
  | a :: os, w, V, V', rs, h, hs => by
    obtain ⟨⟨V1, r⟩, h1, h2⟩ := Option.bind_eq_some_iff.1 hs
    obtain ⟨⟨V2, rs'⟩, h3, h4⟩ := Option.map_eq_some_iff.1 h2
    cases h4
    obtain ⟨w1, e1, e2⟩ := ostep_sim h a h1
    obtain ⟨w2, f1, f2⟩ := orun_sim os e2 h3
    exact ⟨w2, by simp [orun, e1, f1], f2⟩

/-- Circular arrays are values: for every history of calls, copies, moves and destructions of any number of objects that the specification allows, the code has no undefined behaviour, gives back no
block in which an element still lives, returns the same values, and every object has the capacity and the elements of its value. Missing: the assignment of an object to itself
(`C221_self_counterexample`). -/
theorem C221_objects_partial (os : List (OOp α)) {V : Nat → Option (Nat × List α)} {rs : List (Option α)} (h : orun ospec os (fun _ => none) = some (V, rs)) :
    ∃ w, orun ostep os (fun _ => none) = some (w, rs) ∧ ∀ o, (V o = none → w o = none) ∧
      ∀ n l, V o = some (n, l) → ∃ c, w o = some c ∧ c.cap = n ∧ c.len = l.length ∧ ∀ k, k < l.length → at' c k = l[k]? := by
  obtain ⟨w, h1, h2⟩ := orun_sim os (w := fun _ => none) (V := fun _ => none) (fun _ => trivial) h
  refine ⟨w, h1, fun o => ⟨fun e => ?_, fun n l e => ?_⟩⟩
  · have := h2 o
    rw [e] at this
    cases hw : w o with
    | none => rfl
    | some c => rw [hw] at this; exact this.elim
  · obtain ⟨c, e1, e2, e3, _⟩ := rel_some (e ▸ h2 o)
    exact ⟨c, e1, e3, e2.len, fun k hk => at_spec e2 (by have := e2.len; omega)⟩

/-- The hypotheses are met: an array that has wrapped around is copied and moved over another one, and both are used further. -/
example : (orun ospec [.new 0 2, .call 0 (.push 1), .call 0 (.push 2), .call 0 (.push 3), .copyNew 1 0, .new 2 4, .call 2 (.push 9), .moveAssign 2 0, .call 2 .popBack, .call 1 .pop, .destroy 0]
    (fun _ => none : Nat → Option (Nat × List Nat))).map (fun r => (r.1 0, r.1 1, r.1 2, r.2)) =
    some (none, some (2, [2]), some (2, [3]), [none, none, none, none, none, none, none, none, some 2, some 3, none]) := rfl

/-- False for the assignment of an object to itself: all elements are lost. -/
theorem C221_self_counterexample : ∃ c d : Circ Nat, orun ostep [.new 0 2, .call 0 (.push 1), .call 0 (.push 2)] (fun _ => none) = some (put (put (put (fun _ => none) 0 (some (new 2))) 0
    (some ⟨[some 1, none], 0, 1⟩)) 0 (some c), [none, none, none]) ∧ c.len = 2 ∧ selfAssign c = some d ∧ d.len = 0 :=
  ⟨⟨[some 1, some 2], 1, 2⟩, ⟨[none, none], -1, 0⟩, rfl, rfl, rfl, rfl⟩

end Verif.Circ
