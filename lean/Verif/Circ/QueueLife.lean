import Verif.Circ.Objects

/-!
# The lives of the values in a `Queue`

`include/bss-util/Queue.h:25-35`, `:50-56` with the destructor of `ArrayCircular` (`ArrayCircular.h:34`), on the model of C13.
-/

namespace Verif.Circ

variable {α : Type}

/-- `Queue::~Queue`, `Queue.h:24`, with the destructors of its bases (`ArrayCircular.h:34`, `Array.h:120-123`): `none` if a value is never destroyed. -/
def qDestroy (c : Circ α) : Option Unit := release c

/-! ## Proofs -/

theorem qexec_exact {c : Circ α} {q : List α} (hr : Rep c q.reverse) (hx : Exact c) (o : QOp α) (ho : o ≠ .discard) {q' : List α} {r : Option α}
    (hs : qspec o q = some (q', r)) : ∃ c', qexec o c = some (c', r) ∧ Rep c' q'.reverse ∧ Exact c' := by
  cases o with
  | push x =>
    simp [qspec] at hs
    obtain ⟨rfl, rfl⟩ := hs
    have hlen := hr.len
    have hle := hr.le
    simp at hlen
    obtain ⟨c1, e1, e2, e3, e4⟩ : ∃ c1, (if c.len ≥ c.cap then setCapacity c (Arith.fbnextN c.len) else some c) = some c1 ∧
        Rep c1 q.reverse ∧ c1.len < c1.arr.length ∧ Exact c1 := by
      by_cases hf : c.len ≥ c.cap
      · rw [if_pos hf]
        have hg := (Arith.C56_fbnext (x := c.len) (y := 0)).1
        unfold Circ.cap at hf
        obtain ⟨c1, e1, e2, e3, e4⟩ := setCapacity_grow hr (n := Arith.fbnextN c.len) (by omega)
        exact ⟨c1, e1, e2, by have := e2.len; simp at this; omega, e4 hx⟩
      · rw [if_neg hf]
        unfold Circ.cap at hf
        exact ⟨c, rfl, hr, by omega, hx⟩
    obtain ⟨c2, f1, f2, f3, f4⟩ := push_spec e2 (by omega) x
    refine ⟨c2, by simp only [qexec, qPush, e1, Option.bind_some, f1, Option.map_some], ?_, f4 e4⟩
    have hl1 := e2.len
    simp at hl1
    have : (x :: q.reverse).take c1.arr.length = (q ++ [x]).reverse := by
      rw [List.take_of_length_le (by simp; omega)]; simp
    rw [this] at f2
    exact f2
  | pop =>
    cases q with
    | nil => simp [qspec] at hs
    | cons x q =>
      simp [qspec] at hs
      obtain ⟨rfl, rfl⟩ := hs
      rw [List.reverse_cons] at hr
      obtain ⟨c', e1, e2, _, e4⟩ := popBack_spec hr
      exact ⟨c', by simp [qexec, qPop, e1], e2, e4 hx⟩
  | peek =>
    cases q with
    | nil => simp [qspec] at hs
    | cons x q =>
      simp [qspec] at hs
      obtain ⟨rfl, rfl⟩ := hs
      have hr' := hr
      rw [List.reverse_cons] at hr'
      exact ⟨c, by simp [qexec, qPeek, back_spec hr'], hr, hx⟩
  | discard => exact absurd rfl ho
  | clear =>
    simp [qspec] at hs
    obtain ⟨rfl, rfl⟩ := hs
    obtain ⟨c', e1, e2, _, _, e4⟩ := clear_spec hr
    exact ⟨c', by simp [qexec, e1], by simpa using e2, fun j x hj => absurd hj (e4 hx j x)⟩

theorem qrun_exact : ∀ (os : List (QOp α)) {c : Circ α} {q : List α}, Rep c q.reverse → Exact c → (∀ o ∈ os, o ≠ .discard) →
    ∀ {q' : List α} {rs : List (Option α)}, qrun qspec os q = some (q', rs) → ∃ c', qrun qexec os c = some (c', rs) ∧ Rep c' q'.reverse ∧ Exact c'
  | [], c, q, hr, hx, _, q', rs, hs => by
    simp [qrun] at hs
    obtain ⟨rfl, rfl⟩ := hs
    exact ⟨c, rfl, hr, hx⟩
  | o :: os, c, q, hr, hx, ho, q', rs, hs => by
    simp only [qrun, Option.bind_eq_some_iff] at hs
    obtain ⟨⟨q1, r⟩, h1, h2⟩ := hs
    simp only [Option.map_eq_some_iff] at h2
    obtain ⟨⟨q2, rs'⟩, h2, h3⟩ := h2
    simp at h3
    obtain ⟨rfl, rfl⟩ := h3
    obtain ⟨c1, e1, e2, e3⟩ := qexec_exact hr hx o (ho o (by simp)) h1
    obtain ⟨c2, f1, f2, f3⟩ := qrun_exact os e2 e3 (fun p hp => ho p (List.mem_cons_of_mem _ hp)) h2
    exact ⟨c2, by simp [qrun, e1, f1], f2, f3⟩

/-- For every initial capacity and every history of `Push`, `Pop`, `Peek` and `Clear`, `Clear` and the destructor destroy every value that still lives in the
block before it is given back. Missing: `Discard` (`C222_discard_counterexample`). -/
theorem C222_destroyed_partial (n : Nat) (os : List (QOp α)) (ho : ∀ o ∈ os, o ≠ .discard) {q : List α} {rs : List (Option α)} (h : qrun qspec os [] = some (q, rs)) :
    ∃ c, qrun qexec os (new n) = some (c, rs) ∧ c.len = q.length ∧ qDestroy c = some () ∧ ∃ d, clear c = some d ∧ d.len = 0 ∧ ∀ s ∈ d.arr, s = none := by
  obtain ⟨c, h1, h2, h3⟩ := qrun_exact os (by simpa using Rep.new n) (Exact.new n) ho h
  obtain ⟨d, e1, e2, _, _, e4⟩ := clear_spec h2
  refine ⟨c, h1, by have := h2.len; simpa using this, release_ok h2 h3, d, e1, by have := e2.len; simpa using this, fun s hs => ?_⟩
  obtain ⟨j, hj⟩ := List.getElem?_of_mem hs
  cases s with
  | none => rfl
  | some x => exact absurd hj (e4 h3 j x)

/-- The hypotheses are met by a history that grows and wraps around. -/
example : qrun qspec [.push 1, .push 2, .pop, .push 3, .push 4, .push 5, .peek, .pop] ([] : List Nat) = some ([3, 4, 5], [none, none, some 1, none, none, none, some 2, some 2]) := rfl

/-- False with `Discard`: it takes the value out of the queue without destroying it, and the destructor does not reach it. -/
theorem C222_discard_counterexample : ∃ c : Circ Nat, qrun qexec [.push 1, .push 2, .discard] (new 2) = some (c, [none, none, none]) ∧ c.len = 1 ∧ qDestroy c = none :=
  ⟨⟨[some 1, some 2], 1, 1⟩, rfl, rfl, rfl⟩

end Verif.Circ
