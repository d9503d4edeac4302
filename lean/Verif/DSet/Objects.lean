import Verif.DSet.Props

/-!
# Moved `DisjointSet` objects

`include/bss-util/DisjointSet.h:27`, `:186-191` with the moves of `ArrayBase` (`Array.h:110-114`, `:124-133`). The copy constructor, the copy assignment and `AddSets` use members `ArrayBase` does not have and do
not compile when they are used.
-/

namespace Verif.DSet

/-- `DisjointSet.h:27`: the new object and the source. -/
def moveNew (s : DSet) : DSet × DSet := (⟨s.arr, s.numsets⟩, ⟨[], 0⟩)

/-- `DisjointSet.h:186-191`: the target and the source. -/
def moveAssign (_ s : DSet) : DSet × DSet := (⟨s.arr, s.numsets⟩, ⟨[], s.numsets⟩)

/-- `Reset` on an object, `DisjointSet.h:109-113`. -/
def resetObj (s : DSet) : DSet := ⟨List.replicate s.arr.length (-1), s.arr.length⟩

/-- Objects by name. -/
def put {β : Type} (w : Nat → β) (o : Nat) (s : β) : Nat → β := fun p => if p = o then s else w p

/-! ## Specification -/

/-- Histories of calls on any number of objects. Beside the objects: for each one the number of its elements and the pairs united so far, and whether it was the source of a move assignment and not made
new or reset since then (or has taken over such an object). `Find` is called on elements of the set only, `Union` with two different numbers. -/
inductive Hist : (Nat → Option DSet) → (Nat → Option (Nat × List (Nat × Nat))) → (Nat → Bool) → Prop
  | none : Hist (fun _ => .none) (fun _ => .none) (fun _ => false)
  | new {w V B} (o n : Nat) : Hist w V B → Hist (put w o (some (DSet.reset n))) (put V o (some (n, []))) (put B o false)
  | reset {w V B o s n us} : Hist w V B → w o = some s → V o = some (n, us) → Hist (put w o (some (resetObj s))) (put V o (some (n, []))) (put B o false)
  | united {w V B o s s' n us a b} : Hist w V B → w o = some s → V o = some (n, us) → a ≠ b → DSet.union s a b = some (true, s') →
      Hist (put w o (some s')) (put V o (some (n, (a, b) :: us))) B
  | refused {w V B o s s' a b} : Hist w V B → w o = some s → a ≠ b → DSet.union s a b = some (false, s') → Hist (put w o (some s')) V B
  | find {w V B o s s' n us x r} : Hist w V B → w o = some s → V o = some (n, us) → x < n → DSet.find s x = some (r, s') → Hist (put w o (some s')) V B
  | numElements {w V B o s s' x v} : Hist w V B → w o = some s → DSet.numElements s x = some (v, s') → Hist (put w o (some s')) V B
  | moveNew {w V B o p s} : Hist w V B → o ≠ p → w p = some s →
      Hist (put (put w o (some (DSet.moveNew s).1)) p (some (DSet.moveNew s).2)) (put (put V o (V p)) p (some (0, []))) (put (put B o (B p)) p false)
  | moveAssign {w V B o p g s} : Hist w V B → o ≠ p → w o = some g → w p = some s →
      Hist (put (put w o (some (DSet.moveAssign g s).1)) p (some (DSet.moveAssign g s).2)) (put (put V o (V p)) p (some (0, []))) (put (put B o (B p)) p true)

/-! ## Proofs -/

/-- An object and what it stands for. -/
def Rel (s : DSet) (n : Nat) (us : List (Nat × Nat)) (b : Bool) : Prop := (b = false ∧ Reach n s us 0) ∨ (b = true ∧ s.arr = [] ∧ n = 0 ∧ us = [])

theorem put_self {β : Type} (w : Nat → β) (o : Nat) (s : β) : put w o s o = s := if_pos rfl
theorem put_other {β : Type} (w : Nat → β) {o p : Nat} (s : β) (h : p ≠ o) : put w o s p = w p := if_neg h

theorem empty_union {s : DSet} (h : s.arr = []) (a b : Nat) : DSet.union s a b = some (false, s) := by simp [DSet.union, invalidIndex, h]
theorem empty_num {s : DSet} (h : s.arr = []) (x : Nat) : DSet.numElements s x = some (-1, s) := by simp [DSet.numElements, h]

theorem Rel.length {s : DSet} {n : Nat} {us : List (Nat × Nat)} {b : Bool} (h : Rel s n us b) : s.arr.length = n := by
  rcases h with ⟨_, h⟩ | ⟨_, h1, h2, _⟩
  · exact h.inv.2
  · rw [h1, h2]; rfl

/-- All objects are what they stand for. -/
def Good (w : Nat → Option DSet) (V : Nat → Option (Nat × List (Nat × Nat))) (B : Nat → Bool) : Prop :=
  ∀ o s, w o = some s → ∃ n us, V o = some (n, us) ∧ Rel s n us (B o)

theorem Good.put1 {w : Nat → Option DSet} {V : Nat → Option (Nat × List (Nat × Nat))} {B : Nat → Bool} (G : Good w V B) {o : Nat} {s : DSet} {n : Nat} {us : List (Nat × Nat)} {b : Bool}
    (h : Rel s n us b) : Good (put w o (some s)) (put V o (some (n, us))) (put B o b) := by
  intro q t hq
  by_cases e : q = o
  · subst e
    rw [put_self] at hq
    cases hq
    exact ⟨n, us, put_self .., by rw [put_self]; exact h⟩
  · rw [put_other _ _ e] at hq ⊢
    rw [put_other _ _ e]
    exact G q t hq

theorem Good.put2 {w : Nat → Option DSet} {V : Nat → Option (Nat × List (Nat × Nat))} {B : Nat → Bool} (G : Good w V B) {o : Nat} {s : DSet} {n : Nat} {us : List (Nat × Nat)}
    (hV : V o = some (n, us)) (h : Rel s n us (B o)) : Good (put w o (some s)) V B := by
  have h1 : put V o (some (n, us)) = V := by funext q; by_cases e : q = o <;> simp [put, e, hV]
  have h2 : put B o (B o) = B := by funext q; by_cases e : q = o <;> simp [put, e]
  have := G.put1 (o := o) h
  rwa [h1, h2] at this

theorem Hist.good {w : Nat → Option DSet} {V : Nat → Option (Nat × List (Nat × Nat))} {B : Nat → Bool} (h : Hist w V B) : Good w V B := by
  induction h with
  | none => intro o s h; cases h
  | new o n _ ih => exact ih.put1 (.inl ⟨rfl, .init⟩)
  | @reset w V B o s n us _ hw hV ih =>
    obtain ⟨n', us', e, hr⟩ := ih o s hw
    rw [hV] at e
    cases e
    refine ih.put1 (.inl ⟨rfl, ?_⟩)
    have : resetObj s = DSet.reset n := by rw [resetObj, hr.length]; rfl
    rw [this]
    exact .init
  | @united w V B o s s' n us a b _ hw hV hab hu ih =>
    obtain ⟨n', us', e, hr⟩ := ih o s hw
    rw [hV] at e
    cases e
    have hB : put B o (B o) = B := by funext q; by_cases e : q = o <;> simp [put, e]
    rcases hr with ⟨hb, hr⟩ | ⟨_, h1, _, _⟩
    · have := ih.put1 (o := o) (b := B o) (.inl ⟨hb, hr.united hab hu⟩)
      rwa [hB] at this
    · rw [empty_union h1] at hu
      cases hu
  | @refused w V B o s s' a b _ hw hab hu ih =>
    obtain ⟨n, us, hV, hr⟩ := ih o s hw
    refine ih.put2 hV ?_
    rcases hr with ⟨hb, hr⟩ | ⟨hb, h1, h2, h3⟩
    · exact .inl ⟨hb, hr.refused hab hu⟩
    · rw [empty_union h1] at hu
      cases hu
      exact .inr ⟨hb, h1, h2, h3⟩
  | @find w V B o s s' n us x r _ hw hV hx hu ih =>
    obtain ⟨n', us', e, hr⟩ := ih o s hw
    rw [hV] at e
    cases e
    refine ih.put2 hV ?_
    rcases hr with ⟨hb, hr⟩ | ⟨hb, h1, h2, h3⟩
    · exact .inl ⟨hb, hr.find hx hu⟩
    · omega
  | @numElements w V B o s s' x v _ hw hu ih =>
    obtain ⟨n, us, hV, hr⟩ := ih o s hw
    refine ih.put2 hV ?_
    rcases hr with ⟨hb, hr⟩ | ⟨hb, h1, h2, h3⟩
    · exact .inl ⟨hb, hr.numElements hu⟩
    · rw [empty_num h1] at hu
      cases hu
      exact .inr ⟨hb, h1, h2, h3⟩
  | @moveNew w V B o p s _ hop hw ih =>
    obtain ⟨n, us, hV, hr⟩ := ih p s hw
    rw [hV]
    exact (ih.put1 (s := (DSet.moveNew s).1) hr).put1 (.inl ⟨rfl, .init⟩)
  | @moveAssign w V B o p g s _ hop hg hw ih =>
    obtain ⟨n, us, hV, hr⟩ := ih p s hw
    rw [hV]
    exact (ih.put1 (s := (DSet.moveAssign g s).1) hr).put1 (.inr ⟨rfl, rfl, rfl, rfl⟩)

/-- After any history of calls and moves on any number of objects, every object has the number of elements it stands for, `Find` tells which of them the pairs united in it connect (in this object or in
the one it was moved from), and `NumSets` counts its classes. Missing: `NumSets` of an object that was the source of a move assignment (`C220_source_counterexample`). -/
theorem C220_moves_partial {w : Nat → Option DSet} {V : Nat → Option (Nat × List (Nat × Nat))} {B : Nat → Bool} (h : Hist w V B) {o : Nat} {s : DSet} (ho : w o = some s) :
    ∃ n us, V o = some (n, us) ∧ s.arr.length = n ∧
      (∀ x y, x < n → y < n → ∃ rx s₁ ry s₂, DSet.find s x = some (rx, s₁) ∧ DSet.find s₁ y = some (ry, s₂) ∧ (rx = ry ↔ Conn us x y)) ∧
      (B o = false → ∃ reps : List Nat, reps.Nodup ∧ (∀ r ∈ reps, r < n) ∧ (∀ r ∈ reps, ∀ q ∈ reps, Conn us r q → r = q) ∧ (∀ x, x < n → ∃ r ∈ reps, Conn us x r) ∧
        (reps.length : Int) = numSets s) := by
  obtain ⟨n, us, hV, hr⟩ := h.good o s ho
  refine ⟨n, us, hV, hr.length, fun x y hx hy => ?_, fun hb => ?_⟩
  · rcases hr with ⟨_, hr⟩ | ⟨_, _, h2, _⟩
    · exact C07_find_iff_connected hr hx hy
    · omega
  · rcases hr with ⟨_, hr⟩ | ⟨hb', _⟩
    · simpa using C08_numSets hr
    · rw [hb] at hb'; cases hb'

/-- The hypotheses are met: a set of three with two elements united is moved to another object by an assignment, and united further there. -/
example : ∃ w V B s, Hist w V B ∧ w 1 = some s ∧ V 1 = some (3, [(0, 2), (0, 1)]) ∧ V 0 = some (0, []) ∧ B 1 = false := by
  have h0 := (Hist.none.new 0 3).new 1 5
  have h1 := h0.united (o := 0) (a := 0) (b := 1) rfl rfl (by decide) rfl
  have h2 := h1.moveAssign (o := 1) (p := 0) (by decide) rfl rfl
  have h3 := h2.united (o := 1) (a := 0) (b := 2) rfl rfl (by decide) rfl
  exact ⟨_, _, _, _, h3, rfl, rfl, rfl, rfl⟩

/-- False for the source of a move assignment: it has no elements, but `NumSets` still says how many sets there were. -/
theorem C220_source_counterexample : ∃ w V B s, Hist w V B ∧ w 0 = some s ∧ V 0 = some (0, []) ∧ s.arr.length = 0 ∧ numSets s = 3 := by
  have h := ((Hist.none.new 0 3).new 1 5).moveAssign (o := 1) (p := 0) (by decide) rfl rfl
  exact ⟨_, _, _, _, h, rfl, rfl, rfl, rfl⟩

end Verif.DSet
