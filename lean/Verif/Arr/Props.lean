import Verif.Arr.Refine

/-!
# C131: arrays are independent values, and every element is constructed and destroyed once

The model makes an error of every use of memory or of an element that is not allowed, of an element that is never destroyed and of a block that is freed with elements in it, so that a program that runs to its end has none of these.
-/

namespace Verif.Arr
variable {α : Type}

/-- Every program on `Array`s and `DynArray`s in which no array is an argument of a call on itself runs without an error. Then each array has the length and the elements it has as a sequence, and the blocks of memory
are those of the arrays that exist, a different one for each. Missing: calls with an array, or an element or slice of it, as argument for itself, which fail (below). -/
theorem C131_arrays_are_values_partial (dflt : α) (kind : Kind) (ops : List (Op α)) (s : Vals α) (h : Vals.run dflt [] ops = some s) :
    ∃ w, run dflt kind empty ops = some w ∧ w.vars.length = s.length ∧
      (∀ i, (w.obj i).map (fun o => (o.dyn, o.len)) = (s.at i).map fun v => (v.1, v.2.length)) ∧
      (∀ i k, w.get i k = (s.at i).bind fun v => v.2[k]?) ∧
      (∀ b, w.heap.blk b ≠ none → ∃ i o, w.obj i = some o ∧ o.ptr = some b) ∧
      (∀ i j o u b, w.obj i = some o → w.obj j = some u → o.ptr = some b → u.ptr = some b → i = j) := by
  obtain ⟨w, e, g⟩ := run_ok dflt kind ops good_empty h
  refine ⟨w, e, g.len, fun i => ?_, fun i k => ?_, g.cover, g.disj⟩
  · cases hv : s.at i with
    | none => rw [(g.iff i).mpr hv]; rfl
    | some v =>
      obtain ⟨o, ho, hh⟩ := g.get hv
      simp [ho, hh.dyn, hh.len]
  · cases hv : s.at i with
    | none => simp [World.get, (g.iff i).mpr hv]
    | some v =>
      obtain ⟨o, ho, hh⟩ := g.get hv
      simp only [World.get, ho, Option.bind_some, hh.len]
      by_cases hk : k < v.2.length
      · obtain ⟨b, e1, e2⟩ := hh.blk.some (by have := hh.blk.1; omega)
        rw [if_pos hk, e1, Option.bind_some, e2, Option.bind_some, read_body hk, List.getElem?_eq_getElem hk]
      · rw [if_neg hk, List.getElem?_eq_none (by omega)]

/-- After the last array is destroyed, no memory is left; the blocks are freed only when all their elements were destroyed. -/
theorem C131_no_leak_partial (dflt : α) (kind : Kind) (ops : List (Op α)) (s : Vals α) (h : Vals.run dflt [] ops = some s) (hs : ∀ i, s.at i = none) :
    ∃ w, run dflt kind empty ops = some w ∧ ∀ b, w.heap.blk b = none := by
  obtain ⟨w, e, -, h1, -, h2, -⟩ := C131_arrays_are_values_partial dflt kind ops s h
  refine ⟨w, e, fun b => ?_⟩
  cases hb : w.heap.blk b with
  | none => rfl
  | some a =>
    obtain ⟨i, o, ho, -⟩ := h2 b (by rw [hb]; simp)
    have := h1 i
    rw [ho, hs i] at this
    cases this

/-- Every place of the memory of an array is an element if its index is less than the length, and raw memory otherwise. -/
theorem C131_elements_constructed_once_partial (dflt : α) (kind : Kind) (ops : List (Op α)) (s : Vals α) (h : Vals.run dflt [] ops = some s) :
    ∃ w, run dflt kind empty ops = some w ∧ ∀ i o b, w.obj i = some o → o.ptr = some b → ∃ a, w.heap.blk b = some a ∧ a.length = o.cap ∧ o.len ≤ o.cap ∧
      ∀ k, k < o.cap → (k < o.len → ∃ x, a[k]? = some (Slot.val x)) ∧ (o.len ≤ k → a[k]? = some Slot.raw) := by
  obtain ⟨w, e, g⟩ := run_ok dflt kind ops good_empty h
  refine ⟨w, e, fun i o b ho hb => ?_⟩
  obtain ⟨v, -, hh⟩ := g.value ho
  have hbl := hh.blk
  rw [hb] at hbl
  have hl := hh.len
  have hc := hbl.1
  refine ⟨_, hbl.2.2, by simp [body]; omega, by omega, fun k hk => ⟨fun hk' => ?_, fun hk' => ?_⟩⟩
  · exact ⟨v.2[k]'(by omega), by simp [body, List.getElem?_append, show k < v.2.length by omega]⟩
  · simp [body, List.getElem?_append, List.getElem?_replicate, show ¬ k < v.2.length by omega]; omega

/-- A program with all calls. -/
def sample : List (Op Nat) :=
  [.list true [1, 2, 3], .new false 2, .copy 0, .add 0 (.elem 1 0), .insert 2 (.elem 0 1) 1, .remove 0 0, .add 1 (.ext 9), .append 0 2, .append 0 0, .plus 1 1, .plus 0 2, .assign 1 3, .moveAssign 0 2,
    .set 2 (.part 0 1 2), .resize 1 8, .resize 2 1, .reserve 2 7, .discard 3 2, .move 1, .remove 5 0, .list false [4], .assign 6 5, .drop 0, .drop 1]

example : Vals.run 0 [] sample = some [none, none, some (true, [2]), some (false, [0, 0]), some (true, [2, 3, 0, 1, 2, 2, 3, 2, 3, 0, 1, 2, 2, 3, 1, 2, 2, 3]),
    some (false, [0, 9, 0, 0, 9, 0, 0]), some (false, [0, 9, 0, 0, 9, 0, 0])] := by decide +kernel

example : Vals.run 0 [] (sample ++ [.drop 2, .drop 3, .drop 4, .drop 5, .drop 6]) = some (List.replicate 7 none) := by decide +kernel

/-! ## An array as its own argument -/

/-- `a = a` destroys the elements and then reads them. -/
theorem C131_assign_self_counterexample (dyn : Bool) (kind : Kind) : run 0 kind (empty : World Nat) [.list dyn [1, 2], .assign 0 0] = none := by
  cases dyn <;> cases kind <;> rfl

/-- `a = std::move(a)` frees the block and then keeps nothing: the array is empty. -/
theorem C131_move_self_counterexample (dyn : Bool) (kind : Kind) :
    ∃ w, run 0 kind (empty : World Nat) [.list dyn [1, 2], .moveAssign 0 0] = some w ∧ w.get 0 0 = none ∧ (w.obj 0).map (·.len) = some 0 := by
  cases dyn <;> cases kind <;> exact ⟨_, rfl, rfl, rfl⟩

/-- `a += a` for an `Array` copies twice as many elements as there are, since the capacity is read after it grew; it reads and writes beyond the elements. -/
theorem C131_append_self_counterexample (kind : Kind) : run 0 kind (empty : World Nat) [.list false [1, 2], .append 0 0] = none := by cases kind <;> rfl

/-- `a.Add(a[0])` reads the block that was freed when it grew. -/
theorem C131_add_own_element_counterexample (dyn : Bool) (kind : Kind) : run 0 kind (empty : World Nat) [.list dyn [1, 2], .add 0 (.elem 0 0)] = none := by
  cases dyn <;> cases kind <;> rfl

/-- `a.Insert(a[0], 0)`, with room for another element, reads an element after it was moved away. -/
theorem C131_insert_own_element_counterexample (kind : Kind) : run 0 kind (empty : World Nat) [.list true [1, 2], .reserve 0 5, .insert 0 (.elem 0 0) 0] = none := by cases kind <;> rfl

/-- `a.Set` of a slice of `a` destroys the elements and then reads them. -/
theorem C131_set_own_slice_counterexample (dyn : Bool) (kind : Kind) : run 0 kind (empty : World Nat) [.list dyn [1, 2, 3], .set 0 (.part 0 1 2)] = none := by
  cases dyn <;> cases kind <;> rfl

end Verif.Arr
