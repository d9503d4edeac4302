import Verif.Heap.PProps

/-!
# Copying and moving `PriorityHeap` objects

`include/bss-util/PriorityQueue.h:68-73`, `:88-101`, with the defaulted functions of `BinaryHeap` (`BinaryHeap.h:39-40`, `:141-142`) and of `MFUNC_PRIORITY` (`PriorityQueue.h:49-53`), on any number of
objects. Operations on one object are the model of C66.
-/

namespace Verif.Heap

variable {α : Type}

/-- The copy constructor, `PriorityQueue.h:69`: the elements (`DynArray.h:27`), `_subarray` twice (`Array.h:343-349`), `_freelist`. -/
def copyCtor (p : PH α) : PH α := ⟨p.arr, p.sub, p.free⟩

/-- `operator=(const PriorityHeap&)` from another object, `PriorityQueue.h:88-93`, `DynArray.h:99-107`, `Array.h:343-349`. -/
def copyAssign (_ p : PH α) : PH α := ⟨p.arr, p.sub, p.free⟩

/-- `operator=(PriorityHeap&&)` from another object, `PriorityQueue.h:94-99`, `DynArray.h:108`, `Array.h:350-355`: the target and the source, which keeps its `_freelist`. -/
def moveAssignP (_ p : PH α) : PH α × PH α := (⟨p.arr, p.sub, p.free⟩, ⟨[], [], p.free⟩)

/-- What users do with objects. -/
inductive OOp (α : Type) where
  | new (o : Nat)
  | on (o : Nat) (op : POp α)
  | copyNew (o p : Nat)
  | copy (o p : Nat)
  | move (o p : Nat)

/-- Write an entry of a table of objects. -/
def putO {β : Type} (w : Nat → β) (o : Nat) (x : β) : Nat → β := fun p => if p = o then x else w p

/-- One call on a world of objects; `none` is undefined behaviour. -/
def ostep (cmp : α → α → Int) (w : Nat → Option (PH α)) : OOp α → Option ((Nat → Option (PH α)) × POut α)
  | .new o => some (putO w o (some PH.new), .unit)
  | .on o op => (w o).bind fun h => (stepP cmp h op).map fun r => (putO w o (some r.1), r.2)
  | .copyNew o p => (w p).map fun h => (putO w o (some (copyCtor h)), .unit)
  | .copy o p => (w o).bind fun g => (w p).map fun h => (putO w o (some (copyAssign g h)), .unit)
  | .move o p => (w o).bind fun g => (w p).map fun h => (putO (putO w o (some (moveAssignP g h).1)) p (some (moveAssignP g h).2), .unit)

/-! ## Specification -/

/-- `none` is no object, `some none` one that was moved from. -/
abbrev PObjs (α : Type) := Nat → Option (Option (PSpec α))

/-- Calls that are allowed: those of C66 on objects that were not moved from (or were assigned afterwards), and copies and moves between different objects. -/
def OLegal (s : PObjs α) : OOp α → Prop
  | .new o => s o = none
  | .on o op => ∃ t, s o = some (some t) ∧ t.legal op
  | .copyNew o p => s o = none ∧ ∃ t, s p = some (some t)
  | .copy o p | .move o p => o ≠ p ∧ s o ≠ none ∧ ∃ t, s p = some (some t)

/-- What a call returns and does: an operation concerns only its object, with the handles of that object; a copy has the elements under the same handles. -/
inductive OStep (cmp : α → α → Int) (s : PObjs α) : OOp α → POut α → PObjs α → Prop
  | new {o} : OStep cmp s (.new o) .unit (putO s o (some (some ⟨[], true⟩)))
  | on {o op out t t'} : s o = some (some t) → PSpec.Step cmp t op out t' → OStep cmp s (.on o op) out (putO s o (some (some t')))
  | copyNew {o p t} : s p = some (some t) → OStep cmp s (.copyNew o p) .unit (putO s o (some (some t)))
  | copy {o p t} : s p = some (some t) → OStep cmp s (.copy o p) .unit (putO s o (some (some t)))
  | move {o p t} : s p = some (some t) → OStep cmp s (.move o p) .unit (putO (putO s o (some (some t))) p (some none))

/-! ## Proofs -/

/-- What one entry of the table stands for. -/
def ORel (R : PH α → PSpec α → Prop) : Option (PH α) → Option (Option (PSpec α)) → Prop
  | w, none => w = none
  | w, some none => w ≠ none
  | w, some (some t) => ∃ h, w = some h ∧ R h t

theorem ORel.put {R : PH α → PSpec α → Prop} {w : Nat → Option (PH α)} {s : PObjs α} (h : ∀ o, ORel R (w o) (s o)) (o : Nat) {x : Option (PH α)} {y : Option (Option (PSpec α))}
    (hxy : ORel R x y) : ∀ p, ORel R (putO w o x p) (putO s o y p) := by
  intro p
  unfold putO
  split
  · exact hxy
  · exact h p

theorem ORel.get {R : PH α → PSpec α → Prop} {w : Option (PH α)} {y : Option (Option (PSpec α))} (h : ORel R w y) (hy : y ≠ none) : ∃ g, w = some g := by
  match y, h with
  | none, _ => exact absurd rfl hy
  | some none, h => exact Option.ne_none_iff_exists'.1 h
  | some (some _), ⟨g, hg, _⟩ => exact ⟨g, hg⟩

/-- Priority heaps are values: whatever is done with any number of heaps, each one behaves as its own elements with their handles; copies and targets of assignments have the elements of the
source under the same handles, and later calls on one object do not concern another. -/
theorem C217_objects_partial {cmp : α → α → Int} (ho : CmpOrd cmp) : ∃ R : (Nat → Option (PH α)) → PObjs α → Prop, R (fun _ => none) (fun _ => none) ∧
    ∀ w s op, R w s → OLegal s op → ∃ w' out s', ostep cmp w op = some (w', out) ∧ OStep cmp s op out s' ∧ R w' s' := by
  obtain ⟨R, hn, hR⟩ := C66_handles ho
  refine ⟨fun w s => ∀ o, ORel R (w o) (s o), fun _ => rfl, fun w s op hw hop => ?_⟩
  cases op with
  | new o => exact ⟨_, _, _, rfl, .new, ORel.put hw o ⟨_, rfl, hn⟩⟩
  | on o op =>
    obtain ⟨t, ht, hl⟩ := hop
    have := hw o
    rw [ht] at this
    obtain ⟨h, hh, hr⟩ := this
    obtain ⟨h', out, t', h1, h2, h3⟩ := hR h t op hr hl
    exact ⟨_, _, _, by rw [ostep, hh, Option.bind_some, h1]; rfl, .on ht h2, ORel.put hw o ⟨_, rfl, h3⟩⟩
  | copyNew o p =>
    obtain ⟨_, t, ht⟩ := hop
    have := hw p
    rw [ht] at this
    obtain ⟨h, hh, hr⟩ := this
    exact ⟨_, _, _, by rw [ostep, hh]; rfl, .copyNew ht, ORel.put hw o ⟨_, rfl, hr⟩⟩
  | copy o p =>
    obtain ⟨_, hs, t, ht⟩ := hop
    have := hw p
    rw [ht] at this
    obtain ⟨h, hh, hr⟩ := this
    obtain ⟨g, hg⟩ := (hw o).get hs
    exact ⟨_, _, _, by rw [ostep, hg, Option.bind_some, hh]; rfl, .copy ht, ORel.put hw o ⟨_, rfl, hr⟩⟩
  | move o p =>
    obtain ⟨_, hs, t, ht⟩ := hop
    have := hw p
    rw [ht] at this
    obtain ⟨h, hh, hr⟩ := this
    obtain ⟨g, hg⟩ := (hw o).get hs
    have h1 : ORel R (some (moveAssignP g h).1) (some (some t)) := ⟨_, rfl, hr⟩
    have h2 : ORel R (some (moveAssignP g h).2) (some none) := Option.some_ne_none _
    exact ⟨_, _, _, by rw [ostep, hg, Option.bind_some, hh]; rfl, .move ht, ORel.put (ORel.put hw o h1) p h2⟩

/-- The move constructor loses every handle: whatever could be read through one before cannot be read, changed or removed in the new object. -/
theorem C217_moveNew_counterexample (cmp : α → α → Int) (p : PH α) (key : Nat) (v : α) :
    getKey (moveCtor p) key = none ∧ setKey cmp (moveCtor p) key v = none ∧ removeKey cmp (moveCtor p) key = none := by
  have h : indexOf (moveCtor p) key = none := by
    show (rd ([] : List Int) key).map _ = none
    simp [rd]
  exact ⟨by rw [getKey, h]; rfl, by rw [setKey, h]; rfl, by rw [removeKey, h]; rfl⟩

/-- An object that was moved from still has the head of its free list, but no table: unless all handles were in use, the next `Push` reads outside of it. -/
theorem C217_push_counterexample (cmp : α → α → Int) (g p : PH α) (hf : 0 ≤ p.free) (v : α) : push cmp (moveAssignP g p).2 v = none := by
  have : getNext (moveAssignP g p).2 = none := by
    have h1 : ¬ p.free = -1 := by omega
    have h2 : ¬ p.free < 0 := by omega
    simp [getNext, moveAssignP, h1, h2, rd]
  rw [push, this]
  rfl

/-- Its hypothesis is met after three calls of `Push`. -/
example : ((stepP icmp PH.new (.push 3)).bind fun r => (stepP icmp r.1 (.push 5)).bind fun r => (stepP icmp r.1 (.push 4)).map fun r => decide (0 ≤ r.1.free)) = some true := by
  decide +kernel

/-- A run: a heap is copied, the copy is changed through a handle, and moved onto the original. -/
example : ((ostep icmp (fun _ => none) (.new 1)).bind fun r => (ostep icmp r.1 (.on 1 (.push 3))).bind fun r => (ostep icmp r.1 (.copyNew 2 1)).bind fun r =>
    (ostep icmp r.1 (.on 2 (.set 0 7))).bind fun r => (ostep icmp r.1 (.on 1 (.get 0))).bind fun a => (ostep icmp a.1 (.move 1 2)).bind fun r =>
    (ostep icmp r.1 (.on 1 (.get 0))).map fun b => (a.2, b.2)) = some (.val 3, .val 7) := by decide +kernel

end Verif.Heap
