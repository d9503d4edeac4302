import Verif.Common.Run

/-!
# C46: `OwnerPtr` (`include/bss-util/SmartPtr.h`)

`hs` is the memory of handles: entry `h` is `none` when handle `h` has been destroyed, otherwise its two fields.  Objects are numbers.
-/

namespace Verif.Ptr.Owner

/-- `SmartPtr.h:77-78`: `_p` (`none` is null) and `_owner`. -/
structure Handle where
  p : Option Nat
  owner : Bool
deriving DecidableEq, Repr

/-- Calls on handles.  Handles are created at the end of the list of handles. -/
inductive Op
  /-- `OwnerPtr(T*)` (through `OwnerPtrRef`) -/
  | adopt (p : Option Nat)
  /-- `OwnerPtr(T&)` -/
  | refer (o : Nat)
  /-- `OwnerPtr()` -/
  | null
  /-- `OwnerPtr(const OwnerPtr&)` -/
  | copy (h : Nat)
  /-- `OwnerPtr(OwnerPtr&&)` -/
  | move (h : Nat)
  /-- `~OwnerPtr()` -/
  | drop (h : Nat)
  /-- `operator=(T*)` (through `OwnerPtrRef`) -/
  | assignRaw (h : Nat) (p : Option Nat)
  /-- `operator=(const OwnerPtr&)` -/
  | assign (h h' : Nat)
  /-- `operator=(T&)` -/
  | assignRef (h : Nat) (o : Nat)
  /-- `operator=(OwnerPtr&&)` -/
  | moveAssign (h h' : Nat)

/-- Memory of handles. -/
abbrev St := List (Option Handle)

/-- A handle that exists. -/
def get (s : St) (h : Nat) : Option Handle := (s[h]?).bind id

/-- `SmartPtr.h:75` `_disown`: the objects deleted (deleting null does nothing). -/
def disown (x : Handle) : List Nat := if x.owner then x.p.toList else []

/-- One call: handles after it and the objects deleted in it. -/
def step : Op → St → Option (St × List Nat)
  -- `SmartPtr.h:25`
  | .adopt p, s => some (s ++ [some ⟨p, p.isSome⟩], [])
  -- `SmartPtr.h:26`
  | .refer o, s => some (s ++ [some ⟨some o, false⟩], [])
  -- `SmartPtr.h:27`
  | .null, s => some (s ++ [some ⟨none, false⟩], [])
  -- `SmartPtr.h:21`
  | .copy h, s => (get s h).map fun x => (s ++ [some ⟨x.p, false⟩], [])
  -- `SmartPtr.h:24`
  | .move h, s => (get s h).map fun x => (s.set h (some ⟨x.p, false⟩) ++ [some x], [])
  -- `SmartPtr.h:28`
  | .drop h, s => (get s h).map fun x => (s.set h none, disown x)
  -- `SmartPtr.h:41-47`
  | .assignRaw h p, s => (get s h).map fun x => (s.set h (some ⟨p, true⟩), disown x)
  -- `SmartPtr.h:48-54`
  | .assign h h', s => (get s h).bind fun x => (get s h').map fun y => (s.set h (some ⟨y.p, false⟩), disown x)
  -- `SmartPtr.h:55-61`
  | .assignRef h o, s => (get s h).map fun x => (s.set h (some ⟨some o, false⟩), disown x)
  -- `SmartPtr.h:62-69`: the owner flag of the right side is cleared after the left side has been set
  | .moveAssign h h', s => (get s h).bind fun x => (get s h').map fun y =>
      ((s.set h (some ⟨y.p, true⟩)).set h' (some ⟨y.p, false⟩), disown x)

/-! ## Specification -/

/-- Objects given to the handles to own by a call. -/
def given : Op → List Nat
  | .adopt p => p.toList
  | .assignRaw _ p => p.toList
  | _ => []

/-- Rules for the user: an object is given to be owned only once. -/
def allowed (adopted : List Nat) (op : Op) : Prop := ∀ o ∈ given op, o ∉ adopted

/-- Rule under which the code is right: a handle that is moved into another handle owns its object, or is null. -/
def movable (s : St) : Op → Prop
  | .moveAssign h h' => h = h' ∨ ∀ y, get s h' = some y → y.owner = true ∨ y.p = none
  | _ => True

/-- `Hist s adopted deleted`: the handles are `s` after a history in which the objects `adopted` were given to be owned and the objects
`deleted` were deleted (as often as they occur in the list). -/
inductive Hist : St → List Nat → List Nat → Prop
  | init : Hist [] [] []
  | step {s s' : St} {adopted deleted r : List Nat} {op : Op} : Hist s adopted deleted → allowed adopted op → movable s op →
      step op s = some (s', r) → Hist s' (adopted ++ given op) (deleted ++ r)

/-! ## Proof -/

/-- The object owned by an entry. -/
def ownedBy : Option Handle → List Nat
  | none => []
  | some x => disown x

/-- Objects that have an owner. -/
def owned (s : St) : List Nat := (s.map ownedBy).flatten

theorem owned_append (s : St) (x : Handle) : owned (s ++ [some x]) = owned s ++ disown x := by simp [owned, ownedBy]

theorem owned_mid (A B : St) (e : Option Handle) : owned (A ++ e :: B) = owned A ++ (ownedBy e ++ owned B) := by simp [owned]

/-- Replacing a handle. -/
theorem owned_set {s : St} {h : Nat} {x : Handle} (hx : get s h = some x) (e : Option Handle) (o : Nat) :
    (disown x).count o + (owned (s.set h e)).count o = (ownedBy e).count o + (owned s).count o := by
  rw [get, Option.bind_eq_some_iff] at hx
  obtain ⟨a, ha, rfl⟩ := hx
  obtain ⟨hl, ha⟩ := List.getElem?_eq_some_iff.1 ha
  have h1 : owned s = owned (s.take h ++ some x :: s.drop (h + 1)) := by
    rw [← ha, List.getElem_cons_drop, List.take_append_drop]
  have h2 : s.set h e = s.take h ++ e :: s.drop (h + 1) := by rw [List.set_eq_take_append_cons_drop, if_pos hl]
  rw [h2, h1, owned_mid, owned_mid]
  simp only [List.count_append, ownedBy]
  omega

theorem get_set {s : St} {h h' : Nat} {x y : Handle} (hx : get s h = some x) (hy : get s h' = some y) (z : Handle) :
    get (s.set h (some z)) h' = some (if h = h' then z else y) := by
  unfold get at *
  rw [List.getElem?_set]
  split
  · rw [Option.bind_eq_some_iff] at hx
    obtain ⟨a, ha, -⟩ := hx
    rw [if_pos (List.getElem?_eq_some_iff.1 ha).1]
    rfl
  · exact hy

/-- Every call keeps count of objects: deleted, owned or given. -/
theorem step_count {s s' : St} {op : Op} {r : List Nat} (hm : movable s op) (h : step op s = some (s', r)) (o : Nat) :
    r.count o + (owned s').count o = (owned s).count o + (given op).count o := by
  cases op with
  | adopt p =>
    simp only [step, Option.some.injEq, Prod.mk.injEq] at h
    obtain ⟨rfl, rfl⟩ := h
    rw [owned_append]
    cases p <;> simp [disown, given]
  | refer o =>
    simp only [step, Option.some.injEq, Prod.mk.injEq] at h
    obtain ⟨rfl, rfl⟩ := h
    rw [owned_append]
    simp [disown, given]
  | null =>
    simp only [step, Option.some.injEq, Prod.mk.injEq] at h
    obtain ⟨rfl, rfl⟩ := h
    rw [owned_append]
    simp [disown, given]
  | copy i =>
    simp only [step, Option.map_eq_some_iff, Prod.mk.injEq] at h
    obtain ⟨x, hx, rfl, rfl⟩ := h
    rw [owned_append]
    simp [disown, given]
  | move i =>
    simp only [step, Option.map_eq_some_iff, Prod.mk.injEq] at h
    obtain ⟨x, hx, rfl, rfl⟩ := h
    rw [owned_append]
    have := owned_set hx (some ⟨x.p, false⟩) o
    have e : (ownedBy (some ⟨x.p, false⟩)).count o = 0 := by simp [ownedBy, disown]
    simp only [List.count_append, given, List.count_nil]
    omega
  | drop i =>
    simp only [step, Option.map_eq_some_iff, Prod.mk.injEq] at h
    obtain ⟨x, hx, rfl, rfl⟩ := h
    have := owned_set hx none o
    have e : (ownedBy none).count o = 0 := by simp [ownedBy]
    simp only [given, List.count_nil]
    omega
  | assignRaw i p =>
    simp only [step, Option.map_eq_some_iff, Prod.mk.injEq] at h
    obtain ⟨x, hx, rfl, rfl⟩ := h
    have := owned_set hx (some ⟨p, true⟩) o
    have e : (ownedBy (some ⟨p, true⟩)).count o = p.toList.count o := by simp [ownedBy, disown]
    simp only [given]
    omega
  | assign i j =>
    simp only [step, Option.bind_eq_some_iff, Option.map_eq_some_iff, Prod.mk.injEq] at h
    obtain ⟨x, hx, y, hy, rfl, rfl⟩ := h
    have := owned_set hx (some ⟨y.p, false⟩) o
    have e : (ownedBy (some ⟨y.p, false⟩)).count o = 0 := by simp [ownedBy, disown]
    simp only [given, List.count_nil]
    omega
  | assignRef i p =>
    simp only [step, Option.map_eq_some_iff, Prod.mk.injEq] at h
    obtain ⟨x, hx, rfl, rfl⟩ := h
    have := owned_set hx (some ⟨some p, false⟩) o
    have e : (ownedBy (some ⟨some p, false⟩)).count o = 0 := by simp [ownedBy, disown]
    simp only [given, List.count_nil]
    omega
  | moveAssign i j =>
    simp only [step, Option.bind_eq_some_iff, Option.map_eq_some_iff, Prod.mk.injEq] at h
    obtain ⟨x, hx, y, hy, rfl, rfl⟩ := h
    have h1 := owned_set hx (some ⟨y.p, true⟩) o
    have h2 := owned_set (get_set hx hy ⟨y.p, true⟩) (some ⟨y.p, false⟩) o
    have e : (ownedBy (some ⟨y.p, false⟩)).count o = 0 := by simp [ownedBy, disown]
    have e' : (ownedBy (some ⟨y.p, true⟩)).count o = y.p.toList.count o := by simp [ownedBy, disown]
    simp only [given, List.count_nil]
    simp only [movable] at hm
    by_cases hij : i = j
    · rw [if_pos hij] at h2
      have e'' : (disown ⟨y.p, true⟩).count o = y.p.toList.count o := by simp [disown]
      omega
    · rw [if_neg hij] at h2
      have e'' : (disown y).count o = y.p.toList.count o := by
        rcases (hm.resolve_left hij) y hy with h | h <;> simp [disown, h]
      omega

theorem hist_count {s : St} {ad de : List Nat} (h : Hist s ad de) : ad.Nodup ∧ ∀ o, de.count o + (owned s).count o = ad.count o := by
  induction h with
  | init => simp [owned]
  | @step s s' ad de r op h ha hm hs ih =>
    refine ⟨?_, fun o => ?_⟩
    · rw [List.nodup_append]
      refine ⟨ih.1, ?_, fun a h1 b h2 e => ha b h2 (e ▸ h1)⟩
      unfold given
      split
      · next p => cases p <;> simp
      · next p => cases p <;> simp
      · exact List.nodup_nil
    · have := step_count hm hs o
      have := ih.2 o
      rw [List.count_append, List.count_append]
      omega

/-! ## C46 -/

/-- **C46** (partial): in every history of calls in which no handle that only refers to an object is moved into another handle, every
object given to be owned is either deleted exactly once or still has exactly one owning handle, and no other object is ever deleted. -/
theorem C46_deleted_once_partial {s : St} {adopted deleted : List Nat} (h : Hist s adopted deleted) :
    deleted.Nodup ∧ (∀ o ∈ deleted, o ∈ adopted) ∧
    ∀ o ∈ adopted, deleted.count o + s.countP (fun e => e == some ⟨some o, true⟩) = 1 := by
  obtain ⟨hn, hc⟩ := hist_count h
  have hn' := List.nodup_iff_count.1 hn
  refine ⟨List.nodup_iff_count.2 fun o => ?_, fun o ho => ?_, fun o ho => ?_⟩
  · have := hn' o
    have := hc o
    omega
  · rw [← List.count_pos_iff] at *
    have := hc o
    omega
  · rw [← List.count_pos_iff] at ho
    have h1 := hn' o
    have h2 := hc o
    have : (owned s).count o = s.countP (fun e => e == some ⟨some o, true⟩) := by
      unfold owned
      clear h hc h2
      induction s with
      | nil => rfl
      | cons e s ih =>
        rw [List.map_cons, List.flatten_cons, List.count_append, ih, List.countP_cons, Nat.add_comm]
        congr 1
        cases e with
        | none => rfl
        | some x =>
          obtain ⟨p, w⟩ := x
          cases p <;> cases w <;> simp [ownedBy, disown, List.count_singleton]
    omega

/-- **C46** (partial): when all handles are gone, exactly the objects given to be owned have been deleted, each once. -/
theorem C46_all_deleted_partial {s : St} {adopted deleted : List Nat} (h : Hist s adopted deleted) (hs : ∀ e ∈ s, e = none) :
    deleted.Perm adopted := by
  obtain ⟨-, hc⟩ := hist_count h
  rw [List.perm_iff_count]
  intro o
  have : (owned s).count o = 0 := by
    rw [List.count_eq_zero]
    intro hm
    simp only [owned, List.mem_flatten, List.mem_map] at hm
    obtain ⟨l, ⟨e, he, rfl⟩, hl⟩ := hm
    rw [hs e he] at hl
    simp [ownedBy] at hl
  have := hc o
  omega

/-- **C46**, one call: a call deletes at most the object of the handle it overwrites or destroys, and only if that handle owns it. -/
theorem C46_drop {s s' : St} {h : Nat} {r : List Nat} {x : Handle} (hx : get s h = some x) (hs : step (.drop h) s = some (s', r)) :
    (∀ o, o ∈ r ↔ x.owner = true ∧ x.p = some o) ∧ get s' h = none ∧ ∀ h', h' ≠ h → get s' h' = get s h' := by
  simp only [step, Option.map_eq_some_iff, Prod.mk.injEq] at hs
  obtain ⟨x', hx', rfl, rfl⟩ := hs
  rw [hx] at hx'
  cases hx'
  refine ⟨fun o => ?_, ?_, fun h' hne => ?_⟩
  · unfold disown
    split <;> simp_all
  · unfold get
    rw [List.getElem?_set]
    simp only [if_true]
    split <;> rfl
  · unfold get
    rw [List.getElem?_set_ne (Ne.symm hne)]

/-- The full claim fails: an object that is only referred to is deleted after its handle has been moved into another. -/
theorem C46_move_assign_counterexample :
    (runAll step [.refer 7, .null, .moveAssign 1 0, .drop 1] []).map (·.2.flatten) = some [7] := by decide

/-- The full claim fails: an owned object is deleted twice after a copy of its handle has been moved into another. -/
theorem C46_double_delete_counterexample :
    (runAll step [.adopt (some 3), .copy 0, .null, .moveAssign 2 1, .drop 2, .drop 0] []).map (·.2.flatten) = some [3, 3] := by decide

example : ∃ s, Hist s [3] [3] ∧ ∀ e ∈ s, e = none := by
  refine ⟨[none, none], ?_, by simp⟩
  have h1 := Hist.step (op := .adopt (some 3)) Hist.init (by intro o h; simp) trivial rfl
  have h2 := Hist.step (op := .null) h1 (by intro o h; simp [given] at h) trivial rfl
  have h3 := Hist.step (op := .moveAssign 1 0) h2 (by intro o h; simp [given] at h)
    (Or.inr fun y hy => Or.inl (by cases hy; rfl)) rfl
  have h4 := Hist.step (op := .drop 0) h3 (by intro o h; simp [given] at h) trivial rfl
  exact Hist.step (op := .drop 1) h4 (by intro o h; simp [given] at h) trivial rfl

end Verif.Ptr.Owner
