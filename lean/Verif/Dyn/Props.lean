import Verif.Dyn.Lemmas

/-!
# C27 (`DynArray` refines a sequence), C15 (`Stack` is LIFO), C16 (`RandomQueue`)
-/

namespace Verif.Dyn
variable {α : Type}

/-! ## C27: a program working on any number of arrays -/

/-- One call.  `init` gives the values of elements newly made by `SetLength` (default constructed, or whatever the memory
held for `ARRAY_SIMPLE`). -/
inductive Op (α : Type)
  | fresh (capacity : Nat)
  | copy (j : Nat)
  | plus (i j : Nat)
  | add (i : Nat) (x : α)
  | insert (i : Nat) (x : α) (index : Nat)
  | remove (i index : Nat)
  | removeLast (i : Nat)
  | setLength (i n : Nat) (init : Nat → α)
  | setCapacity (i n : Nat)
  | put (i index : Nat) (x : α)
  | setAll (i : Nat) (p : List α)
  | append (i j : Nat)
  | assign (i j : Nat)

/-- Specification on plain sequences, `none` outside the preconditions; `Add` returns the index. -/
def spec : Op α → List (List α) → Option (List (List α) × Option Nat)
  | .fresh _, v => some (v ++ [[]], none)
  | .copy j, v => (v[j]?).map fun m => (v ++ [m], none)
  | .plus i j, v => (v[i]?).bind fun l => (v[j]?).map fun m => (v ++ [l ++ m], none)
  | .add i x, v => (v[i]?).map fun l => (v.set i (l ++ [x]), some l.length)
  | .insert i x index, v => (v[i]?).bind fun l =>
      if index ≤ l.length then some (v.set i (l.take index ++ x :: l.drop index), none) else none
  | .remove i index, v => (v[i]?).bind fun l =>
      if index < l.length then some (v.set i (l.take index ++ l.drop (index + 1)), none) else none
  | .removeLast i, v => (v[i]?).bind fun l => if l = [] then none else some (v.set i l.dropLast, none)
  | .setLength i n init, v => (v[i]?).map fun l =>
      (v.set i (l.take n ++ (List.range' l.length (n - l.length)).map init), none)
  | .setCapacity i _, v => (v[i]?).map fun _ => (v, none)
  | .put i index x, v => (v[i]?).bind fun l => if index < l.length then some (v.set i (l.set index x), none) else none
  | .setAll i p, v => (v[i]?).map fun _ => (v.set i p, none)
  | .append i j, v => (v[i]?).bind fun l => (v[j]?).map fun m => (v.set i (l ++ m), none)
  | .assign i j, v => if i = j then none else (v[i]?).bind fun _ => (v[j]?).map fun m => (v.set i m, none)

/-- The code. -/
def exec (kind : Kind) : Op α → List (Dyn α) → Option (List (Dyn α) × Option Nat)
  | .fresh c, v => some (v ++ [new c], none)
  | .copy j, v => (v[j]?).bind fun e => (copyOf e).map fun r => (v ++ [r], none)
  | .plus i j, v => (v[i]?).bind fun d => (v[j]?).bind fun e => (plus d e).map fun r => (v ++ [r], none)
  | .add i x, v => (v[i]?).bind fun d => (add kind d x).map fun r => (v.set i r.1, some r.2)
  | .insert i x index, v => (v[i]?).bind fun d => (insert kind d x index).map fun r => (v.set i r, none)
  | .remove i index, v => (v[i]?).bind fun d => (remove kind d index).map fun r => (v.set i r, none)
  | .removeLast i, v => (v[i]?).bind fun d => (removeLast kind d).map fun r => (v.set i r, none)
  | .setLength i n init, v => (v[i]?).bind fun d => (setLength kind init d n).map fun r => (v.set i r, none)
  | .setCapacity i n, v => (v[i]?).bind fun d => (setCapacity kind d n).map fun r => (v.set i r, none)
  | .put i index x, v => (v[i]?).bind fun d => (put d index x).map fun r => (v.set i r, none)
  | .setAll i p, v => (v[i]?).bind fun d => (set d p).map fun r => (v.set i r, none)
  | .append i j, v => (v[i]?).bind fun d => (v[j]?).bind fun e =>
      (if i = j then appendSelf kind d else append kind d e).map fun r => (v.set i r, none)
  | .assign i j, v => if i = j then none else (v[i]?).bind fun d => (v[j]?).bind fun e =>
      (assign d e).map fun r => (v.set i r, none)

/-- Run a list of calls, collecting what they return. -/
def runAll {ω σ ρ : Type} (f : ω → σ → Option (σ × ρ)) : List ω → σ → Option (σ × List ρ)
  | [], s => some (s, [])
  | o :: os, s => (f o s).bind fun (s1, r) => (runAll f os s1).map fun (s2, rs) => (s2, r :: rs)

/-- Generic simulation. -/
theorem runAll_sim {ω σ τ ρ : Type} {f : ω → σ → Option (σ × ρ)} {g : ω → τ → Option (τ × ρ)} {R : σ → τ → Prop}
    (hstep : ∀ o s t s' r, R s t → f o s = some (s', r) → ∃ t', g o t = some (t', r) ∧ R s' t') :
    ∀ (os : List ω) (s : σ) (t : τ) (s' : σ) (rs : List ρ), R s t → runAll f os s = some (s', rs) →
      ∃ t', runAll g os t = some (t', rs) ∧ R s' t' := by
  intro os
  induction os with
  | nil =>
    intro s t s' rs hr h
    simp [runAll] at h
    obtain ⟨rfl, rfl⟩ := h
    exact ⟨t, rfl, hr⟩
  | cons o os ih =>
    intro s t s' rs hr h
    simp only [runAll, Option.bind_eq_some_iff] at h
    obtain ⟨⟨s1, r⟩, h1, h2⟩ := h
    simp only [Option.map_eq_some_iff] at h2
    obtain ⟨⟨s2, rs'⟩, h2, h3⟩ := h2
    simp at h3
    obtain ⟨rfl, rfl⟩ := h3
    obtain ⟨t1, e1, e2⟩ := hstep o s t s1 r hr h1
    obtain ⟨t2, f1, f2⟩ := ih s1 t1 s2 rs' e2 h2
    exact ⟨t2, by simp [runAll, e1, f1], f2⟩

/-- The variables agree one by one. -/
def VRep (v : List (List α)) (w : List (Dyn α)) : Prop :=
  v.length = w.length ∧ ∀ (i : Nat) (l : List α), v[i]? = some l → ∃ d, w[i]? = some d ∧ Rep d l

theorem VRep.get {v : List (List α)} {w : List (Dyn α)} (h : VRep v w) {i : Nat} {l : List α} (hi : v[i]? = some l) :
    ∃ d, w[i]? = some d ∧ Rep d l := h.2 i l hi

theorem VRep.set {v : List (List α)} {w : List (Dyn α)} (h : VRep v w) (i : Nat) {l : List α} {d : Dyn α} (hr : Rep d l) :
    VRep (v.set i l) (w.set i d) := by
  refine ⟨by simp [h.1], fun j m hj => ?_⟩
  by_cases hij : i = j
  · subst hij
    by_cases hlt : i < v.length
    · rw [List.getElem?_set_self hlt] at hj
      cases hj
      exact ⟨d, List.getElem?_set_self (by rw [← h.1]; exact hlt), hr⟩
    · rw [List.getElem?_eq_none (by simp; omega)] at hj
      simp at hj
  · rw [List.getElem?_set_ne hij] at hj ⊢
    exact h.2 j m hj

theorem VRep.push {v : List (List α)} {w : List (Dyn α)} (h : VRep v w) {l : List α} {d : Dyn α} (hr : Rep d l) :
    VRep (v ++ [l]) (w ++ [d]) := by
  refine ⟨by simp [h.1], fun j m hj => ?_⟩
  by_cases hlt : j < v.length
  · rw [List.getElem?_append_left hlt] at hj
    rw [List.getElem?_append_left (by rw [← h.1]; exact hlt)]
    exact h.2 j m hj
  · have hw := h.1
    rw [List.getElem?_append_right (by omega)] at hj ⊢
    rw [← hw]
    have : j - v.length = 0 := by
      rcases Nat.eq_zero_or_pos (j - v.length) with h | h
      · exact h
      · rw [List.getElem?_eq_none (by simp; omega)] at hj; simp at hj
    rw [this] at hj ⊢
    simp at hj
    subst hj
    exact ⟨d, rfl, hr⟩

theorem set_same {β : Type} {v : List β} {i : Nat} {x : β} (h : v[i]? = some x) : v.set i x = v := by
  apply List.ext_getElem?
  intro j
  by_cases hij : i = j
  · subst hij
    obtain ⟨hlt, _⟩ := List.getElem?_eq_some_iff.1 h
    rw [List.getElem?_set_self hlt, h]
  · rw [List.getElem?_set_ne hij]

theorem exec_sim (kind : Kind) (o : Op α) (v : List (List α)) (w : List (Dyn α)) (v' : List (List α)) (r : Option Nat)
    (h : VRep v w) (hs : spec o v = some (v', r)) : ∃ w', exec kind o w = some (w', r) ∧ VRep v' w' := by
  cases o with
  | fresh c =>
    simp [spec] at hs
    obtain ⟨rfl, rfl⟩ := hs
    exact ⟨_, rfl, h.push (Rep.new c)⟩
  | copy j =>
    simp only [spec, Option.map_eq_some_iff] at hs
    obtain ⟨m, hm, hs⟩ := hs
    cases hs
    obtain ⟨e, he, hr⟩ := h.get hm
    obtain ⟨d', e1, e2, _⟩ := hr.copyOf
    exact ⟨_, by simp [exec, he, e1], h.push e2⟩
  | plus i j =>
    simp only [spec, Option.bind_eq_some_iff, Option.map_eq_some_iff] at hs
    obtain ⟨l, hl, m, hm, hs⟩ := hs
    cases hs
    obtain ⟨d, hd, hr1⟩ := h.get hl
    obtain ⟨e, he, hr⟩ := h.get hm
    obtain ⟨d', e1, e2⟩ := hr1.plus hr
    exact ⟨_, by simp [exec, hd, he, e1], h.push e2⟩
  | add i x =>
    simp only [spec, Option.map_eq_some_iff] at hs
    obtain ⟨l, hl, hs⟩ := hs
    cases hs
    obtain ⟨d, hd, hr⟩ := h.get hl
    obtain ⟨d', e1, e2⟩ := hr.add kind x
    exact ⟨_, by simp [exec, hd, e1], h.set i e2⟩
  | insert i x index =>
    simp only [spec, Option.bind_eq_some_iff] at hs
    obtain ⟨l, hl, hs⟩ := hs
    split at hs
    · next hi =>
      cases hs
      obtain ⟨d, hd, hr⟩ := h.get hl
      have e : l = l.take index ++ l.drop index := by simp
      rw [e] at hr
      obtain ⟨d', e1, e2⟩ := hr.insert kind x
      have e3 : (l.take index).length = index := by simp; omega
      rw [e3] at e1
      exact ⟨_, by simp [exec, hd, e1], h.set i e2⟩
    · simp at hs
  | remove i index =>
    simp only [spec, Option.bind_eq_some_iff] at hs
    obtain ⟨l, hl, hs⟩ := hs
    split at hs
    · next hi =>
      cases hs
      obtain ⟨d, hd, hr⟩ := h.get hl
      have e : l = l.take index ++ l[index] :: l.drop (index + 1) := by
        rw [List.getElem_cons_drop]; simp
      rw [e] at hr
      obtain ⟨d', e1, e2⟩ := hr.remove kind
      have e3 : (l.take index).length = index := by simp; omega
      rw [e3] at e1
      exact ⟨_, by simp [exec, hd, e1], h.set i e2⟩
    · simp at hs
  | removeLast i =>
    simp only [spec, Option.bind_eq_some_iff] at hs
    obtain ⟨l, hl, hs⟩ := hs
    split at hs
    · simp at hs
    · next hne =>
      cases hs
      obtain ⟨d, hd, hr⟩ := h.get hl
      rw [← List.dropLast_concat_getLast hne] at hr
      obtain ⟨d', e1, e2⟩ := hr.removeLast kind
      exact ⟨_, by simp [exec, hd, e1], h.set i e2⟩
  | setLength i n init =>
    simp only [spec, Option.map_eq_some_iff] at hs
    obtain ⟨l, hl, hs⟩ := hs
    cases hs
    obtain ⟨d, hd, hr⟩ := h.get hl
    obtain ⟨d', e1, e2⟩ := hr.setLength kind init n
    exact ⟨_, by simp [exec, hd, e1], h.set i e2⟩
  | setCapacity i n =>
    simp only [spec, Option.map_eq_some_iff] at hs
    obtain ⟨l, hl, hs⟩ := hs
    cases hs
    obtain ⟨d, hd, hr⟩ := h.get hl
    have : ∃ d', setCapacity kind d n = some d' ∧ Rep d' l := by
      unfold setCapacity
      split
      · obtain ⟨d', e1, e2, _⟩ := hr.setCap kind (c := n) (by have := hr.cap; omega)
        exact ⟨d', e1, e2⟩
      · exact ⟨d, rfl, hr⟩
    obtain ⟨d', e1, e2⟩ := this
    refine ⟨w.set i d', by simp [exec, hd, e1], ?_⟩
    have := h.set i e2
    rwa [set_same hl] at this
  | put i index x =>
    simp only [spec, Option.bind_eq_some_iff] at hs
    obtain ⟨l, hl, hs⟩ := hs
    split at hs
    · next hi =>
      cases hs
      obtain ⟨d, hd, hr⟩ := h.get hl
      obtain ⟨d', e1, e2⟩ := hr.put hi x
      exact ⟨_, by simp [exec, hd, e1], h.set i e2⟩
    · simp at hs
  | setAll i p =>
    simp only [spec, Option.map_eq_some_iff] at hs
    obtain ⟨l, hl, hs⟩ := hs
    cases hs
    obtain ⟨d, hd, hr⟩ := h.get hl
    obtain ⟨d', e1, e2⟩ := hr.set p
    exact ⟨_, by simp [exec, hd, e1], h.set i e2⟩
  | append i j =>
    simp only [spec, Option.bind_eq_some_iff, Option.map_eq_some_iff] at hs
    obtain ⟨l, hl, m, hm, hs⟩ := hs
    cases hs
    obtain ⟨d, hd, hr1⟩ := h.get hl
    by_cases hij : i = j
    · subst hij
      rw [hl] at hm
      cases hm
      obtain ⟨d', e1, e2⟩ := hr1.appendSelf kind
      exact ⟨_, by simp [exec, hd, e1], h.set i e2⟩
    · obtain ⟨e, he, hr⟩ := h.get hm
      obtain ⟨d', e1, e2⟩ := hr1.append kind hr
      exact ⟨_, by simp [exec, hd, he, hij, e1], h.set i e2⟩
  | assign i j =>
    simp only [spec] at hs
    split at hs
    · simp at hs
    · next hij =>
      simp only [Option.bind_eq_some_iff, Option.map_eq_some_iff] at hs
      obtain ⟨l, hl, m, hm, hs⟩ := hs
      cases hs
      obtain ⟨d, hd, hr1⟩ := h.get hl
      obtain ⟨e, he, hr⟩ := h.get hm
      obtain ⟨d', e1, e2⟩ := hr1.assign hr
      exact ⟨_, by simp [exec, hd, he, hij, e1], h.set i e2⟩

/-- C27: for every program of legal calls on any number of dynamic arrays, of either family of array types, the code
never does anything undefined, returns the same indices as the specification on plain sequences, and at the end every
array has the specified `Length()` and elements (`operator[]`, `Front`, `Back`), its length within its capacity, and no
live element beyond its length. -/
theorem C27_dynarray_refines_sequences (kind : Kind) (os : List (Op α)) {v : List (List α)} {rs : List (Option Nat)}
    (h : runAll spec os [] = some (v, rs)) :
    ∃ w, runAll (exec kind) os [] = some (w, rs) ∧ w.length = v.length ∧
      ∀ (i : Nat) (l : List α), v[i]? = some l → ∃ d, w[i]? = some d ∧ d.len = l.length ∧ l.length ≤ d.cap ∧
        (∀ k : Nat, get d k = l[k]?) ∧ front d = l.head? ∧ back d = l.getLast? ∧
        ∀ k : Nat, l.length ≤ k → k < d.cap → d.arr[k]? = some .raw := by
  obtain ⟨w, e1, e2⟩ := runAll_sim (R := VRep) (exec_sim kind) os [] [] v rs ⟨rfl, fun i l h => by simp at h⟩ h
  refine ⟨w, e1, e2.1.symm, fun i l hl => ?_⟩
  obtain ⟨d, hd, hr⟩ := e2.2 i l hl
  have hget := hr.get
  have hcap := hr.cap
  obtain ⟨k, hw⟩ := hr
  refine ⟨d, hd, hw.2, hcap, hget, ?_, ?_, ?_⟩
  · unfold front
    split
    · next h0 => rw [hw.2] at h0; rw [List.length_eq_zero_iff.1 h0]; rfl
    · rw [hget, List.head?_eq_getElem?]
  · unfold back
    split
    · next h0 => rw [hw.2] at h0; rw [List.length_eq_zero_iff.1 h0]; rfl
    · rw [hget, List.getLast?_eq_getElem?, hw.2]
  · intro j h1 h2
    have hc := hw.cap
    simp at hc
    rw [hw.1, List.getElem?_append_right (by simpa using h1), List.getElem?_replicate]
    simp
    omega

/-- A concrete history with growth, an insertion in the middle, removals, append to itself, copies and assignment. -/
example : ((runAll spec [.fresh 1, .add 0 'a', .add 0 'b', .insert 0 'c' 1, .remove 0 0, .append 0 0, .copy 0,
    .setLength 1 6 (fun _ => 'z'), .fresh 0, .assign 2 1, .plus 0 2, .removeLast 3] []).map (·.1)) =
    some [['c', 'b', 'c', 'b'], ['c', 'b', 'c', 'b', 'z', 'z'], ['c', 'b', 'c', 'b', 'z', 'z'],
      ['c', 'b', 'c', 'b', 'c', 'b', 'c', 'b', 'z']] := by decide +kernel

example : ((runAll (exec .safe) [.fresh 1, .add 0 'a', .add 0 'b', .insert 0 'c' 1, .remove 0 0, .append 0 0, .copy 0,
    .setLength 1 6 (fun _ => 'z'), .fresh 0, .assign 2 1, .plus 0 2, .removeLast 3] []).map
      fun r => r.1.map fun d => (d.len, d.cap)) = some [(4, 4), (6, 6), (6, 6), (9, 10)] := by decide +kernel

/-- `a.Add(a[0])` on a full array reads the freed block: the argument must not be a reference into the array itself. -/
theorem C27_add_own_element_counterexample (kind : Kind) :
    ∃ d : Dyn Nat, Rep d [7] ∧ get d 0 = some 7 ∧ addAlias kind d 0 = none :=
  ⟨⟨[.val 7], 1⟩, ⟨0, rfl, rfl⟩, rfl, by simp [addAlias, Dyn.cap]⟩

/-- `a.Insert(a[1], 0)` on `[7, 8]` (`memmove` based types, no growth needed) inserts 7 instead of 8. -/
theorem C27_insert_own_element_counterexample :
    ∃ d : Dyn Nat, Rep d [7, 8] ∧ get d 1 = some 8 ∧ ∃ d', insertAlias d 1 0 = some d' ∧ get d' 0 = some 7 :=
  ⟨⟨[.val 7, .val 8, .raw], 2⟩, ⟨1, rfl, rfl⟩, rfl, ⟨[.val 7, .val 7, .val 8], 3⟩, rfl, rfl⟩

/-- `a = a` for elements with a destructor reads destroyed elements. -/
theorem C27_self_assignment_counterexample : ∃ d : Dyn Nat, Rep d [7] ∧ assignSelf d = none :=
  ⟨⟨[.val 7], 1⟩, ⟨0, rfl, rfl⟩, rfl⟩

/-- Move-assignment from an `Array` always leaves `Length() = 0`: the elements are in the block but unreachable. -/
theorem C27_move_from_array_counterexample (l : List α) (d : Dyn α) (m : List α) (h : Rep d l) :
    ∃ d', assignArrayMove d (m.map .val) = some (d', []) ∧ d'.len = 0 ∧ d'.cap = m.length := by
  refine ⟨⟨m.map .val, 0⟩, ?_, rfl, by simp [Dyn.cap]⟩
  simp [assignArrayMove, h.destroyAll]

/-! ## C15: `Stack` -/

inductive SOp (α : Type)
  | push (x : α)
  | pop
  | peek
  | discard
  | clear

/-- Specification: the stack as a list, top first. -/
def sSpec : SOp α → List α → Option (List α × Option α)
  | .push x, l => some (x :: l, none)
  | .pop, [] => none
  | .pop, x :: l => some (l, some x)
  | .peek, [] => none
  | .peek, x :: l => some (x :: l, some x)
  | .discard, [] => none
  | .discard, _ :: l => some (l, none)
  | .clear, _ => some ([], none)

/-- The code. -/
def sExec (kind : Kind) (init : Nat → α) : SOp α → Dyn α → Option (Dyn α × Option α)
  | .push x, d => (sPush kind d x).map fun d => (d, none)
  | .pop, d => (sPop kind d).map fun (d, x) => (d, some x)
  | .peek, d => (sPeek d).map fun x => (d, some x)
  | .discard, d => (sDiscard kind d).map fun d => (d, none)
  | .clear, d => (sClear kind init d).map fun d => (d, none)

theorem sExec_sim (kind : Kind) (init : Nat → α) (o : SOp α) (l : List α) (d : Dyn α) (l' : List α) (r : Option α)
    (h : Rep d l.reverse) (hs : sSpec o l = some (l', r)) :
    ∃ d', sExec kind init o d = some (d', r) ∧ Rep d' l'.reverse := by
  cases o with
  | push x =>
    simp [sSpec] at hs
    obtain ⟨rfl, rfl⟩ := hs
    obtain ⟨d', e1, e2⟩ := h.add kind x
    exact ⟨d', by simp [sExec, sPush, e1], by simpa using e2⟩
  | pop =>
    cases l with
    | nil => simp [sSpec] at hs
    | cons x l =>
      simp [sSpec] at hs
      obtain ⟨rfl, rfl⟩ := hs
      rw [List.reverse_cons] at h
      obtain ⟨d', e1, e2⟩ := h.pop kind
      exact ⟨d', by simp [sExec, e1], e2⟩
  | peek =>
    cases l with
    | nil => simp [sSpec] at hs
    | cons x l =>
      simp [sSpec] at hs
      obtain ⟨rfl, rfl⟩ := hs
      have hl := h.choose_spec.2
      refine ⟨d, ?_, h⟩
      have : back d = some x := by
        rw [back, if_neg (by rw [hl]; simp), h.get, hl]
        simp
      simp [sExec, sPeek, this]
  | discard =>
    cases l with
    | nil => simp [sSpec] at hs
    | cons x l =>
      simp [sSpec] at hs
      obtain ⟨rfl, rfl⟩ := hs
      rw [List.reverse_cons] at h
      obtain ⟨d', e1, e2⟩ := h.removeLast kind
      exact ⟨d', by simp [sExec, sDiscard, e1], e2⟩
  | clear =>
    simp [sSpec] at hs
    obtain ⟨rfl, rfl⟩ := hs
    obtain ⟨d', e1, e2⟩ := h.setLength kind init 0
    exact ⟨d', by simp [sExec, sClear, e1], by simpa using e2⟩

/-- C15: for every starting capacity and every history that does not pop, peek or discard on an empty stack, the code
returns exactly what a LIFO list returns, and `Length()`, `Peek()` and the elements from the top agree at the end. -/
theorem C15_stack_lifo (kind : Kind) (init : Nat → α) (capacity : Nat) (os : List (SOp α)) {l : List α}
    {rs : List (Option α)} (h : runAll sSpec os [] = some (l, rs)) :
    ∃ d, runAll (sExec kind init) os (new capacity) = some (d, rs) ∧ d.len = l.length ∧ sPeek d = l.head? ∧
      ∀ k : Nat, k < l.length → get d (l.length - 1 - k) = l[k]? := by
  obtain ⟨d, e1, e2⟩ := runAll_sim (R := fun l d => Rep d l.reverse) (sExec_sim kind init) os [] (new capacity) l rs
    (Rep.new capacity) h
  have hl : d.len = l.length := by have := e2.choose_spec.2; simpa using this
  refine ⟨d, e1, hl, ?_, ?_⟩
  · unfold sPeek back
    split
    · next h0 => rw [hl] at h0; rw [List.length_eq_zero_iff.1 h0]; rfl
    · next h0 =>
      rw [e2.get, hl, List.getElem?_reverse (by omega), List.head?_eq_getElem?]
      congr 1; omega
  · intro k hk
    rw [e2.get, List.getElem?_reverse (by omega)]
    congr 1; omega

/-- Length is the number of pushes minus the number of pops and discards, when nothing is cleared. -/
theorem C15_length_is_pushes_minus_pops (kind : Kind) (init : Nat → α) (capacity : Nat) (os : List (SOp α)) {l : List α}
    {rs : List (Option α)} (h : runAll sSpec os [] = some (l, rs)) (hc : ∀ o ∈ os, o ≠ .clear) :
    ∃ d, runAll (sExec kind init) os (new capacity) = some (d, rs) ∧
      d.len + os.countP (fun o => match o with | .pop => true | .discard => true | _ => false) =
        os.countP (fun o => match o with | .push _ => true | _ => false) := by
  obtain ⟨d, e1, e2, e3⟩ := C15_stack_lifo kind init capacity os h
  refine ⟨d, e1, ?_⟩
  rw [e2]
  suffices H : ∀ (os : List (SOp α)) (l0 l : List α) (rs : List (Option α)), runAll sSpec os l0 = some (l, rs) →
      (∀ o ∈ os, o ≠ .clear) →
      l.length + os.countP (fun o => match o with | .pop => true | .discard => true | _ => false) =
        l0.length + os.countP (fun o => match o with | .push _ => true | _ => false) by
    simpa using H os [] l rs h hc
  clear h hc e1 e2 e3 d rs l os
  intro os
  induction os with
  | nil => intro l0 l rs h _; simp [runAll] at h; simp [h.1]
  | cons o os ih =>
    intro l0 l rs h hc
    simp only [runAll, Option.bind_eq_some_iff, Option.map_eq_some_iff] at h
    obtain ⟨⟨l1, r⟩, h1, ⟨l2, rs'⟩, h2, h3⟩ := h
    cases h3
    have := ih l1 l2 rs' h2 (fun o ho => hc o (by simp [ho]))
    simp only [List.countP_cons]
    cases o with
    | push x => simp [sSpec] at h1; rw [← h1.1] at this; simp at this ⊢; omega
    | pop => cases l0 <;> simp [sSpec] at h1; rw [← h1.1] at this; simp at this ⊢; omega
    | peek => cases l0 <;> simp [sSpec] at h1; rw [← h1.1] at this; simp at this ⊢; omega
    | discard => cases l0 <;> simp [sSpec] at h1; rw [← h1.1] at this; simp at this ⊢; omega
    | clear => exact absurd rfl (hc .clear (by simp))

example : runAll sSpec [.push 1, .push 2, .peek, .pop, .push 3, .pop, .pop] ([] : List Nat) =
    some ([], [none, none, some 2, some 2, none, some 3, some 1]) := by decide

/-! ## C16: `RandomQueue` -/

inductive ROp (α : Type)
  | push (x : α)
  /-- `Pop` where the random engine draws `i` -/
  | pop (i : Nat)
  | remove (i : Nat)
  | clear

/-- The code. -/
def rExec (kind : Kind) : ROp α → Dyn α → Option (Dyn α × Option α)
  | .push x, d => (rqPush kind d x).map fun d => (d, none)
  | .pop i, d => if i < d.len then (rqPop d i).map fun (d, x) => (d, some x) else none
  | .remove i, d => if i < d.len then (rqRemove d i).map fun d' => (d', get d i) else none
  | .clear, d => some (rqClear d, none)

/-- What one call may do to the multiset held (lists up to permutation): the removed element is one of those held. -/
def RStep : ROp α → List α → Option α → List α → Prop
  | .push x, l, r, l' => r = none ∧ l'.Perm (x :: l)
  | .pop _, l, r, l' => ∃ x, r = some x ∧ l.Perm (x :: l')
  | .remove _, l, r, l' => ∃ x, r = some x ∧ l.Perm (x :: l')
  | .clear, _, r, l' => r = none ∧ l' = []

theorem RStep.push_iff {x : α} {l : List α} {r : Option α} {l' : List α} :
    RStep (.push x) l r l' ↔ r = none ∧ l'.Perm (x :: l) := Iff.rfl

/-- The elements a queue holds, read through `begin()`..`end()`. -/
def held (d : Dyn α) : List α := (List.range d.len).filterMap (get d)

theorem held_eq {d : Dyn α} {l : List α} {t : List (Slot α)} (h : WRep d l t) : held d = l := by
  unfold held
  rw [h.2]
  have : ∀ n, n ≤ l.length → (List.range n).filterMap (get d) = l.take n := by
    intro n
    induction n with
    | zero => simp
    | succ n ih =>
      intro hn
      rw [List.range_succ, List.filterMap_append, ih (by omega), List.take_succ]
      simp [h.get (i := n) (by omega), List.getElem?_eq_getElem (show n < l.length by omega)]
  rw [this _ (Nat.le_refl _)]
  simp

/-- Dropping position `i` after moving the last element there. -/
theorem set_last_perm (A : List α) (y : α) (i : Nat) (h : i < (A ++ [y]).length) :
    (A ++ [y]).Perm ((A ++ [y])[i] :: ((A ++ [y]).set i y).take A.length) := by
  by_cases hi : i < A.length
  · obtain ⟨P, x, Q, rfl, rfl⟩ := split_at hi
    have e1 : ((P ++ x :: Q) ++ [y])[P.length]'h = x := by simp
    have e2 : (((P ++ x :: Q) ++ [y]).set P.length y).take (P ++ x :: Q).length = P ++ y :: Q := by
      have : ((P ++ x :: Q) ++ [y]).set P.length y = (P ++ y :: Q) ++ [y] := by simp
      rw [this]
      rw [show (P ++ x :: Q).length = (P ++ y :: Q).length by simp, List.take_left]
    rw [e1, e2]
    have e3 : (P ++ x :: Q) ++ [y] = P ++ x :: (Q ++ [y]) := by simp
    rw [e3]
    refine List.perm_middle.trans (List.Perm.cons x ?_)
    rw [← List.append_assoc]
    refine (List.perm_append_comm).trans ?_
    rw [List.singleton_append]
    exact List.perm_middle.symm
  · have : i = A.length := by simp at h; omega
    subst this
    simp

theorem rqRemove_spec {d : Dyn α} {l : List α} {t : List (Slot α)} (h : WRep d l t) {i : Nat} (hi : i < l.length) :
    ∃ d' x l' t', rqRemove d i = some d' ∧ l[i]? = some x ∧ WRep d' l' t' ∧ l.Perm (x :: l') := by
  have hne : l ≠ [] := by rintro rfl; simp at hi
  obtain ⟨A, y, rfl⟩ : ∃ A y, l = A ++ [y] :=
    ⟨l.dropLast, l.getLast hne, (List.dropLast_concat_getLast hne).symm⟩
  have hl : d.len = A.length + 1 := by rw [h.2]; simp
  have hget : d.arr[d.len - 1]? = some (.val y) := by
    rw [hl, h.1, List.map_append, List.append_assoc]
    have := get_mid (A.map Slot.val) t (.val y)
    simpa using this
  have hget2 : d.arr[i]? = some (.val (A ++ [y])[i]) := by
    rw [h.1, List.getElem?_append_left (by simpa using hi), List.getElem?_map, List.getElem?_eq_getElem hi]
    rfl
  have harr : d.arr.set i (.val y) = ((A ++ [y]).set i y).map .val ++ t := by
    rw [h.1, List.set_append_left _ _ (by simpa using hi), List.map_set]
  refine ⟨⟨d.arr.set i (.val y), A.length⟩, (A ++ [y])[i], ((A ++ [y]).set i y).take A.length,
    (((A ++ [y]).set i y).drop A.length).map .val ++ t, ?_, by simp, ⟨?_, ?_⟩, set_last_perm A y i hi⟩
  · simp only [rqRemove]
    rw [if_neg (by omega), hget, hget2, hl]
    simp
  · simp only [harr]
    rw [← List.append_assoc, ← List.map_append, List.take_append_drop]
  · simp

/-- The draw or index is in range for a queue of `n` elements. -/
def inRange : ROp α → Nat → Prop
  | .pop i, n => i < n
  | .remove i, n => i < n
  | _, _ => True

def sizeAfter : ROp α → Nat → Nat
  | .push _, n => n + 1
  | .pop _, n => n - 1
  | .remove _, n => n - 1
  | .clear, _ => 0

theorem rExec_step (kind : Kind) (o : ROp α) {d : Dyn α} {l : List α} {t : List (Slot α)} (h : WRep d l t)
    (hv : inRange o l.length) :
    ∃ d' r l' t', rExec kind o d = some (d', r) ∧ WRep d' l' t' ∧ RStep o l r l' := by
  cases o with
  | push x =>
    obtain ⟨d', e1, t', e2, _⟩ := h.add kind x
    exact ⟨d', none, l ++ [x], t', by simp [rExec, rqPush, e1], e2, rfl, List.perm_append_comm.trans (by simp)⟩
  | pop i =>
    simp only [inRange] at hv
    obtain ⟨d', x, l', t', e1, e2, e3, e4⟩ := rqRemove_spec h hv
    refine ⟨d', some x, l', t', ?_, e3, x, rfl, e4⟩
    simp [rExec, rqPop, h.2, hv, (h.get hv).trans e2, e1]
  | remove i =>
    simp only [inRange] at hv
    obtain ⟨d', x, l', t', e1, e2, e3, e4⟩ := rqRemove_spec h hv
    refine ⟨d', some x, l', t', ?_, e3, x, rfl, e4⟩
    simp [rExec, h.2, hv, (h.get hv).trans e2, e1]
  | clear => exact ⟨_, none, [], d.arr, rfl, ⟨rfl, rfl⟩, rfl, rfl⟩

/-- The number of elements held, which alone decides which draws are in range. -/
def sizeOk : List (ROp α) → Nat → Bool
  | [], _ => true
  | .push _ :: os, n => sizeOk os (n + 1)
  | .pop i :: os, n => decide (i < n) && sizeOk os (n - 1)
  | .remove i :: os, n => decide (i < n) && sizeOk os (n - 1)
  | .clear :: os, _ => sizeOk os 0

/-- A history of calls with the multisets held in between. -/
inductive RHist : List (ROp α) → List α → List (Option α) → List α → Prop
  | nil (l : List α) : RHist [] l [] l
  | cons {o : ROp α} {os : List (ROp α)} {l l1 l2 : List α} {r : Option α} {rs : List (Option α)} :
      RStep o l r l1 → RHist os l1 rs l2 → RHist (o :: os) l (r :: rs) l2

theorem RStep.length {o : ROp α} {l : List α} {r : Option α} {l' : List α} (h : RStep o l r l') :
    l'.length = sizeAfter o l.length := by
  unfold sizeAfter
  cases o with
  | push x => simpa using h.2.length_eq
  | pop i => obtain ⟨x, _, h⟩ := h; have := h.length_eq; simp at this ⊢; omega
  | remove i => obtain ⟨x, _, h⟩ := h; have := h.length_eq; simp at this ⊢; omega
  | clear => simp [h.2]

theorem rHist_sim (kind : Kind) (os : List (ROp α)) : ∀ (d : Dyn α) (l : List α) (t : List (Slot α)), WRep d l t →
    sizeOk os l.length = true →
    ∃ d' rs l' t', runAll (rExec kind) os d = some (d', rs) ∧ WRep d' l' t' ∧ RHist os l rs l' := by
  induction os with
  | nil => intro d l t h _; exact ⟨d, [], l, t, rfl, h, .nil l⟩
  | cons o os ih =>
    intro d l t h hv
    have hv' : inRange o l.length ∧ sizeOk os (sizeAfter o l.length) = true := by
      cases o <;> simpa [sizeOk, inRange, sizeAfter] using hv
    obtain ⟨d1, r, l1, t1, e1, e2, e3⟩ := rExec_step kind o h hv'.1
    obtain ⟨d2, rs, l2, t2, f1, f2, f3⟩ := ih d1 l1 t1 e2 (by rw [e3.length]; exact hv'.2)
    exact ⟨d2, r :: rs, l2, t2, by simp [runAll, e1, f1], f2, .cons e3 f3⟩

/-- C16: for every history of `Push`/`Pop`/`Remove`/`Clear` and every sequence of random draws in range, the queue is
never accessed out of bounds, and the history is one of a multiset: each `Push` adds that element, each `Pop` returns an
element held at that moment and removes that one occurrence. -/
theorem C16_random_queue_multiset (kind : Kind) (capacity : Nat) (os : List (ROp α)) (hv : sizeOk os 0 = true) :
    ∃ d rs, runAll (rExec kind) os (new capacity) = some (d, rs) ∧ RHist os [] rs (held d) ∧ d.len = (held d).length := by
  obtain ⟨d, rs, l, t, e1, e2, e3⟩ := rHist_sim kind os (new capacity) [] _ (Rep.new capacity).choose_spec hv
  exact ⟨d, rs, e1, by rw [held_eq e2]; exact e3, by rw [held_eq e2]; exact e2.2⟩

/-- What was pushed. -/
def pushed : List (ROp α) → List α
  | [] => []
  | .push x :: os => x :: pushed os
  | _ :: os => pushed os

theorem hist_account : ∀ {os : List (ROp α)} {l rs l'}, RHist os l rs l' → (∀ o ∈ os, o ≠ .clear) →
    (rs.filterMap id ++ l').Perm (pushed os ++ l) := by
  intro os l rs l' h
  induction h with
  | nil l => simp [pushed]
  | @cons o os l l1 l2 r rs hstep _ ih =>
    intro hc
    have ih := ih (fun o ho => hc o (by simp [ho]))
    cases o with
    | push x =>
      obtain ⟨rfl, hp⟩ := hstep
      simp only [List.filterMap_cons, id, pushed, List.cons_append]
      refine ih.trans ?_
      refine (List.Perm.append_left _ hp).trans ?_
      exact List.perm_middle
    | pop i =>
      obtain ⟨x, rfl, hp⟩ := hstep
      simp only [List.filterMap_cons, id, pushed, List.cons_append]
      refine (List.Perm.cons x ih).trans ?_
      refine List.perm_middle.symm.trans (List.Perm.append_left _ hp.symm)
    | remove i =>
      obtain ⟨x, rfl, hp⟩ := hstep
      simp only [List.filterMap_cons, id, pushed, List.cons_append]
      refine (List.Perm.cons x ih).trans ?_
      refine List.perm_middle.symm.trans (List.Perm.append_left _ hp.symm)
    | clear => exact absurd rfl (hc .clear (by simp))

/-- C16: what has been popped or removed together with what is held is, with multiplicities, exactly what was pushed. -/
theorem C16_popped_and_held_are_pushed (kind : Kind) (capacity : Nat) (os : List (ROp α)) (hv : sizeOk os 0 = true)
    (hc : ∀ o ∈ os, o ≠ .clear) :
    ∃ d rs, runAll (rExec kind) os (new capacity) = some (d, rs) ∧ (rs.filterMap id ++ held d).Perm (pushed os) := by
  obtain ⟨d, rs, e1, e2, _⟩ := C16_random_queue_multiset kind capacity os hv
  exact ⟨d, rs, e1, by simpa using hist_account e2 hc⟩

example : sizeOk [ROp.push 'a', .push 'b', .push 'a', .pop 0, .push 'c', .pop 2, .remove 1, .pop 0] 0 = true := by decide

example : (runAll (rExec .simple) [ROp.push 'a', .push 'b', .push 'a', .pop 0, .push 'c', .pop 2, .pop 0] (new 0)).map
    (fun r => (held r.1, r.2.filterMap id)) = some (['b'], ['a', 'c', 'a']) := by decide +kernel

end Verif.Dyn
