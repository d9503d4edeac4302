import Verif.Common.Run

/-!
# C45: `RefCounter` and `ref_ptr` (`include/bss-util/RefCounter.h`)

Objects are numbered in the order of creation and never share a number.  `hs` is the memory of handles: entry `h` is `none` when handle `h`
has been destroyed, `some none` for a null handle, `some (some o)` for a handle on object `o`.  Using an object that has been destroyed is
undefined (`none`).  The reference count is an unbounded integer.  The destructor of an object does not touch handles.
-/

namespace Verif.Ptr.RefCount

/-- Calls on handles.  Handles are created at the end of the list of handles. -/
inductive Op
  /-- An object is created. -/
  | obj
  /-- `ref_ptr(T*)` -/
  | make (p : Option Nat)
  /-- `ref_ptr(const ref_ptr&)` -/
  | copy (h : Nat)
  /-- `ref_ptr(ref_ptr&&)` -/
  | move (h : Nat)
  /-- `~ref_ptr()` -/
  | drop (h : Nat)
  /-- `operator=(const ref_ptr&)` -/
  | assign (h h' : Nat)
  /-- `operator=(ref_ptr&&)` -/
  | moveAssign (h h' : Nat)
  /-- `operator=(T*)` -/
  | assignRaw (h : Nat) (p : Option Nat)

/-- Memory: handles, number of objects created, reference counts of the objects that exist. -/
structure St where
  hs : List (Option (Option Nat))
  born : Nat
  refs : Nat → Option Int

/-- `RefCounter.h:16` `Grab`, guarded by the test for null (`:46`, `:48`, `:80-81`). -/
def grab (p : Option Nat) (s : St) : Option St :=
  match p with
  | none => some s
  | some o => (s.refs o).map fun r => { s with refs := fun x => if x = o then some (r + 1) else s.refs x }

/-- `RefCounter.h:19-28` `Drop`, guarded by the test for null (`:49`, `:67-68`, `:76-77`); also returns the object destroyed, if any. -/
def dropRef (p : Option Nat) (s : St) : Option (St × List Nat) :=
  match p with
  | none => some (s, [])
  | some o => (s.refs o).map fun r =>
    if r - 1 > 0 then ({ s with refs := fun x => if x = o then some (r - 1) else s.refs x }, [])
    else ({ s with refs := fun x => if x = o then none else s.refs x }, [o])

/-- The pointer in a handle that exists. -/
def ptr (h : Nat) (s : St) : Option (Option Nat) := (s.hs[h]?).bind id

/-- One call: the state after it and the objects destroyed in it. -/
def step : Op → St → Option (St × List Nat)
  | .obj, s => some (⟨s.hs, s.born + 1, fun x => if x = s.born then some 0 else s.refs x⟩, [])
  | .make p, s => (grab p { s with hs := s.hs ++ [some p] }).map fun s => (s, [])
  | .copy h, s => (ptr h s).bind fun p => (grab p { s with hs := s.hs ++ [some p] }).map fun s => (s, [])
  | .move h, s => (ptr h s).map fun p => ({ s with hs := s.hs.set h (some none) ++ [some p] }, [])
  | .drop h, s => (ptr h s).bind fun p => (dropRef p s).map fun r => ({ r.1 with hs := r.1.hs.set h none }, r.2)
  | .assign h h', s => (ptr h s).bind fun p => (ptr h' s).bind fun q => (dropRef p s).bind fun r =>
      (grab q { r.1 with hs := r.1.hs.set h (some q) }).map fun s => (s, r.2)
  | .moveAssign h h', s => (ptr h s).bind fun p => (ptr h' s).bind fun q => (dropRef p s).map fun r =>
      ({ r.1 with hs := (r.1.hs.set h (some q)).set h' (some none) }, r.2)
  | .assignRaw h q, s => (ptr h s).bind fun p => (dropRef p s).bind fun r =>
      (grab q { r.1 with hs := r.1.hs.set h (some q) }).map fun s => (s, r.2)

/-! ## Specification: handles only -/

/-- Handles, number of objects, objects destroyed. -/
structure Spec where
  hs : List (Option (Option Nat))
  born : Nat
  dead : List Nat

/-- The pointer in a handle that exists. -/
def Spec.ptr (s : Spec) (h : Nat) : Option (Option Nat) := (s.hs[h]?).bind id

/-- A raw pointer may be null or to an object that exists. -/
def Spec.valid (s : Spec) (p : Option Nat) : Bool := match p with
  | none => true
  | some o => decide (o < s.born) && !s.dead.contains o

/-- Object `o` has a handle. -/
def held (hs : List (Option (Option Nat))) (o : Nat) : Bool := hs.contains (some (some o))

/-- After a change of handles that takes away a handle on `p`: its object dies if it has no handle any more. -/
def Spec.change (s : Spec) (p : Option Nat) (hs' : List (Option (Option Nat))) : Spec × List Nat := match p with
  | none => (⟨hs', s.born, s.dead⟩, [])
  | some o => if held hs' o then (⟨hs', s.born, s.dead⟩, []) else (⟨hs', s.born, o :: s.dead⟩, [o])

/-- Handle `h` is the only one of the object it is assigned again. -/
def Spec.onlySelf (s : Spec) (h : Nat) (p q : Option Nat) : Bool := match p with
  | none => false
  | some o => q == some o && !held (s.hs.set h none) o

/-- What the calls should do.  Not allowed: handles that do not exist, raw pointers to objects that do not, and assigning to a handle the
object of which it is the only handle. -/
def Spec.step : Op → Spec → Option (Spec × List Nat)
  | .obj, s => some (⟨s.hs, s.born + 1, s.dead⟩, [])
  | .make p, s => if s.valid p then some (⟨s.hs ++ [some p], s.born, s.dead⟩, []) else none
  | .copy h, s => (s.ptr h).map fun p => (⟨s.hs ++ [some p], s.born, s.dead⟩, [])
  | .move h, s => (s.ptr h).map fun p => (⟨s.hs.set h (some none) ++ [some p], s.born, s.dead⟩, [])
  | .drop h, s => (s.ptr h).map fun p => s.change p (s.hs.set h none)
  | .assign h h', s => (s.ptr h).bind fun p => (s.ptr h').bind fun q =>
      if s.onlySelf h p q then none else some (s.change p (s.hs.set h (some q)))
  | .moveAssign h h', s => (s.ptr h).bind fun p => (s.ptr h').map fun q =>
      s.change p ((s.hs.set h (some q)).set h' (some none))
  | .assignRaw h q, s => (s.ptr h).bind fun p =>
      if s.onlySelf h p q || !s.valid q then none else some (s.change p (s.hs.set h (some q)))

/-! ## Proof -/

/-- Number of handles on `o`. -/
def cnt (hs : List (Option (Option Nat))) (o : Nat) : Nat := hs.count (some (some o))

structure Rel (a : Spec) (s : St) : Prop where
  hs : s.hs = a.hs
  born : s.born = a.born
  refs : ∀ o, s.refs o = if o < a.born ∧ o ∉ a.dead then some (cnt a.hs o : Int) else none
  live : ∀ o, 0 < cnt a.hs o → o < a.born ∧ o ∉ a.dead
  dead : ∀ o ∈ a.dead, o < a.born

theorem held_iff (hs : List (Option (Option Nat))) (o : Nat) : held hs o = true ↔ 0 < cnt hs o := by
  unfold held cnt
  rw [List.count_pos_iff, List.contains_iff_mem]

theorem cnt_append (a b : List (Option (Option Nat))) (o : Nat) : cnt (a ++ b) o = cnt a o + cnt b o := by simp [cnt]

theorem cnt_single (p : Option (Option Nat)) (o : Nat) : cnt [p] o = if p = some (some o) then 1 else 0 := by
  unfold cnt
  rw [List.count_singleton]
  simp

theorem cnt_set {l : List (Option (Option Nat))} {h : Nat} {p : Option Nat} (hp : (l[h]?).bind id = some p) (q : Option (Option Nat)) (o : Nat) :
    cnt (l.set h q) o + (if p = some o then 1 else 0) = cnt l o + (if q = some (some o) then 1 else 0) := by
  rw [Option.bind_eq_some_iff] at hp
  obtain ⟨x, hx, rfl⟩ := hp
  obtain ⟨hl, hx⟩ := List.getElem?_eq_some_iff.1 hx
  unfold cnt
  rw [List.count_set hl, hx]
  have : (some p == some (some o)) = true → 0 < l.count (some (some o)) := by
    intro e
    rw [List.count_pos_iff]
    simp only [beq_iff_eq] at e
    rw [← e]
    have := List.getElem_mem hl
    rw [hx] at this
    exact this
  simp only [beq_iff_eq, Option.some.injEq, id] at *
  by_cases h1 : p = some o
  · have := this h1
    simp only [h1, if_true]
    omega
  · simp only [h1, if_false]
    omega

theorem ptr_eq {a : Spec} {s : St} (h : Rel a s) (i : Nat) : ptr i s = a.ptr i := by rw [ptr, Spec.ptr, h.hs]

/-- A pointer in a handle is to an object that exists. -/
theorem held_live {a : Spec} {s : St} (h : Rel a s) {i o : Nat} (hp : a.ptr i = some (some o)) :
    0 < cnt a.hs o ∧ o < a.born ∧ o ∉ a.dead := by
  unfold Spec.ptr at hp
  have hm : 0 < cnt a.hs o := by
    rw [Option.bind_eq_some_iff] at hp
    obtain ⟨x, hx, e⟩ := hp
    simp only [id] at e
    subst e
    unfold cnt
    rw [List.count_pos_iff]
    exact List.mem_of_getElem? hx
  exact ⟨hm, h.live o hm⟩

/-- `Grab` of an object that exists, for a new handle. -/
theorem grab_rel {hs : List (Option (Option Nat))} {born : Nat} {dead : List Nat} {s : St} {p : Option Nat}
    (hv : ∀ o, p = some o → o < born ∧ o ∉ dead) (h1 : s.hs = hs) (h2 : s.born = born)
    (h3 : ∀ o, s.refs o = if o < born ∧ o ∉ dead then some ((cnt hs o : Int) - if p = some o then 1 else 0) else none)
    (h4 : ∀ o, 0 < cnt hs o → o < born ∧ o ∉ dead) (h5 : ∀ o ∈ dead, o < born) : ∃ s', grab p s = some s' ∧ Rel ⟨hs, born, dead⟩ s' := by
  unfold grab
  cases p with
  | none =>
    refine ⟨s, rfl, h1, h2, fun o => ?_, h4, h5⟩
    rw [h3 o]
    simp
  | some o =>
    have hr := h3 o
    rw [if_pos (hv o rfl)] at hr
    simp only
    rw [hr]
    refine ⟨_, rfl, h1, h2, fun x => ?_, h4, h5⟩
    simp only
    by_cases hx : x = o
    · subst hx
      rw [if_pos rfl, if_pos (hv x rfl)]
      simp
    · rw [if_neg hx, h3 x]
      have : ¬ (some o = some x) := fun e => hx (by simpa using e.symm)
      simp [this]

/-- `Drop` of the object of a handle, followed by a change of handles in which it loses exactly that handle, apart from a new pointer `q`
that is still to be grabbed. -/
theorem drop_rel {a : Spec} {s : St} (h : Rel a s) {p q : Option Nat} {hs' : List (Option (Option Nat))}
    (hp : ∀ o, p = some o → 0 < cnt a.hs o)
    (hc : ∀ o, cnt hs' o + (if p = some o then 1 else 0) = cnt a.hs o + if q = some o then 1 else 0)
    (hq : ∀ o, q = some o → o < a.born ∧ o ∉ a.dead) (hself : ∀ o, p = some o → q = some o → 1 < cnt a.hs o) :
    ∃ s1, dropRef p s = some (s1, (a.change p hs').2) ∧ s1.hs = s.hs ∧ s1.born = s.born ∧ (a.change p hs').1.hs = hs' ∧
      (a.change p hs').1.born = a.born ∧
      (∀ o, s1.refs o = if o < a.born ∧ o ∉ (a.change p hs').1.dead then some ((cnt hs' o : Int) - if q = some o then 1 else 0) else none) ∧
      (∀ o, 0 < cnt hs' o → o < a.born ∧ o ∉ (a.change p hs').1.dead) ∧
      (∀ o, q = some o → o < a.born ∧ o ∉ (a.change p hs').1.dead) ∧
      (∀ o ∈ (a.change p hs').1.dead, o < a.born) := by
  cases p with
  | none =>
    refine ⟨s, rfl, rfl, rfl, rfl, rfl, fun o => ?_, fun o ho => ?_, hq, h.dead⟩
    · have := hc o
      simp only [Spec.change] at *
      rw [h.refs o]
      simp only [reduceCtorEq, if_false] at this
      have e : (cnt a.hs o : Int) = (cnt hs' o : Int) - if q = some o then 1 else 0 := by split at this <;> simp_all <;> omega
      rw [e]
      rfl
    · have := hc o
      simp only [reduceCtorEq, if_false] at this
      by_cases hqo : q = some o
      · exact hq o hqo
      · simp only [hqo, if_false] at this
        exact h.live o (by omega)
  | some o =>
    have hpo := hp o rfl
    have hlo := h.live o hpo
    have hco := hc o
    have hso := hself o rfl
    have hr := h.refs o
    rw [if_pos hlo] at hr
    simp only [if_true] at hco
    have hrefs' : ∀ x, x ≠ o → s.refs x = if x < a.born ∧ x ∉ a.dead then some ((cnt hs' x : Int) - if q = some x then 1 else 0) else none := by
      intro x hx
      have h1 := hc x
      have h2 : ¬ (some o = some x) := fun e => hx (by simpa using e.symm)
      rw [if_neg h2] at h1
      rw [h.refs x]
      have e : (cnt a.hs x : Int) = (cnt hs' x : Int) - if q = some x then 1 else 0 := by split at h1 <;> simp_all <;> omega
      rw [e]
    have hlive' : ∀ x, x ≠ o → 0 < cnt hs' x → x < a.born ∧ x ∉ a.dead := by
      intro x hx hxc
      have h1 := hc x
      have h2 : ¬ (some o = some x) := fun e => hx (by simpa using e.symm)
      rw [if_neg h2] at h1
      by_cases hqx : q = some x
      · exact hq x hqx
      · rw [if_neg hqx] at h1
        exact h.live x (by omega)
    have hdr : dropRef (some o) s = some (if (cnt a.hs o : Int) - 1 > 0
        then ({ s with refs := fun x => if x = o then some ((cnt a.hs o : Int) - 1) else s.refs x }, [])
        else ({ s with refs := fun x => if x = o then none else s.refs x }, [o])) := by
      unfold dropRef
      simp only
      rw [hr]
      rfl
    rw [hdr]
    by_cases hd : held hs' o = true
    · have hch : a.change (some o) hs' = (⟨hs', a.born, a.dead⟩, []) := by simp only [Spec.change, if_pos hd]
      rw [hch]
      rw [held_iff] at hd
      have h2 : 1 < cnt a.hs o := by
        by_cases hqo : q = some o
        · exact hso hqo
        · rw [if_neg hqo] at hco; omega
      rw [if_pos (by omega)]
      refine ⟨_, rfl, rfl, rfl, rfl, rfl, fun x => ?_, fun x hx => ?_, hq, h.dead⟩
      · simp only
        by_cases hx : x = o
        · subst hx
          rw [if_pos rfl, if_pos hlo]
          congr 1
          split at hco <;> simp_all <;> omega
        · rw [if_neg hx]
          exact hrefs' x hx
      · by_cases hxo : x = o
        · rw [hxo]; exact hlo
        · exact hlive' x hxo hx
    · have hch : a.change (some o) hs' = (⟨hs', a.born, o :: a.dead⟩, [o]) := by simp only [Spec.change, if_neg hd]
      rw [hch]
      rw [held_iff] at hd
      have hqo : ¬ q = some o := fun e => by
        have := hso e
        rw [if_pos e] at hco
        omega
      rw [if_neg hqo] at hco
      rw [if_neg (by omega)]
      refine ⟨_, rfl, rfl, rfl, rfl, rfl, fun x => ?_, fun x hx => ?_, fun x hx => ?_, fun x hx => ?_⟩
      · simp only [List.mem_cons, not_or]
        by_cases hx : x = o
        · subst hx
          rw [if_pos rfl, if_neg (by simp)]
        · rw [if_neg hx, hrefs' x hx]
          simp [hx]
      · have hxo : x ≠ o := fun e => by rw [e] at hx; omega
        have := hlive' x hxo hx
        simp [hxo, this]
      · have hxo : x ≠ o := fun e => hqo (by rw [← e]; exact hx)
        have := hq x hx
        simp [hxo, this]
      · rcases List.mem_cons.1 hx with e | e
        · rw [e]; exact hlo.1
        · exact h.dead x e

theorem step_sim : ∀ (o : Op) (a : Spec) (s : St) (a' : Spec) (r : List Nat), Rel a s → a.step o = some (a', r) →
    ∃ s', step o s = some (s', r) ∧ Rel a' s' := by
  intro op a s a' r h hs
  have hnew : ∀ p : Option Nat, (∀ o, p = some o → o < a.born ∧ o ∉ a.dead) →
      ∃ s', grab p { s with hs := s.hs ++ [some p] } = some s' ∧ Rel ⟨a.hs ++ [some p], a.born, a.dead⟩ s' := by
    intro p hv
    refine grab_rel hv (by simp only [h.hs]) h.born (fun o => ?_) (fun o ho => ?_) h.dead
    · simp only
      rw [h.refs o, cnt_append, cnt_single]
      simp only [Option.some.injEq]
      split
      · congr 1
        split <;> omega
      · rfl
    · rw [cnt_append, cnt_single] at ho
      split at ho
      · next e => exact hv o (by simpa using e)
      · exact h.live o (by omega)
  cases op with
  | obj =>
    simp only [Spec.step, Option.some.injEq, Prod.mk.injEq] at hs
    obtain ⟨rfl, rfl⟩ := hs
    refine ⟨_, rfl, h.hs, by simp only [h.born], fun o => ?_, fun o ho => ?_, fun o ho => Nat.lt_succ_of_lt (h.dead o ho)⟩
    · simp only
      rw [h.born]
      by_cases ho : o = a.born
      · subst ho
        have hc0 : cnt a.hs a.born = 0 := by
          rcases Nat.eq_zero_or_pos (cnt a.hs a.born) with e | e
          · exact e
          · have := (h.live _ e).1; omega
        have hnd : a.born ∉ a.dead := fun e => Nat.lt_irrefl _ (h.dead _ e)
        rw [if_pos rfl, if_pos ⟨Nat.lt_succ_self _, hnd⟩, hc0]
        rfl
      · rw [if_neg ho, h.refs o]
        have : o < a.born + 1 ↔ o < a.born := by omega
        simp only [this]
    · have := h.live o ho
      exact ⟨by simp only; omega, this.2⟩
  | make p =>
    simp only [Spec.step] at hs
    split at hs
    · next hv =>
      simp only [Option.some.injEq, Prod.mk.injEq] at hs
      obtain ⟨rfl, rfl⟩ := hs
      obtain ⟨s', e1, e2⟩ := hnew p (fun o e => by
        subst e
        simpa [Spec.valid] using hv)
      exact ⟨s', by rw [step, e1]; rfl, e2⟩
    · cases hs
  | copy i =>
    simp only [Spec.step, Option.map_eq_some_iff, Prod.mk.injEq] at hs
    obtain ⟨p, hp, rfl, rfl⟩ := hs
    obtain ⟨s', e1, e2⟩ := hnew p (fun o e => (held_live h (e ▸ hp)).2)
    exact ⟨s', by rw [step, ptr_eq h, hp, Option.bind_some, e1]; rfl, e2⟩
  | move i =>
    simp only [Spec.step, Option.map_eq_some_iff, Prod.mk.injEq] at hs
    obtain ⟨p, hp, rfl, rfl⟩ := hs
    have hc : ∀ o, cnt (a.hs.set i (some none) ++ [some p]) o = cnt a.hs o := fun o => by
      have := cnt_set hp (some none) o
      rw [cnt_append, cnt_single]
      simp only [Option.some.injEq, reduceCtorEq, if_false] at *
      omega
    refine ⟨{ s with hs := s.hs.set i (some none) ++ [some p] }, by rw [step, ptr_eq h, hp]; rfl, by simp only [h.hs], h.born, fun o => ?_, fun o ho => ?_, h.dead⟩
    · simp only
      rw [hc, h.refs o]
    · simp only [hc] at ho
      exact h.live o ho
  | drop i =>
    simp only [Spec.step, Option.map_eq_some_iff] at hs
    obtain ⟨p, hp, hs⟩ := hs
    obtain ⟨s1, e1, e2, e3, e4, e5, e6, e7, -, e9⟩ := drop_rel h (p := p) (q := none) (hs' := a.hs.set i none)
      (fun o e => (held_live h (e ▸ hp)).1) (fun o => by simpa using cnt_set hp none o) (by simp) (by simp)
    rw [hs] at e1 e4 e5 e6 e7 e9
    refine ⟨{ s1 with hs := s1.hs.set i none }, by rw [step, ptr_eq h, hp, Option.bind_some, e1]; rfl, by simp only [e2, h.hs]; exact e4.symm, by rw [e5]; simp only [e3, h.born],
      fun o => ?_, fun o ho => ?_, by rw [e5]; exact e9⟩
    · simp only
      rw [e6 o, e5, e4]
      simp
    · rw [e4] at ho
      rw [e5]
      exact e7 o ho
  | assign i j =>
    simp only [Spec.step, Option.bind_eq_some_iff] at hs
    obtain ⟨p, hp, q, hq, hs⟩ := hs
    split at hs
    · cases hs
    · next hos =>
      simp only [Option.some.injEq] at hs
      obtain ⟨s1, e1, e2, e3, e4, e5, e6, e7, e8, e9⟩ := drop_rel h (p := p) (q := q) (hs' := a.hs.set i (some q))
        (fun o e => (held_live h (e ▸ hp)).1) (fun o => by simpa using cnt_set hp (some q) o) (fun o e => (held_live h (e ▸ hq)).2)
        (fun o h1 h2 => by
          subst h1 h2
          simp only [Spec.onlySelf, beq_self_eq_true, Bool.true_and, Bool.not_eq_true', Bool.not_eq_false, held_iff] at hos
          have := cnt_set hp none o
          simp only [if_true, reduceCtorEq, if_false] at this
          omega)
      rw [hs] at e1 e4 e5 e6 e7 e8 e9
      obtain ⟨s', g1, g2⟩ := grab_rel (hs := a.hs.set i (some q)) (born := a.born) (dead := a'.dead)
        (s := { s1 with hs := s1.hs.set i (some q) }) e8 (by simp only [e2, h.hs]) (by simp only [e3, h.born]) e6 e7 e9
      refine ⟨s', by rw [step, ptr_eq h, hp, Option.bind_some, ptr_eq h, hq, Option.bind_some, e1, Option.bind_some, g1]; rfl, ?_⟩
      rw [← e4, ← e5] at g2
      exact g2
  | moveAssign i j =>
    simp only [Spec.step, Option.bind_eq_some_iff, Option.map_eq_some_iff] at hs
    obtain ⟨p, hp, q, hq, hs⟩ := hs
    have hcc : ∀ o, cnt ((a.hs.set i (some q)).set j (some none)) o + (if p = some o then 1 else 0) = cnt a.hs o := by
      intro o
      have h1 := cnt_set hp (some q) o
      have hq' : ((a.hs.set i (some q))[j]?).bind id = some q := by
        by_cases hij : i = j
        · subst hij
          rw [List.getElem?_set]
          rw [Spec.ptr, Option.bind_eq_some_iff] at hq
          obtain ⟨x, hx, -⟩ := hq
          have := (List.getElem?_eq_some_iff.1 hx).1
          simp [this]
        · rw [List.getElem?_set_ne hij]
          exact hq
      have h2 := cnt_set hq' (some none) o
      simp only [Option.some.injEq, reduceCtorEq, if_false] at *
      omega
    obtain ⟨s1, e1, e2, e3, e4, e5, e6, e7, -, e9⟩ := drop_rel h (p := p) (q := none) (hs' := (a.hs.set i (some q)).set j (some none))
      (fun o e => (held_live h (e ▸ hp)).1) (fun o => by simpa using hcc o) (by simp) (by simp)
    rw [hs] at e1 e4 e5 e6 e7 e9
    refine ⟨{ s1 with hs := (s1.hs.set i (some q)).set j (some none) }, by rw [step, ptr_eq h, hp, Option.bind_some, ptr_eq h, hq, Option.bind_some, e1]; rfl, by simp only [e2, h.hs]; exact e4.symm,
      by rw [e5]; simp only [e3, h.born], fun o => ?_, fun o ho => ?_, by rw [e5]; exact e9⟩
    · simp only
      rw [e6 o, e5, e4]
      simp
    · rw [e4] at ho
      rw [e5]
      exact e7 o ho
  | assignRaw i q =>
    simp only [Spec.step, Option.bind_eq_some_iff] at hs
    obtain ⟨p, hp, hs⟩ := hs
    split at hs
    · cases hs
    · next hos =>
      simp only [Option.some.injEq] at hs
      simp only [Bool.or_eq_true, not_or, Bool.not_eq_true', Bool.not_eq_false] at hos
      obtain ⟨hos, hv⟩ := hos
      obtain ⟨s1, e1, e2, e3, e4, e5, e6, e7, e8, e9⟩ := drop_rel h (p := p) (q := q) (hs' := a.hs.set i (some q))
        (fun o e => (held_live h (e ▸ hp)).1) (fun o => by simpa using cnt_set hp (some q) o) (fun o e => by
          subst e
          simpa [Spec.valid] using hv)
        (fun o h1 h2 => by
          subst h1 h2
          simp only [Spec.onlySelf, beq_self_eq_true, Bool.true_and, Bool.not_eq_true', Bool.not_eq_false, held_iff] at hos
          have := cnt_set hp none o
          simp only [if_true, reduceCtorEq, if_false] at this
          omega)
      rw [hs] at e1 e4 e5 e6 e7 e8 e9
      obtain ⟨s', g1, g2⟩ := grab_rel (hs := a.hs.set i (some q)) (born := a.born) (dead := a'.dead)
        (s := { s1 with hs := s1.hs.set i (some q) }) e8 (by simp only [e2, h.hs]) (by simp only [e3, h.born]) e6 e7 e9
      refine ⟨s', by rw [step, ptr_eq h, hp, Option.bind_some, e1, Option.bind_some, g1]; rfl, ?_⟩
      rw [← e4, ← e5] at g2
      exact g2

/-- No handles and no objects. -/
def init : St := ⟨[], 0, fun _ => none⟩

/-- No handles and no objects. -/
def Spec.init : Spec := ⟨[], 0, []⟩

theorem init_rel : Rel Spec.init init :=
  ⟨rfl, rfl, fun o => by simp [init, Spec.init], fun o h => by simp [cnt, Spec.init] at h, fun o h => by cases h⟩

/-! ### The effect of a call, on handles -/

/-- Handles in a state of the specification are on objects that exist. -/
structure SInv (a : Spec) : Prop where
  live : ∀ o, held a.hs o = true → o < a.born ∧ o ∉ a.dead
  dead : ∀ o ∈ a.dead, o < a.born
  once : a.dead.Nodup

theorem change_effect {a : Spec} (hi : SInv a) {p : Option Nat} {hs' : List (Option (Option Nat))}
    (hp : ∀ o, p = some o → held a.hs o = true) (hlose : ∀ o, p ≠ some o → held a.hs o = true → held hs' o = true)
    (hnew : ∀ o, held hs' o = true → o < a.born ∧ o ∉ a.dead) {a' : Spec} {r : List Nat} (h : a.change p hs' = (a', r)) :
    SInv a' ∧ a'.dead = r ++ a.dead ∧ a'.hs = hs' ∧ ∀ o, o ∈ r ↔ held a.hs o = true ∧ held a'.hs o = false := by
  unfold Spec.change at h
  cases p with
  | none =>
    simp only [Prod.mk.injEq] at h
    obtain ⟨rfl, rfl⟩ := h
    refine ⟨⟨hnew, hi.dead, hi.once⟩, rfl, rfl, fun o => ⟨fun h => (by cases h), fun ⟨h1, h2⟩ => ?_⟩⟩
    rw [hlose o (by simp) h1] at h2
    cases h2
  | some x =>
    simp only at h
    have hx := hp x rfl
    split at h
    · next hh =>
      simp only [Prod.mk.injEq] at h
      obtain ⟨rfl, rfl⟩ := h
      refine ⟨⟨hnew, hi.dead, hi.once⟩, rfl, rfl, fun o => ⟨fun h => (by cases h), fun ⟨h1, h2⟩ => ?_⟩⟩
      by_cases ho : x = o
      · rw [ho] at hh
        rw [hh] at h2
        cases h2
      · rw [hlose o (by simpa using ho) h1] at h2
        cases h2
    · next hh =>
      simp only [Prod.mk.injEq] at h
      obtain ⟨rfl, rfl⟩ := h
      refine ⟨⟨fun o ho => ?_, fun o ho => ?_, ?_⟩, rfl, rfl, fun o => ?_⟩
      · have := hnew o ho
        refine ⟨this.1, fun hm => ?_⟩
        rcases List.mem_cons.1 hm with e | e
        · rw [e] at ho
          exact hh ho
        · exact this.2 e
      · rcases List.mem_cons.1 ho with e | e
        · rw [e]
          exact (hi.live x hx).1
        · exact hi.dead o e
      · exact List.nodup_cons.2 ⟨(hi.live x hx).2, hi.once⟩
      · rw [List.mem_singleton]
        constructor
        · rintro rfl
          exact ⟨hx, by simpa using hh⟩
        · rintro ⟨h1, h2⟩
          refine Decidable.byContradiction fun hne => ?_
          rw [hlose o (fun e => hne (by simpa using e.symm)) h1] at h2
          cases h2

theorem held_append (hs : List (Option (Option Nat))) (p : Option Nat) (o : Nat) :
    held (hs ++ [some p]) o = (held hs o || p == some o) := by
  rw [Bool.eq_iff_iff, held_iff, cnt_append, cnt_single, Bool.or_eq_true, held_iff]
  simp only [Option.some.injEq, beq_iff_eq]
  split
  · next h => exact ⟨fun _ => Or.inr h, fun _ => by omega⟩
  · next h => exact ⟨fun h1 => Or.inl (by omega), fun h1 => h1.elim (fun h2 => by omega) (fun h2 => absurd h2 h)⟩

theorem held_ptr {a : Spec} {i o : Nat} (hp : a.ptr i = some (some o)) : held a.hs o = true := by
  rw [Spec.ptr, Option.bind_eq_some_iff] at hp
  obtain ⟨x, hx, e⟩ := hp
  simp only [id] at e
  subst e
  unfold held
  rw [List.contains_iff_mem]
  exact List.mem_of_getElem? hx

theorem held_set {a : Spec} {i : Nat} {p : Option Nat} (hp : a.ptr i = some p) (q : Option (Option Nat)) (o : Nat) :
    (held (a.hs.set i q) o = true → held a.hs o = true ∨ q = some (some o)) ∧
    (p ≠ some o → held a.hs o = true → held (a.hs.set i q) o = true) := by
  have := cnt_set hp q o
  rw [held_iff, held_iff]
  constructor
  · intro h
    by_cases hq : q = some (some o)
    · exact Or.inr hq
    · rw [if_neg hq] at this
      exact Or.inl (by omega)
  · intro h1 h2
    rw [if_neg h1] at this
    omega

/-- Objects destroyed by a call are exactly those that lose their last handle in it. -/
theorem spec_effect {a a' : Spec} {op : Op} {r : List Nat} (hi : SInv a) (h : a.step op = some (a', r)) :
    SInv a' ∧ a'.dead = r ++ a.dead ∧ ∀ o, o ∈ r ↔ held a.hs o = true ∧ held a'.hs o = false := by
  have happ : ∀ p : Option Nat, (∀ o, p = some o → o < a.born ∧ o ∉ a.dead) →
      SInv ⟨a.hs ++ [some p], a.born, a.dead⟩ ∧ ∀ o, o ∈ ([] : List Nat) ↔ held a.hs o = true ∧ held (a.hs ++ [some p]) o = false := by
    intro p hp
    refine ⟨⟨fun o ho => ?_, hi.dead, hi.once⟩, fun o => ⟨fun h => (by cases h), fun ⟨h1, h2⟩ => ?_⟩⟩
    · simp only at ho
      rw [held_append] at ho
      simp only [Bool.or_eq_true, beq_iff_eq] at ho
      exact ho.elim (hi.live o) (hp o)
    · rw [held_append, h1] at h2
      cases h2
  cases op with
  | obj =>
    simp only [Spec.step, Option.some.injEq, Prod.mk.injEq] at h
    obtain ⟨rfl, rfl⟩ := h
    refine ⟨⟨fun o ho => ⟨Nat.lt_succ_of_lt (hi.live o ho).1, (hi.live o ho).2⟩, fun o ho => Nat.lt_succ_of_lt (hi.dead o ho), hi.once⟩, rfl,
      fun o => ⟨fun h => (by cases h), fun ⟨h1, h2⟩ => ?_⟩⟩
    rw [h1] at h2
    cases h2
  | make p =>
    simp only [Spec.step] at h
    split at h
    · next hv =>
      simp only [Option.some.injEq, Prod.mk.injEq] at h
      obtain ⟨rfl, rfl⟩ := h
      have := happ p (fun o e => by subst e; simpa [Spec.valid] using hv)
      exact ⟨this.1, rfl, this.2⟩
    · cases h
  | copy i =>
    simp only [Spec.step, Option.map_eq_some_iff, Prod.mk.injEq] at h
    obtain ⟨p, hp, rfl, rfl⟩ := h
    have := happ p (fun o e => hi.live o (held_ptr (e ▸ hp)))
    exact ⟨this.1, rfl, this.2⟩
  | move i =>
    simp only [Spec.step, Option.map_eq_some_iff, Prod.mk.injEq] at h
    obtain ⟨p, hp, rfl, rfl⟩ := h
    have hc : ∀ o, held (a.hs.set i (some none) ++ [some p]) o = held a.hs o := fun o => by
      have := cnt_set hp (some none) o
      rw [Bool.eq_iff_iff, held_iff, held_iff, cnt_append, cnt_single]
      simp only [Option.some.injEq, reduceCtorEq, if_false] at *
      omega
    refine ⟨⟨fun o ho => hi.live o (by rw [← hc]; exact ho), hi.dead, hi.once⟩, rfl,
      fun o => ⟨fun h => (by cases h), fun ⟨h1, h2⟩ => ?_⟩⟩
    simp only at h2
    rw [hc, h1] at h2
    cases h2
  | drop i =>
    simp only [Spec.step, Option.map_eq_some_iff] at h
    obtain ⟨p, hp, h⟩ := h
    have := change_effect hi (fun o e => held_ptr (e ▸ hp)) (fun o h1 h2 => (held_set hp none o).2 h1 h2)
      (fun o ho => hi.live o (((held_set hp none o).1 ho).resolve_right (by simp))) h
    exact ⟨this.1, this.2.1, this.2.2.2⟩
  | assign i j =>
    simp only [Spec.step, Option.bind_eq_some_iff] at h
    obtain ⟨p, hp, q, hq, h⟩ := h
    split at h
    · cases h
    · simp only [Option.some.injEq] at h
      have := change_effect hi (fun o e => held_ptr (e ▸ hp)) (fun o h1 h2 => (held_set hp (some q) o).2 h1 h2)
        (fun o ho => ((held_set hp (some q) o).1 ho).elim (hi.live o) (fun e => hi.live o (held_ptr (by rw [hq]; exact e)))) h
      exact ⟨this.1, this.2.1, this.2.2.2⟩
  | moveAssign i j =>
    simp only [Spec.step, Option.bind_eq_some_iff, Option.map_eq_some_iff] at h
    obtain ⟨p, hp, q, hq, h⟩ := h
    have hcc : ∀ o, cnt ((a.hs.set i (some q)).set j (some none)) o + (if p = some o then 1 else 0) = cnt a.hs o := by
      intro o
      have h1 := cnt_set hp (some q) o
      have hq' : ((a.hs.set i (some q))[j]?).bind id = some q := by
        by_cases hij : i = j
        · subst hij
          rw [List.getElem?_set]
          rw [Spec.ptr, Option.bind_eq_some_iff] at hq
          obtain ⟨x, hx, -⟩ := hq
          have := (List.getElem?_eq_some_iff.1 hx).1
          simp [this]
        · rw [List.getElem?_set_ne hij]
          exact hq
      have h2 := cnt_set hq' (some none) o
      simp only [Option.some.injEq, reduceCtorEq, if_false] at *
      omega
    have := change_effect hi (fun o e => held_ptr (e ▸ hp)) (fun o h1 h2 => by
        have := hcc o
        rw [held_iff] at *
        rw [if_neg h1] at this
        omega)
      (fun o ho => hi.live o (by
        have := hcc o
        rw [held_iff] at *
        omega)) h
    exact ⟨this.1, this.2.1, this.2.2.2⟩
  | assignRaw i q =>
    simp only [Spec.step, Option.bind_eq_some_iff] at h
    obtain ⟨p, hp, h⟩ := h
    split at h
    · cases h
    · next hos =>
      simp only [Option.some.injEq] at h
      simp only [Bool.or_eq_true, not_or, Bool.not_eq_true', Bool.not_eq_false] at hos
      have := change_effect hi (fun o e => held_ptr (e ▸ hp)) (fun o h1 h2 => (held_set hp (some q) o).2 h1 h2)
        (fun o ho => ((held_set hp (some q) o).1 ho).elim (hi.live o) (fun e => by
          simp only [Option.some.injEq] at e
          subst e
          simpa [Spec.valid] using hos.2)) h
      exact ⟨this.1, this.2.1, this.2.2.2⟩

theorem run_effect : ∀ (os : List Op) (a a' : Spec) (rs : List (List Nat)), SInv a → runAll Spec.step os a = some (a', rs) →
    SInv a' ∧ a'.dead.Perm (rs.flatten ++ a.dead) := by
  intro os
  induction os with
  | nil =>
    intro a a' rs hi h
    simp only [runAll, Option.some.injEq, Prod.mk.injEq] at h
    obtain ⟨rfl, rfl⟩ := h
    exact ⟨hi, by simp⟩
  | cons op os ih =>
    intro a a' rs hi h
    simp only [runAll, Option.bind_eq_some_iff, Option.map_eq_some_iff] at h
    obtain ⟨⟨a1, r⟩, h1, ⟨a2, rs'⟩, h2, h3⟩ := h
    simp only [Prod.mk.injEq] at h3
    obtain ⟨rfl, rfl⟩ := h3
    obtain ⟨i1, d1, -⟩ := spec_effect hi h1
    obtain ⟨i2, d2⟩ := ih a1 a2 rs' i1 h2
    refine ⟨i2, d2.trans ?_⟩
    rw [d1, List.flatten_cons, ← List.append_assoc]
    exact List.perm_append_comm.append_right _

theorem init_inv : SInv Spec.init := ⟨fun o h => by simp [held, Spec.init] at h, fun o h => (by cases h), List.nodup_nil⟩

/-! ## C45 -/

/-- **C45** (partial): for every history of calls on handles in which no handle is assigned the very object it is the only handle of,
no destroyed object is touched and the objects destroyed in each call are as specified. -/
theorem C45_history_partial (os : List Op) (a : Spec) (rs : List (List Nat)) (h : runAll Spec.step os Spec.init = some (a, rs)) :
    ∃ s, runAll step os init = some (s, rs) ∧ s.hs = a.hs := by
  obtain ⟨s, h1, h2⟩ := runAll_sim (R := Rel) step_sim os _ _ a rs init_rel h
  exact ⟨s, h1, h2.hs⟩

/-- **C45** (partial): after every such history, the next call destroys exactly the objects that lose their last handle in it, none of
which has been destroyed before, and every handle is on an object that has not been destroyed. -/
theorem C45_last_handle_partial (os : List Op) (op : Op) (a a' : Spec) (rs : List (List Nat)) (r : List Nat)
    (h : runAll Spec.step os Spec.init = some (a, rs)) (ho : a.step op = some (a', r)) :
    ∃ s s', runAll step os init = some (s, rs) ∧ step op s = some (s', r) ∧
      (∀ o, o ∈ r ↔ some (some o) ∈ s.hs ∧ some (some o) ∉ s'.hs) ∧ (rs.flatten ++ r).Nodup ∧
      ∀ o, some (some o) ∈ s'.hs → o ∉ rs.flatten ++ r := by
  obtain ⟨s, h1, h2⟩ := runAll_sim (R := Rel) step_sim os _ _ a rs init_rel h
  obtain ⟨s', h3, h4⟩ := step_sim op a s a' r h2 ho
  obtain ⟨i1, d1⟩ := run_effect os _ _ _ init_inv h
  obtain ⟨i2, d2, e⟩ := spec_effect i1 ho
  have hd : a'.dead.Perm (rs.flatten ++ r) := by
    rw [d2]
    refine List.perm_append_comm.trans ?_
    have : (Spec.init).dead = [] := rfl
    rw [this, List.append_nil] at d1
    exact d1.append_right r
  have hm : ∀ (l : List (Option (Option Nat))) (o : Nat), some (some o) ∈ l ↔ held l o = true := fun l o => by
    rw [held, List.contains_iff_mem]
  refine ⟨s, s', h1, h3, fun o => ?_, hd.nodup_iff.1 i2.once, fun o hho hdo => ?_⟩
  · rw [e o, hm, hm, h2.hs, h4.hs]
    simp
  · rw [hm, h4.hs] at hho
    exact (i2.live o hho).2 (hd.mem_iff.2 hdo)

/-- The full claim fails: assigning a handle to itself when it is the only one destroys the object and then uses it. -/
theorem C45_self_assign_counterexample : runAll step [.obj, .make (some 0), .assign 0 0] init = none := by decide

example : (runAll Spec.step [.obj, .make (some 0), .copy 0, .make none, .move 1, .assign 2 0, .moveAssign 3 2, .obj, .assignRaw 0 (some 1),
    .drop 0, .drop 3, .drop 1, .drop 2] Spec.init).map (·.2) = some [[], [], [], [], [], [], [], [], [], [1], [0], [], []] := by decide

end Verif.Ptr.RefCount
