import Verif.Own.Model

/-! # C192: nodes are given back exactly once, however containers are moved -/

namespace Verif.Own

/-! ## Specification -/

/-- The contents of the objects, and whether they may still be used (not only destroyed or assigned to). -/
abbrev Spec := Nat → Option (List Nat × Bool)

/-- Change one object. -/
def Spec.put (s : Spec) (k : Nat) (o : Option (List Nat × Bool)) : Spec := fun i => if i = k then o else s i

/-- What a program expects; `none` if it breaks the rules: objects are made before they are used, and not twice; an
object that has been moved from is used again only if `re` says so. -/
def spec (re : Bool) : Op → Spec → Option Spec
  | .ctor k _, s => if s k = none then some (s.put k (some ([], true))) else none
  | .insert k v, s => match s k with
    | some (l, true) => some (s.put k (some (l ++ [v], true)))
    | _ => none
  | .remove k i, s => match s k with
    | some (l, true) => some (s.put k (some (l.eraseIdx i, true)))
    | _ => none
  | .clear k, s => match s k with
    | some (_, u) => some (s.put k (some ([], u)))
    | _ => none
  | .moveCtor k j, s => match s k, s j with
    | none, some (l, u) => some ((s.put k (some (l, u))).put j (some ([], u && re)))
    | _, _ => none
  | .moveAssign k j, s => match s k, s j with
    | some _, some (l, u) => if k = j then none else some ((s.put k (some (l, u))).put j (some ([], re)))
    | _, _ => none
  | .dtor k, s => match s k with
    | some _ => some (s.put k none)
    | _ => none

/-- The same for a program. -/
def specRun (re : Bool) : List Op → Spec → Option Spec
  | [], s => some s
  | op :: l, s => (spec re op s).bind (specRun re l)

/-- What an object has taken from its allocator. -/
def owned (o : Obj) : List Nat := o.nodes.map (·.1) ++ o.nil.toList

/-- The same for the object of a number. -/
def ownAt (w : World) (k : Nat) : List Nat :=
  match w.objs k with
  | none => []
  | some o => owned o

/-- Its policy. -/
def polAt (w : World) (k : Nat) : Option Nat := (w.objs k).bind (·.pol)

/-- Ownership: no memory belongs to two objects or twice to one, and taken is exactly what belongs to an object. -/
structure Own (w : World) : Prop where
  excl : ∀ k j a, a ∈ ownAt w k → a ∈ ownAt w j → k = j
  nodup : ∀ k, (ownAt w k).Nodup
  live : ∀ a p, w.live a = some p ↔ ∃ k, a ∈ ownAt w k ∧ polAt w k = some p
  pol : ∀ k a, a ∈ ownAt w k → ∃ p, polAt w k = some p
  lt : ∀ a p, w.live a = some p → a < w.next

theorem Own.live_of {w : World} (h : Own w) {k a : Nat} (ha : a ∈ ownAt w k) : w.live a = polAt w k := by
  obtain ⟨p, hp⟩ := h.pol k a ha
  rw [hp]; exact (h.live a p).2 ⟨k, ha, hp⟩

/-- One object changes. -/
theorem Own.set {w w' : World} (h : Own w) (k : Nat)
    (ho : ∀ i, i ≠ k → ownAt w' i = ownAt w i ∧ polAt w' i = polAt w i)
    (hn : (ownAt w' k).Nodup) (hp : ∀ a ∈ ownAt w' k, ∃ p, polAt w' k = some p)
    (hf : ∀ a ∈ ownAt w' k, a ∈ ownAt w k ∨ w.live a = none)
    (hl : ∀ a, w'.live a = if a ∈ ownAt w' k then polAt w' k else if a ∈ ownAt w k then none else w.live a)
    (hlt : ∀ a p, w'.live a = some p → a < w'.next) : Own w' := by
  have key : ∀ i a, i ≠ k → a ∈ ownAt w' i → a ∈ ownAt w i ∧ a ∉ ownAt w' k := by
    intro i a hi ha
    rw [(ho i hi).1] at ha
    refine ⟨ha, fun hk => ?_⟩
    rcases hf a hk with h1 | h1
    · exact hi (h.excl _ _ _ ha h1)
    · obtain ⟨p, hp⟩ := h.pol i a ha
      rw [h.live_of ha, hp] at h1; cases h1
  refine ⟨fun i j a hi hj => ?_, fun i => ?_, fun a p => ?_, fun i a ha => ?_, hlt⟩
  · by_cases e1 : i = k
    · by_cases e2 : j = k
      · rw [e1, e2]
      · subst e1; exact absurd hi (key j a e2 hj).2
    · by_cases e2 : j = k
      · subst e2; exact absurd hj (key i a e1 hi).2
      · exact h.excl _ _ _ (key i a e1 hi).1 (key j a e2 hj).1
  · by_cases e : i = k
    · rw [e]; exact hn
    · rw [(ho i e).1]; exact h.nodup i
  · rw [hl]
    constructor
    · intro hh
      split at hh
      · next h1 => exact ⟨k, h1, hh⟩
      · next h1 =>
        split at hh
        · cases hh
        · next h2 =>
          obtain ⟨i, hi1, hi2⟩ := (h.live a p).1 hh
          have e : i ≠ k := by rintro rfl; exact h2 hi1
          exact ⟨i, by rw [(ho i e).1]; exact hi1, by rw [(ho i e).2]; exact hi2⟩
    · rintro ⟨i, hi1, hi2⟩
      by_cases e : i = k
      · subst e; rw [if_pos hi1]; exact hi2
      · obtain ⟨h1, h2⟩ := key i a e hi1
        rw [if_neg h2, if_neg fun h3 => e (h.excl _ _ _ h1 h3)]
        rw [h.live_of h1, ← (ho i e).2, hi2]
  · by_cases e : i = k
    · subst e; exact hp a ha
    · rw [(ho i e).2]; exact h.pol i a (key i a e ha).1

/-- Two objects exchange what they own. -/
theorem Own.two {w w' : World} (h : Own w) {k j : Nat} (hkj : k ≠ j)
    (ho : ∀ i, i ≠ k → i ≠ j → ownAt w' i = ownAt w i ∧ polAt w' i = polAt w i)
    (hm : (ownAt w' k ++ ownAt w' j).Perm (ownAt w k ++ ownAt w j))
    (hp : ∀ i, i = k ∨ i = j → ∀ a ∈ ownAt w' i, polAt w' i = w.live a)
    (hl : w'.live = w.live) (hx : w'.next = w.next) : Own w' := by
  have hnd : (ownAt w k ++ ownAt w j).Nodup := by
    rw [List.nodup_append]
    exact ⟨h.nodup k, h.nodup j, fun a ha b hb e => by subst e; exact hkj (h.excl _ _ _ ha hb)⟩
  have hnd' := hm.nodup_iff.2 hnd
  rw [List.nodup_append] at hnd'
  obtain ⟨n1, n2, n3⟩ := hnd'
  have mem : ∀ a, (a ∈ ownAt w' k ∨ a ∈ ownAt w' j) ↔ (a ∈ ownAt w k ∨ a ∈ ownAt w j) := by
    intro a; simpa using hm.mem_iff (a := a)
  have other : ∀ i a, i ≠ k → i ≠ j → a ∈ ownAt w' i → ¬ (a ∈ ownAt w' k ∨ a ∈ ownAt w' j) := by
    intro i a hk hj ha h'
    rw [(ho i hk hj).1] at ha
    rcases (mem a).1 h' with h1 | h1
    · exact hk (h.excl _ _ _ ha h1)
    · exact hj (h.excl _ _ _ ha h1)
  have old : ∀ a, a ∈ ownAt w' k ∨ a ∈ ownAt w' j → ∃ p, w.live a = some p := by
    intro a ha
    rcases (mem a).1 ha with h1 | h1 <;>
    · obtain ⟨p, hp⟩ := h.pol _ a h1
      exact ⟨p, by rw [h.live_of h1, hp]⟩
  refine ⟨fun i l a hi hl' => ?_, fun i => ?_, fun a p => ?_, fun i a ha => ?_, fun a p => ?_⟩
  · by_cases e1 : i = k
    · by_cases e2 : l = k
      · rw [e1, e2]
      · by_cases e3 : l = j
        · subst e1 e3; exact absurd rfl (n3 a hi a hl')
        · subst e1; exact absurd (.inl hi) (other l a e2 e3 hl')
    · by_cases e1' : i = j
      · by_cases e2 : l = k
        · subst e1' e2; exact absurd rfl (n3 a hl' a hi)
        · by_cases e3 : l = j
          · rw [e1', e3]
          · subst e1'; exact absurd (.inr hi) (other l a e2 e3 hl')
      · have hno := other i a e1 e1' hi
        have e2 : l ≠ k := by rintro rfl; exact hno (.inl hl')
        have e3 : l ≠ j := by rintro rfl; exact hno (.inr hl')
        rw [(ho i e1 e1').1] at hi
        rw [(ho l e2 e3).1] at hl'
        exact h.excl _ _ _ hi hl'
  · by_cases e1 : i = k
    · rw [e1]; exact n1
    · by_cases e2 : i = j
      · rw [e2]; exact n2
      · rw [(ho i e1 e2).1]; exact h.nodup i
  · rw [hl]
    constructor
    · intro hh
      obtain ⟨i, hi1, hi2⟩ := (h.live a p).1 hh
      by_cases hm' : a ∈ ownAt w' k ∨ a ∈ ownAt w' j
      · rcases hm' with h1 | h1
        · exact ⟨k, h1, by rw [hp k (.inl rfl) a h1, hh]⟩
        · exact ⟨j, h1, by rw [hp j (.inr rfl) a h1, hh]⟩
      · have e1 : i ≠ k := by rintro rfl; exact hm' ((mem a).2 (.inl hi1))
        have e2 : i ≠ j := by rintro rfl; exact hm' ((mem a).2 (.inr hi1))
        exact ⟨i, by rw [(ho i e1 e2).1]; exact hi1, by rw [(ho i e1 e2).2]; exact hi2⟩
    · rintro ⟨i, hi1, hi2⟩
      by_cases e1 : i = k
      · subst e1; rw [← hp i (.inl rfl) a hi1]; exact hi2
      · by_cases e2 : i = j
        · subst e2; rw [← hp i (.inr rfl) a hi1]; exact hi2
        · rw [(ho i e1 e2).1] at hi1
          rw [(ho i e1 e2).2] at hi2
          exact (h.live a p).2 ⟨i, hi1, hi2⟩
  · by_cases e1 : i = k
    · subst e1
      obtain ⟨p, h1⟩ := old a (.inl ha)
      exact ⟨p, by rw [hp i (.inl rfl) a ha, h1]⟩
    · by_cases e2 : i = j
      · subst e2
        obtain ⟨p, h1⟩ := old a (.inr ha)
        exact ⟨p, by rw [hp i (.inr rfl) a ha, h1]⟩
      · rw [(ho i e1 e2).1] at ha
        rw [(ho i e1 e2).2]
        exact h.pol i a ha
  · rw [hl, hx]; exact h.lt a p

/-- Memory that is given back. -/
def drop (l : List Nat) (w : World) : World := { w with live := fun a => if a ∈ l then none else w.live a }

theorem freeAll_eq {pol : Option Nat} {l : List Nat} {w : World} (hn : l.Nodup)
    (hl : ∀ a ∈ l, ∃ p, pol = some p ∧ w.live a = some p) : freeAll pol l w = some (drop l w) := by
  induction l generalizing w with
  | nil => simp [freeAll, drop]
  | cons a l ih =>
    obtain ⟨p, rfl, h2⟩ := hl a (by simp)
    rw [List.nodup_cons] at hn
    simp only [freeAll, free, if_pos h2, Option.bind_some]
    rw [ih hn.2]
    · congr 1
      simp only [drop, World.mk.injEq, and_true]
      funext b
      simp only [List.mem_cons]
      by_cases e : b = a
      · simp [e]
      · simp [e]
    · intro b hb
      obtain ⟨q, e1, e2⟩ := hl b (by simp [hb])
      refine ⟨q, e1, ?_⟩
      have : b ≠ a := by rintro rfl; exact hn.1 hb
      simp only [if_neg this, e2]

@[simp] theorem put_objs (w : World) (k : Nat) (o : Option Obj) (i : Nat) :
    (w.put k o).objs i = if i = k then o else w.objs i := rfl
@[simp] theorem put_live (w : World) (k : Nat) (o : Option Obj) : (w.put k o).live = w.live := rfl
@[simp] theorem put_next (w : World) (k : Nat) (o : Option Obj) : (w.put k o).next = w.next := rfl
@[simp] theorem put_raw (w : World) (k : Nat) (o : Option Obj) : (w.put k o).raw = w.raw := rfl

theorem ownAt_put (w : World) (k : Nat) (o : Option Obj) (i : Nat) :
    ownAt (w.put k o) i = if i = k then (match o with | none => [] | some o => owned o) else ownAt w i := by
  unfold ownAt; rw [put_objs]; by_cases h : i = k <;> simp [h]

theorem polAt_put (w : World) (k : Nat) (o : Option Obj) (i : Nat) :
    polAt (w.put k o) i = if i = k then o.bind (·.pol) else polAt w i := by
  unfold polAt; rw [put_objs]; by_cases h : i = k <;> simp [h]

theorem ownAt_some {w : World} {k : Nat} {o : Obj} (h : w.objs k = some o) : ownAt w k = owned o := by
  simp [ownAt, h]

theorem polAt_some {w : World} {k : Nat} {o : Obj} (h : w.objs k = some o) : polAt w k = o.pol := by
  simp [polAt, h]

/-- `Own` looks only at the memory and the objects. -/
theorem Own.congr {w w' : World} (h : Own w) (h1 : w'.live = w.live) (h2 : w'.next = w.next) (h3 : w'.objs = w.objs) :
    Own w' := by
  have e1 : ∀ k, ownAt w' k = ownAt w k := fun k => by simp [ownAt, h3]
  have e2 : ∀ k, polAt w' k = polAt w k := fun k => by simp [polAt, h3]
  refine ⟨?_, ?_, ?_, ?_, ?_⟩
  · simpa only [e1] using h.excl
  · simpa only [e1] using h.nodup
  · simpa only [e1, e2, h1] using h.live
  · simpa only [e1, e2] using h.pol
  · simpa only [h1, h2] using h.lt

/-- An object gives back the part `l` of what it owns. -/
theorem Own.shrink {w : World} (h : Own w) {k : Nat} {o : Obj} (hk : w.objs k = some o) {l : List Nat} {o' : Option Obj}
    (hperm : (l ++ (match o' with | none => [] | some o' => owned o')).Perm (owned o))
    (hpol : ∀ x, o' = some x → x.pol = o.pol) : Own ((drop l w).put k o') := by
  have hnd := h.nodup k
  rw [ownAt_some hk, ← hperm.nodup_iff, List.nodup_append] at hnd
  obtain ⟨n1, n2, n3⟩ := hnd
  have hmem : ∀ a, a ∈ owned o ↔ a ∈ l ∨ a ∈ ownAt ((drop l w).put k o') k := by
    intro a; rw [← hperm.mem_iff, ownAt_put, if_pos rfl, List.mem_append]
  have hpk : ∀ a ∈ ownAt ((drop l w).put k o') k, polAt ((drop l w).put k o') k = polAt w k := by
    intro a ha
    cases ho : o' with
    | none => subst ho; simp [ownAt_put] at ha
    | some x => rw [polAt_put, if_pos rfl, polAt_some hk]; exact hpol x ho
  apply h.set k
  · intro i hi
    rw [ownAt_put, polAt_put, if_neg hi, if_neg hi]; exact ⟨rfl, rfl⟩
  · rw [ownAt_put, if_pos rfl]; exact n2
  · intro a ha
    rw [hpk a ha]
    exact h.pol k a (by rw [ownAt_some hk]; exact (hmem a).2 (.inr ha))
  · intro a ha
    exact .inl (by rw [ownAt_some hk]; exact (hmem a).2 (.inr ha))
  · intro a
    rw [ownAt_some hk]
    by_cases h1 : a ∈ ownAt ((drop l w).put k o') k
    · rw [if_pos h1, hpk a h1]
      have h2 : a ∉ l := fun h2 => n3 a h2 a (by rw [ownAt_put, if_pos rfl] at h1; exact h1) rfl
      simp only [put_live, drop, if_neg h2]
      exact h.live_of (by rw [ownAt_some hk]; exact (hmem a).2 (.inr h1))
    · rw [if_neg h1]
      simp only [put_live, drop]
      by_cases h2 : a ∈ l
      · rw [if_pos h2, if_pos ((hmem a).2 (.inl h2))]
      · rw [if_neg h2, if_neg fun h3 => ((hmem a).1 h3).elim h2 h1]
  · intro a p hh
    simp only [put_live, drop, put_next] at hh ⊢
    split at hh
    · cases hh
    · exact h.lt a p hh

/-- An object takes a new piece of memory. -/
theorem Own.grow {w : World} (h : Own w) {k p : Nat} {o' : Obj}
    (hperm : (owned o').Perm (w.next :: ownAt w k)) (hpol : o'.pol = some p) (hold : ∀ a ∈ ownAt w k, polAt w k = some p)
    {w' : World} (h1 : w'.live = fun a => if a = w.next then some p else w.live a) (h2 : w'.next = w.next + 1)
    (h3 : w'.objs = w.objs) : Own (w'.put k (some o')) := by
  have hfresh : ∀ p, w.live w.next ≠ some p := fun p hp => absurd (h.lt _ _ hp) (Nat.lt_irrefl _)
  have hno : ∀ i, w.next ∉ ownAt w i := by
    intro i hi
    obtain ⟨q, hq⟩ := h.pol i _ hi
    exact hfresh q (by rw [h.live_of hi, hq])
  have e1 : ∀ i, ownAt w' i = ownAt w i := fun k => by simp [ownAt, h3]
  have e2 : ∀ i, polAt w' i = polAt w i := fun k => by simp [polAt, h3]
  have hk : ownAt (w'.put k (some o')) k = owned o' := by rw [ownAt_put, if_pos rfl]
  have hkp : polAt (w'.put k (some o')) k = some p := by rw [polAt_put, if_pos rfl]; exact hpol
  apply h.set k
  · intro i hi
    rw [ownAt_put, polAt_put, if_neg hi, if_neg hi, e1, e2]; exact ⟨rfl, rfl⟩
  · rw [hk, hperm.nodup_iff, List.nodup_cons]
    exact ⟨hno k, h.nodup k⟩
  · intro a _; exact ⟨p, hkp⟩
  · intro a ha
    rw [hk, hperm.mem_iff, List.mem_cons] at ha
    rcases ha with rfl | ha
    · right
      cases hc : w.live w.next with
      | none => rfl
      | some q => exact absurd hc (hfresh q)
    · exact .inl ha
  · intro a
    rw [hk, hkp, put_live, h1]
    simp only [hperm.mem_iff, List.mem_cons]
    by_cases c1 : a = w.next
    · simp [c1]
    · simp only [c1, false_or, if_false]
      by_cases c2 : a ∈ ownAt w k
      · simp only [c2, if_true]; rw [h.live_of c2, hold a c2]
      · simp [c2]
  · intro a q hh
    rw [put_live, h1] at hh
    rw [put_next, h2]
    by_cases c : a = w.next
    · omega
    · simp only [if_neg c] at hh
      have := h.lt a q hh
      omega

/-- A new object that owns nothing. -/
theorem Own.fresh {w : World} (h : Own w) {k : Nat} (hk : ownAt w k = []) {o : Obj} (ho : owned o = []) :
    Own (w.put k (some o)) := by
  have hk' : ownAt (w.put k (some o)) k = [] := by rw [ownAt_put, if_pos rfl]; exact ho
  apply h.set k
  · intro i hi; rw [ownAt_put, polAt_put, if_neg hi, if_neg hi]; exact ⟨rfl, rfl⟩
  · rw [hk']; exact List.nodup_nil
  · rw [hk']; simp
  · rw [hk']; simp
  · rw [hk', hk]; simp
  · exact h.lt

/-! ## The simulation -/

/-- What holds between the model and the specification.  `ok` for: the allocator has no state, or it is a `KDTree`. -/
structure Rel (c : Cfg) (w : World) (s : Spec) : Prop where
  own : Own w
  dom : ∀ k, s k = none ↔ w.objs k = none
  val : ∀ k l u o, s k = some (l, u) → w.objs k = some o →
    o.nodes.map (·.2) = l ∧ (u = true → ∃ p, o.pol = some p) ∧
    (u = true → ∀ a, o.nil = some a → a ∉ w.raw)
  std : c.poly = false → ∀ k o, w.objs k = some o → o.pol = some 0
  sent : ∀ k o, w.objs k = some o → (o.nil.isSome = true ↔ c.kind = .trb)
  raw : ∀ a ∈ w.raw, a < w.next

/-- The configurations that are right, with what they allow after a move. -/
def Good (c : Cfg) (re : Bool) : Prop :=
  (c.poly = false ∧ (c.kind ≠ .trb ∨ re = false)) ∨ (c.poly = true ∧ c.kind = .kd ∧ re = false)

theorem Good.left {c : Cfg} {re : Bool} (h : Good c re) (pol : Option Nat) (hc : c.kind = .list ∨ c.kind = .trb) :
    c.left pol = pol := by
  rcases h with ⟨h, _⟩ | ⟨_, h, _⟩
  · simp [Cfg.left, h]
  · rcases hc with hc | hc <;> rw [h] at hc <;> cases hc

theorem owned_split (o : Obj) : (o.nodes.map (·.1) ++ owned { o with nodes := [] }).Perm (owned o) := by
  simp [owned]

theorem clear_eq {c : Cfg} {re : Bool} (hg : Good c re) {w : World} (h : Own w) {k : Nat} {o : Obj}
    (hk : w.objs k = some o) :
    clear c o w = some ({ o with nodes := [] }, drop (o.nodes.map (·.1)) w) := by
  rw [clear, freeAll_eq]
  · simp only [Option.map_some, Option.some.injEq, Prod.mk.injEq, and_true]
    by_cases hc : c.kind = .list
    · rw [if_pos hc, hg.left _ (.inl hc)]
    · rw [if_neg hc]
  · have := h.nodup k
    rw [ownAt_some hk, owned, List.nodup_append] at this
    exact this.1
  · intro a ha
    have ha' : a ∈ ownAt w k := by rw [ownAt_some hk, owned, List.mem_append]; exact .inl ha
    obtain ⟨p, hp⟩ := h.pol k a ha'
    exact ⟨p, by rw [← polAt_some hk]; exact hp, by rw [h.live_of ha', hp]⟩

theorem mem_next {w : World} (h : Own w) {k : Nat} {o : Obj} (hk : w.objs k = some o) {a : Nat} (ha : o.nil = some a) :
    a < w.next := by
  have ha' : a ∈ ownAt w k := by rw [ownAt_some hk, owned, ha]; simp
  obtain ⟨p, hp⟩ := h.pol k a ha'
  exact h.lt a p (by rw [h.live_of ha', hp])

theorem Rel.obj {c : Cfg} {w : World} {s : Spec} (h : Rel c w s) {k : Nat} {x : List Nat × Bool} (hk : s k = some x) :
    ∃ o, w.objs k = some o := by
  cases ho : w.objs k with
  | none => rw [(h.dom k).2 ho] at hk; cases hk
  | some o => exact ⟨o, rfl⟩

@[simp] theorem spec_put (s : Spec) (k : Nat) (o : Option (List Nat × Bool)) (i : Nat) :
    s.put k o i = if i = k then o else s i := rfl

/-- The rest of the relation when one object changes. -/
theorem Rel.upd {c : Cfg} {w w' : World} {s : Spec} (h : Rel c w s) {k : Nat} {o : Obj} {l : List Nat} {u : Bool}
    (hobj : w'.objs = fun i => if i = k then some o else w.objs i) (hraw : w'.raw = w.raw) (hnext : w.next ≤ w'.next)
    (how : Own w') (hl : o.nodes.map (·.2) = l) (hp : u = true → ∃ p, o.pol = some p)
    (hr : u = true → ∀ a, o.nil = some a → a ∉ w.raw) (hstd : c.poly = false → o.pol = some 0)
    (hn : o.nil.isSome = true ↔ c.kind = .trb) : Rel c w' (s.put k (some (l, u))) := by
  refine ⟨how, fun i => ?_, fun i l' u' o' h1 h2 => ?_, fun hc i o' h2 => ?_, fun i o' h2 => ?_, fun a ha => ?_⟩
  · rw [hobj, spec_put]; by_cases e : i = k
    · simp [e]
    · simp [e, h.dom i]
  · rw [spec_put] at h1; rw [hobj] at h2
    by_cases e : i = k
    · simp only [e, if_true, Option.some.injEq, Prod.mk.injEq] at h1 h2
      obtain ⟨rfl, rfl⟩ := h1
      subst h2
      rw [hraw]
      exact ⟨hl, hp, hr⟩
    · simp only [e, if_false] at h1 h2
      rw [hraw]
      exact h.val i l' u' o' h1 h2
  · rw [hobj] at h2
    by_cases e : i = k
    · simp only [e, if_true, Option.some.injEq] at h2; subst h2; exact hstd hc
    · simp only [e, if_false] at h2; exact h.std hc i o' h2
  · rw [hobj] at h2
    by_cases e : i = k
    · simp only [e, if_true, Option.some.injEq] at h2; subst h2; exact hn
    · simp only [e, if_false] at h2; exact h.sent i o' h2
  · rw [hraw] at ha; exact Nat.lt_of_lt_of_le (h.raw a ha) hnext

theorem readable_of {c : Cfg} {w : World} {s : Spec} (h : Rel c w s) {k : Nat} {o : Obj} {l : List Nat}
    (h1 : s k = some (l, true)) (h2 : w.objs k = some o) : readable o w = true := by
  unfold readable
  cases hn : o.nil with
  | none => rfl
  | some a =>
    have := (h.val k l true o h1 h2).2.2 rfl a hn
    simp [this]

theorem sim_ctor {c : Cfg} {re : Bool} {w : World} {s s' : Spec} (h : Rel c w s) {k p : Nat}
    (hs : spec re (.ctor k p) s = some s') : ∃ w', exec c (.ctor k p) w = some w' ∧ Rel c w' s' := by
  simp only [spec] at hs
  split at hs <;> try cases hs
  next h0 =>
  have hk := (h.dom k).1 h0
  have hk0 : ownAt w k = [] := by simp [ownAt, hk]
  simp only [exec, if_pos hk, ctor]
  by_cases ht : c.kind = .trb
  · rw [if_pos ht]
    simp only [alloc, Option.map_some]
    refine ⟨_, rfl, h.upd rfl rfl (by simp) ?_ rfl (fun _ => ⟨_, rfl⟩) (fun _ a ha hr => ?_) (fun hc => by simp [hc])
      (by simp [ht])⟩
    · exact h.own.grow (by simp [owned, hk0]) rfl (by simp [hk0]) rfl rfl rfl
    · simp only [Option.some.injEq] at ha; subst ha
      exact absurd (h.raw _ hr) (Nat.lt_irrefl _)
  · rw [if_neg ht]
    refine ⟨_, rfl, h.upd rfl rfl (by simp) ?_ rfl (fun _ => ⟨_, rfl⟩) (by simp) (fun hc => by simp [hc]) (by simp [ht])⟩
    exact h.own.fresh hk0 (by simp [owned])

theorem sim_insert {c : Cfg} {re : Bool} {w : World} {s s' : Spec} (h : Rel c w s) {k v : Nat}
    (hs : spec re (.insert k v) s = some s') : ∃ w', exec c (.insert k v) w = some w' ∧ Rel c w' s' := by
  simp only [spec] at hs
  split at hs <;> try cases hs
  next l h0 =>
  obtain ⟨o, ho⟩ := h.obj h0
  obtain ⟨v1, v2, v3⟩ := h.val k l true o h0 ho
  obtain ⟨p, hp⟩ := v2 rfl
  simp only [exec, ho, Option.bind_some, insert, readable_of h h0 ho, if_true, alloc, hp, Option.map_some]
  refine ⟨_, rfl, h.upd rfl rfl (by simp) ?_ (by simp [v1]) (fun _ => ⟨p, rfl⟩) v3 (fun hc => ?_) (h.sent k o ho)⟩
  · refine h.own.grow (p := p) ?_ rfl (fun a _ => by rw [polAt_some ho, hp]) rfl rfl rfl
    rw [ownAt_some ho]
    simp only [owned, List.map_append, List.map_cons, List.map_nil, List.append_assoc, List.singleton_append]
    exact List.perm_middle
  · have := h.std hc k o ho
    rw [hp] at this; exact this

theorem map_eraseIdx' {α β : Type} (f : α → β) (l : List α) (i : Nat) : (l.eraseIdx i).map f = (l.map f).eraseIdx i := by
  induction l generalizing i with
  | nil => simp
  | cons a l ih => cases i <;> simp [ih]

theorem perm_eraseIdx' {α : Type} (l : List α) (i : Nat) (hi : i < l.length) : (l[i] :: l.eraseIdx i).Perm l := by
  induction l generalizing i with
  | nil => simp at hi
  | cons a l ih =>
    cases i with
    | zero => simp
    | succ i =>
      simp only [List.getElem_cons_succ, List.eraseIdx_cons_succ]
      exact (List.Perm.swap _ _ _).trans ((ih i (by simpa using hi)).cons a)

theorem sim_remove {c : Cfg} {re : Bool} {w : World} {s s' : Spec} (h : Rel c w s) {k i : Nat}
    (hs : spec re (.remove k i) s = some s') : ∃ w', exec c (.remove k i) w = some w' ∧ Rel c w' s' := by
  simp only [spec] at hs
  split at hs <;> try cases hs
  next l h0 =>
  obtain ⟨o, ho⟩ := h.obj h0
  obtain ⟨v1, v2, v3⟩ := h.val k l true o h0 ho
  obtain ⟨p, hp⟩ := v2 rfl
  simp only [exec, ho, Option.bind_some, remove]
  cases hi : o.nodes[i]? with
  | none =>
    have hlen : o.nodes.length ≤ i := List.getElem?_eq_none_iff.1 hi
    have hlen' : l.length ≤ i := by rw [← v1, List.length_map]; exact hlen
    refine ⟨w, rfl, ?_⟩
    have e : s.put k (some (l.eraseIdx i, true)) = s := by
      funext j; rw [spec_put]
      by_cases e : j = k
      · rw [if_pos e, List.eraseIdx_of_length_le hlen', e, h0]
      · rw [if_neg e]
    rw [e]; exact h
  | some n =>
    have hlt : i < o.nodes.length := (List.getElem?_eq_some_iff.1 hi).1
    have hin : o.nodes[i] = n := (List.getElem?_eq_some_iff.1 hi).2
    have hown : n.1 ∈ ownAt w k := by
      rw [ownAt_some ho, owned, List.mem_append]
      exact .inl (List.mem_map.2 ⟨n, hin ▸ List.getElem_mem hlt, rfl⟩)
    have hlive : w.live n.1 = some p := by rw [h.own.live_of hown, polAt_some ho, hp]
    simp only [readable_of h h0 ho, if_true, free, hp, if_pos hlive, Option.map_some]
    have hd : ({ w with live := fun b => if b = n.1 then none else w.live b } : World) = drop [n.1] w := by
      simp [drop]
    rw [hd]
    refine ⟨_, rfl, h.upd rfl rfl (by simp [drop]) ?_ (by rw [← v1, map_eraseIdx']) (fun _ => ⟨p, rfl⟩) v3
      (fun hc => ?_) (h.sent k o ho)⟩
    · refine h.own.shrink ho ?_ (by rintro x hx; cases hx; exact hp.symm)
      simp only [owned, List.singleton_append]
      rw [← List.cons_append]
      refine List.Perm.append_right _ ?_
      rw [← List.map_cons (f := fun x : Nat × Nat => x.1)]
      refine List.Perm.map _ ?_
      rw [← hin]
      exact perm_eraseIdx' _ i hlt
    · have := h.std hc k o ho
      rw [hp] at this; exact this

theorem sim_clear {c : Cfg} {re : Bool} (hg : Good c re) {w : World} {s s' : Spec} (h : Rel c w s) {k : Nat}
    (hs : spec re (.clear k) s = some s') : ∃ w', exec c (.clear k) w = some w' ∧ Rel c w' s' := by
  simp only [spec] at hs
  split at hs <;> try cases hs
  next l u h0 =>
  obtain ⟨o, ho⟩ := h.obj h0
  obtain ⟨v1, v2, v3⟩ := h.val k l u o h0 ho
  simp only [exec, ho, Option.bind_some, clear_eq hg h.own ho, Option.map_some]
  exact ⟨_, rfl, h.upd rfl rfl (by simp [drop]) (h.own.shrink ho (owned_split o) (by rintro x hx; cases hx; rfl)) rfl v2 v3
    (fun hc => h.std hc k o ho) (h.sent k o ho)⟩

theorem sim_dtor {c : Cfg} {re : Bool} (hg : Good c re) {w : World} {s s' : Spec} (h : Rel c w s) {k : Nat}
    (hs : spec re (.dtor k) s = some s') : ∃ w', exec c (.dtor k) w = some w' ∧ Rel c w' s' := by
  simp only [spec] at hs
  split at hs <;> try cases hs
  next x h0 =>
  obtain ⟨o, ho⟩ := h.obj h0
  have key : ∀ w' : World, w'.objs = (fun i => if i = k then none else w.objs i) → w'.raw = w.raw → w'.next = w.next →
      Own w' → Rel c w' (s.put k none) := by
    intro w' hobj hraw hnext how
    refine ⟨how, fun i => ?_, fun i l' u' o' h1 h2 => ?_, fun hc i o' h2 => ?_, fun i o' h2 => ?_, fun a ha => ?_⟩
    · rw [hobj, spec_put]; by_cases e : i = k
      · simp [e]
      · simp [e, h.dom i]
    · rw [spec_put] at h1; rw [hobj] at h2
      by_cases e : i = k
      · simp [e] at h1
      · simp only [e, if_false] at h1 h2
        rw [hraw]; exact h.val i l' u' o' h1 h2
    · rw [hobj] at h2
      by_cases e : i = k
      · simp [e] at h2
      · simp only [e, if_false] at h2; exact h.std hc i o' h2
    · rw [hobj] at h2
      by_cases e : i = k
      · simp [e] at h2
      · simp only [e, if_false] at h2; exact h.sent i o' h2
    · rw [hraw] at ha; rw [hnext]; exact h.raw a ha
  simp only [exec, ho, Option.bind_some, dtor, clear_eq hg h.own ho]
  cases hn : o.nil with
  | none =>
    refine ⟨_, rfl, key _ rfl rfl rfl ?_⟩
    exact h.own.shrink ho (by simp [owned, hn]) (by simp)
  | some a =>
    have hown : a ∈ ownAt w k := by rw [ownAt_some ho, owned, hn]; simp
    obtain ⟨p, hp⟩ := h.own.pol k a hown
    have hlive : w.live a = some p := by rw [h.own.live_of hown, hp]
    rw [polAt_some ho] at hp
    have hnd := h.own.nodup k
    rw [ownAt_some ho, owned, hn, List.nodup_append] at hnd
    have hna : a ∉ o.nodes.map (·.1) := fun hm => hnd.2.2 a hm a (by simp) rfl
    have hlive' : (drop (o.nodes.map (·.1)) w).live a = some p := by simp only [drop, if_neg hna, hlive]
    simp only [free, hp, if_pos hlive', Option.map_some]
    refine ⟨_, rfl, key _ rfl rfl rfl ?_⟩
    have e : ({ drop (o.nodes.map (·.1)) w with
        live := fun b => if b = a then none else (drop (o.nodes.map (·.1)) w).live b } : World) = drop (owned o) w := by
      simp only [drop, World.mk.injEq, and_true]
      funext b
      simp only [owned, hn, Option.toList_some, List.mem_append, List.mem_singleton]
      by_cases e1 : b = a <;> by_cases e2 : b ∈ o.nodes.map (·.1) <;> simp [e1, e2]
    rw [e]
    exact h.own.shrink ho (by simp) (by simp)

theorem perm4 (a b c d : List Nat) : (a ++ b ++ (c ++ d)).Perm (c ++ b ++ (a ++ d)) := by
  rw [List.perm_iff_count]; intro x; simp only [List.count_append]; omega

theorem sim_moveAssign {c : Cfg} {re : Bool} (hg : Good c re) {w : World} {s s' : Spec} (h : Rel c w s) {k j : Nat}
    (hs : spec re (.moveAssign k j) s = some s') : ∃ w', exec c (.moveAssign k j) w = some w' ∧ Rel c w' s' := by
  simp only [spec] at hs
  split at hs <;> try cases hs
  next x l u hk0 hj0 =>
  split at hs <;> try cases hs
  next hkj =>
  obtain ⟨o, ho⟩ := h.obj hk0
  obtain ⟨m, hm⟩ := h.obj hj0
  obtain ⟨v1, v2, v3⟩ := h.val j l u m hj0 hm
  simp only [exec, ho, hm, Option.bind_some, moveAssign, if_neg hkj, clear_eq hg h.own ho, Option.map_some]
  refine ⟨_, rfl, ?_⟩
  -- after `Clear`
  have hjk : j ≠ k := fun e => hkj e.symm
  have o1 := h.own.shrink ho (owned_split o) (o' := some { o with nodes := [] }) (by rintro x hx; cases hx; rfl)
  have r1 : Rel c ((drop (o.nodes.map (·.1)) w).put k (some { o with nodes := [] })) (s.put k (some ([], x.2))) :=
    h.upd rfl rfl (by simp [drop]) o1 rfl (h.val k x.1 x.2 o hk0 ho).2.1 (h.val k x.1 x.2 o hk0 ho).2.2
      (fun hc => h.std hc k o ho) (h.sent k o ho)
  generalize hw1 : drop (o.nodes.map (·.1)) w = w1 at *
  have hm1 : (w1.put k (some { o with nodes := [] })).objs j = some m := by
    rw [put_objs, if_neg hjk, ← hw1]; exact hm
  have hk1 : (w1.put k (some { o with nodes := [] })).objs k = some { o with nodes := [] } := by simp
  have obj1 : ∀ i, w1.objs i = w.objs i := fun i => by rw [← hw1]; rfl
  -- both objects change
  have both : ∀ (ok oj : Obj),
      (owned ok ++ owned oj).Perm (owned { o with nodes := [] } ++ owned m) →
      (∀ a ∈ owned ok, ok.pol = (w1.live a)) → (∀ a ∈ owned oj, oj.pol = (w1.live a)) →
      ok.nodes.map (·.2) = l → oj.nodes = [] →
      (u = true → ∃ p, ok.pol = some p) → (re = true → ∃ p, oj.pol = some p) →
      (u = true → ∀ a, ok.nil = some a → a ∉ w.raw) → (re = true → ∀ a, oj.nil = some a → a ∉ w.raw) →
      (c.poly = false → ok.pol = some 0 ∧ oj.pol = some 0) →
      (ok.nil.isSome = true ↔ c.kind = .trb) → (oj.nil.isSome = true ↔ c.kind = .trb) →
      Rel c ((w1.put k (some ok)).put j (some oj)) ((s.put k (some (l, u))).put j (some ([], re))) := by
    intro ok oj p1 p2 p3 p4 p5 p6 p7 p8 p9 p10 p11 p12
    have how : Own ((w1.put k (some ok)).put j (some oj)) := by
      apply o1.two hkj
      · intro i h1 h2
        simp only [ownAt_put, polAt_put, if_neg h1, if_neg h2]; exact ⟨trivial, trivial⟩
      · simpa [ownAt_put, if_neg hkj, if_neg hjk, ownAt_some hm1, ownAt, hm1, obj1, hm] using p1
      · rintro i (rfl | rfl) a ha
        · simp only [ownAt_put, if_neg hkj, if_true] at ha
          simp only [polAt_put, if_neg hkj, if_true, Option.bind_some, put_live]
          exact p2 a ha
        · simp only [ownAt_put, if_true] at ha
          simp only [polAt_put, if_true, Option.bind_some, put_live]
          exact p3 a ha
      · rfl
      · rfl
    have hr : w1.raw = w.raw := by rw [← hw1]; rfl
    have hnx : w1.next = w.next := by rw [← hw1]; rfl
    refine ⟨how, fun i => ?_, fun i l' u' o' h1 h2 => ?_, fun hc i o' h2 => ?_, fun i o' h2 => ?_, fun a ha => ?_⟩
    · simp only [put_objs, spec_put, obj1]
      by_cases e1 : i = j
      · simp [e1]
      · by_cases e2 : i = k
        · simp [e2, hkj]
        · simp [e1, e2, h.dom i]
    · simp only [put_objs, spec_put, obj1] at h1 h2
      simp only [put_raw, hr]
      by_cases e1 : i = j
      · simp only [e1, if_true, Option.some.injEq, Prod.mk.injEq] at h1 h2
        obtain ⟨rfl, rfl⟩ := h1; subst h2
        exact ⟨by simp [p5], p7, p9⟩
      · by_cases e2 : i = k
        · simp only [e2, hkj, if_true, if_false, Option.some.injEq, Prod.mk.injEq] at h1 h2
          obtain ⟨rfl, rfl⟩ := h1; subst h2
          exact ⟨p4, p6, p8⟩
        · simp only [e1, e2, if_false] at h1 h2
          exact h.val i l' u' o' h1 h2
    · simp only [put_objs, obj1] at h2
      by_cases e1 : i = j
      · simp only [e1, if_true, Option.some.injEq] at h2; subst h2; exact (p10 hc).2
      · by_cases e2 : i = k
        · simp only [e2, hkj, if_true, if_false, Option.some.injEq] at h2; subst h2; exact (p10 hc).1
        · simp only [e1, e2, if_false] at h2; exact h.std hc i o' h2
    · simp only [put_objs, obj1] at h2
      by_cases e1 : i = j
      · simp only [e1, if_true, Option.some.injEq] at h2; subst h2; exact p12
      · by_cases e2 : i = k
        · simp only [e2, hkj, if_true, if_false, Option.some.injEq] at h2; subst h2; exact p11
        · simp only [e1, e2, if_false] at h2; exact h.sent i o' h2
    · simp only [put_raw, hr, put_next, hnx] at ha ⊢
      exact h.raw a ha
  have lk : ∀ a ∈ owned { o with nodes := [] }, w1.live a = o.pol := by
    intro a ha
    have := o1.live_of (k := k) (a := a) (by rw [ownAt_some hk1]; exact ha)
    rw [polAt_some hk1] at this
    exact this
  have lj : ∀ a ∈ owned m, w1.live a = m.pol := by
    intro a ha
    have := o1.live_of (k := j) (a := a) (by rw [ownAt_some hm1]; exact ha)
    rw [polAt_some hm1] at this
    exact this
  have nik : c.kind ≠ .trb → o.nil = none ∧ m.nil = none := by
    intro hc
    constructor
    · cases hn : o.nil with
      | none => rfl
      | some a => exact absurd ((h.sent k o ho).1 (by simp [hn])) hc
    · cases hn : m.nil with
      | none => rfl
      | some a => exact absurd ((h.sent j m hm).1 (by simp [hn])) hc
  by_cases hkd : c.kind = .kd
  · have hn := nik (by simp [hkd])
    simp only [hkd]
    apply both
    · simp [owned, hn.1, hn.2]
    · intro a ha
      exact (lj a (by simpa [owned, hn.1, hn.2] using ha)).symm
    · intro a ha; simp [owned, hn.2] at ha
    · exact v1
    · rfl
    · exact v2
    · intro hre
      rcases hg with ⟨hp, _⟩ | ⟨_, _, hp⟩
      · exact ⟨0, by simp [Cfg.left, hp, h.std hp j m hm]⟩
      · simp [hp] at hre
    · intro _ a ha; simp [hn.1] at ha
    · intro _ a ha; simp [hn.2] at ha
    · intro hp; simp [Cfg.left, hp, h.std hp j m hm]
    · simp [hn.1, hkd]
    · simp [hn.2, hkd]
  · have hp : c.poly = false := by
      rcases hg with ⟨hp, _⟩ | ⟨_, hp, _⟩
      · exact hp
      · exact absurd hp hkd
    have po := h.std hp k o ho
    have pm := h.std hp j m hm
    by_cases ht : c.kind = .trb
    · have hre : re = false := by
        rcases hg with ⟨_, hx | hx⟩ | ⟨_, _, hx⟩
        · exact absurd ht hx
        · exact hx
        · exact hx
      simp only [ht]
      apply both
      · simp only [owned, List.map_nil, List.nil_append]
        exact List.perm_append_comm
      · intro a ha
        rw [lj a (by simpa [owned] using ha)]; rw [po, pm]
      · intro a ha
        rw [lk a (by simpa [owned] using ha)]; rw [po, pm]
      · exact v1
      · rfl
      · intro _; exact ⟨0, po⟩
      · simp [hre]
      · exact v3
      · simp [hre]
      · intro _; exact ⟨po, pm⟩
      · have := h.sent j m hm; rw [ht] at this; simpa [ht] using this
      · have := h.sent k o ho; rw [ht] at this; simpa [ht] using this
    · have hn := nik ht
      have goal : Rel c ((w1.put k (some { o with nodes := m.nodes })).put j (some { m with nodes := [] }))
          ((s.put k (some (l, u))).put j (some ([], re))) := by
        apply both
        · simp [owned, hn.1, hn.2]
        · intro a ha
          have := lj a (by simpa [owned, hn.1, hn.2] using ha)
          rw [this, po, pm]
        · intro a ha; simp [owned, hn.2] at ha
        · exact v1
        · rfl
        · intro _; exact ⟨0, po⟩
        · intro _; exact ⟨0, pm⟩
        · intro _ a ha; simp [hn.1] at ha
        · intro _ a ha; simp [hn.2] at ha
        · intro _; exact ⟨po, pm⟩
        · exact h.sent k o ho
        · exact h.sent j m hm
      cases hkk : c.kind with
      | kd => exact absurd hkk hkd
      | trb => exact absurd hkk ht
      | avl => exact goal
      | list => exact goal

theorem sim_moveCtor {c : Cfg} {re : Bool} (hg : Good c re) {w : World} {s s' : Spec} (h : Rel c w s) {k j : Nat}
    (hs : spec re (.moveCtor k j) s = some s') : ∃ w', exec c (.moveCtor k j) w = some w' ∧ Rel c w' s' := by
  simp only [spec] at hs
  split at hs <;> try cases hs
  next l u hk0 hj0 =>
  have hk := (h.dom k).1 hk0
  obtain ⟨m, hm⟩ := h.obj hj0
  obtain ⟨v1, v2, v3⟩ := h.val j l u m hj0 hm
  have hkj : k ≠ j := by rintro rfl; rw [hk] at hm; cases hm
  have hjk : j ≠ k := fun e => hkj e.symm
  have hk0' : ownAt w k = [] := by simp [ownAt, hk]
  simp only [exec, hk, if_true, hm, Option.bind_some, moveCtor]
  -- the sentinel aside
  have how : Own ((w.put k (some m)).put j (some ⟨c.left m.pol, [], none⟩)) := by
    have o1 := h.own.fresh (k := k) hk0' (o := ⟨m.pol, [], none⟩) (by simp [owned])
    have hm1 : (w.put k (some ⟨m.pol, [], none⟩)).objs j = some m := by rw [put_objs, if_neg hjk]; exact hm
    apply o1.two hkj
    · intro i h1 h2
      simp only [ownAt_put, polAt_put, if_neg h1, if_neg h2]; exact ⟨trivial, trivial⟩
    · simp [ownAt_put, hkj, hjk, ownAt, hm, owned]
    · rintro i (rfl | rfl) a ha
      · simp only [ownAt_put, if_neg hkj, if_true] at ha
        simp only [polAt_put, if_neg hkj, if_true, Option.bind_some]
        rw [put_live, h.own.live_of (k := j) (by rw [ownAt_some hm]; exact ha), polAt_some hm]
      · simp [ownAt_put, owned] at ha
    · rfl
    · rfl
  have fin : ∀ (w' : World) (n : Option Nat), Own w' →
      (∀ i, w'.objs i = if i = j then some ⟨c.left m.pol, [], n⟩ else if i = k then some m else w.objs i) →
      (n.isSome = true ↔ c.kind = .trb) → (n.isSome = true → re = false) →
      (∀ a ∈ w'.raw, a ∈ w.raw ∨ n = some a) → w.next ≤ w'.next →
      (∀ a, n = some a → w.next ≤ a ∧ a < w'.next) →
      Rel c w' ((s.put k (some (l, u))).put j (some ([], u && re))) := by
    intro w' n p1 p2 p3 p4 p5 p6 p7
    have rawOld : ∀ i o a, w.objs i = some o → o.nil = some a → a ∉ w.raw → a ∉ w'.raw := by
      intro i o a hi ha hn hr
      rcases p5 a hr with h1 | h1
      · exact hn h1
      · have h2 := (p7 a h1).1
        have h3 := mem_next h.own hi ha
        omega
    refine ⟨p1, fun i => ?_, fun i l' u' o' h1 h2 => ?_, fun hc i o' h2 => ?_, fun i o' h2 => ?_, fun a ha => ?_⟩
    · simp only [p2, spec_put]
      by_cases e1 : i = j
      · simp [e1]
      · by_cases e2 : i = k
        · simp [e2, hkj]
        · simp [e1, e2, h.dom i]
    · simp only [p2, spec_put] at h1 h2
      by_cases e1 : i = j
      · simp only [e1, if_true, Option.some.injEq, Prod.mk.injEq] at h1 h2
        obtain ⟨rfl, rfl⟩ := h1; subst h2
        refine ⟨rfl, fun hu => ?_, fun hu a ha => ?_⟩
        · simp only [Bool.and_eq_true] at hu
          rcases hg with ⟨hp, _⟩ | ⟨_, _, hp⟩
          · exact ⟨0, by simp [Cfg.left, hp, h.std hp j m hm]⟩
          · simp [hp] at hu
        · have ha' : n = some a := ha
          rw [p4 (by simp [ha'])] at hu
          simp at hu
      · by_cases e2 : i = k
        · simp only [e2, hkj, if_true, if_false, Option.some.injEq, Prod.mk.injEq] at h1 h2
          obtain ⟨rfl, rfl⟩ := h1; subst h2
          exact ⟨v1, v2, fun hu a ha => rawOld j m a hm ha (v3 hu a ha)⟩
        · simp only [e1, e2, if_false] at h1 h2
          obtain ⟨q1, q2, q3⟩ := h.val i l' u' o' h1 h2
          exact ⟨q1, q2, fun hu a ha => rawOld i o' a h2 ha (q3 hu a ha)⟩
    · simp only [p2] at h2
      by_cases e1 : i = j
      · simp only [e1, if_true, Option.some.injEq] at h2; subst h2
        simp [Cfg.left, hc, h.std hc j m hm]
      · by_cases e2 : i = k
        · simp only [e2, hkj, if_true, if_false, Option.some.injEq] at h2; subst h2; exact h.std hc j _ hm
        · simp only [e1, e2, if_false] at h2; exact h.std hc i o' h2
    · simp only [p2] at h2
      by_cases e1 : i = j
      · simp only [e1, if_true, Option.some.injEq] at h2; subst h2; exact p3
      · by_cases e2 : i = k
        · simp only [e2, hkj, if_true, if_false, Option.some.injEq] at h2; subst h2; exact h.sent j _ hm
        · simp only [e1, e2, if_false] at h2; exact h.sent i o' h2
    · rcases p5 a ha with h1 | h1
      · exact Nat.lt_of_lt_of_le (h.raw a h1) p6
      · exact (p7 a h1).2
  by_cases ht : c.kind = .trb
  · have hp : c.poly = false := by
      rcases hg with ⟨hp, _⟩ | ⟨_, hp, _⟩
      · exact hp
      · rw [ht] at hp; cases hp
    have hre : re = false := by
      rcases hg with ⟨_, hx | hx⟩ | ⟨_, _, hx⟩
      · exact absurd ht hx
      · exact hx
      · exact hx
    have pm := h.std hp j m hm
    obtain ⟨n, hn⟩ := Option.isSome_iff_exists.1 ((h.sent j m hm).2 ht)
    rw [ht, hn, pm]
    simp only [alloc, Option.map_some]
    refine ⟨_, rfl, fin _ (some w.next) ?_ (fun i => ?_) (by simp [ht]) (fun _ => hre) (fun a ha => ?_) (by simp)
      (fun a ha => ?_)⟩
    · have g := how.grow (k := j) (p := 0) (o' := ⟨c.left m.pol, [], some w.next⟩)
        (w' := { (w.put k (some m)).put j (some ⟨c.left m.pol, [], none⟩) with
          live := fun a => if a = w.next then some 0 else w.live a, next := w.next + 1 })
        (by simp [owned, ownAt_put]) (by simp [Cfg.left, hp, pm]) (by simp [ownAt_put, owned]) rfl rfl rfl
      refine g.congr rfl rfl ?_
      funext i
      simp only [put_objs]
      by_cases e1 : i = j
      · simp [e1, Cfg.left, hp, pm]
      · simp [e1]
    · simp only [put_objs, pm]
    · simp only [put_raw, List.mem_cons, List.mem_filter] at ha
      rcases ha with rfl | ha
      · exact .inr rfl
      · exact .inl ha.1
    · simp only [Option.some.injEq] at ha; subst ha; simp
  · have hn : m.nil = none := by
      cases hn : m.nil with
      | none => rfl
      | some a => exact absurd ((h.sent j m hm).1 (by simp [hn])) ht
    rw [hn]
    have e : (match c.kind, (none : Option Nat) with
        | .trb, some n => (alloc m.pol w).map fun (a, w) =>
          let w := { w with raw := a :: w.raw.filter (· ≠ n) }
          (w.put k (some m)).put j (some ⟨c.left m.pol, [], some a⟩)
        | _, _ => some ((w.put k (some m)).put j (some ⟨c.left m.pol, [], none⟩))) =
        some ((w.put k (some m)).put j (some ⟨c.left m.pol, [], none⟩)) := by
      cases c.kind <;> rfl
    refine ⟨_, e, fin _ none how (fun i => rfl) (by simp [ht]) (by simp) (fun a ha => .inl ha) (Nat.le_refl _) (by simp)⟩

theorem sim {c : Cfg} {re : Bool} (hg : Good c re) {w : World} {s s' : Spec} (h : Rel c w s) (op : Op)
    (hs : spec re op s = some s') : ∃ w', exec c op w = some w' ∧ Rel c w' s' := by
  cases op with
  | ctor k p => exact sim_ctor h hs
  | insert k v => exact sim_insert h hs
  | remove k i => exact sim_remove h hs
  | clear k => exact sim_clear hg h hs
  | moveCtor k j => exact sim_moveCtor hg h hs
  | moveAssign k j => exact sim_moveAssign hg h hs
  | dtor k => exact sim_dtor hg h hs

theorem sim_run {c : Cfg} {re : Bool} (hg : Good c re) (ops : List Op) {w : World} {s s' : Spec} (h : Rel c w s)
    (hs : specRun re ops s = some s') : ∃ w', run c ops w = some w' ∧ Rel c w' s' := by
  induction ops generalizing w s with
  | nil => cases hs; exact ⟨w, rfl, h⟩
  | cons op ops ih =>
    rw [specRun] at hs
    obtain ⟨s1, h1, h2⟩ := Option.bind_eq_some_iff.1 hs
    obtain ⟨w1, e1, r1⟩ := sim hg h op h1
    obtain ⟨w2, e2, r2⟩ := ih r1 h2
    exact ⟨w2, by rw [run, e1]; exact e2, r2⟩

theorem rel_init (c : Cfg) : Rel c .init fun _ => none := by
  refine ⟨⟨?_, ?_, ?_, ?_, ?_⟩, ?_, ?_, ?_, ?_, ?_⟩ <;> simp [World.init, ownAt, polAt]

/-- Every program of constructions, insertions, removals, moves and destructions is defined: nothing is given back twice
or through the wrong allocator.  The objects have the contents the program expects, memory is taken exactly as long as
an object owns it, and no two objects own the same.  Proved if the allocator has no state (where a moved-from `TRBtree`
may only be destroyed or assigned to), and for a `KDTree` with any allocator if a moved-from one is not used. -/
theorem C192_moves_partial (c : Cfg) (re : Bool)
    (hg : (c.poly = false ∧ (c.kind ≠ .trb ∨ re = false)) ∨ (c.poly = true ∧ c.kind = .kd ∧ re = false))
    (ops : List Op) {s : Spec} (hs : specRun re ops (fun _ => none) = some s) :
    ∃ w, run c ops .init = some w ∧
      (∀ k, (w.objs k).map (fun o => o.nodes.map (·.2)) = (s k).map (·.1)) ∧
      (∀ a p, w.live a = some p ↔ ∃ k o, w.objs k = some o ∧ a ∈ owned o ∧ o.pol = some p) ∧
      (∀ k j o o' a, w.objs k = some o → w.objs j = some o' → a ∈ owned o → a ∈ owned o' → k = j) ∧
      (∀ k o, w.objs k = some o → (owned o).Nodup) := by
  obtain ⟨w, h1, h2⟩ := sim_run hg ops (rel_init c) hs
  refine ⟨w, h1, fun k => ?_, fun a p => ?_, fun k j o o' a e1 e2 m1 m2 => ?_, fun k o e => ?_⟩
  · cases hk : s k with
    | none => rw [(h2.dom k).1 hk]; rfl
    | some x =>
      obtain ⟨o, ho⟩ := h2.obj hk
      rw [ho]
      simp only [Option.map_some, Option.some.injEq]
      exact (h2.val k x.1 x.2 o hk ho).1
  · rw [h2.own.live]
    constructor
    · rintro ⟨k, m1, m2⟩
      cases ho : w.objs k with
      | none => simp [ownAt, ho] at m1
      | some o => exact ⟨k, o, ho, by rw [← ownAt_some ho]; exact m1, by rw [← polAt_some ho]; exact m2⟩
    · rintro ⟨k, o, ho, m1, m2⟩
      exact ⟨k, by rw [ownAt_some ho]; exact m1, by rw [polAt_some ho]; exact m2⟩
  · exact h2.own.excl k j a (by rw [ownAt_some e1]; exact m1) (by rw [ownAt_some e2]; exact m2)
  · rw [← ownAt_some e]; exact h2.own.nodup k

/-- In particular nothing leaks: after all objects are destroyed nothing is taken. -/
theorem C192_no_leak_partial (c : Cfg) (re : Bool)
    (hg : (c.poly = false ∧ (c.kind ≠ .trb ∨ re = false)) ∨ (c.poly = true ∧ c.kind = .kd ∧ re = false))
    (ops : List Op) (hs : specRun re ops (fun _ => none) = some fun _ => none) :
    ∃ w, run c ops .init = some w ∧ ∀ a, w.live a = none := by
  obtain ⟨w, h1, h2, h3, _⟩ := C192_moves_partial c re hg ops hs
  refine ⟨w, h1, fun a => ?_⟩
  cases ha : w.live a with
  | none => rfl
  | some p =>
    obtain ⟨k, o, ho, _⟩ := (h3 a p).1 ha
    have := h2 k
    rw [ho] at this
    simp at this

/-- A program that makes two containers, fills them, moves one into a third and one over another, and destroys all. -/
def exProg : List Op :=
  [.ctor 0 1, .ctor 1 2, .insert 0 7, .insert 0 8, .insert 1 9, .moveCtor 2 0, .remove 2 0, .moveAssign 1 2, .insert 1 5,
    .dtor 0, .dtor 2, .dtor 1]

example : ∃ s, specRun false (exProg.take 9) (fun _ => none) = some s ∧ s 1 = some ([8, 5], true) ∧
    s 2 = some ([], false) := ⟨_, rfl, rfl, rfl⟩

example : specRun false exProg (fun _ => none) = some fun _ => none := by
  have h : ∃ s, specRun false exProg (fun _ => none) = some s ∧ ∀ k, s k = none :=
    ⟨_, rfl, fun k => by simp +contextual [Spec.put]⟩
  obtain ⟨s, h1, h2⟩ := h
  rw [h1, show s = fun _ => none from funext h2]

/-- With a policy, `AVLTree`'s move assignment takes the nodes but not the allocator, and gives them back to the wrong
policy. -/
theorem C192_avl_policy_counterexample :
    (∃ s, specRun false [.ctor 0 1, .ctor 1 2, .insert 1 9, .moveAssign 0 1, .clear 0] (fun _ => none) = some s) ∧
    (run ⟨.avl, true⟩ [.ctor 0 1, .ctor 1 2, .insert 1 9, .moveAssign 0 1, .clear 0] .init).isNone = true :=
  ⟨⟨_, rfl⟩, by decide +kernel⟩

/-- With a policy, a `LinkedList` that was cleared has lost its allocator: the next `Add` calls through a null pointer. -/
theorem C192_list_policy_counterexample :
    (∃ s, specRun false [.ctor 0 1, .clear 0, .insert 0 9] (fun _ => none) = some s) ∧
    (run ⟨.list, true⟩ [.ctor 0 1, .clear 0, .insert 0 9] .init).isNone = true :=
  ⟨⟨_, rfl⟩, by decide +kernel⟩

/-- With a policy, a `TRBtree` that was moved from cannot even be destroyed. -/
theorem C192_trb_policy_counterexample :
    (∃ s, specRun false [.ctor 0 1, .moveCtor 1 0, .dtor 0] (fun _ => none) = some s) ∧
    (run ⟨.trb, true⟩ [.ctor 0 1, .moveCtor 1 0, .dtor 0] .init).isNone = true :=
  ⟨⟨_, rfl⟩, by decide +kernel⟩

/-- Without one it can, but its sentinel is not initialised and it cannot be filled again. -/
theorem C192_trb_reuse_counterexample :
    (∃ s, specRun true [.ctor 0 1, .moveCtor 1 0, .insert 0 1, .insert 0 2, .insert 0 3] (fun _ => none) = some s) ∧
    (run ⟨.trb, false⟩ [.ctor 0 1, .moveCtor 1 0, .insert 0 1, .insert 0 2, .insert 0 3] .init).isNone = true :=
  ⟨⟨_, rfl⟩, by decide +kernel⟩

/-- A `KDTree` with a policy that was moved from cannot be filled again, and one that is assigned to itself loses nodes
and allocator. -/
theorem C192_kd_reuse_counterexample :
    (run ⟨.kd, true⟩ [.ctor 0 1, .moveCtor 1 0, .insert 0 1] .init).isNone = true ∧
    (run ⟨.kd, true⟩ [.ctor 0 1, .insert 0 1, .moveAssign 0 0] .init).map
      (fun w => (w.objs 0).map fun o => (o.pol, o.nodes)) = some (some (none, [])) :=
  ⟨by decide +kernel, by decide +kernel⟩

/-- Assigning a tree to itself empties it. -/
theorem C192_self_counterexample :
    (run ⟨.avl, false⟩ [.ctor 0 1, .insert 0 1, .moveAssign 0 0] .init).map
      (fun w => (w.objs 0).map fun o => o.nodes.map (·.2)) = some (some []) := by decide +kernel

end Verif.Own
