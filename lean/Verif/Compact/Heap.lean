import Verif.Compact.Model

/-!
# The heap memory of `CompactArray` objects

`include/bss-util/CompactArray.h:23-55`, `:86-109`, `:123-138`. Only where the elements are is modelled, for any number of objects; the elements are C73. All other functions reach the heap only
through `SetCapacity`: `Add` and `Insert` with the length plus one (`:56-68`), `SetLength` (`:77-85`), `Set` and the copy assignment with the new length (`:69-74`, `:123-128`).
-/

namespace Verif.Compact.Heap

/-- The objects by address: `some none` has its elements inside (`COMPACTFLAG`), `some (some a)` at `a`; and the blocks of memory that are allocated. -/
structure World where
  objs : Nat → Option (Option Nat)
  heap : Nat → Bool

/-- Write the place of the elements of an object. -/
def put (w : World) (o : Nat) (x : Option (Option Nat)) : World := { w with objs := fun p => if p = o then x else w.objs p }

/-- `malloc`, which returns `a`. -/
def alloc (w : World) (a : Nat) : World := { w with heap := fun b => if b = a then true else w.heap b }

/-- `free`; `none`: the block is not allocated. -/
def free (w : World) (a : Nat) : Option World := if w.heap a then some { w with heap := fun b => if b = a then false else w.heap b } else none

/-- Release what an object has on the heap, `CompactArray.h:53-54`, `:131-132`. -/
def release (w : World) : Option Nat → Option World
  | none => some w
  | some a => free w a

/-- `SetCapacity(c)`, `CompactArray.h:86-109`, with `n` elements inside, where the allocator returns `a`; resizing may move the block. -/
def setCapacity (n c a : Nat) (w : World) (o : Nat) : Option World :=
  (w.objs o).bind fun x => if c > n then (release w x).map fun w => put (alloc w a) o (some (some a)) else some w

/-- The calls. -/
inductive Op where
  | new (o : Nat)
  | setCapacity (o c a : Nat)
  | copyNew (o p len a : Nat)
  | moveNew (o p : Nat)
  | assign (o p : Nat)
  | del (o : Nat)

/-- One call, on objects that exist: the default constructor `:40`, `SetCapacity`, the copy constructor `:23-27` from an object of length `len`, the move constructor `:28-32`,
`operator=(&&)` `:129-138`, which first releases the memory of the target, and the destructor `:51-55`. -/
def step (n : Nat) (w : World) : Op → Option World
  | .new o => some (put w o (some none))
  | .setCapacity o c a => setCapacity n c a w o
  | .copyNew o p len a => (w.objs p).bind fun _ => setCapacity n len a (put w o (some none)) o
  | .moveNew o p => (w.objs p).map fun x => put (put w o (some x)) p (some none)
  | .assign o p => (w.objs o).bind fun y => (w.objs p).bind fun x => (release w y).map fun w => put (put w o (some x)) p (some none)
  | .del o => (w.objs o).bind fun x => (release w x).map fun w => put w o none

/-! ## Specification -/

/-- The object `o` has its elements in the block `a`. -/
def Owns (w : World) (o a : Nat) : Prop := w.objs o = some (some a)

/-- Calls that are allowed: constructors where no object is, other calls on objects that exist, and the allocator returns a block that is free (or the one that is resized). -/
def Ok (w : World) : Op → Prop
  | .new o => w.objs o = none
  | .setCapacity o _ a => w.objs o ≠ none ∧ (w.heap a = false ∨ Owns w o a)
  | .copyNew o p _ a => w.objs o = none ∧ w.objs p ≠ none ∧ w.heap a = false
  | .moveNew o p => w.objs o = none ∧ w.objs p ≠ none
  | .assign o p => w.objs o ≠ none ∧ w.objs p ≠ none
  | .del o => w.objs o ≠ none

/-- The histories from a program without arrays. -/
inductive Reach (n : Nat) : World → Prop
  | start : Reach n ⟨fun _ => none, fun _ => false⟩
  | step {w w' op} : Reach n w → Ok w op → step n w op = some w' → Reach n w'

/-! ## Proofs -/

/-- The invariant: every block has one owner. -/
structure Inv (w : World) : Prop where
  owned : ∀ a, w.heap a = true ↔ ∃ o, Owns w o a
  one : ∀ o o' a, Owns w o a → Owns w o' a → o = o'

variable {n : Nat} {w : World}

theorem put_self (w : World) (o : Nat) (x : Option (Option Nat)) : (put w o x).objs o = x := if_pos rfl
theorem put_ne (w : World) {o p : Nat} (x : Option (Option Nat)) (h : p ≠ o) : (put w o x).objs p = w.objs p := if_neg h

/-- An object whose memory is released is left without memory. -/
theorem release_inv (H : Inv w) {o : Nat} {x : Option Nat} (ho : w.objs o = some x) (z : Option (Option Nat)) (hz : z = none ∨ z = some none) :
    ∃ w', release w x = some w' ∧ w'.objs = w.objs ∧ Inv (put w' o z) ∧ (∀ a, x = some a → w'.heap a = false) ∧ ∀ a, w.heap a = false → w'.heap a = false := by
  have hz' : ∀ a, z ≠ some (some a) := by rcases hz with rfl | rfl <;> intro a h <;> cases h
  cases x with
  | none =>
    refine ⟨w, rfl, rfl, ⟨fun a => (H.owned a).trans ⟨?_, ?_⟩, ?_⟩, fun a h => (nomatch h), fun a => id⟩
    · rintro ⟨p, hp⟩
      have hpo : p ≠ o := by rintro rfl; rw [Owns, ho] at hp; cases hp
      exact ⟨p, (put_ne w z hpo).trans hp⟩
    · rintro ⟨p, hp⟩
      by_cases hpo : p = o
      · subst hpo; exact absurd ((put_self w p z).symm.trans hp) (hz' a)
      · exact ⟨p, (put_ne w z hpo).symm.trans hp⟩
    · intro p q a hp hq
      by_cases hpo : p = o
      · subst hpo; exact absurd ((put_self w p z).symm.trans hp) (hz' a)
      · by_cases hqo : q = o
        · subst hqo; exact absurd ((put_self w q z).symm.trans hq) (hz' a)
        · exact H.one p q a ((put_ne w z hpo).symm.trans hp) ((put_ne w z hqo).symm.trans hq)
  | some b =>
    have hb : w.heap b = true := (H.owned b).2 ⟨o, ho⟩
    refine ⟨{ w with heap := fun c => if c = b then false else w.heap c }, if_pos hb, rfl, ⟨fun a => ?_, ?_⟩, fun a h => ?_, fun a h => ?_⟩
    · show (if a = b then false else w.heap a) = true ↔ _
      by_cases hab : a = b
      · subst hab
        rw [if_pos rfl]
        refine ⟨fun h => (nomatch h), ?_⟩
        rintro ⟨p, hp⟩
        by_cases hpo : p = o
        · subst hpo; exact absurd ((put_self _ p z).symm.trans hp) (hz' a)
        · exact absurd (H.one p o a ((put_ne _ z hpo).symm.trans hp) ho) hpo
      · rw [if_neg hab]
        refine (H.owned a).trans ⟨?_, ?_⟩
        · rintro ⟨p, hp⟩
          have hpo : p ≠ o := by rintro rfl; rw [Owns, ho] at hp; cases hp; exact hab rfl
          exact ⟨p, (put_ne _ z hpo).trans hp⟩
        · rintro ⟨p, hp⟩
          by_cases hpo : p = o
          · subst hpo; exact absurd ((put_self _ p z).symm.trans hp) (hz' a)
          · exact ⟨p, (put_ne _ z hpo).symm.trans hp⟩
    · intro p q a hp hq
      by_cases hpo : p = o
      · subst hpo; exact absurd ((put_self _ p z).symm.trans hp) (hz' a)
      · by_cases hqo : q = o
        · subst hqo; exact absurd ((put_self _ q z).symm.trans hq) (hz' a)
        · exact H.one p q a ((put_ne _ z hpo).symm.trans hp) ((put_ne _ z hqo).symm.trans hq)
    · cases h; exact if_pos rfl
    · show (if a = b then false else w.heap a) = false
      rw [h]; split <;> rfl

/-- A free block is given to an object without memory. -/
theorem alloc_inv (H : Inv w) {o a : Nat} (ho : ∀ b, ¬ Owns w o b) (ha : w.heap a = false) : Inv (put (alloc w a) o (some (some a))) := by
  have hna : ∀ p, ¬ Owns w p a := fun p hp => by
    have := (H.owned a).2 ⟨p, hp⟩
    rw [ha] at this; cases this
  refine ⟨fun b => ?_, fun p q b hp hq => ?_⟩
  · show (if b = a then true else w.heap b) = true ↔ _
    by_cases hba : b = a
    · subst hba; rw [if_pos rfl]; exact ⟨fun _ => ⟨o, put_self _ _ _⟩, fun _ => rfl⟩
    · rw [if_neg hba]
      refine (H.owned b).trans ⟨?_, ?_⟩
      · rintro ⟨p, hp⟩
        have hpo : p ≠ o := by rintro rfl; exact ho b hp
        exact ⟨p, (put_ne _ _ hpo).trans hp⟩
      · rintro ⟨p, hp⟩
        by_cases hpo : p = o
        · subst hpo
          have := (put_self (alloc w a) p (some (some a))).symm.trans hp
          cases this; exact absurd rfl hba
        · exact ⟨p, (put_ne _ _ hpo).symm.trans hp⟩
  · have key : ∀ {r}, Owns (put (alloc w a) o (some (some a))) r b → (r = o ∧ b = a) ∨ (r ≠ o ∧ Owns w r b) := by
      intro r hr
      by_cases hro : r = o
      · subst hro
        have := (put_self (alloc w a) r (some (some a))).symm.trans hr
        cases this; exact .inl ⟨rfl, rfl⟩
      · exact .inr ⟨hro, (put_ne _ _ hro).symm.trans hr⟩
    rcases key hp with ⟨rfl, rfl⟩ | ⟨h1, h2⟩ <;> rcases key hq with ⟨h3, h4⟩ | ⟨h3, h4⟩
    · exact h3.symm
    · exact absurd h4 (hna q)
    · subst h4; exact absurd h2 (hna p)
    · exact H.one p q b h2 h4

/-- An object without memory takes over that of another one. -/
theorem move_inv (H : Inv w) {o p : Nat} {x : Option Nat} (hp : w.objs p = some x) (ho : o = p → x = none) (hn : ∀ b, ¬ Owns w o b) :
    Inv (put (put w o (some x)) p (some none)) := by
  have key : ∀ r b, Owns (put (put w o (some x)) p (some none)) r b ↔ (r = o ∧ r ≠ p ∧ x = some b) ∨ (r ≠ o ∧ r ≠ p ∧ Owns w r b) := by
    intro r b
    by_cases hrp : r = p
    · subst hrp
      rw [Owns, put_self]
      simp
    · rw [Owns, put_ne _ _ hrp]
      by_cases hro : r = o
      · subst hro
        rw [put_self]
        simp [hrp]
      · rw [put_ne _ _ hro]
        simp [hrp, hro, Owns]
  refine ⟨fun a => (H.owned a).trans ⟨?_, ?_⟩, fun r q b hr hq => ?_⟩
  · rintro ⟨r, hr⟩
    by_cases hrp : r = p
    · subst hrp
      rw [Owns, hp] at hr
      cases hr
      have hop : o ≠ r := fun h => nomatch ho h
      exact ⟨o, (key o a).2 (.inl ⟨rfl, hop, rfl⟩)⟩
    · have hro : r ≠ o := by rintro rfl; exact hn a hr
      exact ⟨r, (key r a).2 (.inr ⟨hro, hrp, hr⟩)⟩
  · rintro ⟨r, hr⟩
    rcases (key r a).1 hr with ⟨_, _, rfl⟩ | ⟨_, _, h⟩
    · exact ⟨p, hp⟩
    · exact ⟨r, h⟩
  · rcases (key r b).1 hr with ⟨rfl, h1, rfl⟩ | ⟨h0, h1, h2⟩ <;> rcases (key q b).1 hq with ⟨h3, h4, h5⟩ | ⟨h3, h4, h5⟩
    · exact h3.symm
    · exact absurd (H.one q p b h5 hp) h4
    · subst h5; exact absurd (H.one r p b h2 hp) h1
    · exact H.one r q b h2 h5

theorem setCapacity_inv (H : Inv w) {o c a : Nat} {x : Option Nat} (ho : w.objs o = some x) (ha : w.heap a = false ∨ Owns w o a) :
    ∃ w', setCapacity n c a w o = some w' ∧ Inv w' := by
  rw [setCapacity, ho, Option.bind_some]
  split
  · obtain ⟨w1, h1, h2, h3, h4, h5⟩ := release_inv H ho (some none) (.inr rfl)
    refine ⟨_, by rw [h1]; rfl, ?_⟩
    have := alloc_inv h3 (o := o) (a := a) (fun b hb => by rw [Owns, put_self] at hb; cases hb) (by
      rcases ha with ha | ha
      · exact h5 a ha
      · rw [Owns, ho] at ha; exact h4 a (Option.some.inj ha))
    have e : put (alloc (put w1 o (some none)) a) o (some (some a)) = put (alloc w1 a) o (some (some a)) := by
      simp only [put, alloc, World.mk.injEq, and_true]
      funext p
      split <;> rfl
    rwa [e] at this
  · exact ⟨w, rfl, H⟩

theorem new_inv (H : Inv w) {o : Nat} (ho : w.objs o = none) : Inv (put w o (some none)) := by
  have key : ∀ r b, Owns (put w o (some none)) r b ↔ Owns w r b := by
    intro r b
    by_cases hro : r = o
    · subst hro; rw [Owns, put_self, Owns, ho]; simp
    · rw [Owns, put_ne _ _ hro, Owns]
  exact ⟨fun a => (H.owned a).trans (exists_congr fun r => (key r a).symm), fun r q b hr hq => H.one r q b ((key r b).1 hr) ((key q b).1 hq)⟩

theorem step_inv (H : Inv w) {op : Op} (h : Ok w op) : ∃ w', step n w op = some w' ∧ Inv w' := by
  cases op with
  | new o => exact ⟨_, rfl, new_inv H h⟩
  | setCapacity o c a =>
    obtain ⟨x, hx⟩ := Option.ne_none_iff_exists'.1 h.1
    exact setCapacity_inv H hx h.2
  | copyNew o p len a =>
    obtain ⟨x, hx⟩ := Option.ne_none_iff_exists'.1 h.2.1
    rw [step, hx]
    exact setCapacity_inv (new_inv H h.1) (put_self _ _ _) (.inl h.2.2)
  | moveNew o p =>
    obtain ⟨x, hx⟩ := Option.ne_none_iff_exists'.1 h.2
    rw [step, hx]
    have hop : o ≠ p := by rintro rfl; exact h.2 h.1
    exact ⟨_, rfl, move_inv H hx (fun e => absurd e hop) fun b hb => by rw [Owns, h.1] at hb; cases hb⟩
  | assign o p =>
    obtain ⟨y, hy⟩ := Option.ne_none_iff_exists'.1 h.1
    obtain ⟨x, hx⟩ := Option.ne_none_iff_exists'.1 h.2
    obtain ⟨w1, h1, h2, h3, _⟩ := release_inv H hy (some none) (.inr rfl)
    rw [step, hy, Option.bind_some, hx, Option.bind_some, h1]
    refine ⟨_, rfl, ?_⟩
    by_cases hop : o = p
    · subst hop
      have e : put (put w1 o (some x)) o (some none) = put w1 o (some none) := by
        simp only [put, World.mk.injEq, and_true]
        funext q
        split <;> rfl
      show Inv (put (put w1 o (some x)) o (some none))
      rw [e]
      exact h3
    · have := move_inv h3 (o := o) (p := p) (x := x) (by rw [put_ne _ _ (Ne.symm hop), h2, hx]) (fun e => absurd e hop)
        (fun b hb => by rw [Owns, put_self] at hb; cases hb)
      have e : put (put (put w1 o (some none)) o (some x)) p (some none) = put (put w1 o (some x)) p (some none) := by
        simp only [put, World.mk.injEq, and_true]
        funext q
        split
        · rfl
        · split <;> rfl
      rw [e] at this
      exact this
  | del o =>
    obtain ⟨x, hx⟩ := Option.ne_none_iff_exists'.1 h
    obtain ⟨w1, h1, _, h3, _⟩ := release_inv H hx none (.inl rfl)
    exact ⟨_, by rw [step, hx, Option.bind_some, h1]; rfl, h3⟩

theorem reach_inv (h : Reach n w) : Inv w := by
  induction h with
  | start => exact ⟨fun a => ⟨fun h => (nomatch h), fun ⟨_, h⟩ => (nomatch h)⟩, fun _ _ _ h => (nomatch h)⟩
  | step _ ho he ih =>
    obtain ⟨w', h1, h2⟩ := step_inv (n := n) ih ho
    rw [he] at h1
    cases h1
    exact h2

/-- However arrays are made, filled, copied, moved (also onto themselves) and destroyed: every block of memory belongs to exactly one array, no call releases a block that is not
allocated, and when there is no array left, or only arrays with their elements inside, all memory is released. -/
theorem C216_memory (h : Reach n w) :
    (∀ a, w.heap a = true → ∃ o, Owns w o a ∧ ∀ o', Owns w o' a → o' = o) ∧ (∀ o a, Owns w o a → w.heap a = true) ∧
    (∀ op, Ok w op → ∃ w', step n w op = some w') ∧ ((∀ o a, ¬ Owns w o a) → ∀ a, w.heap a = false) := by
  have H := reach_inv h
  refine ⟨fun a ha => ?_, fun o a ho => (H.owned a).2 ⟨o, ho⟩, fun op ho => ?_, fun hn a => ?_⟩
  · obtain ⟨o, ho⟩ := (H.owned a).1 ha
    exact ⟨o, ho, fun o' ho' => H.one o' o a ho' ho⟩
  · obtain ⟨w', h1, _⟩ := step_inv (n := n) H ho
    exact ⟨w', h1⟩
  · cases ha : w.heap a with
    | false => rfl
    | true => obtain ⟨o, ho⟩ := (H.owned a).1 ha; exact absurd ho (hn o a)

/-- A move hands the block on, and the source is empty with its elements inside; a move of an array onto itself releases its block and leaves it empty; a copy never has the block of
its source; elements are on the heap after `SetCapacity` beyond the inline capacity. -/
theorem C216_calls (h : Reach n w) {w' : World} {op : Op} (ho : Ok w op) (hs : step n w op = some w') :
    (∀ o p, op = .moveNew o p ∨ op = .assign o p → o ≠ p → w'.objs o = w.objs p ∧ w'.objs p = some none) ∧
    (∀ o, op = .assign o o → w'.objs o = some none ∧ ∀ a, Owns w o a → w'.heap a = false) ∧
    (∀ o p len a, op = .copyNew o p len a → w'.objs p = w.objs p ∧ (len ≤ n → w'.objs o = some none) ∧ (n < len → Owns w' o a ∧ ¬ Owns w p a)) ∧
    (∀ o c a, op = .setCapacity o c a → (n < c → Owns w' o a) ∧ (c ≤ n → w' = w)) := by
  have H := reach_inv h
  have rel : ∀ {w w1 : World} {x}, release w x = some w1 → w1.objs = w.objs ∧ ∀ a, x = some a → w1.heap a = false := by
    intro w w1 x hx
    cases x with
    | none => cases hx; exact ⟨rfl, fun _ h => nomatch h⟩
    | some b =>
      rw [release, free] at hx
      split at hx
      · cases hx; exact ⟨rfl, fun a h => by cases h; exact if_pos rfl⟩
      · cases hx
  refine ⟨?_, ?_, ?_, ?_⟩
  · rintro o p (rfl | rfl) hop
    · obtain ⟨x, hx⟩ := Option.ne_none_iff_exists'.1 ho.2
      rw [step, hx] at hs
      cases hs
      exact ⟨by rw [put_ne _ _ hop, put_self, hx], put_self _ _ _⟩
    · obtain ⟨y, hy⟩ := Option.ne_none_iff_exists'.1 ho.1
      obtain ⟨x, hx⟩ := Option.ne_none_iff_exists'.1 ho.2
      rw [step, hy, Option.bind_some, hx, Option.bind_some] at hs
      obtain ⟨w1, h1, rfl⟩ := Option.map_eq_some_iff.1 hs
      exact ⟨by rw [put_ne _ _ hop, put_self, hx], put_self _ _ _⟩
  · rintro o rfl
    obtain ⟨x, hx⟩ := Option.ne_none_iff_exists'.1 ho.1
    rw [step, hx, Option.bind_some, Option.bind_some] at hs
    obtain ⟨w1, h1, rfl⟩ := Option.map_eq_some_iff.1 hs
    refine ⟨put_self _ _ _, fun a ha => ?_⟩
    rw [Owns, hx] at ha
    exact (rel h1).2 a (Option.some.inj ha)
  · rintro o p len a rfl
    have hpo : p ≠ o := by rintro rfl; exact ho.2.1 ho.1
    obtain ⟨x, hx⟩ := Option.ne_none_iff_exists'.1 ho.2.1
    rw [step, hx, Option.bind_some, setCapacity, put_self, Option.bind_some] at hs
    split at hs
    · next hl =>
      cases hs
      refine ⟨by rw [put_ne _ _ hpo]; exact put_ne w _ hpo, fun h => absurd hl (by omega), fun _ => ⟨put_self _ _ _, fun hp => ?_⟩⟩
      have := (H.owned a).2 ⟨p, hp⟩
      rw [ho.2.2] at this
      cases this
    · next hl =>
      cases hs
      exact ⟨put_ne _ _ hpo, fun _ => put_self _ _ _, fun h => absurd h (by omega)⟩
  · rintro o c a rfl
    obtain ⟨x, hx⟩ := Option.ne_none_iff_exists'.1 ho.1
    rw [step, setCapacity, hx, Option.bind_some] at hs
    split at hs
    · next hl =>
      obtain ⟨w1, h1, rfl⟩ := Option.map_eq_some_iff.1 hs
      exact ⟨fun _ => put_self _ _ _, fun h => absurd hl (by omega)⟩
    · next hl =>
      cases hs
      exact ⟨fun h => absurd h (by omega), fun _ => rfl⟩

/-- The hypotheses can be met: an array on the heap is copied, and moved onto the copy. -/
example : ∃ w, Reach 4 w ∧ Owns w 2 100 ∧ w.objs 1 = some none ∧ w.heap 200 = false := by
  have h1 : Reach 4 _ := .step (op := .new 1) .start rfl rfl
  have h2 : Reach 4 _ := .step (op := .setCapacity 1 8 100) h1 ⟨by simp [put], .inl rfl⟩ rfl
  have h3 : Reach 4 _ := .step (op := .copyNew 2 1 8 200) h2 ⟨rfl, by simp [put], rfl⟩ rfl
  have h4 : Reach 4 _ := .step (op := .assign 2 1) h3 ⟨by simp [put], by simp [put, alloc]⟩ rfl
  exact ⟨_, h4, rfl, rfl, rfl⟩

end Verif.Compact.Heap
