import Verif.Alloc.RingAllocProps

/-!
# `RingAllocVoid` objects that are moved

`include/bss-util/RingAlloc.h:32-37`, `:44`, `:120-130`, `:135-152`, on the model of C37.
-/

namespace Verif.Alloc.Ring

/-- The move constructor, `RingAlloc.h:32-37`: the new object, and what is left in the source, which keeps the free list `_gc`. -/
def moveNew (s : St) : St × St := (⟨s.bk, s.cur, s.gc, s.last, s.mem⟩, ⟨fun _ => none, 0, s.gc, s.last, s.mem⟩)

/-- What `operator=` gives: the target, the source, and the buckets that were released. -/
structure Moved where
  target : St
  source : St
  freed : Nat → Option Bkt

/-- `operator=(RingAllocVoid&&)`, `RingAlloc.h:120-130`: `_clear` of the target, then the fields of the source, which are the cleared ones if it is the same object. -/
def moveAssign (self : Bool) (t s : St) : Moved :=
  let s' := if self then clear0 s else s
  ⟨if self then ⟨fun _ => none, 0, s'.gc, s'.last, s'.mem⟩ else ⟨s'.bk, s'.cur, s'.gc, s'.last, s'.mem⟩, ⟨fun _ => none, 0, s'.gc, s'.last, s'.mem⟩, if self then s.bk else t.bk⟩

/-- The buckets that the destructor releases, `RingAlloc.h:44`, `:135-152`. -/
def frees (s : St) : Nat → Option Bkt := s.bk

/-! ## Specification -/

/-- The histories of C37 in which the pool is also moved to a new object, assigned to another one, or is the source of a move that is used again after `Clear`. -/
inductive MReach (junk : Nat → Nat → Nat) (hdr : Nat) : St → List Blk → Prop
  | new {sz base mem s} : 0 < base → new sz base mem = some s → MReach junk hdr s []
  | alloc {s live num base s' p} : MReach junk hdr s live → (∀ s1, callocIn (num + 16) s = some s1 → Fresh hdr s1 base) →
      alloc junk hdr num base s = some (s', p) → MReach junk hdr s' (⟨p, num, s'.cur⟩ :: live)
  | dealloc {s live x s'} : MReach junk hdr s live → x ∈ live → dealloc x.p s = some s' → MReach junk hdr s' (live.erase x)
  | clear {s live base s'} : MReach junk hdr s live → 0 < base → clear base s = some s' → MReach junk hdr s' []
  | write {s live mem'} : MReach junk hdr s live → (∀ a, (∀ x ∈ live, a + 8 ≤ x.p ∨ x.p + x.num ≤ a) → mem' a = s.mem a) →
      MReach junk hdr { s with mem := mem' } live
  | moveNew {s live} : MReach junk hdr s live → MReach junk hdr (moveNew s).1 live
  | moveAssign {s t live} : MReach junk hdr s live → MReach junk hdr (moveAssign false t s).target live
  | reuse {s live base s'} : MReach junk hdr s live → 0 < base → Ring.clear base (Ring.moveNew s).2 = some s' → MReach junk hdr s' []
  | reuseAssign {s t live base s'} : MReach junk hdr s live → 0 < base → Ring.clear base (Ring.moveAssign false t s).source = some s' → MReach junk hdr s' []

/-! ## Proofs -/

variable {junk : Nat → Nat → Nat} {hdr : Nat} {s t : St} {live : List Blk}

theorem MReach.reach (h : MReach junk hdr s live) : Reach junk hdr s live := by
  induction h with
  | new h1 h2 => exact .new h1 h2
  | alloc _ h1 h2 ih => exact .alloc ih h1 h2
  | dealloc _ h1 h2 ih => exact .dealloc ih h1 h2
  | clear _ h1 h2 ih => exact .clear ih h1 h2
  | write _ h1 ih => exact .write ih h1
  | moveNew _ ih => exact ih
  | moveAssign _ ih => exact ih
  | reuse _ h1 h2 ih => exact .clear ih h1 h2
  | reuseAssign _ h1 h2 ih => exact .clear ih h1 h2

/-- However a pool is used and moved: blocks in use do not overlap and lie in buckets of the object that has them now, and all calls are defined for that object. -/
theorem C215_blocks (h : MReach junk hdr s live) :
    (live.Pairwise fun x y => Apart x.p x.num y.p y.num ∧ x.p ≠ y.p) ∧
    (∀ x ∈ live, ∃ k, frees s x.b = some k ∧ x.b + hdr + 16 ≤ x.p ∧ x.p + x.num ≤ x.b + hdr + k.sz) ∧
    (∀ num base, (∀ s1, callocIn (num + 16) s = some s1 → Fresh hdr s1 base) → ∃ r, alloc junk hdr num base s = some r) ∧
    (∀ x ∈ live, ∃ s', dealloc x.p s = some s') ∧ (∀ base, 0 < base → ∃ s', clear base s = some s') :=
  ⟨C37_disjoint h.reach, fun _ hx => (C37_room h.reach hx).2, fun num base => (C37_no_ub h.reach num base).1, (C37_no_ub h.reach 0 0).2.1,
    fun base => (C37_no_ub h.reach 0 base).2.2⟩

/-- A pool that was moved from releases nothing, and after `Clear` it has one bucket, the new one, no matter which free buckets it still knew; the assignment releases exactly the buckets the
target had, and the target then has those of the source. -/
theorem C215_source (h : MReach junk hdr s live) {base : Nat} (hb : 0 < base) :
    (∀ b, frees (moveNew s).1 b = frees s b ∧ frees (moveNew s).2 b = none) ∧
    (∀ b, frees (moveAssign false t s).target b = frees s b ∧ frees (moveAssign false t s).source b = none ∧ (moveAssign false t s).freed b = frees t b) ∧
    (∃ s', clear base (moveNew s).2 = some s' ∧ MReach junk hdr s' [] ∧ s'.gc = [] ∧ ∀ b, (frees s' b).isSome ↔ b = base) ∧
    (∃ s', clear base (moveAssign false t s).source = some s' ∧ MReach junk hdr s' [] ∧ s'.gc = [] ∧ ∀ b, (frees s' b).isSome ↔ b = base) := by
  have key : ∃ s', clear base s = some s' ∧ s'.gc = [] ∧ ∀ b, (frees s' b).isSome ↔ b = base := by
    refine ⟨_, rfl, rfl, fun b => ?_⟩
    show (if b = base then some _ else none : Option Bkt).isSome ↔ _
    by_cases hbb : b = base
    · rw [if_pos hbb]; exact ⟨fun _ => hbb, fun _ => rfl⟩
    · rw [if_neg hbb]; exact ⟨fun h => (nomatch h), fun h => absurd h hbb⟩
  obtain ⟨s', h1, h2, h3⟩ := key
  exact ⟨fun _ => ⟨rfl, rfl⟩, fun _ => ⟨rfl, rfl, rfl⟩, ⟨s', h1, .reuse h hb h1, h2, h3⟩, ⟨s', h1, .reuseAssign (t := t) h hb h1, h2, h3⟩⟩

/-- Without `Clear`, a request to a pool that was moved from reads through a null pointer (there is never a bucket at address 0). -/
theorem C215_moved_counterexample (num base : Nat) :
    alloc junk hdr num base (moveNew s).2 = none ∧ alloc junk hdr num base (moveAssign false t s).source = none := ⟨rfl, rfl⟩

/-- A pool that is assigned to itself releases the buckets of all blocks in use. -/
theorem C215_self_counterexample (h : MReach junk hdr s live) {x : Blk} (hx : x ∈ live) :
    ((moveAssign true s s).freed x.b).isSome ∧ frees (moveAssign true s s).target x.b = none := by
  obtain ⟨k, hk, _⟩ := (C37_room h.reach hx).2
  exact ⟨by show (s.bk x.b).isSome; rw [hk]; rfl, rfl⟩

/-- The hypotheses can be met: a block is taken after the pool was moved, then it is assigned. -/
example : ∃ s, MReach (fun _ _ => 0) 48 s [⟨1064, 4, 1000⟩] := by
  obtain ⟨s0, e0⟩ : ∃ s0, new 64 1000 (fun _ => 0) = some s0 := ⟨_, rfl⟩
  have h0 : MReach (fun _ _ => 0) 48 (moveNew s0).1 [] := .moveNew (.new (by decide) e0)
  have he : ((new 64 1000 fun _ => 0).bind fun s => (alloc (fun _ _ => 0) 48 4 5000 (moveNew s).1).map fun r => (r.2, r.1.cur)) = some (1064, 1000) := by decide +kernel
  rw [e0, Option.bind_some] at he
  obtain ⟨⟨s1, p⟩, h1, h2⟩ := Option.map_eq_some_iff.1 he
  obtain ⟨rfl, h3⟩ : p = 1064 ∧ s1.cur = 1000 := Prod.mk.inj h2
  cases e0
  have h4 := MReach.alloc h0 (base := 5000) (fun s2 hs => by
    cases hs
    refine ⟨by decide, fun b k hk => ?_⟩
    by_cases e : b = 1000
    · subst e
      cases hk
      exact .inr (by decide)
    · simp [moveNew, setB, e] at hk) h1
  rw [h3] at h4
  exact ⟨_, .moveAssign (t := s1) h4⟩

end Verif.Alloc.Ring
