import Verif.Alloc.CacheAllocProps

/-!
# `CacheAlloc` objects that are moved

`include/bss-util/CacheAlloc.h:18`, `:106-113` with `GreedyAlloc.h:26-31`, `:125-134`, `:37-47`, on the model of C36.
-/

namespace Verif.Alloc.Cache

/-- The move constructor, `CacheAlloc.h:18`, `GreedyAlloc.h:26-31`: the new object, and what is left in the source. The cache is not moved. -/
def moveNew (s : St) : St × St := (⟨s.chunks, s.cur, fun _ => none, s.mem⟩, ⟨[], 0, s.cache, s.mem⟩)

/-- What `operator=` gives: the target, the source (if it is another object), and the chunks that no object has any more. -/
structure Moved where
  target : St
  source : St
  lost : List (Nat × Nat)

/-- `operator=(CacheAlloc&&)`, `CacheAlloc.h:106-113`, `GreedyAlloc.h:125-134`, `Hash.h:319-327`: the target is overwritten, then the source is cleared, also if it is the same object. -/
def moveAssign (self : Bool) (t s : St) : Moved :=
  if self then ⟨⟨[], 0, fun _ => none, s.mem⟩, ⟨[], 0, fun _ => none, s.mem⟩, s.chunks⟩
  else ⟨⟨s.chunks, s.cur, s.cache, s.mem⟩, ⟨[], 0, fun _ => none, s.mem⟩, t.chunks⟩

/-- The chunks that the destructor frees, `GreedyAlloc.h:37-47`. -/
def frees (s : St) : List (Nat × Nat) := s.chunks

/-! ## Specification -/

/-- The histories of C36 in which the pool is also moved: the move constructor only while no block of a cached size was taken, the assignment to any other object. -/
inductive MReach (junk : Nat → Nat → Nat) (c : Cfg) : St → List (Nat × Nat) → List (Nat × Nat) → Prop
  | new (init base : Nat) (mem : Nat → Nat) : 0 < base → base % c.align = 0 → MReach junk c (new init base mem) [] []
  | alloc {s live hist sz base s' p} : MReach junk c s live hist → (∀ n, asked c sz s = some n → SysOk c s live base n) → (sz ≤ c.max → base % c.align = 0) →
      alloc c sz base s = some (s', p) → MReach junk c s' ((p, sz) :: live) ((p, sz) :: hist)
  | dealloc {s live hist p sz s'} : MReach junk c s live hist → (p, sz) ∈ live → dealloc junk c p sz s = some s' → MReach junk c s' (live.erase (p, sz)) hist
  | write {s live hist mem'} : MReach junk c s live hist → (∀ a, (∀ x ∈ live, a + 8 ≤ x.1 ∨ x.1 + x.2 ≤ a) → mem' a = s.mem a) → MReach junk c { s with mem := mem' } live hist
  | moveNew {s live hist} : MReach junk c s live hist → (∀ x ∈ hist, c.max < x.2) → MReach junk c (moveNew s).1 live hist
  | moveAssign {s t live hist} : MReach junk c s live hist → MReach junk c (moveAssign false t s).target live hist

/-! ## Proofs -/

variable {junk : Nat → Nat → Nat} {max align : Nat} {s t : St} {live hist : List (Nat × Nat)}

/-- As long as no block of a cached size was taken, there is no free list. -/
theorem no_cache {c : Cfg} (h : Reach junk c s live hist) (hb : ∀ x ∈ hist, c.max < x.2) : ∀ z, s.cache z = none := by
  induction h with
  | new => exact fun _ => rfl
  | @alloc s live hist sz base s' p _ _ _ he ih =>
    have hsz : c.max < sz := hb (p, sz) (List.mem_cons_self ..)
    rw [Cache.alloc, if_pos hsz] at he
    cases he
    exact ih fun x hx => hb x (List.mem_cons_of_mem _ hx)
  | @dealloc s live hist p sz s' _ _ he ih =>
    have ih := ih hb
    rw [Cache.dealloc] at he
    split at he
    · cases he; exact ih
    · rw [ih sz] at he; cases he
  | write _ _ ih => exact ih hb

theorem MReach.reach {c : Cfg} (h : MReach junk c s live hist) : Reach junk c s live hist := by
  induction h with
  | new init base mem h1 h2 => exact .new init base mem h1 h2
  | alloc _ h1 h2 h3 ih => exact .alloc ih h1 h2 h3
  | dealloc _ h1 h2 ih => exact .dealloc ih h1 h2
  | write _ h1 ih => exact .write ih h1
  | @moveNew s live hist _ hb ih =>
    have : (Cache.moveNew s).1 = s := by
      have hc : s.cache = fun _ => none := funext (no_cache ih hb)
      show (⟨s.chunks, s.cur, fun _ => none, s.mem⟩ : St) = s
      rw [← hc]
    rw [this]
    exact ih
  | @moveAssign s t live hist _ ih => exact ih

/-- However a pool is used and moved (constructed from another one only before the first block of a cached size): blocks in use never overlap and blocks of cached sizes lie in chunks that the
object that has them now frees, all calls are defined for that object, and the object that was moved from frees nothing and has no free blocks. An assignment loses no memory if the target
was moved from. -/
theorem C212_pools_partial (ha : 0 < align) (h : MReach junk (mkCfg max align) s live hist) :
    (live.Pairwise fun x y => Apart x.1 x.2 y.1 y.2 ∧ x.1 ≠ y.1) ∧
    (∀ p sz, (p, sz) ∈ live → sz ≤ max → ∃ k ∈ frees s, k.1 + 16 ≤ p ∧ p + sz ≤ k.1 + (mkCfg max align).hdr + k.2) ∧
    (∀ sz base, (∃ r, alloc (mkCfg max align) sz base s = some r) ∧ ∀ p, (p, sz) ∈ live → ∃ s', dealloc junk (mkCfg max align) p sz s = some s') ∧
    (∀ t, frees (moveAssign false t s).target = frees s ∧ frees (moveAssign false t s).source = [] ∧ (∀ z, head (moveAssign false t s).source z = 0) ∧
      (frees t = [] → (moveAssign false t s).lost = [])) ∧
    ((∀ x ∈ hist, max < x.2) → frees (moveNew s).1 = frees s ∧ frees (moveNew s).2 = [] ∧ ∀ z, head (moveNew s).2 z = 0) := by
  have hr := h.reach
  refine ⟨C36_disjoint ha hr, fun p sz hp hsz => ((C36_room ha hr hp).1 hsz).2, fun sz base => C36_no_ub ha hr sz base, fun t => ⟨rfl, rfl, fun _ => rfl, id⟩, fun hb => ⟨rfl, rfl, fun z => ?_⟩⟩
  show (s.cache z).getD 0 = 0
  rw [no_cache hr hb z]
  rfl

/-- After the move constructor, a block of a cached size that was taken before cannot be given back to the new object: it has no free list for its size. -/
theorem C212_dealloc_counterexample {p sz : Nat} (hsz : sz ≤ max) : dealloc junk (mkCfg max align) p sz (moveNew s).1 = none := by
  rw [dealloc, if_neg (show ¬ sz > (mkCfg max align).max from Nat.not_lt.2 hsz)]
  rfl

/-- After the move constructor, the source still has the free blocks: it would hand out a block that is in a chunk of the new object, which frees it. -/
theorem C212_source_counterexample (ha : 0 < align) (h : Reach junk (mkCfg max align) s live hist) {p sz : Nat} {s1 : St} (hp : (p, sz) ∈ live) (hsz : sz ≤ max)
    (hd : dealloc junk (mkCfg max align) p sz s = some s1) :
    head (moveNew s1).2 sz = p ∧ frees (moveNew s1).2 = [] ∧ ∃ k ∈ frees (moveNew s1).1, k.1 + 16 ≤ p ∧ p + sz ≤ k.1 + (mkCfg max align).hdr + k.2 := by
  obtain ⟨k, hk, h1⟩ := ((C36_room ha h hp).1 hsz).2
  rw [dealloc, if_neg (show ¬ sz > (mkCfg max align).max from Nat.not_lt.2 hsz)] at hd
  split at hd
  · cases hd
  · split at hd
    · cases hd
      refine ⟨?_, rfl, k, hk, h1⟩
      show (if sz = sz then some p else _).getD 0 = p
      rw [if_pos rfl]
      rfl
    · cases hd

/-- An assignment to a pool that has memory of its own loses that memory: neither object frees it. -/
theorem C212_lost_counterexample {k : Nat × Nat} (hk : k ∈ frees t) (hn : k ∉ frees s) :
    k ∉ frees (moveAssign false t s).target ∧ k ∉ frees (moveAssign false t s).source ∧ k ∈ (moveAssign false t s).lost :=
  ⟨hn, List.not_mem_nil, hk⟩

/-- A pool that is assigned to itself, or that was moved from, has no chunk; the next request of a cached size reads the size of one, if there is no free block. -/
theorem C212_moved_counterexample (self : Bool) {sz : Nat} (hsz : sz ≤ max) (base : Nat) :
    alloc (mkCfg max align) sz base (moveAssign self t s).source = none ∧ alloc (mkCfg max align) sz base (moveAssign true s s).target = none := by
  have key : ∀ m, alloc (mkCfg max align) sz base ⟨[], 0, fun _ => none, m⟩ = none := by
    intro m
    rw [alloc, if_neg (show ¬ sz > (mkCfg max align).max from Nat.not_lt.2 hsz), if_pos (show head _ sz = 0 from rfl)]
    rfl
  cases self <;> exact ⟨key _, key _⟩

/-- The hypotheses can be met: a pool is moved before it is used, gives a block, and is assigned to another one. -/
example : ∃ s, MReach (fun _ _ => 0) (mkCfg 100 1) s [(1016, 16)] [(1016, 16)] ∧ frees s = [(1000, 64)] := by
  have h0 : MReach (fun _ _ => 0) (mkCfg 100 1) (new 64 1000 fun _ => 0) [] [] := .new 64 1000 _ (by decide) (by decide)
  have h1 := h0.moveNew (fun x hx => nomatch hx)
  have h2 := h1.alloc (sz := 16) (base := 0) (s' := _) (p := 1016) (fun n hn => absurd hn (by
    rw [show asked (mkCfg 100 1) 16 (moveNew (new 64 1000 fun _ => 0)).1 = none by decide]; simp)) (fun _ => by decide) rfl
  exact ⟨_, h2.moveAssign (t := new 8 5000 fun _ => 0), rfl⟩

end Verif.Alloc.Cache
