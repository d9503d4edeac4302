import Verif.Alloc.BlockModel

/-!
# C34: `GreedyBlockPolicy` (`include/bss-util/GreedyBlockAlloc.h`)

Addresses are natural numbers.  The system allocator is outside and assumed not to fail (the code asserts it); the address it returns is an
argument.  The chunks `(address of the header, size of the payload)` are kept as a list, newest first (`_root`).  Sizes do not overflow.
-/

namespace Verif.Alloc.GreedyBlock

open Block (alignSize)

/-- Size and alignment of `T`. -/
structure Cfg where
  size : Nat
  align : Nat

/-- `sizeof(Node)` (`GreedyBlockAlloc.h:17-24`): two words, padded to the alignment of `T`. -/
def Cfg.hdr (c : Cfg) : Nat := alignSize 16 c.align

/-- The allocator: chunks and `_curpos`. -/
structure St where
  chunks : List (Nat × Nat)
  cur : Nat
deriving DecidableEq

/-- `GreedyBlockAlloc.h:105-115`: the size of a chunk for `nsize` bytes. -/
def chunkSize (c : Cfg) (nsize : Nat) : Nat := alignSize (alignSize nsize c.size) c.align

/-- `GreedyBlockAlloc.h:32-35`: the constructor. -/
def new (c : Cfg) (init base : Nat) : St := ⟨[(base, chunkSize c init)], 0⟩

/-- `GreedyBlockAlloc.h:49`: the bytes taken by `n` objects. -/
def bytes (c : Cfg) (n : Nat) : Nat := alignSize (n * c.size) c.align

/-- `GreedyBlockAlloc.h:46-64` `allocate`: `base` is used if a new chunk is needed. -/
def allocate (c : Cfg) (n base : Nat) (s : St) : Option (St × Nat) :=
  match s.chunks with
  | [] => none
  | k :: ks =>
    if s.cur + bytes c n > k.2 then
      some (⟨(base, chunkSize c (Arith.fbnextN (s.cur + bytes c n))) :: k :: ks, bytes c n⟩, base + c.hdr + 0)
    else some (⟨k :: ks, s.cur + bytes c n⟩, k.1 + c.hdr + s.cur)

/-- `GreedyBlockAlloc.h:84-103` `Clear`: `base` is used if there is more than one chunk. -/
def clear (c : Cfg) (base : Nat) (s : St) : Option St :=
  match s.chunks with
  | [] => none
  | [k] => some ⟨[k], 0⟩
  | ks => some ⟨[(base, chunkSize c ((ks.map (·.2)).sum))], 0⟩

/-! ## Specification -/

/-- What the system allocator guarantees for a chunk with `n` bytes of payload. -/
def SysOk (c : Cfg) (chunks : List (Nat × Nat)) (n base : Nat) : Prop :=
  0 < base ∧ base % c.align = 0 ∧ ∀ k ∈ chunks, base + c.hdr + n ≤ k.1 ∨ k.1 + c.hdr + k.2 ≤ base

/-- The histories: `live` lists the regions (address, bytes) handed out since the last `Clear`. -/
inductive Reach (c : Cfg) : St → List (Nat × Nat) → Prop
  | new (init base : Nat) : SysOk c [] (chunkSize c init) base → Reach c (new c init base) []
  | alloc {s live n base s' p} : Reach c s live → SysOk c s.chunks (chunkSize c (Arith.fbnextN (s.cur + bytes c n))) base →
      allocate c n base s = some (s', p) → Reach c s' ((p, n * c.size) :: live)
  | clear {s live base s'} : Reach c s live → SysOk c [] (chunkSize c ((s.chunks.map (·.2)).sum)) base →
      clear c base s = some s' → Reach c s' []

/-- Two regions have no byte in common. -/
def Apart (a b : Nat × Nat) : Prop := a.1 + a.2 ≤ b.1 ∨ b.1 + b.2 ≤ a.1

structure Inv (c : Cfg) (s : St) (live : List (Nat × Nat)) : Prop where
  chunk : ∀ k ∈ s.chunks, 0 < k.1 ∧ k.1 % c.align = 0
  disj : s.chunks.Pairwise fun a b => a.1 + c.hdr + a.2 ≤ b.1 ∨ b.1 + c.hdr + b.2 ≤ a.1
  pos : s.cur % c.align = 0
  root : ∃ k ks, s.chunks = k :: ks ∧ s.cur ≤ k.2 ∧
    ∀ x ∈ live, (k.1 + c.hdr ≤ x.1 ∧ x.1 + x.2 ≤ k.1 + c.hdr + s.cur) ∨ ∃ k' ∈ ks, k'.1 + c.hdr ≤ x.1 ∧ x.1 + x.2 ≤ k'.1 + c.hdr + k'.2
  apart : live.Pairwise Apart
  aligned : ∀ x ∈ live, x.1 % c.align = 0

theorem alignSize_le (sz align : Nat) (h : 0 < align) : sz ≤ alignSize sz align := by
  unfold alignSize
  have h1 := Nat.div_add_mod sz align
  have h2 := Nat.mod_lt sz h
  rw [Nat.add_mul, Nat.mul_comm (sz / align)]
  split
  · omega
  · next h3 =>
    have h3 : sz % align = 0 := Decidable.byContradiction h3
    omega

theorem alignSize_mod (sz align : Nat) : alignSize sz align % align = 0 := Nat.mul_mod_left _ _

theorem add_mod0 {a b n : Nat} (ha : a % n = 0) (hb : b % n = 0) : (a + b) % n = 0 := by rw [Nat.add_mod, ha, hb]; simp

theorem chunkSize_le (c : Cfg) (h1 : 0 < c.size) (h2 : 0 < c.align) (n : Nat) : n ≤ chunkSize c n :=
  Nat.le_trans (alignSize_le n c.size h1) (alignSize_le _ c.align h2)

theorem allocate_inv {c : Cfg} (h1 : 0 < c.size) (h2 : 0 < c.align) {s : St} {live : List (Nat × Nat)} (h : Inv c s live) (n : Nat) {base : Nat}
    (hb : SysOk c s.chunks (chunkSize c (Arith.fbnextN (s.cur + bytes c n))) base) :
    ∃ s' p, allocate c n base s = some (s', p) ∧ Inv c s' ((p, n * c.size) :: live) := by
  obtain ⟨k, ks, hk, hcur, hlive⟩ := h.root
  obtain ⟨hb0, hb1, hb2⟩ := hb
  have hbl : n * c.size ≤ bytes c n := alignSize_le _ _ h2
  have hbm : bytes c n % c.align = 0 := alignSize_mod _ _
  have hhm : c.hdr % c.align = 0 := alignSize_mod _ _
  have hcs := chunkSize_le c h1 h2 (Arith.fbnextN (s.cur + bytes c n))
  have hfb : s.cur + bytes c n ≤ Arith.fbnextN (s.cur + bytes c n) := by
    unfold Arith.fbnextN
    generalize s.cur + bytes c n = x
    omega
  have hd := h.disj
  rw [hk] at hd hb2
  rw [List.pairwise_cons] at hd
  unfold allocate
  rw [hk]
  simp only
  split
  · refine ⟨_, _, rfl, ⟨?_, ?_, hbm, ⟨_, _, rfl, ?_, ?_⟩, ?_, ?_⟩⟩
    · intro k' hk'
      rcases List.mem_cons.1 hk' with rfl | hk'
      · exact ⟨hb0, hb1⟩
      · exact h.chunk k' (by rw [hk]; exact hk')
    · refine List.pairwise_cons.2 ⟨?_, List.pairwise_cons.2 hd⟩
      intro k' hk'
      exact hb2 k' hk'
    · show bytes c n ≤ _
      simp only
      omega
    · intro x hx
      rcases List.mem_cons.1 hx with rfl | hx
      · left
        simp only
        omega
      · right
        rcases hlive x hx with hx | ⟨k', hk', hx⟩
        · exact ⟨k, by simp, by omega⟩
        · exact ⟨k', by simp [hk'], hx⟩
    · refine List.pairwise_cons.2 ⟨?_, h.apart⟩
      intro x hx
      unfold Apart
      simp only
      rcases hlive x hx with hx | ⟨k', hk', hx⟩
      · have := hb2 k (by simp)
        omega
      · have := hb2 k' (by simp [hk'])
        omega
    · intro x hx
      rcases List.mem_cons.1 hx with rfl | hx
      · exact add_mod0 (add_mod0 hb1 hhm) (Nat.zero_mod _)
      · exact h.aligned x hx
  · next hfit =>
    refine ⟨_, _, rfl, ⟨?_, ?_, add_mod0 h.pos hbm, ⟨_, _, rfl, ?_, ?_⟩, ?_, ?_⟩⟩
    · intro k' hk'
      exact h.chunk k' (by rw [hk]; exact hk')
    · exact List.pairwise_cons.2 hd
    · show s.cur + bytes c n ≤ k.2
      omega
    · intro x hx
      rcases List.mem_cons.1 hx with rfl | hx
      · left
        simp only
        omega
      · rcases hlive x hx with hx | hx
        · left
          simp only
          omega
        · exact Or.inr hx
    · refine List.pairwise_cons.2 ⟨?_, h.apart⟩
      intro x hx
      unfold Apart
      simp only
      rcases hlive x hx with hx | ⟨k', hk', hx⟩
      · omega
      · have := hd.1 k' hk'
        omega
    · intro x hx
      rcases List.mem_cons.1 hx with rfl | hx
      · exact add_mod0 (add_mod0 (h.chunk k (by rw [hk]; simp)).2 hhm) h.pos
      · exact h.aligned x hx

theorem clear_inv {c : Cfg} {s : St} {live : List (Nat × Nat)} (h : Inv c s live) {base : Nat}
    (hb : SysOk c [] (chunkSize c ((s.chunks.map (·.2)).sum)) base) : ∃ s', clear c base s = some s' ∧ Inv c s' [] := by
  obtain ⟨k, ks, hk, hcur, hlive⟩ := h.root
  unfold clear
  rw [hk]
  cases ks with
  | nil =>
    refine ⟨_, rfl, ⟨?_, by simp, by simp, ⟨_, _, rfl, Nat.zero_le _, by simp⟩, by simp, by simp⟩⟩
    intro k' hk'
    exact h.chunk k' (by rw [hk]; exact hk')
  | cons k2 ks =>
    refine ⟨_, rfl, ⟨?_, by simp, by simp, ⟨_, _, rfl, Nat.zero_le _, by simp⟩, by simp, by simp⟩⟩
    intro k' hk'
    simp only [List.mem_singleton] at hk'
    subst hk'
    exact ⟨hb.1, hb.2.1⟩

theorem reach_inv {c : Cfg} (h1 : 0 < c.size) (h2 : 0 < c.align) {s : St} {live : List (Nat × Nat)} (h : Reach c s live) : Inv c s live := by
  induction h with
  | new init base hb =>
    refine ⟨?_, by simp [new], by simp [new], ⟨_, _, rfl, Nat.zero_le _, by simp⟩, by simp, by simp⟩
    intro k hk
    simp only [new, List.mem_singleton] at hk
    subst hk
    exact ⟨hb.1, hb.2.1⟩
  | @alloc s live n base s' p _ hb ha ih =>
    obtain ⟨s1, p1, e1, e2⟩ := allocate_inv h1 h2 ih n hb
    rw [e1] at ha
    cases ha
    exact e2
  | clear _ hb hc ih =>
    obtain ⟨s1, e1, e2⟩ := clear_inv ih hb
    rw [e1] at hc
    cases hc
    exact e2

/-- **C34**: in every history the regions handed out since the last `Clear` do not overlap; each is aligned and lies in the payload of a
chunk that has not been freed, and chunks do not overlap. -/
theorem C34_disjoint {c : Cfg} (h1 : 0 < c.size) (h2 : 0 < c.align) {s : St} {live : List (Nat × Nat)} (h : Reach c s live) :
    live.Pairwise (fun a b => a.1 + a.2 ≤ b.1 ∨ b.1 + b.2 ≤ a.1) ∧
    (∀ x ∈ live, x.1 % c.align = 0 ∧ ∃ k ∈ s.chunks, k.1 + c.hdr ≤ x.1 ∧ x.1 + x.2 ≤ k.1 + c.hdr + k.2) ∧
    s.chunks.Pairwise fun a b => a.1 + c.hdr + a.2 ≤ b.1 ∨ b.1 + c.hdr + b.2 ≤ a.1 := by
  have hi := reach_inv h1 h2 h
  refine ⟨hi.apart, fun x hx => ⟨hi.aligned x hx, ?_⟩, hi.disj⟩
  obtain ⟨k, ks, hk, hcur, hlive⟩ := hi.root
  rcases hlive x hx with hx | ⟨k', hk', hx⟩
  · exact ⟨k, by rw [hk]; simp, by omega⟩
  · exact ⟨k', by rw [hk]; simp [hk'], hx⟩

/-- Every request is satisfied, whatever its size; the region has the size of `n` objects. -/
theorem C34_alloc {c : Cfg} (h1 : 0 < c.size) (h2 : 0 < c.align) {s : St} {live : List (Nat × Nat)} (h : Reach c s live) (n : Nat) {base : Nat}
    (hb : SysOk c s.chunks (chunkSize c (Arith.fbnextN (s.cur + bytes c n))) base) :
    ∃ s' p, allocate c n base s = some (s', p) ∧ Reach c s' ((p, n * c.size) :: live) := by
  obtain ⟨s', p, e1, -⟩ := allocate_inv h1 h2 (reach_inv h1 h2 h) n hb
  exact ⟨s', p, e1, Reach.alloc h hb e1⟩

/-- `Clear` succeeds and keeps at least the memory there was, in one chunk. -/
theorem C34_clear {c : Cfg} (h1 : 0 < c.size) (h2 : 0 < c.align) {s : St} {live : List (Nat × Nat)} (h : Reach c s live) {base : Nat}
    (hb : SysOk c [] (chunkSize c ((s.chunks.map (·.2)).sum)) base) :
    ∃ s' k, clear c base s = some s' ∧ Reach c s' [] ∧ s'.chunks = [k] ∧ (s.chunks.map (·.2)).sum ≤ k.2 := by
  obtain ⟨s', e1, -⟩ := clear_inv (reach_inv h1 h2 h) hb
  refine ⟨s', ?_⟩
  have hr := Reach.clear h hb e1
  obtain ⟨k, ks, hk, -⟩ := (reach_inv h1 h2 h).root
  unfold clear at e1
  rw [hk] at e1
  cases ks with
  | nil =>
    simp only [Option.some.injEq] at e1
    subst e1
    exact ⟨k, by simp [clear, hk], hr, rfl, by simp [hk]⟩
  | cons k2 ks =>
    simp only [Option.some.injEq] at e1
    subst e1
    refine ⟨_, by simp [clear, hk], hr, rfl, ?_⟩
    rw [hk]
    exact chunkSize_le c h1 h2 _

/-- 8-byte objects: the chunk of the constructor takes one; a request for 5 objects gets its own chunk. -/
example : Reach ⟨8, 8⟩ ⟨[(4096, 80), (1000, 8)], 40⟩ [(4112, 40), (1016, 8)] := by
  have h0 : Reach ⟨8, 8⟩ _ [] := Reach.new 8 1000 ⟨by decide, by decide, by simp⟩
  have h1 : Reach ⟨8, 8⟩ ⟨[(1000, 8)], 8⟩ [(1016, 8)] := Reach.alloc (n := 1) (base := 2000) h0 ⟨by decide, by decide, by decide⟩ (by decide)
  exact Reach.alloc (n := 5) (base := 4096) h1 ⟨by decide, by decide, by decide⟩ (by decide)

end Verif.Alloc.GreedyBlock
