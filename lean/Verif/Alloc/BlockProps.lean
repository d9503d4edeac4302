import Verif.Alloc.BlockModel

/-!
# C33: `BlockAlloc`
-/

namespace Verif.Alloc.Block

/-- What the system allocator guarantees for a request of `n` bytes beyond the header: the memory is not at address 0, is aligned
and does not overlap any chunk that has not been freed. -/
def SysOk (c : Cfg) (chunks : List Chunk) (n : Nat) (base : Option Nat) : Prop :=
  ∀ b ∈ base, 0 < b ∧ b % c.align = 0 ∧ ∀ k ∈ chunks, b + c.hdr + n ≤ k.1 ∨ k.1 + c.hdr + k.2 ≤ b

/-- The histories of an allocator: `Reach s live` holds of the states in which the blocks `live` are in use.  Between calls the
client may change any memory inside blocks in use. -/
inductive Reach (junk : Nat → Nat → Nat) (c : Cfg) : St → List Nat → Prop
  | new (init b : Nat) (mem : Nat → Nat) : SysOk c [] (init * c.sz) (some b) → Reach junk c (new junk c init (some b) mem) []
  | alloc {s live base s' p} : Reach junk c s live → (∀ n, nextSize c s = some n → SysOk c s.chunks n base) →
      alloc junk c base s = some (s', p) → Reach junk c s' (if p = 0 then live else p :: live)
  | dealloc {s live p s'} : Reach junk c s live → p ∈ live → dealloc junk c p s = some s' → Reach junk c s' (live.erase p)
  | write {s live mem'} : Reach junk c s live →
      (∀ a, (∀ p ∈ live, a + 8 ≤ p ∨ p + c.sz ≤ a) → mem' a = s.mem a) → Reach junk c ⟨s.chunks, s.free, mem'⟩ live
  | clear {s live b} : Reach junk c s live → SysOk c [] ((s.chunks.map (·.2)).sum) (some b) → Reach junk c (clear junk c (some b) s) []

/-- The free list from `f`. -/
def Chain (m : Nat → Nat) : Nat → List Nat → Prop
  | f, [] => f = 0
  | f, p :: l => f = p ∧ p ≠ 0 ∧ Chain m (m p) l

/-- The blocks of a chunk. -/
def blocksOf (c : Cfg) (k : Chunk) : List Nat := (List.range (k.2 / c.sz)).map fun i => k.1 + c.hdr + i * c.sz

/-- Blocks that do not overlap. -/
def Apart (sz p q : Nat) : Prop := p + sz ≤ q ∨ q + sz ≤ p

structure Inv (c : Cfg) (s : St) (live : List Nat) : Prop where
  ne : s.chunks ≠ []
  chunk : ∀ k ∈ s.chunks, 0 < k.1 ∧ k.1 % c.align = 0 ∧ k.2 % c.sz = 0
  disj : s.chunks.Pairwise fun a b => a.1 + c.hdr + a.2 ≤ b.1 ∨ b.1 + c.hdr + b.2 ≤ a.1
  chain : ∃ fl, Chain s.mem s.free fl ∧ (fl ++ live).Perm (s.chunks.flatMap (blocksOf c))

theorem chain_store {junk : Nat → Nat → Nat} {a v : Nat} {m m' : Nat → Nat} : ∀ {l : List Nat} {f : Nat}, Chain m f l →
    (∀ p ∈ l, m' p = m p) → Chain m' f l
  | [], _, h, _ => h
  | p :: l, f, h, hl => by
    obtain ⟨h1, h2, h3⟩ := h
    refine ⟨h1, h2, ?_⟩
    rw [hl p (by simp)]
    exact chain_store (junk := junk) (a := a) (v := v) h3 fun q hq => hl q (by simp [hq])

theorem store_other {junk : Nat → Nat → Nat} {m : Nat → Nat} {a v b : Nat} (h : b + 8 ≤ a ∨ a + 8 ≤ b) : store junk m a v b = m b := by
  unfold store
  rw [if_neg (by omega), if_neg (by omega)]

theorem store_same {junk : Nat → Nat → Nat} {m : Nat → Nat} {a v : Nat} : store junk m a v a = v := by
  unfold store
  rw [if_pos rfl]

theorem initChunk_spec {junk : Nat → Nat → Nat} {sz : Nat} (h8 : 8 ≤ sz) : ∀ (n memref free : Nat) (m : Nat → Nat) (fl : List Nat), 0 < memref →
    Chain m free fl → (∀ p ∈ fl, p + 8 ≤ memref ∨ memref + n * sz ≤ p) →
    ∃ bl, Chain (initChunk junk sz (memref + n * sz) memref free m).2 (initChunk junk sz (memref + n * sz) memref free m).1 (bl ++ fl) ∧
      bl.Perm ((List.range n).map fun i => memref + i * sz)
  | 0, memref, free, m, fl, _, h, _ => by
    rw [initChunk, dif_neg (by omega)]
    exact ⟨[], h, by simp⟩
  | n + 1, memref, free, m, fl, h0, h, hd => by
    rw [Nat.succ_mul] at hd
    rw [initChunk, dif_pos ⟨by rw [Nat.succ_mul]; omega, by omega⟩]
    obtain ⟨bl, h1, h2⟩ := initChunk_spec (junk := junk) h8 n (memref + sz) memref (store junk m memref free) (memref :: fl) (by omega)
      ⟨rfl, by omega, by
        rw [store_same]
        exact chain_store (junk := junk) (a := 0) (v := 0) h fun p hp => store_other (by have := hd p hp; omega)⟩
      (by
        intro p hp
        rcases List.mem_cons.1 hp with rfl | hp
        · omega
        · have := hd p hp
          omega)
    have e : memref + sz + n * sz = memref + (n + 1) * sz := by rw [Nat.succ_mul]; omega
    rw [e] at h1
    refine ⟨bl ++ [memref], by simpa using h1, ?_⟩
    rw [List.range_succ_eq_map, List.map_cons, List.map_map]
    refine (List.perm_append_singleton _ _).trans ?_
    rw [Nat.zero_mul, Nat.add_zero]
    refine List.Perm.cons _ (h2.trans ?_)
    refine List.Perm.of_eq (List.map_congr_left fun i _ => ?_)
    simp only [Function.comp, Nat.succ_mul]
    omega

theorem mem_blocksOf {c : Cfg} {k : Chunk} {p : Nat} (hsz : 0 < c.sz) (h : p ∈ blocksOf c k) :
    k.1 + c.hdr ≤ p ∧ p + c.sz ≤ k.1 + c.hdr + k.2 ∧ (p - (k.1 + c.hdr)) % c.sz = 0 := by
  simp only [blocksOf, List.mem_map, List.mem_range] at h
  obtain ⟨i, hi, rfl⟩ := h
  have h1 : (i + 1) * c.sz ≤ k.2 / c.sz * c.sz := Nat.mul_le_mul_right _ hi
  have h2 := Nat.div_mul_le_self k.2 c.sz
  rw [Nat.succ_mul] at h1
  refine ⟨by omega, by omega, ?_⟩
  rw [Nat.add_sub_cancel_left]
  exact Nat.mul_mod_left _ _

theorem blocks_apart {c : Cfg} (hsz : 0 < c.sz) : ∀ {chunks : List Chunk},
    (chunks.Pairwise fun a b => a.1 + c.hdr + a.2 ≤ b.1 ∨ b.1 + c.hdr + b.2 ≤ a.1) →
    (chunks.flatMap (blocksOf c)).Pairwise (Apart c.sz)
  | [], _ => by simp
  | k :: ks, h => by
    rw [List.pairwise_cons] at h
    rw [List.flatMap_cons, List.pairwise_append]
    refine ⟨?_, blocks_apart hsz h.2, ?_⟩
    · unfold blocksOf
      rw [List.pairwise_map]
      refine List.pairwise_lt_range.imp fun {i j} hij => ?_
      left
      have : (i + 1) * c.sz ≤ j * c.sz := Nat.mul_le_mul_right _ hij
      rw [Nat.succ_mul] at this
      omega
    · intro p hp q hq
      rw [List.mem_flatMap] at hq
      obtain ⟨k', hk', hq⟩ := hq
      have h1 := mem_blocksOf hsz hp
      have h2 := mem_blocksOf hsz hq
      have := h.1 k' hk'
      unfold Apart
      omega

theorem allocChunk_inv {junk : Nat → Nat → Nat} {c : Cfg} (h8 : 8 ≤ c.sz) {n b : Nat} {s : St} {live : List Nat}
    (hn : n % c.sz = 0) (hs : SysOk c s.chunks n (some b))
    (hch : ∀ k ∈ s.chunks, 0 < k.1 ∧ k.1 % c.align = 0 ∧ k.2 % c.sz = 0)
    (hdis : s.chunks.Pairwise fun a b => a.1 + c.hdr + a.2 ≤ b.1 ∨ b.1 + c.hdr + b.2 ≤ a.1)
    {fl : List Nat} (hfl : Chain s.mem s.free fl) (hp : (fl ++ live).Perm (s.chunks.flatMap (blocksOf c))) :
    Inv c (allocChunk junk c n (some b) s) live ∧ ((allocChunk junk c n (some b) s).free = 0 → n = 0 ∧ s.free = 0) := by
  obtain ⟨hb0, hba, hbd⟩ := hs b rfl
  have hnm : n / c.sz * c.sz = n := Nat.div_mul_cancel (Nat.dvd_of_mod_eq_zero hn)
  obtain ⟨bl, h1, h2⟩ := initChunk_spec (junk := junk) h8 (n / c.sz) (b + c.hdr) s.free s.mem fl (by omega) hfl (by
    intro p hpf
    have : p ∈ s.chunks.flatMap (blocksOf c) := hp.mem_iff.1 (by simp [hpf])
    rw [List.mem_flatMap] at this
    obtain ⟨k, hk, hpk⟩ := this
    have h3 := mem_blocksOf (by omega) hpk
    have h4 := hbd k hk
    omega)
  rw [hnm] at h1
  refine ⟨⟨by simp [allocChunk], ?_, ?_, bl ++ fl, h1, ?_⟩, ?_⟩
  · intro k hk
    simp only [allocChunk] at hk
    rcases List.mem_cons.1 hk with rfl | hk
    · exact ⟨hb0, hba, hn⟩
    · exact hch k hk
  · simp only [allocChunk]
    exact List.pairwise_cons.2 ⟨fun k hk => hbd k hk, hdis⟩
  · simp only [allocChunk, List.flatMap_cons]
    rw [List.append_assoc]
    exact List.Perm.append h2 hp
  · simp only [allocChunk]
    intro h
    rw [h] at h1
    have hnil : bl ++ fl = [] := by
      match hbl : bl ++ fl with
      | [] => rfl
      | x :: l =>
        rw [hbl] at h1
        exact absurd h1.1.symm h1.2.1
    have hbl : bl = [] := (List.append_eq_nil_iff.1 hnil).1
    have hfn : fl = [] := (List.append_eq_nil_iff.1 hnil).2
    rw [hbl] at h2
    have := h2.length_eq
    simp only [List.length_nil, List.length_map, List.length_range] at this
    rw [← this] at hnm
    subst hfn
    exact ⟨by omega, hfl⟩

theorem pop_inv {c : Cfg} (h8 : 8 ≤ c.sz) {s : St} {live : List Nat} (h : Inv c s live) (hf : s.free ≠ 0) :
    pop c s = some (⟨s.chunks, s.mem s.free, s.mem⟩, s.free) ∧ Inv c ⟨s.chunks, s.mem s.free, s.mem⟩ (s.free :: live) := by
  obtain ⟨fl, h1, h2⟩ := h.chain
  match fl, h1, h2 with
  | [], h1, _ => exact absurd h1 hf
  | p :: l, h1, h2 =>
    obtain ⟨e, hp0, h1⟩ := h1
    have hm : s.free ∈ s.chunks.flatMap (blocksOf c) := h2.mem_iff.1 (by simp [e])
    rw [List.mem_flatMap] at hm
    obtain ⟨k, hk, hpk⟩ := hm
    have h3 := mem_blocksOf (by omega) hpk
    refine ⟨?_, h.ne, h.chunk, h.disj, l, by rw [← e] at h1; exact h1, ?_⟩
    · rw [pop, if_pos]
      simp only [inChunk, List.any_eq_true, decide_eq_true_eq]
      exact ⟨k, hk, by omega, by omega⟩
    · refine List.Perm.trans ?_ h2
      rw [e]
      exact List.perm_middle

theorem nextSize_mod {c : Cfg} {s : St} {n : Nat} (h : nextSize c s = some n) : n % c.sz = 0 := by
  simp only [nextSize, Option.map_eq_some_iff] at h
  obtain ⟨k, -, rfl⟩ := h
  exact Nat.mul_mod_left _ _

theorem nextSize_pos {c : Cfg} {s : St} {n : Nat} (h8 : 8 ≤ c.sz) (h : nextSize c s = some n) : 0 < n := by
  simp only [nextSize, Option.map_eq_some_iff] at h
  obtain ⟨k, -, rfl⟩ := h
  apply Nat.mul_pos
  · unfold Arith.fbnextN
    generalize k.2 / c.sz = x
    omega
  · omega

/-- One allocation. -/
theorem alloc_inv {junk : Nat → Nat → Nat} {c : Cfg} (h8 : 8 ≤ c.sz) {s : St} {live : List Nat} (h : Inv c s live) {base : Option Nat}
    (hb : ∀ n, nextSize c s = some n → SysOk c s.chunks n base) :
    ∃ s' p, alloc junk c base s = some (s', p) ∧ Inv c s' (if p = 0 then live else p :: live) ∧
      (s.free ≠ 0 → p = s.free ∧ s'.chunks = s.chunks) ∧ (p = 0 → base = none ∧ s.free = 0) := by
  unfold alloc
  by_cases hf : s.free = 0
  · rw [if_pos hf]
    obtain ⟨k, hk⟩ : ∃ k, s.chunks.head? = some k := by
      match hc : s.chunks with
      | [] => exact absurd hc h.ne
      | k :: _ => exact ⟨k, rfl⟩
    obtain ⟨n, hn⟩ : ∃ n, nextSize c s = some n := ⟨_, by simp only [nextSize, hk, Option.map_some]; rfl⟩
    rw [hn, Option.bind_some]
    obtain ⟨fl, hfl, hp⟩ := h.chain
    cases base with
    | none =>
      rw [if_pos (by simpa [allocChunk] using hf)]
      exact ⟨_, _, rfl, by simpa [allocChunk] using h, fun e => absurd hf e, fun _ => ⟨rfl, hf⟩⟩
    | some b =>
      obtain ⟨h1, h2⟩ := allocChunk_inv (junk := junk) h8 (nextSize_mod hn) (hb n hn) h.chunk h.disj hfl hp
      have hne : (allocChunk junk c n (some b) s).free ≠ 0 := fun e => by
        have := (h2 e).1
        have := nextSize_pos h8 hn
        omega
      rw [if_neg hne]
      obtain ⟨h3, h4⟩ := pop_inv h8 h1 hne
      exact ⟨_, _, h3, by rw [if_neg hne]; exact h4, fun e => absurd hf e, fun e => absurd e hne⟩
  · rw [if_neg hf]
    obtain ⟨h3, h4⟩ := pop_inv h8 h hf
    exact ⟨_, _, h3, by rw [if_neg hf]; exact h4, fun _ => ⟨rfl, rfl⟩, fun e => absurd e hf⟩

theorem dealloc_inv {junk : Nat → Nat → Nat} {c : Cfg} (h8 : 8 ≤ c.sz) {s : St} {live : List Nat} (h : Inv c s live) {p : Nat}
    (hp : p ∈ live) : dealloc junk c p s = some ⟨s.chunks, p, store junk s.mem p s.free⟩ ∧
      Inv c ⟨s.chunks, p, store junk s.mem p s.free⟩ (live.erase p) ∧ p ≠ 0 := by
  obtain ⟨fl, h1, h2⟩ := h.chain
  have hm : p ∈ s.chunks.flatMap (blocksOf c) := h2.mem_iff.1 (by simp [hp])
  rw [List.mem_flatMap] at hm
  obtain ⟨k, hk, hpk⟩ := hm
  have h3 := mem_blocksOf (by omega) hpk
  have hp0 : p ≠ 0 := by have := (h.chunk k hk).1; omega
  have hpw : (fl ++ live).Pairwise (Apart c.sz) :=
    (blocks_apart (by omega) h.disj).perm h2.symm (fun {a b} hab => by unfold Apart at *; omega)
  refine ⟨?_, ⟨h.ne, h.chunk, h.disj, p :: fl, ⟨rfl, hp0, ?_⟩, ?_⟩, hp0⟩
  · rw [dealloc, if_pos]
    simp only [inChunk, List.any_eq_true, decide_eq_true_eq]
    exact ⟨k, hk, by omega, by omega⟩
  · simp only
    rw [store_same]
    refine chain_store (junk := junk) (a := 0) (v := 0) h1 fun q hq => store_other ?_
    have := (List.pairwise_append.1 hpw).2.2 q hq p hp
    unfold Apart at this
    omega
  · refine List.Perm.trans ?_ h2
    rw [List.cons_append]
    exact List.perm_middle.symm.trans (List.Perm.append_left fl (List.perm_cons_erase hp).symm)

theorem reach_inv {junk : Nat → Nat → Nat} {c : Cfg} (h8 : 8 ≤ c.sz) {s : St} {live : List Nat} (h : Reach junk c s live) : Inv c s live := by
  induction h with
  | new init b mem hs =>
    exact (allocChunk_inv (junk := junk) (s := ⟨[], 0, mem⟩) (live := []) (fl := []) h8 (Nat.mul_mod_left _ _) hs (by simp) (by simp) rfl
      (by simp)).1
  | alloc _ hb ha ih =>
    obtain ⟨s1, p1, h1, h2, -⟩ := alloc_inv (junk := junk) h8 ih hb
    rw [h1] at ha
    cases ha
    exact h2
  | dealloc _ hp hd ih =>
    obtain ⟨h1, h2, -⟩ := dealloc_inv (junk := junk) h8 ih hp
    rw [h1] at hd
    cases hd
    exact h2
  | @write s live mem' _ hw ih =>
    obtain ⟨fl, h1, h2⟩ := ih.chain
    have hpw : (fl ++ live).Pairwise (Apart c.sz) :=
      (blocks_apart (by omega) ih.disj).perm h2.symm (fun {a b} hab => by unfold Apart at *; omega)
    refine ⟨ih.ne, ih.chunk, ih.disj, fl, chain_store (junk := junk) (a := 0) (v := 0) h1 fun q hq => hw q fun p hp => ?_, h2⟩
    have := (List.pairwise_append.1 hpw).2.2 q hq p hp
    unfold Apart at this
    omega
  | @clear s live b _ hs ih =>
    refine (allocChunk_inv (junk := junk) (s := ⟨[], 0, s.mem⟩) (live := []) (fl := []) h8 ?_ hs (by simp) (by simp) rfl (by simp)).1
    have : ∀ l : List Chunk, (∀ k ∈ l, k.2 % c.sz = 0) → (l.map (·.2)).sum % c.sz = 0 := by
      intro l hl
      induction l with
      | nil => simp
      | cons k l ihl =>
        rw [List.map_cons, List.sum_cons, Nat.add_mod, hl k (by simp), ihl fun x hx => hl x (by simp [hx])]
        simp
    exact this _ fun k hk => (ih.chunk k hk).2.2

/-- **C33**: in every history of an allocator with blocks of at least 8 bytes the blocks in use do not overlap; each lies in the payload of
a chunk from the system, at a multiple of the block size from its start. -/
theorem C33_blocks_disjoint {junk : Nat → Nat → Nat} {c : Cfg} (h8 : 8 ≤ c.sz) {s : St} {live : List Nat} (h : Reach junk c s live) :
    live.Pairwise (fun p q => p + c.sz ≤ q ∨ q + c.sz ≤ p) ∧
    ∀ p ∈ live, p ≠ 0 ∧ ∃ k ∈ s.chunks, k.1 + c.hdr ≤ p ∧ p + c.sz ≤ k.1 + c.hdr + k.2 ∧ (p - (k.1 + c.hdr)) % c.sz = 0 := by
  have hi := reach_inv h8 h
  obtain ⟨fl, h1, h2⟩ := hi.chain
  refine ⟨?_, ?_⟩
  · have hpw : (fl ++ live).Pairwise (Apart c.sz) :=
      (blocks_apart (by omega) hi.disj).perm h2.symm (fun {a b} hab => by unfold Apart at *; omega)
    exact (List.pairwise_append.1 hpw).2.1
  · intro p hp
    have hm : p ∈ s.chunks.flatMap (blocksOf c) := h2.mem_iff.1 (by simp [hp])
    rw [List.mem_flatMap] at hm
    obtain ⟨k, hk, hpk⟩ := hm
    have h3 := mem_blocksOf (by omega) hpk
    have := (hi.chunk k hk).1
    exact ⟨by omega, k, hk, h3⟩

/-- The chunks themselves do not overlap and belong to the system's answers. -/
theorem C33_chunks_disjoint {junk : Nat → Nat → Nat} {c : Cfg} (h8 : 8 ≤ c.sz) {s : St} {live : List Nat} (h : Reach junk c s live) :
    s.chunks.Pairwise fun a b => a.1 + c.hdr + a.2 ≤ b.1 ∨ b.1 + c.hdr + b.2 ≤ a.1 := (reach_inv h8 h).disj

theorem alignSize_mod (sz align : Nat) : alignSize sz align % align = 0 := Nat.mul_mod_left _ _

theorem alignSize_le (sz align : Nat) (h : 0 < align) : sz ≤ alignSize sz align := by
  unfold alignSize
  have h1 := Nat.div_add_mod sz align
  have h2 := Nat.mod_lt sz h
  rw [Nat.add_mul, Nat.mul_comm (sz / align)]
  split
  · omega
  · next h3 =>
    have h3 : sz % align = 0 := Decidable.byContradiction h3
    omega

/-- With the sizes of the constructor every block is aligned, and its size is at least the one asked for. -/
theorem C33_blocks_aligned {junk : Nat → Nat → Nat} {sz align : Nat} (h8 : 8 ≤ sz) (ha : 0 < align) {s : St} {live : List Nat}
    (h : Reach junk (mkCfg sz align) s live) : (∀ p ∈ live, p % align = 0) ∧ sz ≤ (mkCfg sz align).sz := by
  have hle := alignSize_le sz align ha
  have h8' : 8 ≤ (mkCfg sz align).sz := Nat.le_trans h8 hle
  refine ⟨fun p hp => ?_, hle⟩
  obtain ⟨hp0, k, hk, h1, h2, h3⟩ := (C33_blocks_disjoint h8' h).2 p hp
  obtain ⟨-, hk2, -⟩ := (reach_inv h8' h).chunk k hk
  have d1 : align ∣ k.1 := Nat.dvd_of_mod_eq_zero hk2
  have d2 : align ∣ (mkCfg sz align).hdr := Nat.dvd_of_mod_eq_zero (alignSize_mod 16 align)
  have d3 : align ∣ (mkCfg sz align).sz := Nat.dvd_of_mod_eq_zero (alignSize_mod sz align)
  have d4 : align ∣ p - (k.1 + (mkCfg sz align).hdr) := Nat.dvd_trans d3 (Nat.dvd_of_mod_eq_zero h3)
  have d5 := Nat.dvd_add (Nat.dvd_add d1 d2) d4
  rw [show k.1 + (mkCfg sz align).hdr + (p - (k.1 + (mkCfg sz align).hdr)) = p by omega] at d5
  exact Nat.mod_eq_zero_of_dvd d5

/-- `Alloc` always succeeds without undefined behaviour: it returns null only if the system allocator fails; otherwise a block not
overlapping any in use (`C33_blocks_disjoint` of the state after). -/
theorem C33_alloc {junk : Nat → Nat → Nat} {c : Cfg} (h8 : 8 ≤ c.sz) {s : St} {live : List Nat} (h : Reach junk c s live) {base : Option Nat}
    (hb : ∀ n, nextSize c s = some n → SysOk c s.chunks n base) :
    ∃ s' p, alloc junk c base s = some (s', p) ∧ Reach junk c s' (if p = 0 then live else p :: live) ∧ (p = 0 → base = none) := by
  obtain ⟨s', p, h1, -, -, h4⟩ := alloc_inv (junk := junk) h8 (reach_inv h8 h) hb
  exact ⟨s', p, h1, Reach.alloc h hb h1, fun e => (h4 e).1⟩

/-- A freed block is reused: `Dealloc` succeeds and the next `Alloc` returns that block without asking the system. -/
theorem C33_reuse {junk : Nat → Nat → Nat} {c : Cfg} (h8 : 8 ≤ c.sz) {s : St} {live : List Nat} (h : Reach junk c s live) {p : Nat}
    (hp : p ∈ live) (base : Option Nat) :
    ∃ s1 s2, dealloc junk c p s = some s1 ∧ Reach junk c s1 (live.erase p) ∧ alloc junk c base s1 = some (s2, p) ∧ s2.chunks = s.chunks := by
  obtain ⟨h1, h2, h3⟩ := dealloc_inv (junk := junk) h8 (reach_inv h8 h) hp
  obtain ⟨h4, -⟩ := pop_inv h8 h2 h3
  refine ⟨_, ⟨s.chunks, store junk s.mem p s.free p, store junk s.mem p s.free⟩, h1, Reach.dealloc h hp h1, ?_, rfl⟩
  rw [alloc, if_neg h3]
  exact h4

theorem chain_length_zero {m : Nat → Nat} : ∀ {l : List Nat}, Chain m 0 l → l = []
  | [], _ => rfl
  | _ :: _, h => absurd h.1.symm h.2.1

/-- The system is asked for memory only when every block of every chunk is in use. -/
theorem C33_no_waste {junk : Nat → Nat → Nat} {c : Cfg} (h8 : 8 ≤ c.sz) {s : St} {live : List Nat} (h : Reach junk c s live) {base : Option Nat}
    (hb : ∀ n, nextSize c s = some n → SysOk c s.chunks n base) {s' : St} {p : Nat} (ha : alloc junk c base s = some (s', p))
    (hnew : s'.chunks ≠ s.chunks) : live.length = (s.chunks.map fun k => k.2 / c.sz).sum := by
  have hi := reach_inv h8 h
  obtain ⟨s1, p1, h1, -, h3, -⟩ := alloc_inv (junk := junk) h8 hi hb
  rw [h1] at ha
  cases ha
  have hf : s.free = 0 := Decidable.byContradiction fun e => hnew (h3 e).2
  obtain ⟨fl, g1, g2⟩ := hi.chain
  rw [hf] at g1
  have := chain_length_zero g1
  subst this
  have := g2.length_eq
  rw [List.nil_append, List.length_flatMap] at this
  rw [this]
  congr 1
  apply List.map_congr_left
  intro k _
  simp [blocksOf]

/-- After `Clear` no block is in use and as many as before are available. -/
theorem C33_clear {junk : Nat → Nat → Nat} {c : Cfg} (h8 : 8 ≤ c.sz) {s : St} {live : List Nat} (h : Reach junk c s live) (b : Nat)
    (hb : SysOk c [] ((s.chunks.map (·.2)).sum) (some b)) :
    Reach junk c (clear junk c (some b) s) [] ∧
    ((clear junk c (some b) s).chunks.map fun k => k.2 / c.sz).sum = (s.chunks.map fun k => k.2 / c.sz).sum := by
  refine ⟨Reach.clear h hb, ?_⟩
  have hk := (reach_inv h8 h).chunk
  have : ∀ l : List Chunk, (∀ k ∈ l, k.2 % c.sz = 0) → (l.map (·.2)).sum / c.sz = (l.map fun k => k.2 / c.sz).sum := by
    intro l hl
    induction l with
    | nil => simp
    | cons k l ih =>
      have h0 : 0 < c.sz := by omega
      rw [List.map_cons, List.sum_cons, List.map_cons, List.sum_cons, ← ih fun x hx => hl x (by simp [hx])]
      have h1 := Nat.div_mul_cancel (Nat.dvd_of_mod_eq_zero (hl k (by simp)))
      rw [← h1, Nat.add_comm, Nat.add_mul_div_right _ _ h0, Nat.mul_div_cancel _ h0, Nat.add_comm]
  simp [clear, allocChunk, this _ fun k hm => (hk k hm).2.2]

/-- A history: blocks of 16 bytes, two in the first chunk; one allocation that is freed again. -/
example : ∃ s s' p, Reach (fun _ _ => 0) (mkCfg 16 8) s [p] ∧ dealloc (fun _ _ => 0) (mkCfg 16 8) p s = some s' := by
  have h0 : Reach (fun _ _ => 0) (mkCfg 16 8) _ [] := Reach.new 2 1000 (fun _ => 7) (by
    intro b hb
    simp at hb
    subst hb
    exact ⟨by decide, by decide, by simp⟩)
  obtain ⟨s1, p, -, h1, hp⟩ := C33_alloc (by decide) h0 (base := some 4096) (by
    intro n hn b hb
    simp at hb
    subst hb
    refine ⟨by decide, by decide, ?_⟩
    simp [new, allocChunk, mkCfg, alignSize])
  rw [if_neg (fun e => by simpa using hp e)] at h1
  obtain ⟨s3, -, h3, -⟩ := C33_reuse (by decide) h1 (p := p) (by simp) none
  exact ⟨s1, s3, p, h1, h3⟩

/-- Three allocations: the third needs a second chunk. -/
example : (alloc (fun _ _ => 0) (mkCfg 16 8) none (new (fun _ _ => 0) (mkCfg 16 8) 2 (some 1000) fun _ => 7)).bind (fun a =>
    (alloc (fun _ _ => 0) (mkCfg 16 8) none a.1).bind fun b =>
      (alloc (fun _ _ => 0) (mkCfg 16 8) (some 4096) b.1).map fun d => (a.2, b.2, d.2)) = some (1032, 1016, 4160) := by
  decide +kernel

end Verif.Alloc.Block
