import Verif.Common.Mem

/-!
# Resizing memory through allocators (C203)

`StandardAllocator` and `aligned_realloc`, `/repo/include/bss-util/Alloc.h:15-92`, and the `allocate` of `GreedyPolicy`, `/repo/include/bss-util/GreedyAlloc.h:180-198`. A heap has blocks of
cells at addresses; a cell is a number. In debug builds a header precedes the block, its first cell holds the size (eight bytes in the code, one cell here). The addresses
that `malloc`, `realloc` and `aligned_alloc` choose are parameters, as are the contents of fresh memory and of the cells behind a block that `malloc_usable_size` counts.
-/

namespace Verif.Alloc.Standard

/-- The blocks by address. -/
abbrev Heap := Nat → Option (List Nat)

def upd (H : Heap) (a : Nat) (x : Option (List Nat)) : Heap := fun b => if b = a then x else H b

/-- The first `n` cells of `c`, filled up with fresh ones. -/
def fit (junk : Nat → Nat) (c : List Nat) (n : Nat) : List Nat := c.take n ++ (List.range (n - c.length)).map junk

/-- `realloc(p, size)` of glibc, which frees a block that is resized to nothing; `none` for a pointer that is no block. -/
def realloc (junk : Nat → Nat) (H : Heap) (p size a : Nat) : Option (Heap × Nat) :=
  if p = 0 then some (upd H a (some (fit junk [] size)), a)
  else (H p).map fun c => if size = 0 then (upd H p none, 0) else (upd (upd H p none) a (some (fit junk c size)), a)

/-- `free(p)`. -/
def free (H : Heap) (p : Nat) : Option Heap := (H p).map fun _ => upd H p none

/-- `aligned_realloc`, `Alloc.h:16-30`, without Windows; `slack` are the usable cells behind the old block. -/
def alignedRealloc (junk : Nat → Nat) (slack : List Nat) (H : Heap) (p size a : Nat) : Option (Heap × Nat) :=
  let H := upd H a (some (fit junk [] size))
  if p = 0 then some (H, a)
  else (H p).bind fun c =>
    let old := (c ++ slack).length
    let n := min old size
    let H := upd H a (some (((c ++ slack).take n) ++ (fit junk [] size).drop n))
    (free H p).map fun H => (H, a)

/-- The template arguments: `ALIGN`, the size of `T`, and whether `BSS_DEBUG` is defined. -/
structure Cfg where
  align : Nat
  w : Nat
  dbg : Bool

/-- `sizeof(SIZETRACK)`, `Alloc.h:36-39, 51`. -/
def hdr (c : Cfg) : Nat := if c.dbg then max 8 c.align else 0

/-- The block of a pointer, and the assertion on its size, `Alloc.h:52-55, 81-83`; `none` is a failed assertion or a pointer that is none. -/
def base (c : Cfg) (H : Heap) (p n : Nat) : Option Nat :=
  if c.dbg then
    if p < hdr c then none
    else (H (p - hdr c)).bind fun l => (rd l 0).bind fun s => if n = 0 ∨ s = n * c.w then some (p - hdr c) else none
  else some p

/-- The system call that `allocate` makes, `Alloc.h:59-64`. -/
def sys (c : Cfg) (junk : Nat → Nat) (slack : List Nat) (H : Heap) (q size a : Nat) : Option (Heap × Nat) :=
  if 8 < c.align then alignedRealloc junk slack H q size a else realloc junk H q size a

/-- The size is noted in the header, which is skipped, `Alloc.h:65-73`. -/
def stamp (c : Cfg) (H : Heap) (r cnt : Nat) : Option (Heap × Nat) :=
  if c.dbg then (H r).bind fun l => (wr l 0 (cnt * c.w)).map fun l => (upd H r (some l), r + hdr c) else some (H, r)

/-- `allocate(cnt, p, old)`, `Alloc.h:48-77`. -/
def allocate (c : Cfg) (junk : Nat → Nat) (slack : List Nat) (H : Heap) (cnt p old a : Nat) : Option (Heap × Nat) :=
  (if p = 0 then some 0 else base c H p old).bind fun q =>
    (sys c junk slack H q (cnt * c.w + hdr c) a).bind fun r => stamp c r.1 r.2 cnt

/-- `deallocate(p, sz)`, `Alloc.h:78-92`. -/
def deallocate (c : Cfg) (H : Heap) (p sz : Nat) : Option Heap :=
  if p = 0 then none else (base c H p sz).bind fun q => free H q

/-- `MEMCPY(n, ..., p, len)` on a memory of cells. -/
def memcpy (m : Nat → Nat) (n p len : Nat) : Nat → Nat := fun x => if n ≤ x ∧ x < n + len then m (p + (x - n)) else m x

/-- `GreedyPolicy::allocate(cnt, p, old)`, `GreedyAlloc.h:185-197`; `n` is what `AllocT` returns. `Dealloc` does nothing. -/
def greedyAllocate (w : Nat) (m : Nat → Nat) (cnt p old n : Nat) : (Nat → Nat) × Nat :=
  if cnt < old then (m, p)
  else if p ≠ 0 then (memcpy m n p (old * w), n) else (m, n)

/-! ## Specification -/

/-- There is a block with room for `n` elements at `p`, with these cells. -/
def Is (c : Cfg) (H : Heap) (p n : Nat) (cells : List Nat) : Prop :=
  ∃ b pre, b ≠ 0 ∧ p = b + hdr c ∧ H b = some (pre ++ cells) ∧ pre.length = hdr c ∧ cells.length = n * c.w ∧ (c.dbg = true → pre[0]? = some (n * c.w))

/-- An address that the system may choose for a new block. -/
def Fresh (H : Heap) (a : Nat) : Prop := a ≠ 0 ∧ H a = none

/-! ## Lemmas -/

theorem fit_length (junk : Nat → Nat) (c : List Nat) (n : Nat) : (fit junk c n).length = n := by simp [fit]; omega

theorem fit_take (junk : Nat → Nat) (c : List Nat) (n k : Nat) (h1 : k ≤ n) (h2 : k ≤ c.length) : (fit junk c n).take k = c.take k := by
  rw [fit, List.take_append_of_le_length (by simp; omega), List.take_take, Nat.min_eq_left h1]

theorem base_is {c : Cfg} {H : Heap} {p n : Nat} {cells : List Nat} (h : Is c H p n cells) :
    base c H p n = some (p - hdr c) ∧ p - hdr c ≠ 0 ∧ p ≠ 0 ∧ base c H p 0 = some (p - hdr c) := by
  obtain ⟨b, pre, hb, rfl, hH, hl, hc, hd⟩ := h
  rw [Nat.add_sub_cancel]
  by_cases hdb : c.dbg = true
  · have h0 := hd hdb
    have : rd (pre ++ cells) 0 = some (n * c.w) := by
      rw [rd, List.getElem?_append_left (by
        rcases Nat.eq_zero_or_pos pre.length with he | he
        · simp [List.length_eq_zero_iff.1 he] at h0
        · exact he)]
      exact h0
    simp [base, hdb, hH, this, hb]
  · have hdb : c.dbg = false := by simpa using hdb
    simp [base, hdb, hdr, hb]

theorem hdr_pos {c : Cfg} (h : c.dbg = true) : 0 < hdr c := by simp only [hdr, h, if_true]; omega

/-- The system calls: the new block starts with the cells of the old one, and the other blocks stay. -/
theorem sys_spec (c : Cfg) (junk : Nat → Nat) (slack : List Nat) (H : Heap) (q size a : Nat) (old : List Nat) (hs : 0 < size) (hq : q ≠ 0) (hH : H q = some old)
    (ha : Fresh H a ∨ (a = q ∧ c.align ≤ 8)) :
    ∃ l, sys c junk slack H q size a = some (upd (upd H q none) a (some l), a) ∧
      l.length = size ∧ l.take (min size old.length) = old.take (min size old.length) := by
  by_cases hal : 8 < c.align
  · have hf : Fresh H a := by
      rcases ha with h | h
      · exact h
      · omega
    have hne : q ≠ a := by rintro rfl; rw [hf.2] at hH; simp at hH
    refine ⟨((old ++ slack).take (min (old ++ slack).length size)) ++ (fit junk [] size).drop (min (old ++ slack).length size), ?_, ?_, ?_⟩
    · rw [sys, if_pos hal]
      have e1 : upd H a (some (fit junk [] size)) q = some old := by simp [upd, hne, hH]
      have e2 : ∀ l, free (upd (upd H a (some (fit junk [] size))) a (some l)) q = some (upd (upd H q none) a (some l)) := by
        intro l
        simp only [free, upd, hne, if_false, hH, Option.map_some, Option.some.injEq]
        funext b
        by_cases h1 : b = q
        · subst h1; simp [upd, hne]
        · by_cases h2 : b = a <;> simp [upd, h1, h2, Ne.symm hne]
      simp only [alignedRealloc, hq, if_false, e1, Option.bind_some, e2, Option.map_some]
    · simp only [List.length_append, List.length_take, List.length_drop, fit_length]; omega
    · have hk : min size old.length ≤ ((old ++ slack).take (min (old ++ slack).length size)).length := by
        simp only [List.length_append, List.length_take]; omega
      rw [List.take_append_of_le_length hk, List.take_take, List.take_append_of_le_length (by omega)]
      congr 1
      simp only [List.length_append]; omega
  · refine ⟨fit junk old size, ?_, fit_length _ _ _, fit_take _ _ _ _ (by omega) (by omega)⟩
    rw [sys, if_neg hal, realloc, if_neg hq, hH]; simp [show size ≠ 0 by omega]

theorem sys_new (c : Cfg) (junk : Nat → Nat) (slack : List Nat) (H : Heap) (size a : Nat) :
    sys c junk slack H 0 size a = some (upd H a (some (fit junk [] size)), a) := by
  simp [sys, alignedRealloc, realloc]

/-- What `allocate` does after the system call. -/
theorem finish (c : Cfg) (G : Heap) (a cnt : Nat) (l : List Nat) (ha : a ≠ 0) (hl : l.length = cnt * c.w + hdr c) :
    ∃ l', stamp c (upd G a (some l)) a cnt = some (upd G a (some l'), a + hdr c) ∧
      Is c (upd G a (some l')) (a + hdr c) cnt (l.drop (hdr c)) := by
  by_cases hd : c.dbg = true
  · have hp := hdr_pos hd
    refine ⟨l.set 0 (cnt * c.w), ?_, a, (l.take (hdr c)).set 0 (cnt * c.w), ha, rfl, ?_, ?_, ?_, ?_⟩
    · have e : ∀ x, upd (upd G a x) a (some (l.set 0 (cnt * c.w))) = upd G a (some (l.set 0 (cnt * c.w))) := by
        intro x; funext b; by_cases h : b = a <;> simp [upd, h]
      simp only [stamp, hd, if_true]
      rw [show upd G a (some l) a = some l by simp [upd]]
      simp only [Option.bind_some, wr_of_lt (show 0 < l.length by omega), Option.map_some, e]
    · simp only [upd, if_true, Option.some.injEq]
      rw [← List.set_append_left _ _ (by simp; omega), List.take_append_drop]
    · simp; omega
    · simp; omega
    · intro _; rw [List.getElem?_set_self (by simp; omega)]
  · have hd' : c.dbg = false := by simpa using hd
    have h0 : hdr c = 0 := by simp [hdr, hd']
    refine ⟨l, by simp [stamp, hd', h0], a, [], ha, rfl, by simp [upd, h0], by simp [h0], by simp [h0, hl], fun h => absurd h hd⟩

/-! ## C203 -/

/-- **C203**: a block that is resized, with the size it has or without one, keeps its elements up to the smaller number, in the new block; every other block stays as it is, and the old one is gone
unless the system left it in place. No assertion fails, in debug and in release builds. -/
theorem C203_resize (c : Cfg) (junk : Nat → Nat) (slack : List Nat) (H : Heap) (cnt p old a o : Nat) (cells : List Nat) (h : Is c H p old cells) (ho : o = old ∨ o = 0) (hs : 0 < cnt * c.w + hdr c)
    (ha : Fresh H a ∨ (a + hdr c = p ∧ c.align ≤ 8)) :
    ∃ H' cells', allocate c junk slack H cnt p o a = some (H', a + hdr c) ∧ Is c H' (a + hdr c) cnt cells' ∧
      cells'.take (min cnt old * c.w) = cells.take (min cnt old * c.w) ∧
      (∀ q n d, q ≠ p → Is c H q n d → Is c H' q n d) ∧ (a + hdr c ≠ p → ∀ n d, ¬Is c H' p n d) := by
  obtain ⟨hb1, hb2, hb3, hb4⟩ := base_is h
  have hb : base c H p o = some (p - hdr c) := by rcases ho with rfl | rfl <;> assumption
  obtain ⟨b, pre, h0, h1, h2, h3, h4, h5⟩ := h
  have hpb : p - hdr c = b := by omega
  rw [hpb] at hb hb2
  obtain ⟨l, e, hl, ht⟩ := sys_spec c junk slack H b (cnt * c.w + hdr c) a (pre ++ cells) hs h0 h2 (by
    rcases ha with ha | ha
    · exact Or.inl ha
    · exact Or.inr ⟨by omega, ha.2⟩)
  have ha0 : a ≠ 0 := by
    rcases ha with ha | ha
    · exact ha.1
    · omega
  obtain ⟨l', e', his⟩ := finish c (upd H b none) a cnt l ha0 hl
  have hab : ∀ b', b' ≠ b → H b' ≠ none → b' ≠ a := by
    intro b' hne hn hc
    rcases ha with ha | ha
    · exact hn (hc ▸ ha.2)
    · omega
  refine ⟨upd (upd H b none) a (some l'), l.drop (hdr c), ?_, his, ?_, ?_, ?_⟩
  · simp only [allocate, hb3, if_false, hb, Option.bind_some, e, e']
  · have hk : min cnt old * c.w ≤ cnt * c.w := Nat.mul_le_mul_right _ (Nat.min_le_left _ _)
    have hk' : min cnt old * c.w ≤ old * c.w := Nat.mul_le_mul_right _ (Nat.min_le_right _ _)
    have key := congrArg (fun x => (x.drop (hdr c)).take (min cnt old * c.w)) ht
    simp only [List.length_append, h3, h4, List.drop_take, List.take_take] at key
    rw [show min (min cnt old * c.w) (min (cnt * c.w + hdr c) (hdr c + old * c.w) - hdr c) = min cnt old * c.w by omega] at key
    rw [key, List.drop_append_of_le_length (by omega), List.drop_of_length_le (by omega), List.nil_append]
  · rintro q n d hne ⟨b', pre', g0, g1, g2, g3⟩
    have hbb : b' ≠ b := by omega
    have hba := hab b' hbb (by rw [g2]; simp)
    exact ⟨b', pre', g0, g1, by simp [upd, hbb, hba, g2], g3⟩
  · rintro hne n d ⟨b', pre', g0, g1, g2, g3⟩
    have : b' = b := by omega
    subst this
    have : b' ≠ a := by omega
    simp [upd, this] at g2

/-- In release builds without `ALIGN`, memory resized to nothing is freed, and the result is null; in debug builds `C203_resize` covers that case. -/
theorem C203_resize_empty (w : Nat) (al : Nat) (hal : al ≤ 8) (junk : Nat → Nat) (slack : List Nat) (H : Heap) (p old a : Nat) (cells : List Nat) (h : Is ⟨al, w, false⟩ H p old cells) :
    ∃ H', allocate ⟨al, w, false⟩ junk slack H 0 p old a = some (H', 0) ∧ (∀ n d, ¬Is ⟨al, w, false⟩ H' p n d) ∧
      ∀ q n d, q ≠ p → Is ⟨al, w, false⟩ H q n d → Is ⟨al, w, false⟩ H' q n d := by
  obtain ⟨b, pre, h0, h1, h2, h3, h4, h5⟩ := h
  have hz : hdr ⟨al, w, false⟩ = 0 := rfl
  rw [hz, Nat.add_zero] at h1
  subst h1
  refine ⟨upd H p none, ?_, ?_, ?_⟩
  · simp [allocate, h0, base, sys, show ¬8 < al by omega, realloc, h2, hz, stamp]
  · rintro n d ⟨b', pre', g0, g1, g2, g3⟩
    have : b' = p := by omega
    subst this
    simp [upd] at g2
  · rintro q n d hne ⟨b', pre', g0, g1, g2, g3⟩
    have hbb : b' ≠ p := by omega
    exact ⟨b', pre', g0, g1, by simp [upd, hbb, g2], g3⟩

/-- **C203**: new memory has the number of elements asked for and is apart from all other blocks. -/
theorem C203_new (c : Cfg) (junk : Nat → Nat) (slack : List Nat) (H : Heap) (cnt old a : Nat) (ha : Fresh H a) :
    ∃ H' cells, allocate c junk slack H cnt 0 old a = some (H', a + hdr c) ∧ Is c H' (a + hdr c) cnt cells ∧ cells.length = cnt * c.w ∧
      ∀ q n d, Is c H q n d → q ≠ a + hdr c ∧ Is c H' q n d := by
  obtain ⟨l', e', his⟩ := finish c H a cnt (fit junk [] (cnt * c.w + hdr c)) ha.1 (fit_length _ _ _)
  refine ⟨upd H a (some l'), _, ?_, his, by simp [fit_length], ?_⟩
  · simp only [allocate, if_true, Option.bind_some, sys_new, e']
  · rintro q n d ⟨b', pre', g0, g1, g2, g3⟩
    have hba : b' ≠ a := by rintro rfl; rw [ha.2] at g2; simp at g2
    exact ⟨by omega, b', pre', g0, g1, by simp [upd, hba, g2], g3⟩

/-- **C203**: a block can be given back, with its size or without one; then it is gone, and every other block stays. In debug builds another size is noticed. -/
theorem C203_free (c : Cfg) (H : Heap) (p n : Nat) (cells : List Nat) (h : Is c H p n cells) :
    (∃ H', deallocate c H p n = some H' ∧ deallocate c H p 0 = some H' ∧ (∀ k d, ¬Is c H' p k d) ∧ ∀ q k d, q ≠ p → Is c H q k d → Is c H' q k d) ∧
    (c.dbg = true → ∀ k, k ≠ 0 → k * c.w ≠ n * c.w → deallocate c H p k = none) := by
  obtain ⟨hb1, hb2, hb3, hb4⟩ := base_is h
  obtain ⟨b, pre, h0, h1, h2, h3, h4, h5⟩ := h
  have hpb : p - hdr c = b := by omega
  rw [hpb] at hb1 hb4
  refine ⟨⟨upd H b none, ?_, ?_, ?_, ?_⟩, ?_⟩
  · simp [deallocate, hb3, hb1, free, h2]
  · simp [deallocate, hb3, hb4, free, h2]
  · rintro k d ⟨b', pre', g0, g1, g2, g3⟩
    have : b' = b := by omega
    subst this
    simp [upd] at g2
  · rintro q k d hne ⟨b', pre', g0, g1, g2, g3⟩
    have hbb : b' ≠ b := by omega
    exact ⟨b', pre', g0, g1, by simp [upd, hbb, g2], g3⟩
  · intro hd k hk hkn
    have hp := hdr_pos hd
    have : rd (pre ++ cells) 0 = some (n * c.w) := by
      rw [rd, List.getElem?_append_left (by omega)]; exact h5 hd
    simp only [deallocate, hb3, if_false, base, hd, if_true, show ¬p < hdr c by omega, hpb, h2, Option.bind_some, this]
    rw [if_neg (by intro hc; exact hc.elim hk fun hc => hkn hc.symm)]
    rfl

/-- **C203**: the memory has the alignment of the allocator, if that is a power of two and the system aligns to it (and to 16 without being asked). -/
theorem C203_aligned (c : Cfg) (k a : Nat) (hk : c.align = 2 ^ k) (ha : (8 < c.align → c.align ∣ a) ∧ (c.align ≤ 8 → 16 ∣ a)) : c.align ∣ a + hdr c := by
  by_cases h8 : 8 < c.align
  · refine (Nat.dvd_add_right (ha.1 h8)).2 ?_
    by_cases hd : c.dbg = true
    · simp [hdr, hd, Nat.max_eq_right (Nat.le_of_lt h8)]
    · simp [hdr, hd]
  · have hd8 : c.align ∣ 8 := by
      rw [hk] at h8 ⊢
      have : k ≤ 3 := by
        rcases Nat.lt_or_ge 3 k with h | h
        · have := Nat.pow_le_pow_right (show 0 < 2 by decide) h
          omega
        · exact h
      exact Nat.pow_dvd_pow 2 this
    refine (Nat.dvd_add_right (Nat.dvd_trans (Nat.dvd_trans hd8 (by decide : 8 ∣ 16)) (ha.2 (by omega)))).2 ?_
    by_cases hd : c.dbg = true
    · simpa [hdr, hd, Nat.max_eq_left (show c.align ≤ 8 by omega)] using hd8
    · simp [hdr, hd]

/-- In debug builds the allocator without `ALIGN` gives memory that is never aligned to 16, although the system's is. -/
theorem C203_aligned_counterexample (w a : Nat) (ha : 16 ∣ a) : ¬16 ∣ a + hdr ⟨0, w, true⟩ := by
  simp only [hdr, if_true]; omega

/-- **C203**: `GreedyPolicy` keeps the elements, up to the smaller number, in memory for `cnt` elements that is apart from the old; no other memory changes. -/
theorem C203_greedy (w : Nat) (m : Nat → Nat) (cnt p old n : Nat) (hp : p ≠ 0) (hn : n + cnt * w ≤ p ∨ p + old * w ≤ n) :
    ∃ m' r, greedyAllocate w m cnt p old n = (m', r) ∧ (∀ i, i < min cnt old * w → m' (r + i) = m (p + i)) ∧
      (∀ x, ¬(n ≤ x ∧ x < n + cnt * w) → m' x = m x) ∧ (old ≤ cnt → r = n) ∧ (cnt < old → r = p) := by
  by_cases h : cnt < old
  · exact ⟨m, p, by simp [greedyAllocate, h], fun _ _ => rfl, fun _ _ => rfl, fun h' => by omega, fun _ => rfl⟩
  · have hw : old * w ≤ cnt * w := Nat.mul_le_mul_right _ (by omega)
    refine ⟨memcpy m n p (old * w), n, by simp [greedyAllocate, h, hp], fun i hi => ?_, fun x hx => ?_, fun _ => rfl, fun h' => absurd h' h⟩
    · rw [Nat.min_eq_right (by omega)] at hi
      simp only [memcpy]
      rw [if_pos ⟨by omega, by omega⟩, Nat.add_sub_cancel_left]
    · simp only [memcpy]
      rw [if_neg (by omega)]

/-- Two elements of two cells at 108 (debug, header of 8) are resized to three at 200. -/
example : Is ⟨0, 2, true⟩ (upd (fun _ => none) 100 (some [4, 0, 0, 0, 0, 0, 0, 0, 11, 12, 13, 14])) 108 2 [11, 12, 13, 14] ∧
    (allocate ⟨0, 2, true⟩ (fun _ => 9) [] (upd (fun _ => none) 100 (some [4, 0, 0, 0, 0, 0, 0, 0, 11, 12, 13, 14])) 3 108 2 200).map (fun r => (r.1 200, r.2)) =
      some (some [6, 0, 0, 0, 0, 0, 0, 0, 11, 12, 13, 14, 9, 9], 208) := by
  refine ⟨⟨100, [4, 0, 0, 0, 0, 0, 0, 0], by decide, by decide, by simp [upd], by decide, by decide, fun _ => rfl⟩, by decide⟩

end Verif.Alloc.Standard
