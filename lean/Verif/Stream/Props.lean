import Verif.Stream.Model

/-!
# Memory streams (C72)
-/

namespace Verif.Stream

/-- The buffer `b` has been given the bytes `w`; its array has length `n` and capacity `cap`; the next byte read is at `pos`. -/
def Rep (b : Buf) (w : List Nat) (n pos cap : Nat) : Prop :=
  b.eback = 0 ∧ b.mem.length = cap ∧ b.epptr = cap ∧ b.pptr = w.length ∧ (∃ rest, b.mem = w ++ rest) ∧ b.len = n ∧ b.egptr = n ∧ n ≤ w.length ∧ b.gptr = pos ∧ pos ≤ n

theorem Rep.le {b : Buf} {w : List Nat} {n pos cap : Nat} (h : Rep b w n pos cap) : w.length ≤ cap := by
  obtain ⟨_, h1, _, _, ⟨rest, h2⟩, _⟩ := h
  rw [← h1, h2]
  simp

theorem copyAt_eq {pre rest src : List Nat} (h : src.length ≤ rest.length) : copyAt (pre ++ rest) pre.length src = some ((pre ++ src) ++ rest.drop src.length) := by
  rw [copyAt, if_pos (by simpa using h), List.take_left, ← List.drop_drop, List.drop_left]

theorem expand_rep {b : Buf} {w : List Nat} {pos cap : Nat} (h : Rep b w w.length pos cap) (sz : Nat) : ∃ cap', Rep (b.expand sz) w w.length pos cap' ∧ w.length + sz < cap' := by
  obtain ⟨h1, h2, h3, h4, ⟨rest, h5⟩, h6, h7, h8, h9, h10⟩ := h
  refine ⟨(b.expand sz).mem.length, ⟨rfl, rfl, rfl, h6, ⟨rest ++ List.replicate (max (Arith.fbnextN b.len) (sz + b.len + 1) - b.mem.length) 170, ?_⟩, h6, h6, Nat.le_refl _, ?_, h10⟩, ?_⟩
  · simp only [Buf.expand]; rw [← List.append_assoc, ← h5]
  · simp only [Buf.expand]; omega
  · simp only [Buf.expand, List.length_append, List.length_replicate]; omega

/-- Writing `s` where there is room for it. -/
theorem put_rep {b : Buf} {w : List Nat} {n pos cap : Nat} (h : Rep b w n pos cap) {s : List Nat} (hs : w.length + s.length ≤ cap) :
    ∃ m, copyAt b.mem b.pptr s = some m ∧ Rep (Buf.fixlength { b with mem := m, pptr := b.pptr + s.length }) (w ++ s) (w.length + s.length) pos cap := by
  obtain ⟨h1, h2, h3, h4, ⟨rest, h5⟩, h6, h7, h8, h9, h10⟩ := h
  have hl : s.length ≤ rest.length := by rw [h5, List.length_append] at h2; omega
  refine ⟨_, by rw [h5, h4]; exact copyAt_eq hl, ?_⟩
  refine ⟨h1, ?_, h3, ?_, ⟨rest.drop s.length, rfl⟩, ?_, ?_, ?_, h9, ?_⟩
  · rw [h5] at h2; simp [Buf.fixlength] at h2 ⊢; omega
  · simp [Buf.fixlength, h4]
  · simp [Buf.fixlength, h1, h4]
  · simp [Buf.fixlength, h1, h4]
  · simp
  · omega

theorem sputn_rep {b : Buf} {w : List Nat} {n pos cap : Nat} (h : Rep b w n pos cap) (hfull : w.length = cap → n = cap) (s : List Nat) :
    ∃ b' r cap', b.sputn s = some (b', r) ∧ Rep b' (w ++ s) (w.length + s.length) pos cap' ∧ (w.length = cap ∨ w.length + s.length ≤ cap → r = s.length) := by
  have hle := h.le
  -- with enough room, one step is enough
  have room : ∀ fuel b w n pos cap s, Rep b w n pos cap → w.length + s.length ≤ cap → w.length ≠ cap →
      ∃ b', Buf.xsputn (fuel + 1) b s = some (b', s.length) ∧ Rep b' (w ++ s) (w.length + s.length) pos cap := by
    intro fuel b w n pos cap s h hs hne
    obtain ⟨m, e, hr⟩ := put_rep h hs
    obtain ⟨h1, h2, h3, h4, _⟩ := h
    rw [Buf.xsputn]
    simp only
    rw [if_neg (by omega), show min (b.epptr - b.pptr) s.length = s.length by omega, List.take_length, e, Option.bind_some, if_neg (by omega)]
    exact ⟨_, rfl, hr⟩
  -- from a full buffer, too
  have full : ∀ fuel b w pos cap s, Rep b w w.length pos cap → w.length = cap →
      ∃ b' cap', Buf.xsputn (fuel + 1) b s = some (b', s.length) ∧ Rep b' (w ++ s) (w.length + s.length) pos cap' := by
    intro fuel b w pos cap s h hc
    obtain ⟨cap', hr, hlt⟩ := expand_rep h s.length
    obtain ⟨b', e, hb⟩ := room fuel (b.expand s.length) w w.length pos cap' s hr (by omega) (by omega)
    refine ⟨b', cap', ?_, hb⟩
    obtain ⟨h1, h2, h3, h4, _⟩ := h
    obtain ⟨g1, g2, g3, g4, _⟩ := hr
    rw [Buf.xsputn] at e ⊢
    simp only at e ⊢
    rw [if_neg (by omega)] at e
    rw [if_pos (by omega)]
    exact e
  rw [Buf.sputn]
  by_cases hc : w.length = cap
  · have := hfull hc
    subst this
    rw [← hc] at h
    obtain ⟨b', cap', e, hb⟩ := full (s.length + 1) b w pos w.length s h rfl
    exact ⟨b', s.length, cap', e, hb, fun _ => rfl⟩
  · by_cases hs : w.length + s.length ≤ cap
    · obtain ⟨b', e, hb⟩ := room (s.length + 1) b w n pos cap s h hs hc
      exact ⟨b', s.length, cap, e, hb, fun _ => rfl⟩
    · have hh := h
      obtain ⟨h1, h2, h3, h4, _⟩ := hh
      rw [Buf.xsputn]
      simp only
      obtain ⟨m, e, hr⟩ := put_rep h (s := s.take (cap - w.length)) (by rw [List.length_take]; omega)
      have htl : (s.take (cap - w.length)).length = cap - w.length := by rw [List.length_take]; omega
      rw [htl] at hr
      rw [if_neg (by omega), show min (b.epptr - b.pptr) s.length = cap - w.length by omega, e, Option.bind_some, if_pos (by omega)]
      have hl' : (w ++ s.take (cap - w.length)).length = w.length + (cap - w.length) := by rw [List.length_append, htl]
      rw [← hl'] at hr
      obtain ⟨b', cap', e2, hb⟩ := full s.length _ _ pos cap (s.drop (cap - w.length)) hr (by omega)
      refine ⟨b', _, cap', e2, ?_, fun h => by omega⟩
      rw [hl', List.append_assoc, List.take_append_drop, List.length_drop] at hb
      rwa [show w.length + (cap - w.length) + (s.length - (cap - w.length)) = w.length + s.length by omega] at hb

/-- **C72**, as long as the buffer does not have to grow while single bytes written since the last block have not been counted: a stream over an array that holds `w` acts as the
sequence of the bytes written. There is a relation to: all bytes written `w`, the length `n` and capacity `cap` of the array and the read position. A block write (`sputn`)
appends the block and brings the array's length up to all bytes written; a single byte (`sputc`) is appended, but counted in the length only if the buffer was
full; reading returns the next bytes up to the length, in order. The array holds the first `n` of the bytes written.
Missing: growth with uncounted single bytes, which loses bytes; and the result of a block write that crosses the capacity; see the counterexamples. -/
theorem C72_stream_partial : ∃ R : Buf → List Nat → Nat → Nat → Nat → Prop,
    (∀ mem len, len ≤ mem.length → R (Buf.open_ mem len 0) (mem.take len) len 0 mem.length) ∧
    ∀ b w n pos cap, R b w n pos cap →
      (b.len = n ∧ n ≤ w.length ∧ b.mem.take n = w.take n ∧ b.mem.length = cap) ∧
      (∀ c, (w.length = cap → n = cap) → ∃ b' cap', b.sputc c = some b' ∧ R b' (w ++ [c]) (if w.length < cap then n else w.length + 1) pos cap') ∧
      (∀ s, (w.length = cap → n = cap) → ∃ b' r cap', b.sputn s = some (b', r) ∧ R b' (w ++ s) (w.length + s.length) pos cap' ∧
        (w.length = cap ∨ w.length + s.length ≤ cap → r = s.length)) ∧
      (∀ k, ∃ b', b.sgetn k = some (b', ((w.take n).drop pos).take k) ∧ R b' w n (pos + (((w.take n).drop pos).take k).length) cap) ∧
      (∃ b', b.sbumpc = some (b', (w.take n)[pos]?) ∧ R b' w n (if pos < n then pos + 1 else pos) cap) ∧
      (∀ p, p ≤ n → R (b.seek p) w n p cap) := by
  refine ⟨Rep, fun mem len h => ?_, fun b w n pos cap h => ?_⟩
  · refine ⟨rfl, rfl, rfl, ?_, ⟨mem.drop len, (List.take_append_drop _ _).symm⟩, rfl, rfl, ?_, rfl, Nat.zero_le _⟩
    · simp [Buf.open_]; omega
    · simp; omega
  have hle := h.le
  have hh := h
  obtain ⟨h1, h2, h3, h4, ⟨rest, h5⟩, h6, h7, h8, h9, h10⟩ := hh
  have htake : b.mem.take n = w.take n := by rw [h5, List.take_append_of_le_length h8]
  refine ⟨⟨h6, h8, htake, h2⟩, fun c hc => ?_, fun s hs => sputn_rep h hs s, fun k => ?_, ?_, fun p hp => ?_⟩
  · rw [Buf.sputc]
    by_cases hlt : w.length < cap
    · rw [if_pos (by omega), if_pos hlt, wr_of_lt (by omega)]
      refine ⟨_, cap, rfl, h1, by simpa using h2, h3, by simp [h4], ?_, h6, h7, by simp; omega, h9, h10⟩
      cases rest with
      | nil => rw [h5] at h2; simp at h2; omega
      | cons x rest =>
        refine ⟨rest, ?_⟩
        simp only
        rw [h5, h4, List.set_append_right _ _ (Nat.le_refl _)]
        simp
    · have hcw : w.length = cap := by omega
      have := hc hcw
      subst this
      rw [← hcw] at h
      rw [if_neg (by omega), if_neg hlt, Buf.overflow, if_pos (by omega)]
      obtain ⟨cap', hr, hlt'⟩ := expand_rep h 0
      obtain ⟨m, e, hr'⟩ := put_rep hr (s := [c]) (by simp; omega)
      obtain ⟨g1, g2, g3, g4, ⟨rest', g5⟩, g6⟩ := hr
      have : wr (b.expand 0).mem (b.expand 0).pptr c = some m := by
        rw [wr_of_lt (by omega), ← e, copyAt, if_pos (by simp; omega), List.set_eq_take_append_cons_drop, if_pos (by omega)]
        simp
      rw [this, Option.map_some]
      exact ⟨_, cap', rfl, hr'⟩
  · rw [Buf.sgetn, if_pos (by omega)]
    have e : (b.mem.drop b.gptr).take (min (b.egptr - b.gptr) k) = ((w.take n).drop pos).take k := by
      rw [← htake, List.drop_take, h9, h7, List.take_take, Nat.min_comm]
    have hlen : (((w.take n).drop pos).take k).length = min (b.egptr - b.gptr) k := by simp; omega
    simp only
    rw [e, hlen]
    exact ⟨_, rfl, h1, h2, h3, h4, ⟨rest, h5⟩, h6, h7, h8, by simp only; omega, by omega⟩
  · rw [Buf.sbumpc]
    by_cases hp : pos < n
    · rw [if_pos (by omega), rd_of_lt (by omega), if_pos hp]
      refine ⟨{ b with gptr := b.gptr + 1 }, ?_, h1, h2, h3, h4, ⟨rest, h5⟩, h6, h7, h8, congrArg (· + 1) h9, by omega⟩
      have hpl : pos < b.mem.length := by omega
      subst h9
      rw [← htake, List.getElem?_take_of_lt hp, List.getElem?_eq_getElem hpl]
      rfl
    · rw [if_neg (by omega), if_pos (by omega), if_neg hp, List.getElem?_eq_none (by rw [List.length_take]; omega)]
      exact ⟨b, rfl, h⟩
  · exact ⟨h1, h2, h3, h4, ⟨rest, h5⟩, h6, h7, h8, by simp only [Buf.seek]; omega, hp⟩

/-- An empty array: two blocks, a byte that makes the buffer grow, another block, and everything read back. -/
example : ((Buf.open_ [] 0 0).sputn [1, 2, 3]).bind (fun b => (b.1.sputn [4]).bind fun b => (b.1.sputc 5).bind fun b => (b.sputn [6, 7, 8]).bind fun b =>
    (b.1.sgetn 9).map fun r => (r.2, b.1.len)) = some ([1, 2, 3, 4, 5, 6, 7, 8], 8) := by decide +kernel

/-- Single bytes are not counted in the array's length while there is room; when the buffer is then full, the next byte overwrites the first. -/
theorem C72_lost_counterexample : ((Buf.open_ [0, 0] 0 0).sputc 1).bind (fun b => (b.sputc 2).bind fun b => b.sputc 3) = some ⟨[3, 2], 1, 0, 0, 1, 1, 2⟩ := by decide +kernel

/-- A block write that crosses the capacity writes all of the block but returns less than its length (so that an `ostream` takes it as failed). -/
theorem C72_result_counterexample : ((Buf.open_ [0, 0] 0 0).sputn [1, 2, 3]).map (fun r => (r.1.mem.take r.1.len, r.2)) = some ([1, 2, 3], 1) := by decide +kernel

/-- With a nonzero `begin`, a write that needs no growth shortens the array. -/
theorem C72_begin_counterexample : ((Buf.open_ [1, 2, 3, 0, 0] 3 2).sputn [4]).map (fun r => r.1.len) = some 2 := by decide +kernel

end Verif.Stream
