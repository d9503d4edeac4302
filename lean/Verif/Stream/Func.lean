import Mathlib.Data.List.Basic
import Mathlib.Tactic.Basic

/-!
# Streams with an operation on their data

Models `StreamBufFunction` of `/repo/include/bss-util/stream.h`. The virtual functions `_onwrite` and `_onread`, of which the library has no implementation, are taken to do what their place in the code requires, without changing the data: `_onwrite` sends what is in the buffer on and empties it, `_onread` fills the buffer with what comes next, up to its size.
-/

namespace Verif.Stream.Fn

/-- The writing side: the size of the buffer, what lies between `pbase()` and `pptr()`, the room between `pptr()` and `epptr()`, and what `_out` has received. -/
structure Out where
  sz : Nat
  buf : List Nat
  room : Nat
  out : List Nat
deriving Repr, DecidableEq

/-- The constructor, `stream.h:241-244`: the buffer seems to be full. -/
def Out.open_ (sz : Nat) : Out := ⟨sz, [], 0, []⟩

/-- `_onwrite`. -/
def Out.onwrite (s : Out) : Out := { s with buf := [], room := s.sz, out := s.out ++ s.buf }

/-- `std::streambuf::sputc`, with `overflow`, `stream.h:278-292`; false is the end of the file. -/
def Out.sputc (s : Out) (c : Nat) : Bool × Out :=
  let s := if s.room = 0 then s.onwrite else s
  if 0 < s.room then (true, { s with buf := s.buf ++ [c], room := s.room - 1 }) else (false, s)

/-- `xsputn`, `stream.h:293-308`, by `sputn`; the result is the number it returns. `none` is an exhausted bound on the recursion. -/
def Out.xsputn : Nat → Out → List Nat → Option (Nat × Out)
  | 0, _, _ => none
  | n + 1, s, l =>
    let s := if s.room = 0 then s.onwrite else s
    let r := if s.room > l.length then l.length else s.room
    let s := { s with buf := s.buf ++ l.take r, room := s.room - r }
    if l.length - r ≠ 0 then Out.xsputn n s (l.drop r) else some (r, s)

/-- `sync`, `stream.h:253-259`: `_out` is flushed, which does not change what it has received. -/
def Out.sync (s : Out) : Out := s

/-- Calls that write. -/
inductive Put where
  | c (x : Nat)
  | n (l : List Nat)
  | sync
deriving Repr, DecidableEq

/-- One call, with a bound on the recursion. -/
def Out.call (fuel : Nat) (s : Out) : Put → Option Out
  | .c x => if (s.sputc x).1 then some (s.sputc x).2 else none
  | .n l => (s.xsputn fuel l).map (·.2)
  | .sync => some s.sync

/-- The reading side: the size of the buffer, what lies between `gptr()` and `egptr()`, and what `_in` has left. -/
structure In where
  sz : Nat
  buf : List Nat
  src : List Nat
deriving Repr, DecidableEq

/-- The constructor, `stream.h:237-240`. -/
def In.open_ (sz : Nat) (src : List Nat) : In := ⟨sz, [], src⟩

/-- `_onread`, if the buffer is empty, `stream.h:262-263` and `stream.h:268-269`. -/
def In.fill (s : In) : In := if s.buf = [] then { s with buf := s.src.take s.sz, src := s.src.drop s.sz } else s

/-- `std::streambuf::sbumpc`, with `underflow`, `stream.h:260-265`. -/
def In.sbumpc (s : In) : Option Nat × In :=
  let s := s.fill
  match s.buf with
  | [] => (none, s)
  | c :: l => (some c, { s with buf := l })

/-- `xsgetn`, `stream.h:266-277`, by `sgetn`. -/
def In.sgetn (s : In) (n : Nat) : List Nat × In :=
  let s := s.fill
  let r := if s.buf.length > n then n else s.buf.length
  (s.buf.take r, { s with buf := s.buf.drop r })

/-- Calls that read. -/
inductive Get where
  | c
  | n (n : Nat)
deriving Repr, DecidableEq

/-- A sequence of calls: what each has given. -/
def In.run (s : In) : List Get → List (List Nat) × In
  | [] => ([], s)
  | .c :: l => let (x, s) := s.sbumpc; let (r, s) := run s l; (x.toList :: r, s)
  | .n k :: l => let (x, s) := s.sgetn k; let (r, s) := run s l; (x :: r, s)

/-! ## Specification and proofs -/

/-- The bytes that a call writes. -/
def Put.bytes : Put → List Nat
  | .c x => [x]
  | .n l => l
  | .sync => []

/-- The parts of the buffer make up the buffer, or it is as it was opened. -/
def Out.Ok (s : Out) : Prop := s.buf.length + s.room = s.sz ∨ (s.buf = [] ∧ s.room = 0)

theorem ready (s : Out) (hsz : 0 < s.sz) (h : s.Ok) : ∃ t, (if s.room = 0 then s.onwrite else s) = t ∧ t.sz = s.sz ∧ t.buf.length + t.room = t.sz ∧ 0 < t.room ∧ t.out ++ t.buf = s.out ++ s.buf := by
  refine ⟨_, rfl, ?_⟩
  by_cases hr : s.room = 0
  · rw [if_pos hr]; unfold Out.onwrite; simp [hsz]
  · rw [if_neg hr]
    refine ⟨rfl, ?_, by omega, rfl⟩
    rcases h with h | h
    · exact h
    · exact absurd h.2 hr

theorem xsputn_ok (fuel : Nat) : ∀ (s : Out) (l : List Nat), 0 < s.sz → s.Ok → l.length < fuel → ∃ r t, Out.xsputn fuel s l = some (r, t) ∧ t.sz = s.sz ∧ t.Ok ∧ t.out ++ t.buf = s.out ++ s.buf ++ l := by
  induction fuel with
  | zero => intro s l _ _ h; exact absurd h (by omega)
  | succ fuel ih =>
    intro s l hsz hok hl
    obtain ⟨t, et, h1, h2, h3, h4⟩ := ready s hsz hok
    unfold Out.xsputn
    dsimp only
    rw [et]
    have er : (if t.room > l.length then l.length else t.room) = min t.room l.length := by split <;> omega
    rw [er]
    by_cases hc : l.length - min t.room l.length ≠ 0
    · rw [if_pos hc]
      obtain ⟨r, u, e, k1, k2, k3⟩ := ih { t with buf := t.buf ++ l.take (min t.room l.length), room := t.room - min t.room l.length } (l.drop (min t.room l.length)) (by dsimp only; omega)
        (Or.inl (by simp only [List.length_append, List.length_take]; omega)) (by rw [List.length_drop]; omega)
      refine ⟨r, u, e, by rw [k1]; exact h1, k2, ?_⟩
      rw [k3, ← h4]; simp [List.append_assoc]
    · rw [if_neg hc]
      refine ⟨_, _, rfl, h1, Or.inl (by simp only [List.length_append, List.length_take]; omega), ?_⟩
      have : l.take (min t.room l.length) = l := List.take_of_length_le (by omega)
      dsimp only
      rw [this, ← h4, List.append_assoc]

/-- **C151** (partial). Whatever is written in whatever pieces, what was sent on followed by what is in the buffer is what was written, in order. What is missing: that a flush sends the rest on, and the number that `sputn` returns. -/
theorem C151_write_partial (sz : Nat) (hsz : 0 < sz) (fuel : Nat) (calls : List Put) (hf : ∀ p ∈ calls, p.bytes.length < fuel) : ∃ s, calls.foldlM (Out.call fuel) (Out.open_ sz) = some s ∧ s.out ++ s.buf = calls.flatMap Put.bytes ∧ s.buf.length ≤ sz := by
  have gen : ∀ (calls : List Put), (∀ p ∈ calls, p.bytes.length < fuel) → ∀ s : Out, s.sz = sz → s.Ok → ∃ t, calls.foldlM (Out.call fuel) s = some t ∧ t.sz = sz ∧ t.Ok ∧ t.out ++ t.buf = s.out ++ s.buf ++ calls.flatMap Put.bytes := by
    intro calls
    induction calls with
    | nil => intro _ s h1 h2; exact ⟨s, rfl, h1, h2, by simp⟩
    | cons p l ih =>
      intro hf s h1 h2
      have step : ∃ t, Out.call fuel s p = some t ∧ t.sz = sz ∧ t.Ok ∧ t.out ++ t.buf = s.out ++ s.buf ++ p.bytes := by
        cases p with
        | sync => exact ⟨s, rfl, h1, h2, by simp [Put.bytes]⟩
        | n x =>
          obtain ⟨r, t, e, k1, k2, k3⟩ := xsputn_ok fuel s x (by omega) h2 (hf _ (List.mem_cons_self ..))
          exact ⟨t, by simp [Out.call, e], by omega, k2, k3⟩
        | c x =>
          obtain ⟨t, et, k1, k2, k3, k4⟩ := ready s (by omega) h2
          unfold Out.call Out.sputc
          dsimp only
          rw [et, if_pos k3]
          refine ⟨_, rfl, by dsimp only; omega, Or.inl (by simp only [List.length_append, List.length_singleton]; omega), ?_⟩
          dsimp only [Put.bytes]
          rw [← k4, List.append_assoc]
      obtain ⟨t, e, k1, k2, k3⟩ := step
      obtain ⟨u, e2, j1, j2, j3⟩ := ih (fun q hq => hf q (List.mem_cons_of_mem _ hq)) t k1 k2
      refine ⟨u, ?_, j1, j2, ?_⟩
      · rw [List.foldlM_cons, e]; exact e2
      · rw [j3, k3]; simp [List.append_assoc]
  obtain ⟨t, e, h1, h2, h3⟩ := gen calls hf (Out.open_ sz) rfl (Or.inr ⟨rfl, rfl⟩)
  refine ⟨t, e, by rw [h3]; rfl, ?_⟩
  rcases h2 with h | h
  · omega
  · rw [h.1]; simp

/-- **C151**: `sputn` returns the number of bytes if they fit into the room that is left. -/
theorem C151_write_count (fuel : Nat) (s : Out) (l : List Nat) (h0 : 0 < s.room) (h : l.length ≤ s.room) : (Out.xsputn (fuel + 1) s l).map (·.1) = some l.length := by
  unfold Out.xsputn
  dsimp only
  have e : (if s.room = 0 then s.onwrite else s) = s := if_neg (by omega)
  have er : (if s.room > l.length then l.length else s.room) = l.length := by split <;> omega
  rw [e, er, if_neg (by omega)]; rfl

/-- **C151** counterexample: of six bytes all are taken, but `sputn` returns two, which a stream takes for an error. -/
theorem C151_write_count_counterexample : ((Out.open_ 4).xsputn 9 [1, 2, 3, 4, 5, 6]).map (fun r => (r.1, r.2.out ++ r.2.buf)) = some (2, [1, 2, 3, 4, 5, 6]) := by decide

/-- **C151** counterexample: a flush does not send on what is in the buffer. -/
theorem C151_flush_counterexample : (([.n [1, 2], .sync] : List Put).foldlM (Out.call 9) (Out.open_ 4)).map (fun s => s.out) = some [] := by decide

theorem fill_all (s : In) : s.fill.buf ++ s.fill.src = s.buf ++ s.src ∧ s.fill.sz = s.sz ∧ (0 < s.sz → s.fill.buf = [] → s.buf = [] ∧ s.src = []) := by
  unfold In.fill
  by_cases h : s.buf = []
  · rw [if_pos h]
    refine ⟨by simp [h], rfl, fun hsz he => ⟨h, ?_⟩⟩
    dsimp only at he
    rcases List.take_eq_nil_iff.1 he with h0 | h0
    · omega
    · exact h0
  · rw [if_neg h]; exact ⟨rfl, rfl, fun _ h0 => absurd h0 h⟩

/-- **C151** (partial). Whatever is read in whatever pieces, the pieces in order followed by what is not yet read are the source: nothing is lost, repeated or reordered. -/
theorem C151_read_partial (calls : List Get) : ∀ s : In, (s.run calls).1.flatten ++ (s.run calls).2.buf ++ (s.run calls).2.src = s.buf ++ s.src := by
  induction calls with
  | nil => intro s; simp [In.run]
  | cons g l ih =>
    intro s
    have hf := (fill_all s).1
    cases g with
    | c =>
      show (s.sbumpc.1.toList :: (s.sbumpc.2.run l).1).flatten ++ (s.sbumpc.2.run l).2.buf ++ (s.sbumpc.2.run l).2.src = _
      have := ih s.sbumpc.2
      rw [List.flatten_cons, List.append_assoc, List.append_assoc, ← List.append_assoc (s.sbumpc.2.run l).1.flatten, this, ← hf]
      unfold In.sbumpc
      dsimp only
      cases hb : s.fill.buf with
      | nil => simp [hb]
      | cons c b => simp
    | n k =>
      show ((s.sgetn k).1 :: ((s.sgetn k).2.run l).1).flatten ++ ((s.sgetn k).2.run l).2.buf ++ ((s.sgetn k).2.run l).2.src = _
      have := ih (s.sgetn k).2
      rw [List.flatten_cons, List.append_assoc, List.append_assoc, ← List.append_assoc ((s.sgetn k).2.run l).1.flatten, this, ← hf]
      unfold In.sgetn
      dsimp only
      rw [← List.append_assoc, List.take_append_drop]

/-- **C151**: a read ends with nothing only at the end of the source, and gives no more than was asked for. -/
theorem C151_read_end (s : In) (hsz : 0 < s.sz) (n : Nat) (hn : 0 < n) : ((s.sgetn n).1 = [] ↔ s.buf ++ s.src = []) ∧ (s.sbumpc.1 = none ↔ s.buf ++ s.src = []) ∧ (s.sgetn n).1.length ≤ n := by
  obtain ⟨h1, h2, h3⟩ := fill_all s
  have hnil : s.fill.buf = [] ↔ s.buf ++ s.src = [] := by
    constructor
    · intro h; obtain ⟨a, b⟩ := h3 hsz h; rw [a, b]; rfl
    · intro h; rw [← h1] at h; exact (List.append_eq_nil_iff.1 h).1
  refine ⟨?_, ?_, ?_⟩
  · unfold In.sgetn
    dsimp only
    rw [List.take_eq_nil_iff, ← hnil]
    constructor
    · rintro (h | h)
      · split at h
        · omega
        · exact List.length_eq_zero_iff.1 h
      · exact h
    · exact Or.inr
  · unfold In.sbumpc
    dsimp only
    rw [← hnil]
    cases s.fill.buf <;> simp
  · unfold In.sgetn
    dsimp only
    rw [List.length_take]
    split <;> omega

/-- **C151** counterexample: a read of six bytes gives four, though six are there, which a stream takes for the end of the file. -/
theorem C151_read_count_counterexample : ((In.open_ 4 [1, 2, 3, 4, 5, 6]).sgetn 6).1 = [1, 2, 3, 4] := by decide

/-- Writes and reads across the end of the buffer. -/
example : (([.n [1, 2, 3], .c 4, .c 5, .n [6]] : List Put).foldlM (Out.call 9) (Out.open_ 4)).map (fun s => (s.out, s.buf)) = some ([1, 2, 3, 4], [5, 6]) ∧
    ((In.open_ 4 [1, 2, 3, 4, 5, 6]).run [.n 3, .c, .n 3, .c]).1 = [[1, 2, 3], [4], [5, 6], []] := by decide

end Verif.Stream.Fn
