import Mathlib.Data.List.Basic
import Mathlib.Tactic.Basic

/-!
# Streams that read an array

Models `StreamBufArray` of `/repo/include/bss-util/stream.h`. Since the buffer never sets the pointers of `std::streambuf`, each public function of it calls the virtual function that is cited. Pointers are offsets from `_begin`; `none` is a read outside of the array. `char` is signed.
-/

namespace Verif.Stream.RO

/-- The members, `stream.h:130-132`: the bytes from `_begin` to `_end`, and `_cur`. The constructor, `stream.h:77`, counts bytes, not elements. -/
structure Buf where
  bytes : List Nat
  cur : Int
deriving Repr, DecidableEq

/-- `std::ios_base::seekdir`. -/
inductive Way where
  | beg | cur | fin
deriving Repr, DecidableEq

/-- Calls. -/
inductive Call where
  | sgetc
  | sbumpc
  | sungetc
  | sputbackc (c : Nat)
  | sgetn (n : Nat)
  | seek (off : Int) (way : Way)
  | inAvail
deriving Repr, DecidableEq

/-- Results; `char none` is the end of the file. -/
inductive Res where
  | char (c : Option Nat)
  | data (l : List Nat)
  | pos (p : Int)
deriving Repr, DecidableEq

/-- `*p`. -/
def Buf.deref (b : Buf) (p : Int) : Option Nat := if 0 ≤ p then b.bytes[p.toNat]? else none

/-- A byte as a value of the signed type `char`. -/
def asChar (c : Nat) : Int := if c < 128 then c else c - 256

/-- `underflow`, `stream.h:93`. -/
def Buf.underflow (b : Buf) : Option (Res × Buf) :=
  if b.cur = b.bytes.length then some (.char none, b) else do
    let c ← b.deref b.cur
    return (.char (some c), b)

/-- `uflow`, `stream.h:92`. -/
def Buf.uflow (b : Buf) : Option (Res × Buf) :=
  if b.cur = b.bytes.length then some (.char none, b) else do
    let c ← b.deref b.cur
    return (.char (some c), { b with cur := b.cur + 1 })

/-- `pbackfail`, `stream.h:94-99`; the argument is that of type `int`, none for the end of the file. -/
def Buf.pbackfail (b : Buf) (ch : Option Nat) : Option (Res × Buf) :=
  if b.cur = 0 then some (.char none, b) else do
    let c ← b.deref (b.cur - 1)
    match ch with
    | none => return (.char (some c), { b with cur := b.cur - 1 })
    | some k => if (k : Int) ≠ asChar c then return (.char none, b) else return (.char (some c), { b with cur := b.cur - 1 })

/-- `xsgetn`, `stream.h:101-110`; if there is more than nothing to copy, all of it has to lie in the array. -/
def Buf.xsgetn (b : Buf) (n : Nat) : Option (Res × Buf) :=
  let r : Int := if b.bytes.length - b.cur > n then n else b.bytes.length - b.cur
  if r > 0 then
    if b.cur < 0 then none else some (.data ((b.bytes.drop b.cur.toNat).take r.toNat), { b with cur := b.cur + r })
  else some (.data [], { b with cur := b.cur + r })

/-- `seekoff`, `stream.h:112-128`, and `seekpos`, `stream.h:111`. -/
def Buf.seekoff (b : Buf) (off : Int) (way : Way) : Res × Buf :=
  let p := match way with
    | .cur => b.cur + off
    | .fin => b.bytes.length + off
    | .beg => off
  (.pos p, { b with cur := p })

/-- The public functions of `std::streambuf`. `in_avail` calls `showmanyc`, `stream.h:100`. -/
def Buf.call (b : Buf) : Call → Option (Res × Buf)
  | .sgetc => b.underflow
  | .sbumpc => b.uflow
  | .sungetc => b.pbackfail none
  | .sputbackc c => b.pbackfail (some c)
  | .sgetn n => b.xsgetn n
  | .seek off way => some (b.seekoff off way)
  | .inAvail => if b.cur ≤ b.bytes.length then some (.pos (b.bytes.length - b.cur), b) else none

/-- A sequence of calls. -/
def run (b : Buf) : List Call → Option (List Res)
  | [] => some []
  | c :: l => do
    let (r, b') ← b.call c
    let rs ← run b' l
    return r :: rs

/-! ## Specification -/

/-- Where a seek leads. -/
def target (len pos : Nat) (off : Int) : Way → Int
  | .beg => off
  | .cur => pos + off
  | .fin => len + off

/-- What calls do on a sequence of bytes and a position in it: a call of which nothing can come leaves the position. -/
def spec (bytes : List Nat) (pos : Nat) : Call → Res × Nat
  | .sgetc => (.char bytes[pos]?, pos)
  | .sbumpc => (.char bytes[pos]?, if pos < bytes.length then pos + 1 else pos)
  | .sungetc => if pos = 0 then (.char none, pos) else (.char bytes[pos - 1]?, pos - 1)
  | .sputbackc c => if pos ≠ 0 ∧ bytes[pos - 1]? = some c then (.char (some c), pos - 1) else (.char none, pos)
  | .sgetn n => (.data ((bytes.drop pos).take n), pos + ((bytes.drop pos).take n).length)
  | .seek off way =>
    let t := target bytes.length pos off way
    if 0 ≤ t ∧ t ≤ bytes.length then (.pos t, t.toNat) else (.pos (-1), pos)
  | .inAvail => (.pos (bytes.length - pos), pos)

/-- A sequence of calls. -/
def specRun (bytes : List Nat) (pos : Nat) : List Call → List Res
  | [] => []
  | c :: l => (spec bytes pos c).1 :: specRun bytes (spec bytes pos c).2 l

/-- Seeks stay in the array, and no byte above 127 is put back by its value. -/
def Sane (bytes : List Nat) (pos : Nat) : List Call → Prop
  | [] => True
  | c :: l => (match c with
      | .seek off way => 0 ≤ target bytes.length pos off way ∧ target bytes.length pos off way ≤ bytes.length
      | .sputbackc k => k < 128
      | _ => True) ∧ Sane bytes (spec bytes pos c).2 l

/-! ## Proofs -/

theorem deref_nat (bytes : List Nat) (pos p : Nat) : (Buf.mk bytes pos).deref p = bytes[p]? := by
  unfold Buf.deref; rw [if_pos (by omega)]; rfl

theorem step (bytes : List Nat) (hb : ∀ x ∈ bytes, x < 256) (pos : Nat) (hp : pos ≤ bytes.length) (c : Call) (hs : Sane bytes pos [c]) :
    (Buf.mk bytes pos).call c = some ((spec bytes pos c).1, Buf.mk bytes (spec bytes pos c).2) ∧ (spec bytes pos c).2 ≤ bytes.length := by
  cases c with
  | sgetc =>
    refine ⟨?_, hp⟩
    unfold Buf.call Buf.underflow spec
    dsimp only
    by_cases h : pos = bytes.length
    · rw [if_pos (by omega)]; simp [h]
    · rw [if_neg (by omega), deref_nat, List.getElem?_eq_getElem (by omega)]; rfl
  | sbumpc =>
    unfold Buf.call Buf.uflow spec
    dsimp only
    by_cases h : pos = bytes.length
    · rw [if_pos (by omega)]; simp [h]
    · rw [if_neg (by omega), deref_nat, List.getElem?_eq_getElem (by omega), if_pos (by omega)]
      exact ⟨rfl, by omega⟩
  | sungetc =>
    unfold Buf.call Buf.pbackfail spec
    dsimp only
    by_cases h : pos = 0
    · rw [if_pos (by omega), if_pos h]; exact ⟨rfl, hp⟩
    · rw [if_neg (by omega), if_neg h, show ((pos : Int) - 1) = ((pos - 1 : Nat) : Int) by omega, deref_nat, List.getElem?_eq_getElem (by omega)]
      refine ⟨by simp, ?_⟩
      dsimp only; omega
  | sputbackc k =>
    unfold Buf.call Buf.pbackfail spec
    dsimp only
    have hk : k < 128 := hs.1
    by_cases h : pos = 0
    · rw [if_pos (by omega), if_neg (by simp [h])]; exact ⟨rfl, hp⟩
    · have hlt : pos - 1 < bytes.length := by omega
      rw [if_neg (by omega), show ((pos : Int) - 1) = ((pos - 1 : Nat) : Int) by omega, deref_nat, List.getElem?_eq_getElem hlt]
      have hx := hb _ (List.getElem_mem hlt)
      generalize bytes[pos - 1] = x at *
      simp only [Option.bind_eq_bind, Option.bind_some]
      have e : ((k : Int) ≠ asChar x) ↔ ¬ (x = k) := by unfold asChar; split <;> omega
      by_cases hxk : x = k
      · rw [if_neg (by rw [e]; exact not_not.2 hxk), if_pos ⟨h, by rw [hxk]⟩]
        refine ⟨by rw [hxk]; rfl, ?_⟩
        dsimp only; omega
      · rw [if_pos (e.2 hxk), if_neg (by rintro ⟨-, h2⟩; exact hxk (Option.some.inj h2))]
        exact ⟨rfl, hp⟩
  | sgetn n =>
    unfold Buf.call Buf.xsgetn spec
    dsimp only
    have hl : ((bytes.drop pos).take n).length = min n (bytes.length - pos) := by simp
    refine ⟨?_, by rw [hl]; omega⟩
    have hr : (if (bytes.length : Int) - pos > n then (n : Int) else bytes.length - pos) = ((min n (bytes.length - pos) : Nat) : Int) := by
      split <;> omega
    rw [hr, hl]
    by_cases h : min n (bytes.length - pos) = 0
    · rw [h]
      have : (bytes.drop pos).take n = [] := List.length_eq_zero_iff.1 (by rw [hl, h])
      rw [this]; simp
    · rw [if_pos (by omega), if_neg (by omega)]
      have e : (bytes.drop pos).take (min n (bytes.length - pos)) = (bytes.drop pos).take n := by
        rw [List.take_eq_take_iff]; simp
      simp only [Int.toNat_natCast]
      rw [e]; rfl
  | seek off way =>
    have ht := hs.1
    unfold Buf.call Buf.seekoff spec
    dsimp only at ht ⊢
    rw [if_pos ht]
    refine ⟨?_, by dsimp only; omega⟩
    cases way <;> simp only [target] at ht ⊢ <;> simp only [Int.toNat_of_nonneg ht.1]
  | inAvail =>
    refine ⟨?_, hp⟩
    unfold Buf.call spec
    dsimp only
    rw [if_pos (by omega)]

/-- **C150** (partial). Any sequence of reads, put backs, seeks and queries of a stream over an array gives what it would on the array's bytes and a position in them, and reads only the array. What is missing: seeks to places outside of the array, and bytes above 127 that are put back by their value. -/
theorem C150_read_partial (bytes : List Nat) (hb : ∀ x ∈ bytes, x < 256) (calls : List Call) : ∀ pos : Nat, pos ≤ bytes.length → Sane bytes pos calls → run ⟨bytes, pos⟩ calls = some (specRun bytes pos calls) := by
  induction calls with
  | nil => intro _ _ _; rfl
  | cons c l ih =>
    intro pos hp hs
    have hs1 : Sane bytes pos [c] := ⟨hs.1, trivial⟩
    obtain ⟨h1, h2⟩ := step bytes hb pos hp c hs1
    unfold run
    rw [h1]
    simp only [Option.bind_eq_bind, Option.bind_some]
    rw [ih _ h2 hs.2]
    rfl

/-- **C150**: so reading it character by character gives all bytes in order and then the end of the file. -/
theorem C150_all (bytes : List Nat) (hb : ∀ x ∈ bytes, x < 256) : run ⟨bytes, 0⟩ (List.replicate (bytes.length + 1) .sbumpc) = some (bytes.map (fun c => .char (some c)) ++ [.char none]) := by
  have hsane : ∀ n pos, Sane bytes pos (List.replicate n .sbumpc) := by
    intro n
    induction n with
    | zero => intro _; exact trivial
    | succ n ih => intro pos; exact ⟨trivial, ih _⟩
  rw [show ((0 : Int)) = ((0 : Nat) : Int) from rfl, C150_read_partial bytes hb _ 0 (Nat.zero_le _) (hsane _ _)]
  have gen : ∀ n pos, pos + n = bytes.length → specRun bytes pos (List.replicate (n + 1) .sbumpc) = (bytes.drop pos).map (fun c => Res.char (some c)) ++ [.char none] := by
    intro n
    induction n with
    | zero =>
      intro pos h
      have : pos = bytes.length := by omega
      subst this
      simp [specRun, spec]
    | succ n ih =>
      intro pos h
      rw [List.replicate_succ]
      have hlt : pos < bytes.length := by omega
      have e := ih (pos + 1) (by omega)
      show (spec bytes pos .sbumpc).1 :: specRun bytes (spec bytes pos .sbumpc).2 _ = _
      rw [List.drop_eq_getElem_cons hlt, List.map_cons, List.cons_append, ← e]
      simp [spec, hlt]
  have := gen bytes.length 0 (by omega)
  rw [this]; simp

/-- **C150** counterexample: a byte above 127 that was just read cannot be put back. -/
theorem C150_putback_counterexample : run ⟨[200], 0⟩ [.sbumpc, .sputbackc 200] = some [.char (some 200), .char none] ∧ specRun [200] 0 [.sbumpc, .sputbackc 200] = [.char (some 200), .char (some 200)] := by decide

/-- **C150** counterexample: a seek to a place outside of the array is not refused, and the next read leaves the array. -/
theorem C150_seek_counterexample : run ⟨[1, 2], 0⟩ [.seek 5 .beg] = some [.pos 5] ∧ run ⟨[1, 2], 0⟩ [.seek 5 .beg, .sbumpc] = none := by decide

/-- Reads, put backs and seeks within an array. -/
example : run ⟨[1, 2, 3, 4], 0⟩ [.sgetn 2, .sungetc, .sputbackc 1, .seek (-1) .fin, .sbumpc, .sbumpc, .inAvail] = some [.data [1, 2], .char (some 2), .char (some 1), .pos 3, .char (some 4), .char none, .pos 0] ∧
    Sane [1, 2, 3, 4] 0 [.sgetn 2, .sungetc, .sputbackc 1, .seek (-1) .fin, .sbumpc, .sbumpc, .inAvail] := by
  refine ⟨by decide, ?_⟩
  simp [Sane, spec, target]

end Verif.Stream.RO
