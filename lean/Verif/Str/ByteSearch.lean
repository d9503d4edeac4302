import Verif.Common.Mem

/-!
# `ByteSearch` (C86)

`/repo/include/bss-util/bss_util.h:702-717`. A pointer is the list of the bytes from there to the end of the allocation (`none` if it is null); the result is the offset of the
pointer returned, `none` if it is null. The outer `none` is a read outside an allocation.
-/

namespace Verif.Str

/-- `memcmp(p, q, n)`: whether the first `n` bytes are equal; all of them may be read. -/
def memcmpEq (p q : List UInt8) (n : Nat) : Option Bool :=
  if n ≤ p.length ∧ n ≤ q.length then some (p.take n == q.take n) else none

/-- The loop, `:709-714`, from `i`. -/
def byteLoop (s find : List UInt8) (fLength length : Nat) (i : Nat) : Option (Option Nat) :=
  if i ≤ length then
    match memcmpEq (s.drop i) find fLength with
    | none => none
    | some true => some (some i)
    | some false => byteLoop s find fLength length (i + 1)
  else some none
termination_by length + 1 - i

/-- `ByteSearch`, `:703-716`. -/
def byteSearch (search : Option (List UInt8)) (length : Nat) (find : Option (List UInt8)) (fLength : Nat) : Option (Option Nat) :=
  match search, find with
  | some s, some f => if length = 0 ∨ fLength = 0 ∨ length < fLength then some none else byteLoop s f fLength (length - fLength) 0
  | _, _ => some none

/-! ## Specification -/

/-- The bytes `needle` occur in `hay` at `i`. -/
def OccursAt (hay needle : List UInt8) (i : Nat) : Prop := ∃ pre post, hay = pre ++ needle ++ post ∧ pre.length = i

theorem occursAt_iff {hay needle : List UInt8} {i : Nat} : OccursAt hay needle i ↔ i + needle.length ≤ hay.length ∧ (hay.drop i).take needle.length = needle := by
  constructor
  · rintro ⟨pre, post, rfl, rfl⟩
    refine ⟨by simp [List.length_append], ?_⟩
    rw [List.append_assoc, List.drop_left, List.take_left]
  · rintro ⟨h, e⟩
    refine ⟨hay.take i, hay.drop (i + needle.length), ?_, by rw [List.length_take]; omega⟩
    rw [← List.drop_drop]
    conv => lhs; rw [← List.take_append_drop i hay, ← List.take_append_drop needle.length (hay.drop i), e]
    rw [List.append_assoc]

theorem byteLoop_spec (hay rest needle frest : List UInt8) (h : needle.length ≤ hay.length) (i : Nat) (hp : ∀ j < i, ¬OccursAt hay needle j) :
    ∃ r, byteLoop (hay ++ rest) (needle ++ frest) needle.length (hay.length - needle.length) i = some r ∧
      (∀ k, r = some k → OccursAt hay needle k ∧ ∀ j < k, ¬OccursAt hay needle j) ∧ (r = none → ∀ j, ¬OccursAt hay needle j) := by
  rw [byteLoop]
  split
  · rename_i hi
    have hm : memcmpEq ((hay ++ rest).drop i) (needle ++ frest) needle.length = some ((hay.drop i).take needle.length == needle) := by
      rw [memcmpEq, if_pos (by simp only [List.length_drop, List.length_append]; omega), List.drop_append_of_le_length (by omega),
        List.take_append_of_le_length (by rw [List.length_drop]; omega), List.take_left]
    rw [hm]
    by_cases he : (hay.drop i).take needle.length = needle
    · rw [beq_iff_eq.2 he]
      refine ⟨some i, rfl, fun k hk => ?_, by simp⟩
      obtain rfl := Option.some.inj hk
      exact ⟨occursAt_iff.2 ⟨by omega, he⟩, hp⟩
    · rw [beq_eq_false_iff_ne.2 he]
      refine byteLoop_spec hay rest needle frest h (i + 1) fun j hj => ?_
      rcases Nat.lt_succ_iff_lt_or_eq.1 hj with hj | rfl
      · exact hp j hj
      · exact fun ho => he (occursAt_iff.1 ho).2
  · rename_i hi
    refine ⟨none, rfl, by simp, fun _ j => ?_⟩
    by_cases hj : j < i
    · exact hp j hj
    · intro ho
      have := (occursAt_iff.1 ho).1
      omega
termination_by hay.length - needle.length + 1 - i

/-- **C86**: `ByteSearch` over buffers that hold at least the given numbers of bytes reads nothing outside of these bytes and returns the first place where the bytes to find occur; it
returns null exactly if there is none or there is nothing to find. -/
theorem C86_first (hay needle : List UInt8) (rest frest : List UInt8) :
    ∃ r, byteSearch (some (hay ++ rest)) hay.length (some (needle ++ frest)) needle.length = some r ∧
      (∀ k, r = some k → OccursAt hay needle k ∧ ∀ j < k, ¬OccursAt hay needle j) ∧ (r = none ↔ needle = [] ∨ ∀ j, ¬OccursAt hay needle j) := by
  rw [byteSearch]
  split
  · rename_i h
    refine ⟨none, rfl, by simp, iff_of_true rfl ?_⟩
    rcases h with h | h | h
    · by_cases hn : needle = []
      · exact .inl hn
      · refine .inr fun j ho => ?_
        have := (occursAt_iff.1 ho).1
        have := List.length_pos_iff.2 hn
        omega
    · exact .inl (List.length_eq_zero_iff.1 h)
    · refine .inr fun j ho => ?_
      have := (occursAt_iff.1 ho).1
      omega
  · rename_i h
    obtain ⟨r, e, h1, h2⟩ := byteLoop_spec hay rest needle frest (by omega) 0 (by omega)
    refine ⟨r, e, h1, fun hr => .inr (h2 hr), fun hr => ?_⟩
    rcases hr with rfl | hr
    · simp at h
    · cases r with
      | none => rfl
      | some k => exact absurd (h1 k rfl).1 (hr k)

/-- **C86**: a null pointer gives null. -/
theorem C86_null (s : Option (List UInt8)) (n m : Nat) : byteSearch none n s m = some none ∧ byteSearch s n none m = some none := by
  constructor
  · cases s <;> rfl
  · cases s <;> rfl

example : byteSearch (some [1, 2, 1, 2, 3, 9]) 5 (some [1, 2, 3]) 3 = some (some 2) := by
  simp [byteSearch, byteLoop, memcmpEq]

end Verif.Str
