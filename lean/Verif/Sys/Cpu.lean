/-!
# `bssGetCPUInfo` (C170), `/repo/bss-util/bss_util_c.c:24-83`, and the hashes of names (C169), `/repo/include/bss-util/bss_util.h:1009-1015`
-/

namespace Verif.Sys

/-! ## Features of the processor -/

/-- Registers of the instruction `cpuid`; in the array `info` of the code they are in the order `eax`, `ebx`, `ecx`, `edx`. -/
inductive Reg where
  | eax | ebx | ecx | edx
  deriving DecidableEq

/-- A processor, as far as `cpuid` tells: for each leaf the four registers. -/
abbrev Cpu := Nat → Reg → BitVec 32

inductive Feature where
  | mmx | sse | sse2 | sse3 | ssse3 | sse41 | sse42 | avx
  | cmpxchg8b | cmpxchg16b | sse4a | cmov | clfsh | popcnt
  deriving DecidableEq

/-- Specification, from the manuals of the makers: leaf, register and bit of a feature. -/
def Feature.place : Feature → Nat × Reg × Nat
  | .mmx => (1, .edx, 23)
  | .sse => (1, .edx, 25)
  | .sse2 => (1, .edx, 26)
  | .sse3 => (1, .ecx, 0)
  | .ssse3 => (1, .ecx, 9)
  | .sse41 => (1, .ecx, 19)
  | .sse42 => (1, .ecx, 20)
  | .avx => (1, .ecx, 28)
  | .cmpxchg8b => (1, .edx, 8)
  | .cmpxchg16b => (1, .ecx, 13)
  | .sse4a => (0x80000001, .ecx, 6)
  | .cmov => (1, .edx, 15)
  | .clfsh => (1, .edx, 19)
  | .popcnt => (1, .ecx, 23)

def has (c : Cpu) (f : Feature) : Bool := (c f.place.1 f.place.2.1).getLsbD f.place.2.2

/-- The vector instructions in the order of `bss_util_c.h:24-34`, from 1 on. -/
def vectors : List Feature := [.mmx, .sse, .sse2, .sse3, .ssse3, .sse41, .sse42, .avx]

/-- `info[r] & T_GETBIT(unsigned int, i)`, as a truth value; `T_GETBIT` is `((T)1) << i`. -/
def test (x : BitVec 32) (i : Nat) : Bool := x &&& (1#32 <<< i) != 0#32

/-- `r.sse`, `bss_util_c.c:39-75`, without the assertions. -/
def sseLevel (c : Cpu) : Nat :=
  let ecx := c 1 .ecx
  let edx := c 1 .edx
  let r := 0
  let r := if test edx 23 then 1 else r
  let r := if test edx 25 then 2 else r
  let r := if test edx 26 then 3 else r
  let r := if test ecx 0 then 4 else r
  let r := if test ecx 9 then 5 else r
  let r := if test ecx 19 then 6 else r
  let r := if test ecx 20 then 7 else r
  let r := if test ecx 28 then 8 else r
  r

/-- `(x != 0) << i`. -/
def bitIf (b : Bool) (i : Nat) : BitVec 32 := (if b then 1#32 else 0#32) <<< i

/-- `r.flags`, `bss_util_c.c:76-81`. -/
def cpuFlags (c : Cpu) : BitVec 32 :=
  let ecx := c 1 .ecx
  let edx := c 1 .edx
  bitIf (test edx 8) 0 ||| bitIf (test ecx 13) 1 ||| bitIf (test ecx 6) 2 ||| bitIf (test edx 15) 3 ||| bitIf (test edx 19) 4 ||| bitIf (test ecx 23) 5

theorem test_eq (x : BitVec 32) {i : Nat} (hi : i < 32) : test x i = x.getLsbD i := by
  unfold test
  cases h : x.getLsbD i with
  | true =>
    rw [bne_iff_ne]
    intro h0
    have := congrArg (fun y => y.getLsbD i) h0
    simp [hi] at this
    rw [BitVec.getLsbD_eq_getElem hi] at h
    rw [h] at this; cases this
  | false =>
    have : x &&& (1#32 <<< i) = 0#32 := by
      apply BitVec.eq_of_getLsbD_eq
      intro j hj
      simp only [BitVec.getLsbD_and, BitVec.getLsbD_shiftLeft, BitVec.getLsbD_zero]
      by_cases hij : j = i
      · subst hij; simp [h]
      · have : (1#32).getLsbD (j - i) = false ∨ j < i := by
          by_cases hlt : j < i
          · right; exact hlt
          · left
            rw [BitVec.getLsbD_one]
            simp; omega
        rcases this with h1 | h1 <;> simp [h1]
    simp [this]

/-- C170: if the processor has no gaps among the vector instructions, the level says for each of them whether it is there. -/
theorem C170_level (c : Cpu) (hgap : ∀ i j (hj : j < vectors.length) (hij : i ≤ j), has c vectors[j] = true → has c (vectors[i]'(by omega)) = true) (k : Nat) (hk : k < vectors.length) :
    k + 1 ≤ sseLevel c ↔ has c vectors[k] = true := by
  have e : sseLevel c = if has c .avx then 8 else if has c .sse42 then 7 else if has c .sse41 then 6 else if has c .ssse3 then 5 else if has c .sse3 then 4 else if has c .sse2 then 3 else if has c .sse then 2 else if has c .mmx then 1 else 0 := by
    unfold sseLevel has
    simp only [Feature.place, test_eq _ (show 23 < 32 by decide), test_eq _ (show 25 < 32 by decide), test_eq _ (show 26 < 32 by decide), test_eq _ (show 0 < 32 by decide), test_eq _ (show 9 < 32 by decide),
      test_eq _ (show 19 < 32 by decide), test_eq _ (show 20 < 32 by decide), test_eq _ (show 28 < 32 by decide)]
    rfl
  have h1 := hgap 0 1 (by decide) (by decide)
  have h2 := hgap 1 2 (by decide) (by decide)
  have h3 := hgap 2 3 (by decide) (by decide)
  have h4 := hgap 3 4 (by decide) (by decide)
  have h5 := hgap 4 5 (by decide) (by decide)
  have h6 := hgap 5 6 (by decide) (by decide)
  have h7 := hgap 6 7 (by decide) (by decide)
  simp only [vectors, List.getElem_cons_zero, List.getElem_cons_succ] at h1 h2 h3 h4 h5 h6 h7
  have fin : ∀ b0 b1 b2 b3 b4 b5 b6 b7 : Bool, (b1 = true → b0 = true) → (b2 = true → b1 = true) → (b3 = true → b2 = true) → (b4 = true → b3 = true) → (b5 = true → b4 = true) → (b6 = true → b5 = true) →
      (b7 = true → b6 = true) → ∀ k : Fin 8, k.val + 1 ≤ (if b7 then 8 else if b6 then 7 else if b5 then 6 else if b4 then 5 else if b3 then 4 else if b2 then 3 else if b1 then 2 else if b0 then 1 else 0) ↔
        [b0, b1, b2, b3, b4, b5, b6, b7][k] = true := by
    intro b0 b1 b2 b3 b4 b5 b6 b7 g1 g2 g3 g4 g5 g6 g7
    cases b7 <;> cases b6 <;> first | exact absurd (g7 rfl) (by decide) | skip
    all_goals cases b5 <;> first | exact absurd (g6 rfl) (by decide) | skip
    all_goals cases b4 <;> first | exact absurd (g5 rfl) (by decide) | skip
    all_goals cases b3 <;> first | exact absurd (g4 rfl) (by decide) | skip
    all_goals cases b2 <;> first | exact absurd (g3 rfl) (by decide) | skip
    all_goals cases b1 <;> first | exact absurd (g2 rfl) (by decide) | skip
    all_goals cases b0 <;> first | exact absurd (g1 rfl) (by decide) | skip
    all_goals decide
  have hm : ∀ k (hk : k < 8), has c (vectors[k]'hk) = [has c .mmx, has c .sse, has c .sse2, has c .sse3, has c .ssse3, has c .sse41, has c .sse42, has c .avx][k] := by
    intro k hk
    match k, hk with
    | 0, _ => rfl
    | 1, _ => rfl
    | 2, _ => rfl
    | 3, _ => rfl
    | 4, _ => rfl
    | 5, _ => rfl
    | 6, _ => rfl
    | 7, _ => rfl
  rw [e, hm k hk]
  exact fin _ _ _ _ _ _ _ _ h1 h2 h3 h4 h5 h6 h7 ⟨k, hk⟩

/-- The flags of `bss_util_c.h:13-20`. -/
def flagOf : List (Nat × Feature) := [(0, .cmpxchg8b), (1, .cmpxchg16b), (3, .cmov), (4, .clfsh), (5, .popcnt)]

theorem flags_bits (c : Cpu) :
    (cpuFlags c).getLsbD 0 = test (c 1 .edx) 8 ∧ (cpuFlags c).getLsbD 1 = test (c 1 .ecx) 13 ∧ (cpuFlags c).getLsbD 2 = test (c 1 .ecx) 6 ∧ (cpuFlags c).getLsbD 3 = test (c 1 .edx) 15 ∧
    (cpuFlags c).getLsbD 4 = test (c 1 .edx) 19 ∧ (cpuFlags c).getLsbD 5 = test (c 1 .ecx) 23 := by
  unfold cpuFlags
  dsimp only
  generalize test (c 1 .edx) 8 = a0
  generalize test (c 1 .ecx) 13 = a1
  generalize test (c 1 .ecx) 6 = a2
  generalize test (c 1 .edx) 15 = a3
  generalize test (c 1 .edx) 19 = a4
  generalize test (c 1 .ecx) 23 = a5
  revert a0 a1 a2 a3 a4 a5
  decide +kernel

/-- C170: the flags say whether these five features are there. -/
theorem C170_flags_partial (c : Cpu) : ∀ p ∈ flagOf, (cpuFlags c).getLsbD p.1 = has c p.2 := by
  obtain ⟨h0, h1, -, h3, h4, h5⟩ := flags_bits c
  intro p hp
  simp only [flagOf, List.mem_cons, List.not_mem_nil, or_false] at hp
  rcases hp with rfl | rfl | rfl | rfl | rfl
  · rw [h0, test_eq _ (by decide)]; rfl
  · rw [h1, test_eq _ (by decide)]; rfl
  · rw [h3, test_eq _ (by decide)]; rfl
  · rw [h4, test_eq _ (by decide)]; rfl
  · rw [h5, test_eq _ (by decide)]; rfl

/-- C170 fails for SSE4a: the flag is bit 6 of `ecx` in leaf 1, which is another feature (SMX); whether the processor has SSE4a makes no difference. -/
theorem C170_sse4a_false (c : Cpu) : (cpuFlags c).getLsbD 2 = (c 1 .ecx).getLsbD 6 ∧
    ∀ v, cpuFlags (fun l r => if l = 0x80000001 ∧ r = .ecx then v else c l r) = cpuFlags c := by
  refine ⟨?_, fun v => ?_⟩
  · rw [(flags_bits c).2.2.1, test_eq _ (by decide)]
  · unfold cpuFlags
    simp

/-- C170 fails for processors with gaps, if the assertions are not compiled: the level includes instructions the processor does not have. -/
theorem C170_gap_counterexample : sseLevel (fun l r => if l = 1 ∧ r = .ecx then 1#32 <<< 9 else 0#32) = 5 ∧
    has (fun l r => if l = 1 ∧ r = .ecx then 1#32 <<< 9 else 0#32) .mmx = false := by decide

/-- A processor with the instructions up to SSE3. -/
example : sseLevel (fun l r => if l = 1 then (match r with | .ecx => 1#32 | .edx => 0x06800000#32 | _ => 0#32) else 0#32) = 4 := by decide

/-! ## Hashes -/

/-- The number `uint32_t(c)` (or `uint64_t(c)`) of a character, which is signed. -/
def extend (w : Nat) (b : BitVec 8) : BitVec w := b.signExtend w

/-- The new value in `hash_fnv1a`, `bss_util.h:1010`. -/
def next32 (value : BitVec 32) (c : BitVec 8) : BitVec 32 := (((value ^^^ extend 32 c).setWidth 64) * 0x1000193#64).setWidth 32

/-- The new value in `hash64_fnv1a`, `bss_util.h:1014`: it is converted to 32 bits. -/
def next64 (value : BitVec 64) (c : BitVec 8) : BitVec 64 := (((value ^^^ extend 64 c) * 0x100000001b3#64).setWidth 32).setWidth 64

/-- `hash_fnv1a`, `bss_util.h:1009-1011`; the recursion is a fold over the characters. -/
def hash32 (s : List (BitVec 8)) (value : BitVec 32) : BitVec 32 := s.foldl next32 value

/-- `hash64_fnv1a`, `bss_util.h:1013-1015`, likewise. -/
def hash64 (s : List (BitVec 8)) (value : BitVec 64) : BitVec 64 := s.foldl next64 value

/-- Specification: FNV-1a with `w` bits. -/
def fnv1a (w : Nat) (prime : BitVec w) (s : List (BitVec 8)) (value : BitVec w) : BitVec w := s.foldl (fun h b => (h ^^^ b.setWidth w) * prime) value

theorem extend_ascii {w : Nat} {b : BitVec 8} (h : b.toNat < 128) : extend w b = b.setWidth w := by
  unfold extend
  rw [BitVec.signExtend_eq_setWidth_of_msb_false]
  rw [BitVec.msb_eq_false_iff_two_mul_lt]
  omega

theorem mul_trunc (x : BitVec 32) : ((x.setWidth 64) * 0x1000193#64).setWidth 32 = x * 0x1000193#32 := by
  rw [BitVec.setWidth_mul _ _ (by decide), BitVec.setWidth_setWidth_of_le _ (by decide), BitVec.setWidth_eq]
  rfl

theorem next32_ascii (value : BitVec 32) {b : BitVec 8} (h : b.toNat < 128) : next32 value b = (value ^^^ b.setWidth 32) * 0x1000193#32 := by
  rw [next32, mul_trunc, extend_ascii h]

theorem next64_lt (value : BitVec 64) (b : BitVec 8) : (next64 value b).toNat < 2 ^ 32 := by
  rw [next64, BitVec.toNat_setWidth, BitVec.toNat_setWidth]
  exact Nat.lt_of_le_of_lt (Nat.mod_le _ _) (Nat.mod_lt _ (Nat.two_pow_pos 32))

theorem fold_ascii (f g : BitVec 32 → BitVec 8 → BitVec 32) (hfg : ∀ v b, b.toNat < 128 → f v b = g v b) (s : List (BitVec 8)) (value : BitVec 32) (h : ∀ b ∈ s, b.toNat < 128) : s.foldl f value = s.foldl g value := by
  induction s generalizing value with
  | nil => rfl
  | cons b s ih =>
    rw [List.foldl_cons, List.foldl_cons, hfg value b (h b (by simp))]
    exact ih _ (fun c hc => h c (by simp [hc]))

theorem fold_lt (f : BitVec 64 → BitVec 8 → BitVec 64) (hf : ∀ v b, (f v b).toNat < 2 ^ 32) (s : List (BitVec 8)) (v : BitVec 64) (hv : v.toNat < 2 ^ 32) : (s.foldl f v).toNat < 2 ^ 32 := by
  induction s generalizing v with
  | nil => exact hv
  | cons b s ih => rw [List.foldl_cons]; exact ih _ (hf v b)

/-- C169: the 32-bit hash is FNV-1a for strings of ASCII characters. -/
theorem C169_ascii_partial (s : List (BitVec 8)) (value : BitVec 32) (h : ∀ b ∈ s, b.toNat < 128) : hash32 s value = fnv1a 32 0x1000193#32 s value :=
  fold_ascii _ _ (fun v _ hb => next32_ascii v hb) s value h

/-- C169 fails for other characters: whatever ASCII text is before it, the hash of a text that ends with another character is wrong. -/
theorem C169_other_false (s : List (BitVec 8)) (value : BitVec 32) (h : ∀ b ∈ s, b.toNat < 128) {b : BitVec 8} (hb : 128 ≤ b.toNat) :
    hash32 (s ++ [b]) value ≠ fnv1a 32 0x1000193#32 (s ++ [b]) value := by
  have hs := C169_ascii_partial s value h
  unfold hash32 fnv1a at *
  rw [List.foldl_append, List.foldl_append, hs]
  generalize s.foldl (fun h b => (h ^^^ b.setWidth 32) * 0x1000193#32) value = v
  rw [List.foldl_cons, List.foldl_nil, List.foldl_cons, List.foldl_nil, next32, mul_trunc]
  intro he
  have inv : (0x1000193#32) * 0x359c449b#32 = 1#32 := by decide
  generalize (0x1000193#32) = p at he inv
  generalize 0x359c449b#32 = q at inv
  have h2 := congrArg (· * q) he
  simp only [BitVec.mul_assoc, inv, BitVec.mul_one] at h2
  have h3 : extend 32 b = b.setWidth 32 := by
    have h5 := congrArg (v ^^^ ·) h2
    simp only [← BitVec.xor_assoc, BitVec.xor_self, BitVec.zero_xor] at h5
    exact h5
  have h4 := congrArg BitVec.toNat h3
  unfold extend at h4
  rw [BitVec.toNat_signExtend, BitVec.toNat_setWidth] at h4
  have hm : b.msb = true := by rw [BitVec.msb_eq_true_iff_two_mul_ge]; omega
  rw [hm] at h4
  have := b.isLt
  simp only [if_true] at h4
  omega

/-- C169 fails for 64 bits: the hash of every text that is not empty is below 2^32. -/
theorem C169_64_false (b : BitVec 8) (s : List (BitVec 8)) (value : BitVec 64) : (hash64 (b :: s) value).toNat < 2 ^ 32 := by
  unfold hash64
  rw [List.foldl_cons]
  exact fold_lt _ next64_lt s _ (next64_lt value b)

example : hash32 [0x61#8] 0x811c9dc5#32 = 0xe40c292c#32 ∧ fnv1a 64 0x100000001b3#64 [0x61#8] 0xcbf29ce484222325#64 = 0xaf63dc4c8601ec8c#64 := by decide +kernel

end Verif.Sys
