import Mathlib.Data.BitVec
import Mathlib.Data.List.Forall2
import Mathlib.Tactic.Ring

/-!
# Hashes and comparison of keys (C184, C185), `/repo/include/bss-util/Hash.h:18-138` and `/repo/include/bss-util/khash.h`

`khint_t` has 32 bits. Floating point keys are bit patterns. A `char` is the integer value of its type. The comparison without case is that of the "C" locale.
-/

namespace Verif.HashKeys

/-! ## Code -/

/-- `__ac_Wang_hash`, `khash.h:426-435`, which is `kh_int_hash_func2`. -/
def wang (key : BitVec 32) : BitVec 32 :=
  let key := key + ~~~(key <<< 15)
  let key := key ^^^ (key >>> 10)
  let key := key + (key <<< 3)
  let key := key ^^^ (key >>> 6)
  let key := key + ~~~(key <<< 11)
  let key := key ^^^ (key >>> 16)
  key

/-- `kh_int64_hash_func`, `khash.h:387`. -/
def hash64 (key : BitVec 64) : BitVec 32 := (key >>> 33 ^^^ key ^^^ key <<< 11).setWidth 32

/-- `(*s) > 64 && (*s) < 91 ? (*s) + 32 : *s`, `Hash.h:52`, `55`. -/
def lower (c : Int) : Int := if c > 64 ∧ c < 91 then c + 32 else c

/-- `h = (h << 5) - h + *s`, `Hash.h:46`. -/
def step (h : BitVec 32) (c : Int) : BitVec 32 := (h <<< 5) - h + BitVec.ofInt 32 c

/-- `KH_STR_HASH<char, false>`, `Hash.h:40-48`, and `KH_STR_HASH<wchar_t, false>`, `Hash.h:58-66`, on the characters in front of the terminator. A character is zero exactly if its 32 bits are. -/
def strHash : List Int → BitVec 32
  | [] => 0
  | c :: s => if BitVec.ofInt 32 c = 0 then 0 else s.foldl step (BitVec.ofInt 32 c)

/-- `KH_STR_HASH<char, true>`, `Hash.h:49-57`. -/
def strHashIns (s : List Int) : BitVec 32 := strHash (s.map lower)

/-- `c_str()` as the functions of C read it: up to the first zero. -/
def cstr (s : List Int) : List Int := s.takeWhile (· ≠ 0)

/-- Keys: integers of 32, 64 and fewer bits, `float`, `double`, `std::string` and classes derived from it, `const char*`, and `std::tuple`, `std::pair` and `std::array`. -/
inductive Key where
  | i32 (b : BitVec 32)
  | i64 (b : BitVec 64)
  | small (v : Int)
  | f32 (b : BitVec 32)
  | f64 (b : BitVec 64)
  | str (s : List Int)
  | ptr (a : Nat)
  | tuple (l : List Key)

/-- The `uint64_t` in `KH_MULTI_HASH`, `Hash.h:93`, and its hash. -/
def combine (h k : BitVec 32) : BitVec 32 := hash64 (h.setWidth 64 ||| (k.setWidth 64 <<< 32))

mutual
/-- `KH_AUTO_HASH<T, INS>`, `Hash.h:109-123`, with `KH_INT_HASH`, `Hash.h:20-36`; `mem` is the text at an address. -/
def hash (mem : Nat → List Int) (ins : Bool) : Key → BitVec 32
  | .i32 b => wang b
  | .i64 b => hash64 b
  | .small v => BitVec.ofInt 32 v
  | .f32 b => wang b
  | .f64 b => hash64 b
  | .str s => if ins then strHashIns (cstr s) else strHash (cstr s)
  | .ptr a => if ins then strHashIns (mem a) else strHash (mem a)
  | .tuple [] => 0
  | .tuple (k :: l) => hashMore mem (hash mem false k) l

/-- `KH_MULTI_HASH`, `Hash.h:89-97`: the elements behind the first one. -/
def hashMore (mem : Nat → List Int) (h : BitVec 32) : List Key → BitVec 32
  | [] => h
  | k :: l => hashMore mem (combine h (hash mem false k)) l
end

/-- The pattern is not a number. -/
def nan32 (b : BitVec 32) : Bool := (b &&& 0x7FFFFFFF).toNat > 0x7F800000
/-- The same for `double`. -/
def nan64 (b : BitVec 64) : Bool := (b &&& 0x7FFFFFFFFFFFFFFF).toNat > 0x7FF0000000000000

/-- `a == b` of `float`: IEEE 754. -/
def feq32 (a b : BitVec 32) : Bool := (a == b && !nan32 a) || (a &&& 0x7FFFFFFF == 0 && b &&& 0x7FFFFFFF == 0)
/-- `a == b` of `double`. -/
def feq64 (a b : BitVec 64) : Bool := (a == b && !nan64 a) || (a &&& 0x7FFFFFFFFFFFFFFF == 0 && b &&& 0x7FFFFFFFFFFFFFFF == 0)

mutual
/-- `a == b` of the types: `KH_DEFAULT_EQUAL`, `Hash.h:18-19`, and the comparison of elements in `KH_MULTI_EQUAL`, `Hash.h:99-107`. Pointers are compared as such. -/
def eq : Key → Key → Bool
  | .i32 a, .i32 b => a == b
  | .i64 a, .i64 b => a == b
  | .small a, .small b => a == b
  | .f32 a, .f32 b => feq32 a b
  | .f64 a, .f64 b => feq64 a b
  | .str a, .str b => a == b
  | .ptr a, .ptr b => a == b
  | .tuple a, .tuple b => eqL a b
  | _, _ => false

/-- Element by element. -/
def eqL : List Key → List Key → Bool
  | [], [] => true
  | a :: l, b :: m => eqL l m && eq a b
  | _, _ => false
end

/-- `KH_AUTO_EQUAL<T, INS>`, `Hash.h:125-138`, with `KH_STR_EQUAL`, `Hash.h:78-83`. -/
def autoEq (mem : Nat → List Int) (ins : Bool) : Key → Key → Bool
  | .str a, .str b => if ins then (cstr a).map lower == (cstr b).map lower else cstr a == cstr b
  | .ptr a, .ptr b => if ins then (mem a).map lower == (mem b).map lower else mem a == mem b
  | a, b => eq a b

/-! ## Specification -/

mutual
/-- No floating point number of the key is zero. -/
def NoZero : Key → Prop
  | .f32 b => b &&& 0x7FFFFFFF ≠ 0
  | .f64 b => b &&& 0x7FFFFFFFFFFFFFFF ≠ 0
  | .tuple l => NoZeroL l
  | _ => True
/-- None of the keys. -/
def NoZeroL : List Key → Prop
  | [] => True
  | k :: l => NoZero k ∧ NoZeroL l
end

mutual
/-- No floating point number of the key is NaN. -/
def NoNaN : Key → Prop
  | .f32 b => nan32 b = false
  | .f64 b => nan64 b = false
  | .tuple l => NoNaNL l
  | _ => True
/-- None of the keys. -/
def NoNaNL : List Key → Prop
  | [] => True
  | k :: l => NoNaN k ∧ NoNaNL l
end

/-- The same character, or the upper and the lower case of an English letter. -/
def SameLetter (x y : Int) : Prop := x = y ∨ (65 ≤ x ∧ x ≤ 90 ∧ y = x + 32) ∨ (65 ≤ y ∧ y ≤ 90 ∧ x = y + 32)

/-! ## C184 -/

mutual
theorem hash_eq (mem : Nat → List Int) (ins : Bool) : ∀ {a b : Key}, NoZero a → eq a b = true → hash mem ins a = hash mem ins b
  | .i32 a, .i32 b, _, h => by rw [eq, beq_iff_eq] at h; rw [h]
  | .i64 a, .i64 b, _, h => by rw [eq, beq_iff_eq] at h; rw [h]
  | .small a, .small b, _, h => by rw [eq, beq_iff_eq] at h; rw [h]
  | .f32 a, .f32 b, hz, h => by
    rw [NoZero] at hz
    rw [eq, feq32] at h
    simp only [Bool.or_eq_true, Bool.and_eq_true, beq_iff_eq] at h
    rcases h with h | h
    · rw [h.1]
    · exact absurd h.1 hz
  | .f64 a, .f64 b, hz, h => by
    rw [NoZero] at hz
    rw [eq, feq64] at h
    simp only [Bool.or_eq_true, Bool.and_eq_true, beq_iff_eq] at h
    rcases h with h | h
    · rw [h.1]
    · exact absurd h.1 hz
  | .str a, .str b, _, h => by rw [eq, beq_iff_eq] at h; rw [h]
  | .ptr a, .ptr b, _, h => by rw [eq, beq_iff_eq] at h; rw [h]
  | .tuple [], .tuple [], _, _ => rfl
  | .tuple (a :: l), .tuple (b :: m), hz, h => by
    rw [NoZero, NoZeroL] at hz
    rw [eq, eqL, Bool.and_eq_true] at h
    rw [hash, hash, hash_eq mem false hz.1 h.2]
    exact hashMore_eq mem _ hz.2 h.1

theorem hashMore_eq (mem : Nat → List Int) : ∀ {l m : List Key} (h : BitVec 32), NoZeroL l → eqL l m = true → hashMore mem h l = hashMore mem h m
  | [], [], _, _, _ => rfl
  | a :: l, b :: m, h, hz, he => by
    rw [NoZeroL] at hz
    rw [eqL, Bool.and_eq_true] at he
    rw [hashMore, hashMore, hash_eq mem false hz.1 he.2]
    exact hashMore_eq mem _ hz.2 he.1
end

/-- **C184**: keys that compare equal have the same hash, with and without case, for integers, texts and all tuples of them. Missing: the floating point zeros. -/
theorem C184_hash_partial (mem : Nat → List Int) (ins : Bool) {a b : Key} (hz : NoZero a) (h : autoEq mem ins a b = true) : hash mem ins a = hash mem ins b := by
  unfold autoEq at h
  split at h
  · rw [hash, hash]
    cases ins
    · simp only [Bool.false_eq_true, if_false, beq_iff_eq] at h ⊢; rw [h]
    · simp only [if_true, beq_iff_eq] at h ⊢; unfold strHashIns; rw [h]
  · rw [hash, hash]
    cases ins
    · simp only [Bool.false_eq_true, if_false, beq_iff_eq] at h ⊢; rw [h]
    · simp only [if_true, beq_iff_eq] at h ⊢; unfold strHashIns; rw [h]
  · exact hash_eq mem ins hz h

/-- A pair of a number and a text; texts that differ by case. -/
example : autoEq (fun _ => []) false (.tuple [.i32 5, .str [65, 98]]) (.tuple [.i32 5, .str [65, 98]]) = true ∧ NoZero (.tuple [.i32 5, .str [65, 98]]) ∧
    autoEq (fun _ => []) true (.str [65, 98]) (.str [97, 66]) = true ∧ hash (fun _ => []) true (.str [65, 98]) = hash (fun _ => []) true (.str [97, 66]) := by
  refine ⟨by decide, by simp [NoZero, NoZeroL], by decide, by decide⟩

theorem lower_iff (x y : Int) : lower x = lower y ↔ SameLetter x y := by
  unfold lower SameLetter
  split <;> split <;> omega

theorem map_lower_iff : ∀ (s t : List Int), s.map lower = t.map lower ↔ List.Forall₂ SameLetter s t
  | [], [] => by simp
  | [], _ :: _ => by simp
  | _ :: _, [] => by simp
  | x :: s, y :: t => by rw [List.map_cons, List.map_cons, List.cons.injEq, lower_iff, map_lower_iff s t, List.forall₂_cons]

/-- **C184**: without case, texts are the same key exactly if they differ only in the case of letters. -/
theorem C184_case (mem : Nat → List Int) (a b : Nat) : autoEq mem true (.ptr a) (.ptr b) = true ↔ List.Forall₂ SameLetter (mem a) (mem b) := by
  rw [autoEq, if_pos rfl, beq_iff_eq, map_lower_iff]

/-- C184 fails for 0.0 and -0.0, which are equal. -/
theorem C184_zero_counterexample : autoEq (fun _ => []) false (.f32 0) (.f32 0x80000000) = true ∧ hash (fun _ => []) false (.f32 0) ≠ hash (fun _ => []) false (.f32 0x80000000) ∧
    autoEq (fun _ => []) false (.f64 0) (.f64 0x8000000000000000) = true ∧ hash (fun _ => []) false (.f64 0x8000000000000000) ≠ hash (fun _ => []) false (.f64 0) := by decide

mutual
theorem eq_refl : ∀ {a : Key}, NoNaN a → eq a a = true
  | .i32 _, _ => by rw [eq]; exact beq_self_eq_true _
  | .i64 _, _ => by rw [eq]; exact beq_self_eq_true _
  | .small _, _ => by rw [eq]; exact beq_self_eq_true _
  | .f32 b, h => by rw [NoNaN] at h; rw [eq, feq32, h]; simp
  | .f64 b, h => by rw [NoNaN] at h; rw [eq, feq64, h]; simp
  | .str _, _ => by rw [eq]; exact beq_self_eq_true _
  | .ptr _, _ => by rw [eq]; exact beq_self_eq_true _
  | .tuple l, h => by rw [NoNaN] at h; rw [eq]; exact eqL_refl h

theorem eqL_refl : ∀ {l : List Key}, NoNaNL l → eqL l l = true
  | [], _ => rfl
  | a :: l, h => by rw [NoNaNL] at h; rw [eqL, eqL_refl h.2, eq_refl h.1]; rfl
end

/-- **C184**: a key is equal to itself. Missing: NaN. -/
theorem C184_self_partial (mem : Nat → List Int) (ins : Bool) {a : Key} (h : NoNaN a) : autoEq mem ins a a = true := by
  unfold autoEq
  split
  · split <;> exact beq_self_eq_true _
  · split <;> exact beq_self_eq_true _
  · exact eq_refl h

theorem feq32_symm {a b : BitVec 32} (h : feq32 a b = true) : feq32 b a = true := by
  unfold feq32 at h ⊢
  simp only [Bool.or_eq_true, Bool.and_eq_true, beq_iff_eq] at h ⊢
  rcases h with ⟨rfl, h⟩ | h
  · exact .inl ⟨rfl, h⟩
  · exact .inr h.symm

theorem feq64_symm {a b : BitVec 64} (h : feq64 a b = true) : feq64 b a = true := by
  unfold feq64 at h ⊢
  simp only [Bool.or_eq_true, Bool.and_eq_true, beq_iff_eq] at h ⊢
  rcases h with ⟨rfl, h⟩ | h
  · exact .inl ⟨rfl, h⟩
  · exact .inr h.symm

theorem feq32_trans {a b c : BitVec 32} (h : feq32 a b = true) (h' : feq32 b c = true) : feq32 a c = true := by
  unfold feq32 at h h' ⊢
  simp only [Bool.or_eq_true, Bool.and_eq_true, beq_iff_eq] at h h' ⊢
  rcases h with ⟨rfl, h⟩ | h
  · exact h'
  · rcases h' with ⟨rfl, _⟩ | h'
    · exact .inr h
    · exact .inr ⟨h.1, h'.2⟩

theorem feq64_trans {a b c : BitVec 64} (h : feq64 a b = true) (h' : feq64 b c = true) : feq64 a c = true := by
  unfold feq64 at h h' ⊢
  simp only [Bool.or_eq_true, Bool.and_eq_true, beq_iff_eq] at h h' ⊢
  rcases h with ⟨rfl, h⟩ | h
  · exact h'
  · rcases h' with ⟨rfl, _⟩ | h'
    · exact .inr h
    · exact .inr ⟨h.1, h'.2⟩

mutual
theorem eq_symm : ∀ {a b : Key}, eq a b = true → eq b a = true
  | .i32 a, .i32 b, h => by rw [eq, beq_iff_eq] at h ⊢; exact h.symm
  | .i64 a, .i64 b, h => by rw [eq, beq_iff_eq] at h ⊢; exact h.symm
  | .small a, .small b, h => by rw [eq, beq_iff_eq] at h ⊢; exact h.symm
  | .f32 a, .f32 b, h => by rw [eq] at h ⊢; exact feq32_symm h
  | .f64 a, .f64 b, h => by rw [eq] at h ⊢; exact feq64_symm h
  | .str a, .str b, h => by rw [eq, beq_iff_eq] at h ⊢; exact h.symm
  | .ptr a, .ptr b, h => by rw [eq, beq_iff_eq] at h ⊢; exact h.symm
  | .tuple a, .tuple b, h => by rw [eq] at h ⊢; exact eqL_symm h

theorem eqL_symm : ∀ {l m : List Key}, eqL l m = true → eqL m l = true
  | [], [], h => h
  | a :: l, b :: m, h => by
    rw [eqL, Bool.and_eq_true] at h ⊢
    exact ⟨eqL_symm h.1, eq_symm h.2⟩
end

mutual
theorem eq_trans : ∀ {a b c : Key}, eq a b = true → eq b c = true → eq a c = true
  | .i32 a, .i32 b, .i32 c, h, h' => by rw [eq, beq_iff_eq] at h h' ⊢; exact h.trans h'
  | .i64 a, .i64 b, .i64 c, h, h' => by rw [eq, beq_iff_eq] at h h' ⊢; exact h.trans h'
  | .small a, .small b, .small c, h, h' => by rw [eq, beq_iff_eq] at h h' ⊢; exact h.trans h'
  | .f32 a, .f32 b, .f32 c, h, h' => by rw [eq] at h h' ⊢; exact feq32_trans h h'
  | .f64 a, .f64 b, .f64 c, h, h' => by rw [eq] at h h' ⊢; exact feq64_trans h h'
  | .str a, .str b, .str c, h, h' => by rw [eq, beq_iff_eq] at h h' ⊢; exact h.trans h'
  | .ptr a, .ptr b, .ptr c, h, h' => by rw [eq, beq_iff_eq] at h h' ⊢; exact h.trans h'
  | .tuple a, .tuple b, .tuple c, h, h' => by rw [eq] at h h' ⊢; exact eqL_trans h h'

theorem eqL_trans : ∀ {l m k : List Key}, eqL l m = true → eqL m k = true → eqL l k = true
  | [], [], [], _, _ => rfl
  | a :: l, b :: m, c :: k, h, h' => by
    rw [eqL, Bool.and_eq_true] at h h' ⊢
    exact ⟨eqL_trans h.1 h'.1, eq_trans h.2 h'.2⟩
end

theorem autoEq_cases (mem : Nat → List Int) (ins : Bool) (a b : Key) :
    (∃ s t, a = .str s ∧ b = .str t ∧ autoEq mem ins a b = (if ins then (cstr s).map lower == (cstr t).map lower else cstr s == cstr t)) ∨
    (∃ s t, a = .ptr s ∧ b = .ptr t ∧ autoEq mem ins a b = (if ins then (mem s).map lower == (mem t).map lower else mem s == mem t)) ∨
    (autoEq mem ins a b = eq a b ∧ ¬ (∃ s t, a = .str s ∧ b = .str t) ∧ ¬ ∃ s t, a = .ptr s ∧ b = .ptr t) := by
  cases a <;> cases b <;> simp [autoEq]

/-- **C184**: the comparison of keys does not depend on their order. -/
theorem C184_symm (mem : Nat → List Int) (ins : Bool) {a b : Key} (h : autoEq mem ins a b = true) : autoEq mem ins b a = true := by
  rcases autoEq_cases mem ins a b with ⟨s, t, rfl, rfl, _⟩ | ⟨s, t, rfl, rfl, _⟩ | ⟨e, n1, n2⟩
  · cases ins <;> simp only [autoEq, Bool.false_eq_true, if_false, if_true, beq_iff_eq] at h ⊢ <;> exact h.symm
  · cases ins <;> simp only [autoEq, Bool.false_eq_true, if_false, if_true, beq_iff_eq] at h ⊢ <;> exact h.symm
  · rw [e] at h
    rcases autoEq_cases mem ins b a with ⟨s, t, rfl, rfl, _⟩ | ⟨s, t, rfl, rfl, _⟩ | ⟨e', _⟩
    · exact absurd ⟨t, s, rfl, rfl⟩ n1
    · exact absurd ⟨t, s, rfl, rfl⟩ n2
    · rw [e']; exact eq_symm h

/-- **C184**: keys equal to the same key are equal. -/
theorem C184_trans (mem : Nat → List Int) (ins : Bool) {a b c : Key} (h : autoEq mem ins a b = true) (h' : autoEq mem ins b c = true) : autoEq mem ins a c = true := by
  cases a <;> cases b <;> first | (simp [autoEq, eq] at h; done) | skip
  all_goals (cases c <;> first | (simp [autoEq, eq] at h'; done) | skip)
  case str.str.str => cases ins <;> simp only [autoEq, Bool.false_eq_true, if_false, if_true, beq_iff_eq] at h h' ⊢ <;> exact h.trans h'
  case ptr.ptr.ptr => cases ins <;> simp only [autoEq, Bool.false_eq_true, if_false, if_true, beq_iff_eq] at h h' ⊢ <;> exact h.trans h'
  all_goals (simp only [autoEq] at h h' ⊢; exact eq_trans h h')

/-- Three texts that differ by case. -/
example : autoEq (fun _ => []) true (.str [65, 98]) (.str [97, 66]) = true ∧ autoEq (fun _ => []) true (.str [97, 66]) (.str [97, 98]) = true := by decide

/-- C184 fails for NaN: such a key is never found. -/
theorem C184_nan_counterexample : autoEq (fun _ => []) false (.f32 0x7FC00000) (.f32 0x7FC00000) = false := by decide

/-- Texts at two addresses are the same key, but in a pair they are not, though their hashes agree. -/
theorem C184_pointer_counterexample : autoEq (fun _ => [65]) false (.ptr 1) (.ptr 2) = true ∧ autoEq (fun _ => [65]) false (.tuple [.ptr 1, .i32 0]) (.tuple [.ptr 2, .i32 0]) = false ∧
    hash (fun _ => [65]) false (.tuple [.ptr 1, .i32 0]) = hash (fun _ => [65]) false (.tuple [.ptr 2, .i32 0]) := by decide

/-- Strings with zeros that differ are the same key, but in a pair they are not. -/
theorem C184_embedded_counterexample : autoEq (fun _ => []) false (.str [65, 0, 66]) (.str [65, 0, 67]) = true ∧ autoEq (fun _ => []) false (.tuple [.str [65, 0, 66]]) (.tuple [.str [65, 0, 67]]) = false := by decide

/-! ## C185 -/

theorem xorshift_inj {w n : Nat} (hn : 0 < n) {x y : BitVec w} (h : x ^^^ (x >>> n) = y ^^^ (y >>> n)) : x = y := by
  have key : ∀ d i, w ≤ i + d → x.getLsbD i = y.getLsbD i := by
    intro d
    induction d with
    | zero => intro i hi; rw [BitVec.getLsbD_of_ge _ _ (by omega), BitVec.getLsbD_of_ge _ _ (by omega)]
    | succ d ih =>
      intro i hi
      have e := congrArg (fun z : BitVec w => z.getLsbD i) h
      simp only [BitVec.getLsbD_xor, BitVec.getLsbD_ushiftRight] at e
      rw [ih (n + i) (by omega)] at e
      revert e
      cases x.getLsbD i <;> cases y.getLsbD i <;> cases y.getLsbD (n + i) <;> simp
  exact BitVec.eq_of_getLsbD_eq fun i _ => key w i (by omega)

theorem mul_inj {w : Nat} {x y c d k : BitVec w} (hc : c * d = 1) (h : x * c + k = y * c + k) : x = y := by
  have h1 : x * c = y * c := by
    have := congrArg (· - k) h
    simpa [BitVec.add_sub_cancel] using this
  have h2 := congrArg (· * d) h1
  simp only [BitVec.mul_assoc, hc] at h2
  simpa using h2

theorem shl_mul {w : Nat} (x : BitVec w) (n : Nat) : x <<< n = x * BitVec.ofNat w (2 ^ n) := by
  apply BitVec.eq_of_toNat_eq
  rw [BitVec.toNat_shiftLeft, BitVec.toNat_mul, BitVec.toNat_ofNat, Nat.shiftLeft_eq]
  simp [Nat.mul_mod]

theorem add_not {w : Nat} (x : BitVec w) (n : Nat) : x + ~~~(x <<< n) = x * (1 - BitVec.ofNat w (2 ^ n)) + (-1) := by
  rw [BitVec.not_eq_neg_add, shl_mul, show (1#w) = (1 : BitVec w) from rfl]
  generalize BitVec.ofNat w (2 ^ n) = c
  ring

theorem add_shl {w : Nat} (x : BitVec w) (n : Nat) : x + (x <<< n) = x * (1 + BitVec.ofNat w (2 ^ n)) + 0 := by
  rw [shl_mul]
  generalize BitVec.ofNat w (2 ^ n) = c
  ring

theorem add_not_inj {w n : Nat} {x y d : BitVec w} (hc : (1 - BitVec.ofNat w (2 ^ n)) * d = 1) (h : x + ~~~(x <<< n) = y + ~~~(y <<< n)) : x = y := by
  rw [add_not, add_not] at h
  exact mul_inj hc h

theorem add_shl_inj {w n : Nat} {x y d : BitVec w} (hc : (1 + BitVec.ofNat w (2 ^ n)) * d = 1) (h : x + (x <<< n) = y + (y <<< n)) : x = y := by
  rw [add_shl, add_shl] at h
  exact mul_inj hc h

theorem wang_steps (x : BitVec 32) : ∃ a b c d e, a = x + ~~~(x <<< 15) ∧ b = a ^^^ (a >>> 10) ∧ c = b + (b <<< 3) ∧ d = c ^^^ (c >>> 6) ∧ e = d + ~~~(d <<< 11) ∧ wang x = e ^^^ (e >>> 16) :=
  ⟨_, _, _, _, _, rfl, rfl, rfl, rfl, rfl, rfl⟩

/-- **C185**: two integers of 32 bits never have the same hash. -/
theorem C185_int {x y : BitVec 32} (h : wang x = wang y) : x = y := by
  obtain ⟨a, b, c, d, e, ha, hb, hc, hd, he, hx⟩ := wang_steps x
  obtain ⟨a', b', c', d', e', ha', hb', hc', hd', he', hy⟩ := wang_steps y
  rw [hx, hy] at h
  have h := xorshift_inj (by omega) h
  rw [he, he'] at h
  have h := add_not_inj (d := 0x400801#32) (by decide +kernel) h
  rw [hd, hd'] at h
  have h := xorshift_inj (by omega) h
  rw [hc, hc'] at h
  have h := add_shl_inj (d := 0x38E38E39#32) (by decide +kernel) h
  rw [hb, hb'] at h
  have h := xorshift_inj (by omega) h
  rw [ha, ha'] at h
  exact add_not_inj (d := 0x40008001#32) (by decide +kernel) h

/-- **C185**: nor do two integers of 64 bits with the same upper half, for example those below 2^32. -/
theorem C185_int64 {x y : BitVec 64} (hu : ∀ i, 32 ≤ i → x.getLsbD i = y.getLsbD i) (h : hash64 x = hash64 y) : x = y := by
  have key : ∀ i, x.getLsbD i = y.getLsbD i := by
    intro i
    induction i using Nat.strong_induction_on with
    | _ i ih =>
      by_cases hi : 32 ≤ i
      · exact hu i hi
      have e := congrArg (fun z : BitVec 32 => z.getLsbD i) h
      unfold hash64 at e
      simp only [BitVec.getLsbD_setWidth, BitVec.getLsbD_xor, BitVec.getLsbD_shiftLeft, BitVec.getLsbD_ushiftRight, hu (33 + i) (by omega), show i < 32 by omega, decide_true, Bool.true_and,
        show i < 64 by omega] at e
      by_cases h11 : i < 11
      · simp only [h11, decide_true, Bool.not_true, Bool.false_and, Bool.xor_false] at e
        revert e
        cases x.getLsbD i <;> cases y.getLsbD i <;> cases y.getLsbD (33 + i) <;> simp
      · rw [ih (i - 11) (by omega)] at e
        revert e
        cases x.getLsbD i <;> cases y.getLsbD i <;> cases y.getLsbD (33 + i) <;> cases (!decide (i < 11) && y.getLsbD (i - 11)) <;> simp
  exact BitVec.eq_of_getLsbD_eq fun i _ => key i

example : wang 1 ≠ wang 2 ∧ hash64 1 ≠ hash64 0x80000000 := by decide

/-- C185 fails for all integers of 64 bits. -/
theorem C185_int64_counterexample : hash64 0 = hash64 0x200400801#64 ∧ (0 : BitVec 64) ≠ 0x200400801#64 := by decide

end Verif.HashKeys
