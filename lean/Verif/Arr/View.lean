/-!
# `Slice` (C159), `ArrayMultiRef` (C160) and `VariableArray` (C161), `/repo/include/bss-util/Array.h`

`CType` is a signed type (`bssMod` refuses unsigned ones); its values are integers, as are addresses, counted in elements. Overflow is not modelled.
-/

namespace Verif.Arr.View

variable {α : Type}

/-! ## `Slice` -/

/-- `Slice`, `Array.h:73-74`: the address of the first element, and the number of elements. -/
structure Slice where
  start : Int
  length : Int
  deriving DecidableEq

/-- The elements a slice refers to, in a memory that gives every address an element. -/
def Slice.elems (mem : Int → α) (s : Slice) : List α := (List.range s.length.toNat).map fun (i : Nat) => mem (s.start + i)

/-- `operator++`, `Array.h:31-37`. -/
def Slice.next (s : Slice) : Slice := ⟨s.start + 1, s.length - 1⟩

/-- `operator()(begin, end)`, `Array.h:49-57`. The remainder by 0 is undefined (`none`). -/
def Slice.sub (s : Slice) (b e : Int) : Option Slice :=
  if s.length = 0 then none
  else
    let b := b % s.length
    let e := if e ≤ 0 then s.length - e else e
    some ⟨s.start + b, e - b⟩

/-- `operator()(begin)`, `Array.h:48`. -/
def Slice.from (s : Slice) (b : Int) : Option Slice := s.sub b s.length

/-- `operator()(begin, end) const`, `Array.h:47`, which calls itself: `none` when the stack, of any size `n`, is used up. -/
def Slice.subConst : Nat → Slice → Int → Int → Option Slice
  | 0, _, _, _ => none
  | n + 1, s, b, _ => Slice.subConst n s b s.length

/-- A loop that takes the first element and increments until the slice is empty, `Array.h:31-37` and `58-61`. -/
def Slice.walk (mem : Int → α) : Nat → Slice → List α
  | 0, _ => []
  | n + 1, s => if s.length = 0 then [] else mem s.start :: Slice.walk mem n s.next

/-- Specification: negative positions count from the end; an end of 0 is the end. -/
def position (n i : Int) : Int := if i < 0 then n + i else i

theorem elems_length (mem : Int → α) (s : Slice) : (s.elems mem).length = s.length.toNat := by simp [Slice.elems]

theorem elems_get (mem : Int → α) (s : Slice) (i : Nat) (h : i < (s.elems mem).length) : (s.elems mem)[i] = mem (s.start + i) := by simp [Slice.elems]

/-- C159: the part from `begin` to `end` (not included) refers to exactly these elements, where a negative `begin` counts from the end and an `end` of 0 is the end. -/
theorem C159_sub_partial (mem : Int → α) (s : Slice) {b e : Int} (hb1 : -s.length ≤ b) (hb2 : b < s.length) (he1 : 0 ≤ e) (he2 : e ≤ s.length)
    (hbe : position s.length b ≤ if e = 0 then s.length else e) :
    ∃ r, s.sub b e = some r ∧ r.elems mem = ((s.elems mem).take (if e = 0 then s.length else e).toNat).drop (position s.length b).toNat ∧ s.start ≤ r.start ∧ r.start + r.length ≤ s.start + s.length := by
  have hb : b % s.length = position s.length b := by
    unfold position
    split
    · rw [← Int.add_emod_right, Int.emod_eq_of_lt (by omega) (by omega)]; omega
    · exact Int.emod_eq_of_lt (by omega) hb2
  have he : (if e ≤ 0 then s.length - e else e) = if e = 0 then s.length else e := by split <;> split <;> omega
  have hp : 0 ≤ position s.length b := by unfold position; split <;> omega
  refine ⟨⟨s.start + position s.length b, (if e = 0 then s.length else e) - position s.length b⟩, ?_, ?_, by dsimp only; omega, by dsimp only; split <;> omega⟩
  · unfold Slice.sub
    rw [if_neg (by omega)]
    simp only [hb, he]
  · generalize hE : (if e = 0 then s.length else e) = E at *
    have hE2 : E ≤ s.length := by rw [← hE]; split <;> omega
    generalize position s.length b = B at *
    apply List.ext_getElem
    · simp only [elems_length, List.length_drop, List.length_take]; omega
    · intro i h1 h2
      rw [elems_get, List.getElem_drop, List.getElem_take, elems_get]
      dsimp only
      congr 1
      omega

example (mem : Int → Nat) : (Slice.sub ⟨10, 5⟩ (-3) 4).map (·.elems mem) = some [mem 12, mem 13] := by rfl

/-- C159: without an end the part goes to the end. -/
theorem C159_from (mem : Int → α) (s : Slice) {b : Int} (hb1 : -s.length ≤ b) (hb2 : b < s.length) :
    ∃ r, s.from b = some r ∧ r.elems mem = (s.elems mem).drop (position s.length b).toNat := by
  have hn : 0 < s.length := by omega
  obtain ⟨r, h1, h2, -⟩ := C159_sub_partial mem s (b := b) (e := s.length) hb1 hb2 (by omega) (by omega) (by unfold position; split <;> split <;> omega)
  refine ⟨r, h1, ?_⟩
  rw [h2, if_neg (by omega)]
  congr 1
  apply List.take_of_length_le
  rw [elems_length]
  omega

/-- C159: incrementing goes through all elements in order. -/
theorem C159_walk (mem : Int → α) (s : Slice) (h : 0 ≤ s.length) {n : Nat} (hn : s.length ≤ n) : Slice.walk mem n s = s.elems mem := by
  induction n generalizing s with
  | zero =>
    have : s.length.toNat = 0 := by omega
    simp [Slice.walk, Slice.elems, this]
  | succ n ih =>
    unfold Slice.walk
    by_cases h0 : s.length = 0
    · simp [Slice.elems, h0]
    · rw [if_neg h0, ih s.next (by simp only [Slice.next]; omega) (by simp only [Slice.next]; omega)]
      obtain ⟨k, hk⟩ : ∃ k : Nat, s.length = k + 1 := ⟨(s.length - 1).toNat, by omega⟩
      unfold Slice.elems Slice.next
      have e1 : s.length.toNat = k + 1 := by omega
      have e2 : (s.length - 1).toNat = k := by omega
      rw [e1]
      dsimp only
      rw [e2, List.range_succ_eq_map, List.map_cons, List.map_map]
      simp only [Int.natCast_zero, Int.add_zero, List.cons.injEq, true_and]
      apply List.map_congr_left
      intro i _
      show mem _ = mem _
      congr 1
      push_cast
      omega

/-- C159 fails for a negative end: the part extends beyond the slice, by as many elements as should be left out. -/
theorem C159_negative_false (s : Slice) {b e : Int} (hn : 0 < s.length) (he : e < 0) :
    ∃ r, s.sub b e = some r ∧ r.start + r.length = s.start + s.length + -e ∧ s.start + s.length < r.start + r.length := by
  refine ⟨_, by unfold Slice.sub; rw [if_neg (by omega)], ?_, ?_⟩ <;> dsimp only <;> rw [if_pos (by omega)] <;> omega

/-- C159 fails for constant slices: the call never ends. -/
theorem C159_const_false (n : Nat) (s : Slice) (b e : Int) : Slice.subConst n s b e = none := by
  induction n generalizing e with
  | zero => rfl
  | succ n ih => exact ih _

/-! ## `ArrayMultiRef` -/

/-- The recursion of `_getIndice` behind the first argument, `Array.h:415-421`: `dims` are the sizes from the second on. -/
def getRest : Int → List Int → List Int → Int
  | i, d :: dims, a :: args => getRest (a + d * i) dims args
  | i, _, _ => i

/-- `GetIndice`, `Array.h:407-427`; for a single dimension the code does not compile. -/
def getIndice : List Int → List Int → Option Int
  | _ :: d :: dims, a :: b :: args => some (getRest a (d :: dims) (b :: args))
  | _, _ => none

/-- Each argument is within its dimension. -/
def Within : List Int → List Int → Prop
  | [], [] => True
  | d :: dims, a :: args => 0 ≤ a ∧ a < d ∧ Within dims args
  | _, _ => False

def prod : List Int → Int
  | [] => 1
  | d :: dims => d * prod dims

/-- Specification, from the last dimension on: an element is found behind all elements of the rows before it. -/
def rowMajor : List Int → List Int → Int
  | _ :: dims, a :: args => a * prod dims + rowMajor dims args
  | _, _ => 0

theorem getRest_eq (i : Int) {dims args : List Int} (h : dims.length = args.length) : getRest i dims args = i * prod dims + rowMajor dims args := by
  induction dims generalizing i args with
  | nil =>
    cases args with
    | nil => simp [getRest, prod, rowMajor]
    | cons a args => cases h
  | cons d dims ih =>
    cases args with
    | nil => cases h
    | cons a args =>
      rw [getRest, ih _ (by simpa using h), prod, rowMajor, Int.add_mul, Int.mul_comm d i, Int.mul_assoc]
      omega

theorem within_length {dims args : List Int} (h : Within dims args) : dims.length = args.length := by
  induction dims generalizing args with
  | nil => cases args <;> simp_all [Within]
  | cons d dims ih =>
    cases args with
    | nil => simp [Within] at h
    | cons a args => simp [ih h.2.2]

theorem row_bound {dims args : List Int} (h : Within dims args) : 0 ≤ rowMajor dims args ∧ rowMajor dims args < prod dims := by
  induction dims generalizing args with
  | nil => cases args <;> simp_all [Within, rowMajor, prod]
  | cons d dims ih =>
    cases args with
    | nil => simp [Within] at h
    | cons a args =>
      obtain ⟨h1, h2, h3⟩ := h
      obtain ⟨i1, i2⟩ := ih h3
      rw [rowMajor, prod]
      have k1 : 0 ≤ a * prod dims := Int.mul_nonneg h1 (by omega)
      have k2 : (a + 1) * prod dims ≤ d * prod dims := Int.mul_le_mul_of_nonneg_right (by omega) (by omega)
      rw [Int.add_mul] at k2
      omega

theorem row_inj {dims args args' : List Int} (h : Within dims args) (h' : Within dims args') (he : rowMajor dims args = rowMajor dims args') : args = args' := by
  induction dims generalizing args args' with
  | nil => cases args <;> cases args' <;> simp_all [Within]
  | cons d dims ih =>
    cases args with
    | nil => simp [Within] at h
    | cons a args =>
      cases args' with
      | nil => simp [Within] at h'
      | cons a' args' =>
        have b := row_bound h.2.2
        have b' := row_bound h'.2.2
        rw [rowMajor, rowMajor] at he
        have ha : a = a' := by
          rcases Int.lt_trichotomy a a' with hl | hl | hl
          · have k : (a + 1) * prod dims ≤ a' * prod dims := Int.mul_le_mul_of_nonneg_right (by omega) (by omega)
            rw [Int.add_mul] at k
            omega
          · exact hl
          · have k : (a' + 1) * prod dims ≤ a * prod dims := Int.mul_le_mul_of_nonneg_right (by omega) (by omega)
            rw [Int.add_mul] at k
            omega
        subst ha
        rw [ih h.2.2 h'.2.2 (by omega)]

theorem row_surj {dims : List Int} (hd : ∀ d ∈ dims, 0 < d) {k : Int} (h1 : 0 ≤ k) (h2 : k < prod dims) : ∃ args, Within dims args ∧ rowMajor dims args = k := by
  induction dims generalizing k with
  | nil =>
    refine ⟨[], trivial, ?_⟩
    simp only [prod] at h2
    simp only [rowMajor]
    omega
  | cons d dims ih =>
    have hp : 0 < prod dims := by
      have : ∀ l : List Int, (∀ d ∈ l, 0 < d) → 0 < prod l := by
        intro l hl
        induction l with
        | nil => decide
        | cons x l ihl => exact Int.mul_pos (hl x (by simp)) (ihl fun d hd => hl d (by simp [hd]))
      exact this dims fun d h => hd d (by simp [h])
    obtain ⟨args, w, e⟩ := ih (fun d h => hd d (by simp [h])) (Int.emod_nonneg k (by omega)) (Int.emod_lt_of_pos k hp)
    refine ⟨k / prod dims :: args, ⟨Int.ediv_nonneg h1 (by omega), ?_, w⟩, ?_⟩
    · rw [prod] at h2
      exact Int.ediv_lt_of_lt_mul hp h2
    · rw [rowMajor, e]
      have := Int.mul_ediv_add_emod k (prod dims)
      rw [Int.mul_comm] at this
      exact this

/-- C160: with at least two dimensions, the elements of an array of these dimensions are numbered row by row, all within the array, no two the same, and none left out. -/
theorem C160_bijection {d1 d2 : Int} {dims : List Int} (hd : ∀ d ∈ d1 :: d2 :: dims, 0 < d) :
    (∀ args, Within (d1 :: d2 :: dims) args → ∃ i, getIndice (d1 :: d2 :: dims) args = some i ∧ i = rowMajor (d1 :: d2 :: dims) args ∧ 0 ≤ i ∧ i < prod (d1 :: d2 :: dims)) ∧
    (∀ args args', Within (d1 :: d2 :: dims) args → Within (d1 :: d2 :: dims) args' → getIndice (d1 :: d2 :: dims) args = getIndice (d1 :: d2 :: dims) args' → args = args') ∧
    (∀ i, 0 ≤ i → i < prod (d1 :: d2 :: dims) → ∃ args, Within (d1 :: d2 :: dims) args ∧ getIndice (d1 :: d2 :: dims) args = some i) := by
  have key : ∀ args, Within (d1 :: d2 :: dims) args → getIndice (d1 :: d2 :: dims) args = some (rowMajor (d1 :: d2 :: dims) args) := by
    intro args h
    match args, h with
    | [], h => simp [Within] at h
    | [a], h => simp [Within] at h
    | a :: b :: args, h =>
      have hl := within_length h.2.2
      rw [getIndice, getRest_eq a hl]
      rfl
  refine ⟨fun args h => ⟨_, key args h, rfl, (row_bound h).1, (row_bound h).2⟩, fun args args' h h' e => ?_, fun i h1 h2 => ?_⟩
  · rw [key args h, key args' h'] at e
    exact row_inj h h' (Option.some.inj e)
  · obtain ⟨args, w, e⟩ := row_surj hd h1 h2
    exact ⟨args, w, by rw [key args w, e]⟩

example : getIndice [2, 3, 4] [1, 2, 3] = some 23 ∧ getIndice [2, 3, 4] [1, 0, 2] = some 14 ∧ Within [2, 3, 4] [1, 0, 2] := by
  refine ⟨rfl, rfl, ?_⟩
  simp [Within]

/-! ## `VariableArray` -/

/-- `HEAPFLAG` and `HEAPMASK`, `Array.h:449-450`. -/
def heapFlag : BitVec 64 := 1#64 <<< 63
def heapMask : BitVec 64 := ~~~heapFlag

/-- What a `VariableArray` does: constructing and destroying the element of an index, taking memory of a number of bytes, and giving it back. -/
inductive Ev where
  | construct (i : Nat)
  | destroy (i : Nat)
  | malloc (bytes : Nat)
  | alloca (bytes : Nat)
  | free
  deriving DecidableEq

/-- The bytes requested by `n * sizeof(T)` in 64 bits, `Array.h:454` and `501`. -/
def bytes (n : BitVec 64) (size : Nat) : Nat := (n * BitVec.ofNat 64 size).toNat

/-- The macro `VARARRAY` and the constructor, `Array.h:501` and `454-458`: `_heap`, and what is done. -/
def make (n : BitVec 64) (size : Nat) : BitVec 64 × List Ev :=
  let big := bytes n size > 0xFFFF
  let heap := ((if big then 1#64 else 0#64) <<< 63) ||| (n &&& heapMask)
  (heap, (if big then Ev.malloc (bytes n size) else Ev.alloca (bytes n size)) :: (List.range n.toNat).map Ev.construct)

/-- `Length`, `Array.h:471`. -/
def len (heap : BitVec 64) : Nat := (heap &&& heapMask).toNat

/-- The destructor, `Array.h:459-469`. -/
def unmake (heap : BitVec 64) : List Ev :=
  (List.range (heap &&& heapMask).toNat).map Ev.destroy ++ if heap &&& heapFlag != 0#64 then [Ev.free] else []

theorem mask_or (c n : BitVec 64) (hn : n.toNat < 2 ^ 63) (hc : c &&& heapMask = 0#64) : (c ||| (n &&& heapMask)) &&& heapMask = n := by
  have h1 : n &&& heapMask = n := by
    apply BitVec.eq_of_toNat_eq
    rw [BitVec.toNat_and]
    have : heapMask.toNat = 2 ^ 63 - 1 := by decide
    rw [this, Nat.and_two_pow_sub_one_eq_mod, Nat.mod_eq_of_lt hn]
  have h2 : (c ||| (n &&& heapMask)) &&& heapMask = (c &&& heapMask) ||| (n &&& heapMask &&& heapMask) := by
    ext i hi; simp only [BitVec.getElem_and, BitVec.getElem_or]
    cases c[i] <;> cases n[i] <;> cases heapMask[i] <;> rfl
  rw [h2, hc, h1, h1]
  simp

theorem flag_or (c n : BitVec 64) : (c ||| (n &&& heapMask)) &&& heapFlag = c &&& heapFlag := by
  have : ∀ i (hi : i < 64), (heapMask[i] && heapFlag[i]) = false := by decide
  ext i hi
  have := this i hi
  simp only [BitVec.getElem_and, BitVec.getElem_or]
  revert this
  cases c[i] <;> cases n[i] <;> cases heapMask[i] <;> cases heapFlag[i] <;> decide

/-- C161: if the size in bytes fits 64 bits, the array has its elements, memory for them is taken once, from the heap if they need more than 65535 bytes and from the stack otherwise; every element is constructed once and
destroyed once, in the same order, and memory of the heap is given back once, after that. -/
theorem C161_lifetime_partial (n : BitVec 64) {size : Nat} (hs : 0 < size) (hn : n.toNat * size < 2 ^ 64) (hn2 : n.toNat < 2 ^ 63) :
    len (make n size).1 = n.toNat ∧
    (make n size).2 ++ unmake (make n size).1 =
      (if n.toNat * size > 0xFFFF then [Ev.malloc (n.toNat * size)] else [Ev.alloca (n.toNat * size)]) ++ (List.range n.toNat).map Ev.construct ++
      (List.range n.toNat).map Ev.destroy ++ if n.toNat * size > 0xFFFF then [Ev.free] else [] := by
  have hb : bytes n size = n.toNat * size := by
    unfold bytes
    rw [BitVec.toNat_mul, BitVec.toNat_ofNat, Nat.mul_mod_mod, Nat.mod_eq_of_lt hn]
  have hc : ∀ b : Bool, ((if b then 1#64 else 0#64) <<< 63) &&& heapMask = 0#64 := by decide
  have hf : ∀ b : Bool, (((if b then 1#64 else 0#64) <<< 63) &&& heapFlag != 0#64) = b := by decide
  have hl : len (make n size).1 = n.toNat := by
    unfold len make
    dsimp only
    by_cases hbig : bytes n size > 0xFFFF
    · rw [if_pos hbig, mask_or _ _ hn2 (by decide)]
    · rw [if_neg hbig, mask_or _ _ hn2 (by decide)]
  refine ⟨hl, ?_⟩
  have hl2 : ((make n size).1 &&& heapMask).toNat = n.toNat := hl
  unfold unmake
  rw [hl2]
  unfold make
  dsimp only
  rw [flag_or, hb]
  by_cases hbig : n.toNat * size > 0xFFFF
  · simp only [if_pos hbig]
    have := hf true
    simp only [if_true] at this
    rw [this]; simp
  · simp only [if_neg hbig]
    have := hf false
    simp only [Bool.false_eq_true, if_false] at this
    rw [this]; simp

example : (3#64).toNat * 4 < 2 ^ 64 ∧ (make 3#64 4).2 ++ unmake (make 3#64 4).1 = [.alloca 12, .construct 0, .construct 1, .construct 2, .destroy 0, .destroy 1, .destroy 2] := by decide +kernel

/-- C161 fails for sizes that do not fit 64 bits: an array of 2^62 elements of four bytes takes no memory at all, and says that it has its elements. -/
theorem C161_overflow_counterexample : bytes (1#64 <<< 62) 4 = 0 ∧ len (make (1#64 <<< 62) 4).1 = 2 ^ 62 ∧ (make (1#64 <<< 62) 4).2.head? = some (Ev.alloca 0) := by
  have h : len (make (1#64 <<< 62) 4).1 = 2 ^ 62 := by
    have e : (make (1#64 <<< 62) 4).1 = ((if bytes (1#64 <<< 62) 4 > 0xFFFF then 1#64 else 0#64) <<< 63) ||| ((1#64 <<< 62) &&& heapMask) := rfl
    rw [e]; decide +kernel
  refine ⟨by decide +kernel, h, ?_⟩
  show some (if bytes (1#64 <<< 62) 4 > 0xFFFF then Ev.malloc (bytes (1#64 <<< 62) 4) else Ev.alloca (bytes (1#64 <<< 62) 4)) = _
  decide +kernel

end Verif.Arr.View
