import Mathlib.Tactic.Ring

/-!
# `BitCount` (C55), `bss_util.h:722-731`

Unsigned arithmetic modulo `2^(8k)` on naturals; `k` is `sizeof(T)`.
-/

namespace Verif.Arith

/-- Specification: the number of one bits among the low `n`. -/
def onesBelow (v : Nat) (n : Nat) : Nat := ((List.range n).filter (v.testBit ·)).length

/-- `(T)~(T)0 / d`: the all-ones value is `2^(8k) - 1` for an unsigned type and `-1` for a signed one, where C++
division truncates to zero (`bss_util.h:727-730`). The result is given as a residue modulo `2^(8k)`. -/
def onesDiv (signed : Bool) (k d : Nat) : Nat :=
  if signed then (Int.tdiv (-1) d % (2 ^ (8 * k) : Nat)).toNat else (2 ^ (8 * k) - 1) / d

/-- First statement, `bss_util.h:727`. -/
def bcStage1 (signed : Bool) (k v : Nat) : Nat :=
  (v + 2 ^ (8 * k) - ((v >>> 1) &&& onesDiv signed k 3)) % 2 ^ (8 * k)

/-- Second statement, `bss_util.h:728`. -/
def bcStage2 (signed : Bool) (k v : Nat) : Nat :=
  ((v &&& (onesDiv signed k 15 * 3) % 2 ^ (8 * k)) + ((v >>> 2) &&& (onesDiv signed k 15 * 3) % 2 ^ (8 * k))) % 2 ^ (8 * k)

/-- Third statement, `bss_util.h:729`. -/
def bcStage3 (signed : Bool) (k v : Nat) : Nat :=
  (v + (v >>> 4)) % 2 ^ (8 * k) &&& (onesDiv signed k 255 * 15) % 2 ^ (8 * k)

/-- Return statement, `bss_util.h:730`. -/
def bcStage4 (signed : Bool) (k v : Nat) : Nat :=
  ((v * onesDiv signed k 255) % 2 ^ (8 * k)) >>> ((k - 1) * 8) % 256

/-- `BitCount(v)` for a type of `k` bytes, `bss_util.h:722-731`.  Right shifts are logical; for a signed type the
C++ shift is arithmetic, which makes no difference since every mask is then zero. -/
def bitCount (signed : Bool) (k v : Nat) : Nat :=
  bcStage4 signed k (bcStage3 signed k (bcStage2 signed k (bcStage1 signed k v)))

/-! ### byte-wise form -/

theorem and_split (x y : Nat) : x &&& y = ((x % 256) &&& (y % 256)) + 256 * ((x / 256) &&& (y / 256)) := by
  have h1 : (x &&& y) % 2 ^ 8 = (x % 2 ^ 8) &&& (y % 2 ^ 8) := Nat.and_mod_two_pow
  have h2 : (x &&& y) / 2 ^ 8 = (x / 2 ^ 8) &&& (y / 2 ^ 8) := Nat.and_div_two_pow
  have := Nat.div_add_mod (x &&& y) (2 ^ 8)
  rw [h1, h2] at this
  simp only [show (2 : Nat) ^ 8 = 256 from rfl] at this
  omega

/-- `rep k c` has the byte `c` repeated `k` times. -/
def rep : Nat → Nat → Nat
  | 0, _ => 0
  | k + 1, c => c + 256 * rep k c

theorem pow_succ_byte (k : Nat) : 2 ^ (8 * (k + 1)) = 256 * 2 ^ (8 * k) := by
  rw [show 8 * (k + 1) = 8 * k + 8 by omega, Nat.pow_add]; omega

theorem onesDiv_eq (k d : Nat) (hd : d * (255 / d) = 255) (hd0 : 0 < d) : onesDiv false k d = rep k (255 / d) := by
  have h : ∀ k, 2 ^ (8 * k) - 1 = d * rep k (255 / d) := by
    intro k
    induction k with
    | zero => simp [rep]
    | succ k ih =>
      have hp := Nat.two_pow_pos (8 * k)
      rw [pow_succ_byte, rep, Nat.mul_add, hd, Nat.mul_left_comm, ← ih]; omega
  unfold onesDiv
  simp only [Bool.false_eq_true, if_false]
  rw [h, Nat.mul_div_cancel_left _ hd0]

theorem rep_mul (k c e : Nat) : rep k c * e = rep k (c * e) := by
  induction k with
  | zero => simp [rep]
  | succ k ih => simp only [rep, ← ih]; ring

theorem rep_lt (k c : Nat) (h : c < 256) : rep k c < 2 ^ (8 * k) := by
  induction k with
  | zero => simp [rep]
  | succ k ih => rw [pow_succ_byte, rep]; omega

/-- Value of the three stages on one byte. -/
def byteStage1 (b : Nat) : Nat := b - ((b >>> 1) &&& 0x55)
def byteStage2 (b : Nat) : Nat := (b &&& 0x33) + ((b >>> 2) &&& 0x33)
def byteStage3 (b : Nat) : Nat := (b + (b >>> 4)) &&& 0x0f

theorem byte_facts : ∀ b : Fin 256,
    ((b.val >>> 1) &&& 0x55) ≤ b.val ∧ ((b.val >>> 1 + 128) &&& 0x55) = ((b.val >>> 1) &&& 0x55) ∧
    (∀ j : Fin 4, ((b.val >>> 2 + 64 * j.val) &&& 0x33) = ((b.val >>> 2) &&& 0x33)) ∧
    (byteStage2 b.val ≤ 0x66 ∧ byteStage2 b.val % 16 ≤ 6) ∧
    (∀ j : Fin 7, ((byteStage2 b.val + (byteStage2 b.val >>> 4 + 16 * j.val)) &&& 0x0f) = byteStage3 (byteStage2 b.val)) ∧
    byteStage3 (byteStage2 (byteStage1 b.val)) = onesBelow b.val 8 := by
  decide +kernel

theorem stage1_cons (k b u : Nat) (hb : b < 256) (hu : u < 2 ^ (8 * k)) :
    ((u >>> 1) &&& rep k 0x55) ≤ u →
    (((b + 256 * u) >>> 1) &&& rep (k + 1) 0x55) ≤ b + 256 * u ∧
    (b + 256 * u) - (((b + 256 * u) >>> 1) &&& rep (k + 1) 0x55) =
      byteStage1 b + 256 * (u - ((u >>> 1) &&& rep k 0x55)) := by
  intro h
  have hf := byte_facts ⟨b, hb⟩
  obtain ⟨f1, f2, -⟩ := hf
  simp only at f1 f2
  have hm1 : rep (k + 1) 0x55 % 256 = 0x55 := by simp only [rep]; omega
  have hm2 : rep (k + 1) 0x55 / 256 = rep k 0x55 := by simp only [rep]; omega
  have hx1 : ((b + 256 * u) >>> 1) / 256 = u >>> 1 := by simp only [Nat.shiftRight_eq_div_pow]; omega
  have hx2 : ((b + 256 * u) >>> 1) % 256 = b >>> 1 ∨ ((b + 256 * u) >>> 1) % 256 = b >>> 1 + 128 := by
    simp only [Nat.shiftRight_eq_div_pow]; omega
  rw [and_split, hm1, hm2, hx1]
  have hx3 : ((b + 256 * u) >>> 1) % 256 &&& 0x55 = (b >>> 1) &&& 0x55 := by
    rcases hx2 with e | e <;> rw [e]
    exact f2
  rw [hx3]
  unfold byteStage1
  generalize (b >>> 1 &&& 0x55) = p at *
  generalize (u >>> 1 &&& rep k 0x55) = q at *
  omega

/-- The bytes of a number, low first. -/
def bytes : Nat → Nat → List Nat
  | 0, _ => []
  | k + 1, v => v % 256 :: bytes k (v / 256)

/-- Value of a byte list. -/
def ofBytes : List Nat → Nat
  | [] => 0
  | b :: bs => b + 256 * ofBytes bs

theorem ofBytes_lt : ∀ bs : List Nat, (∀ b ∈ bs, b < 256) → ofBytes bs < 2 ^ (8 * bs.length)
  | [], _ => by simp [ofBytes]
  | b :: bs, h => by
    have ih := ofBytes_lt bs (fun x hx => h x (List.mem_cons_of_mem _ hx))
    have hb := h b (by simp)
    rw [List.length_cons, pow_succ_byte, ofBytes]; omega

theorem stage1_bytes : ∀ bs : List Nat, (∀ b ∈ bs, b < 256) →
    ((ofBytes bs >>> 1) &&& rep bs.length 0x55) ≤ ofBytes bs ∧
    ofBytes bs - ((ofBytes bs >>> 1) &&& rep bs.length 0x55) = ofBytes (bs.map byteStage1)
  | [], _ => by simp [ofBytes]
  | b :: bs, h => by
    have ih := stage1_bytes bs (fun x hx => h x (List.mem_cons_of_mem _ hx))
    have hlt := ofBytes_lt bs (fun x hx => h x (List.mem_cons_of_mem _ hx))
    have := stage1_cons bs.length b (ofBytes bs) (h b (by simp)) hlt ih.1
    simp only [List.length_cons, ofBytes, List.map_cons]
    rw [ih.2] at this
    exact this

theorem bytes_lt {f : Nat → Nat} (hf : ∀ b, b < 256 → f b < 256) (bs : List Nat) (h : ∀ b ∈ bs, b < 256) :
    ∀ b ∈ bs.map f, b < 256 := by
  intro b hb
  obtain ⟨a, ha, rfl⟩ := List.mem_map.1 hb
  exact hf a (h a ha)

theorem byteStage1_lt (b : Nat) (h : b < 256) : byteStage1 b < 256 := by unfold byteStage1; omega
theorem byteStage2_lt (b : Nat) (h : b < 256) : byteStage2 b < 256 := by
  have := (byte_facts ⟨b, h⟩).2.2.2.1.1
  simp only at this
  omega

theorem stage2_bytes : ∀ bs : List Nat, (∀ b ∈ bs, b < 256) →
    (ofBytes bs &&& rep bs.length 0x33) + ((ofBytes bs >>> 2) &&& rep bs.length 0x33) = ofBytes (bs.map byteStage2)
  | [], _ => by simp [ofBytes, rep]
  | b :: bs, h => by
    have ih := stage2_bytes bs (fun x hx => h x (List.mem_cons_of_mem _ hx))
    have hb := h b (by simp)
    simp only [List.length_cons, ofBytes, List.map_cons]
    generalize ofBytes bs = u at *
    have hm1 : rep (bs.length + 1) 0x33 % 256 = 0x33 := by simp only [rep]; omega
    have hm2 : rep (bs.length + 1) 0x33 / 256 = rep bs.length 0x33 := by simp only [rep]; omega
    have hx1 : ((b + 256 * u) >>> 2) / 256 = u >>> 2 := by simp only [Nat.shiftRight_eq_div_pow]; omega
    have hx2 : ((b + 256 * u) >>> 2) % 256 = b >>> 2 + 64 * (u % 4) := by
      simp only [Nat.shiftRight_eq_div_pow]; omega
    have f := (byte_facts ⟨b, hb⟩).2.2.1 ⟨u % 4, by omega⟩
    simp only at f
    rw [and_split (b + 256 * u), and_split ((b + 256 * u) >>> 2), hm1, hm2, hx1, hx2, f,
      show (b + 256 * u) % 256 = b by omega, show (b + 256 * u) / 256 = u by omega, ← ih]
    unfold byteStage2
    omega

theorem stage3_bytes : ∀ bs : List Nat, (∀ b ∈ bs, b < 256) →
    ((ofBytes (bs.map byteStage2) + (ofBytes (bs.map byteStage2) >>> 4)) % 2 ^ (8 * bs.length)) &&& rep bs.length 0x0f =
      ofBytes (bs.map (fun b => byteStage3 (byteStage2 b)))
  | [], _ => by simp [ofBytes, rep]
  | b :: bs, h => by
    have ih := stage3_bytes bs (fun x hx => h x (List.mem_cons_of_mem _ hx))
    have hb := h b (by simp)
    have hu16 : ofBytes (bs.map byteStage2) % 16 ≤ 6 := by
      cases bs with
      | nil => simp [ofBytes]
      | cons b' bs' =>
        have := (byte_facts ⟨b', h b' (by simp)⟩).2.2.2.1.2
        simp only at this
        simp only [List.map_cons, ofBytes]; omega
    simp only [List.length_cons, ofBytes, List.map_cons]
    have f0 := (byte_facts ⟨b, hb⟩).2.2.2.1.1
    have f := (byte_facts ⟨b, hb⟩).2.2.2.2.1
    simp only at f f0
    generalize ofBytes (bs.map byteStage2) = u at *
    have f := f ⟨u % 16, by omega⟩
    simp only at f
    generalize hc : byteStage2 b = c at *
    have hm1 : rep (bs.length + 1) 0x0f % 256 = 0x0f := by simp only [rep]; omega
    have hm2 : rep (bs.length + 1) 0x0f / 256 = rep bs.length 0x0f := by simp only [rep]; omega
    -- no carry out of the low byte: the nibbles are at most 6
    have e : c + 256 * u + (c + 256 * u) >>> 4 = (c + (c >>> 4 + 16 * (u % 16))) + 256 * (u + u >>> 4) := by
      simp only [Nat.shiftRight_eq_div_pow]; omega
    have hl : c + (c >>> 4 + 16 * (u % 16)) < 256 := by simp only [Nat.shiftRight_eq_div_pow]; omega
    rw [e, pow_succ_byte, and_split, hm1, hm2, Nat.mod_mul_right_mod, Nat.mod_mul_right_div_self,
      show ((c + (c >>> 4 + 16 * (u % 16))) + 256 * (u + u >>> 4)) % 256 = c + (c >>> 4 + 16 * (u % 16)) by omega,
      show ((c + (c >>> 4 + 16 * (u % 16))) + 256 * (u + u >>> 4)) / 256 = u + u >>> 4 by omega, f, ih]

/-! ### the multiplication sums the bytes -/

theorem pow_succ_byte' (k : Nat) : 2 ^ (8 * (k + 1)) = 2 ^ (8 * k) * 256 := by rw [pow_succ_byte, Nat.mul_comm]

/-- Multiplying by `0x01…01` puts the sum of all digits into the top byte, as long as the sum fits. -/
theorem mul_rep_top : ∀ (ps : List Nat), ps ≠ [] → ps.sum < 256 →
    ((ofBytes ps * rep ps.length 1) % 2 ^ (8 * ps.length)) / 2 ^ (8 * (ps.length - 1)) = ps.sum
  | [], h, _ => absurd rfl h
  | [p], _, hs => by simp [ofBytes, rep] at *; omega
  | p :: p1 :: ps, _, hs => by
    have ih := mul_rep_top ((p + p1) :: ps) (by simp) (by simp at hs ⊢; omega)
    have key : ofBytes (p :: p1 :: ps) * rep (ps.length + 1 + 1) 1 =
        p + 256 * (ofBytes ((p + p1) :: ps) * rep (ps.length + 1) 1) +
          2 ^ (8 * (ps.length + 1 + 1)) * ofBytes (p1 :: ps) := by
      have hr : rep (ps.length + 1 + 1) 1 = rep (ps.length + 1) 1 + 2 ^ (8 * (ps.length + 1)) := by
        have : ∀ k, rep (k + 1) 1 = rep k 1 + 2 ^ (8 * k) := by
          intro k
          induction k with
          | zero => simp [rep]
          | succ k ihk =>
            have e : rep (k + 1) 1 = 1 + 256 * rep k 1 := rfl
            rw [show rep (k + 1 + 1) 1 = 1 + 256 * rep (k + 1) 1 from rfl, ihk, pow_succ_byte]
            omega
        exact this _
      have hr2 : rep (ps.length + 1 + 1) 1 = 1 + 256 * rep (ps.length + 1) 1 := rfl
      have e1 : ofBytes (p :: p1 :: ps) = p + 256 * ofBytes (p1 :: ps) := rfl
      have e2 : ofBytes ((p + p1) :: ps) = p + ofBytes (p1 :: ps) := by simp [ofBytes]; omega
      rw [e1, e2, Nat.add_mul, Nat.mul_assoc 256]
      conv_lhs => rw [hr2]
      have : ofBytes (p1 :: ps) * (1 + 256 * rep (ps.length + 1) 1) =
          ofBytes (p1 :: ps) * (rep (ps.length + 1) 1 + 2 ^ (8 * (ps.length + 1))) := by rw [← hr2, hr]
      rw [this, pow_succ_byte (ps.length + 1)]
      ring
    simp only [List.length_cons, Nat.add_sub_cancel] at ih ⊢
    rw [key, Nat.add_mul_mod_self_left]
    have hp : p < 256 := by simp at hs; omega
    generalize ofBytes ((p + p1) :: ps) * rep (ps.length + 1) 1 = Y at *
    have e3 : (p + 256 * Y) % 2 ^ (8 * (ps.length + 1 + 1)) = p + 256 * (Y % 2 ^ (8 * (ps.length + 1))) := by
      rw [pow_succ_byte, Nat.mod_mul, show (p + 256 * Y) % 256 = p by omega, show (p + 256 * Y) / 256 = Y by omega]
    rw [e3, pow_succ_byte ps.length, ← Nat.div_div_eq_div_mul, ← pow_succ_byte ps.length, show (p + 256 * (Y % 2 ^ (8 * (ps.length + 1)))) / 256 =
      Y % 2 ^ (8 * (ps.length + 1)) by omega, ih]
    simp; omega

theorem onesBelow_split (b u n : Nat) (hb : b < 256) : onesBelow (b + 256 * u) (8 + n) = onesBelow b 8 + onesBelow u n := by
  unfold onesBelow
  rw [List.range_add, List.filter_append, List.length_append, List.filter_map, List.length_map]
  congr 1
  · congr 1
    apply List.filter_congr
    intro i hi
    have hi : i < 8 := List.mem_range.1 hi
    rw [show b + 256 * u = 2 ^ 8 * u + b by omega, Nat.testBit_two_pow_mul_add _ hb]
    simp [hi]
  · congr 1
    apply List.filter_congr
    intro i _
    show (b + 256 * u).testBit (8 + i) = u.testBit i
    rw [show b + 256 * u = 2 ^ 8 * u + b by omega, Nat.testBit_two_pow_mul_add _ hb]
    simp

theorem ofBytes_bytes : ∀ (k v : Nat), v < 2 ^ (8 * k) → ofBytes (bytes k v) = v
  | 0, v, h => by simp [bytes, ofBytes] at *; omega
  | k + 1, v, h => by
    rw [pow_succ_byte] at h
    simp only [bytes, ofBytes]
    rw [ofBytes_bytes k (v / 256) (by omega)]; omega

theorem length_bytes : ∀ (k v : Nat), (bytes k v).length = k
  | 0, _ => rfl
  | k + 1, v => by simp [bytes, length_bytes k]

theorem bytes_all : ∀ (k v : Nat), ∀ b ∈ bytes k v, b < 256
  | 0, _ => by simp [bytes]
  | k + 1, v => by
    intro b hb
    simp only [bytes, List.mem_cons] at hb
    rcases hb with rfl | hb
    · omega
    · exact bytes_all k _ b hb

theorem sum_ones : ∀ bs : List Nat, (∀ b ∈ bs, b < 256) →
    (bs.map (fun b => onesBelow b 8)).sum = onesBelow (ofBytes bs) (8 * bs.length)
  | [], _ => by simp [ofBytes, onesBelow]
  | b :: bs, h => by
    have ih := sum_ones bs (fun x hx => h x (List.mem_cons_of_mem _ hx))
    rw [List.map_cons, List.sum_cons, ih, List.length_cons, show 8 * (bs.length + 1) = 8 + 8 * bs.length by omega, ofBytes,
      onesBelow_split b _ _ (h b (by simp))]

theorem onesBelow_le (v n : Nat) : onesBelow v n ≤ n := by
  unfold onesBelow
  exact Nat.le_trans (List.length_filter_le _ _) (by simp)

/-- C55: `BitCount` of an unsigned value of any type of 1 to 31 bytes (8 to 128 bits included) is the number of
its one bits. -/
theorem C55_bitCount_unsigned (k v : Nat) (hk : 0 < k) (hk2 : k ≤ 31) (hv : v < 2 ^ (8 * k)) :
    bitCount false k v = onesBelow v (8 * k) := by
  have hall := bytes_all k v
  have hlen := length_bytes k v
  have hval := ofBytes_bytes k v hv
  generalize bytes k v = bs at *
  subst hval
  subst hlen
  have h1 := stage1_bytes bs hall
  have hall1 := bytes_lt byteStage1_lt bs hall
  have h2 := stage2_bytes (bs.map byteStage1) hall1
  have h3 := stage3_bytes (bs.map byteStage1) hall1
  simp only [List.length_map] at h2 h3
  have lt1 := ofBytes_lt _ hall1
  have lt2 := ofBytes_lt _ (bytes_lt byteStage2_lt _ hall1)
  simp only [List.length_map] at lt1 lt2
  have p255 : onesDiv false bs.length 255 = rep bs.length 1 := onesDiv_eq _ 255 rfl (by omega)
  have p15 : onesDiv false bs.length 15 * 3 = rep bs.length 0x33 := by
    rw [onesDiv_eq _ 15 rfl (by omega), rep_mul]
  have p3 : onesDiv false bs.length 3 = rep bs.length 0x55 := onesDiv_eq _ 3 rfl (by omega)
  have p255' : onesDiv false bs.length 255 * 15 = rep bs.length 0x0f := by rw [p255, rep_mul]
  have s1 : bcStage1 false bs.length (ofBytes bs) = ofBytes (bs.map byteStage1) := by
    unfold bcStage1
    rw [p3, ← h1.2]
    have := h1.1
    rw [← h1.2] at lt1
    rw [show ofBytes bs + 2 ^ (8 * bs.length) - (ofBytes bs >>> 1 &&& rep bs.length 0x55) =
      (ofBytes bs - (ofBytes bs >>> 1 &&& rep bs.length 0x55)) + 2 ^ (8 * bs.length) by omega, Nat.add_mod_right,
      Nat.mod_eq_of_lt lt1]
  have s2 : bcStage2 false bs.length (ofBytes (bs.map byteStage1)) = ofBytes ((bs.map byteStage1).map byteStage2) := by
    unfold bcStage2
    rw [p15, Nat.mod_eq_of_lt (rep_lt _ 0x33 (by omega)), h2, Nat.mod_eq_of_lt lt2]
  have s3 : bcStage3 false bs.length (ofBytes ((bs.map byteStage1).map byteStage2)) =
      ofBytes (bs.map (fun b => onesBelow b 8)) := by
    unfold bcStage3
    rw [p255', Nat.mod_eq_of_lt (rep_lt _ 0x0f (by omega)), h3, List.map_map]
    congr 1
    apply List.map_congr_left
    intro b hb
    exact (byte_facts ⟨b, hall b hb⟩).2.2.2.2.2
  have hsum := sum_ones bs hall
  have hle := onesBelow_le (ofBytes bs) (8 * bs.length)
  unfold bitCount
  rw [s1, s2, s3]
  unfold bcStage4
  have ht := mul_rep_top (bs.map (fun b => onesBelow b 8)) (by
    intro h
    have := congrArg List.length h
    simp at this; simp [this] at hk) (by omega)
  simp only [List.length_map] at ht
  rw [p255, Nat.shiftRight_eq_div_pow, Nat.mul_comm (bs.length - 1) 8, ht, hsum]
  omega

/-- C55 fails for signed types: all masks are zero and the count is zero for every value. -/
theorem C55_bitCount_signed_counterexample (k v : Nat) : bitCount true k v = 0 := by
  have h : ∀ d, 1 < d → onesDiv true k d = 0 := by
    intro d hd
    unfold onesDiv
    have : Int.tdiv (-1) d = 0 := by
      rw [Int.neg_tdiv, Int.tdiv_eq_zero_of_lt (by omega) (by omega)]; rfl
    simp [this]
  unfold bitCount bcStage4
  rw [h 255 (by omega)]
  simp

example : bitCount false 4 0xF0F00001 = 9 ∧ onesBelow 0xF0F00001 32 = 9 ∧ bitCount true 4 0xF0F00001 = 0 := by decide +kernel

end Verif.Arith
