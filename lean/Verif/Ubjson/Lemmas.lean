import Verif.Ubjson.Model

/-! # Lemmas about UBJSON: integers and lengths -/

namespace Verif.Ubjson

theorem le_length : ∀ w n, (le w n).length = w
  | 0, _ => rfl
  | w + 1, n => by rw [le, List.length_cons, le_length]

theorem ofLe_le : ∀ w n, ofLe (le w n) = n % 256 ^ w
  | 0, n => by simp [le, ofLe, Nat.mod_one]
  | w + 1, n => by
    rw [le, ofLe, ofLe_le, Nat.pow_succ, Nat.mul_comm (256 ^ w), Nat.mod_mul]

theorem writeInt_length (w : Nat) (v : Int) : (writeInt w v).length = w := by simp [writeInt, flip, le_length]

theorem toInt_mod {signed : Bool} {w : Nat} (hw : 1 ≤ w) {v : Int} (h1 : minOf signed w ≤ v) (h2 : v ≤ maxOf signed w) : toInt signed w (v % 256 ^ w).toNat = v := by
  obtain ⟨M, hM⟩ : ∃ M : Nat, 256 ^ w = 2 * M := ⟨128 * 256 ^ (w - 1), by
    have : 256 ^ w = 256 ^ (w - 1) * 256 := by rw [← Nat.pow_succ]; congr 1; omega
    omega⟩
  have hpos : 0 < M := by have := Nat.pow_pos (n := w) (show 0 < 256 by omega); omega
  have hI : (256 : Int) ^ w = 2 * (M : Int) := by
    have : ((256 ^ w : Nat) : Int) = ((2 * M : Nat) : Int) := by rw [hM]
    simpa using this
  unfold minOf at h1
  unfold maxOf at h2
  unfold toInt
  rw [hM] at h1 h2
  rw [hM, hI]
  cases signed with
  | false =>
    simp only [Bool.false_eq_true, if_false, false_and] at *
    rw [Int.emod_eq_of_lt h1 (by omega)]
    omega
  | true =>
    simp only [if_true, true_and] at *
    by_cases hv : 0 ≤ v
    · rw [Int.emod_eq_of_lt hv (by omega), if_neg (by omega)]
      omega
    · have : v % (2 * (M : Int)) = v + 2 * M := by
        rw [← Int.add_emod_right]
        exact Int.emod_eq_of_lt (by omega) (by omega)
      rw [this, if_pos (by omega)]
      omega

theorem cast_eq {signed : Bool} {w : Nat} (hw : 1 ≤ w) {v : Int} (h1 : minOf signed w ≤ v) (h2 : v ≤ maxOf signed w) : cast signed w v = v := toInt_mod hw h1 h2

theorem read_append (m s : List Nat) : read m.length (m ++ s) = .ok (m, s) := by
  unfold read
  rw [if_pos (by simp)]
  simp

/-- Reading an integer that was written. -/
theorem parseInt_write {signed : Bool} {w : Nat} (hw : 1 ≤ w) {v : Int} (h1 : minOf signed w ≤ v) (h2 : v ≤ maxOf signed w) (s : List Nat) :
    parseInt signed w (writeInt w v ++ s) = .ok (v, s) := by
  have := read_append (writeInt w v) s
  rw [writeInt_length] at this
  unfold parseInt
  rw [this]
  show R.ok (toInt signed w (ofLe (flip (writeInt w v))), s) = _
  have e : ofLe (flip (writeInt w v)) = (v % 256 ^ w).toNat := by
    unfold writeInt flip
    rw [List.reverse_reverse, ofLe_le]
    refine Nat.mod_eq_of_lt ?_
    have hp : (0 : Int) < 256 ^ w := Int.pow_pos (by omega)
    have h3 := Int.emod_lt_of_pos v hp
    have h4 := Int.emod_nonneg v (show (256 : Int) ^ w ≠ 0 by omega)
    have : ((256 ^ w : Nat) : Int) = 256 ^ w := by simp
    omega
  rw [e, toInt_mod hw h1 h2]

/-! ## The type of a length -/

theorem intType_eq (n : Int) : intType true 8 n =
    if 0 ≤ n ∧ n ≤ 255 then 85 else if -128 ≤ n ∧ n ≤ 127 then 105 else if -32768 ≤ n ∧ n ≤ 32767 then 73
    else if -2147483648 ≤ n ∧ n ≤ 2147483647 then 108 else if -9223372036854775808 ≤ n ∧ n ≤ 9223372036854775807 then 76 else 72 := by
  simp [intType, checkInt, cast, toInt, minOf, maxOf]

theorem parseLength_write {n : Int} (h0 : 0 ≤ n) (h1 : n < 2 ^ 63) (s : List Nat) : parseLength (writeLength n ++ s) = .ok (n, s) := by
  unfold writeLength
  rw [intType_eq]
  by_cases a1 : n ≤ 255
  · rw [if_pos ⟨h0, a1⟩, cast_eq (by omega) (by simpa [minOf] using h0) (by simpa [maxOf] using a1)]
    simp only [List.cons_append, if_true, parseLength]
    rw [if_neg (by decide), parseInt_write (by omega) (by simpa [minOf] using h0) (by simpa [maxOf] using a1)]
    show nonneg (n, s) = _
    unfold nonneg
    rw [if_neg (by omega)]
  · by_cases a2 : n ≤ 32767
    · have l1 : minOf true 2 ≤ n := by simp [minOf]; omega
      have l2 : n ≤ maxOf true 2 := by simp [maxOf]; omega
      rw [if_neg (by omega), if_neg (by omega), if_pos (by omega), cast_eq (w := 2) (by omega) l1 l2]
      simp only [List.cons_append, if_true, parseLength]
      rw [if_neg (by decide), if_neg (by decide), if_neg (by decide), if_neg (by decide), parseInt_write (by omega) l1 l2]
      show nonneg (n, s) = _
      unfold nonneg
      rw [if_neg (by omega)]
    · by_cases a3 : n ≤ 2147483647
      · have l1 : minOf true 4 ≤ n := by simp [minOf]; omega
        have l2 : n ≤ maxOf true 4 := by simp [maxOf]; omega
        rw [if_neg (by omega), if_neg (by omega), if_neg (by omega), if_pos (by omega), cast_eq (w := 4) (by omega) l1 l2]
        simp only [List.cons_append, if_true, parseLength]
        rw [if_neg (by decide), if_neg (by decide), if_neg (by decide), if_neg (by decide), if_neg (by decide), if_neg (by decide), parseInt_write (by omega) l1 l2]
        show nonneg (n, s) = _
        unfold nonneg
        rw [if_neg (by omega)]
      · have l1 : minOf true 8 ≤ n := by simp [minOf]; omega
        have l2 : n ≤ maxOf true 8 := by simp [maxOf]; omega
        rw [if_neg (by omega), if_neg (by omega), if_neg (by omega), if_neg (by omega), if_pos (by omega)]
        simp only [List.cons_append, if_true, parseLength]
        rw [if_neg (by decide), if_neg (by decide), if_neg (by decide), if_neg (by decide), if_neg (by decide), if_neg (by decide), if_neg (by decide), if_neg (by decide), parseInt_write (by omega) l1 l2]
        show nonneg (n, s) = _
        unfold nonneg
        rw [if_neg (by omega)]

theorem writeLength_ne (n : Int) : ∃ b m, writeLength n = b :: m := ⟨_, _, rfl⟩

theorem parseString_write {m : List Nat} (h : m.length < 2 ^ 63) (s : List Nat) : parseString (writeLength m.length ++ (m ++ s)) = .ok (m, s) := by
  unfold parseString
  rw [parseLength_write (by omega) (by omega)]
  show read (Int.toNat m.length) (m ++ s) = _
  rw [Int.toNat_natCast, read_append]

end Verif.Ubjson
