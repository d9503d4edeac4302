import Verif.Json.Props
/-!
# INI entries (C154, C155), `/repo/include/bss-util/INIentry.h`, `/repo/bss-util/INIentry.cpp`

A value is text; it is also offered as a 64-bit integer and as a `double`. Strings are C strings (no character is 0). The `double`s are an arbitrary type `D` with the conversion from integers, the
truncation to `int64_t` (undefined, `none`, when the value does not fit) and `atof`. `atoll` is `strtoll` in base 10, `strtoull` in base 16 clamps at `2^64 - 1` as glibc does.
-/

namespace Verif.IniEnt
open Verif.Json (isSpace isDigit decNum hexNum hexVal splitSign dropHexPrefix strtoll decimal digits decVal stricmpEq)

variable {D : Type}

/-- The `double`s as far as the entry uses them. -/
structure FP (D : Type) where
  ofInt : Int → D
  trunc : D → Option Int
  atof : List Char → D

/-- `INIentry`, `INIentry.h:52-55`. -/
structure Entry (D : Type) where
  key : List Char
  sval : List Char
  ival : Int
  dval : D

/-- `(int64_t)` of an unsigned 64-bit number. -/
def toI64 (v : Nat) : Int := if v < 2 ^ 63 then v else (v : Int) - 2 ^ 64

/-- `STRTOULL(s, 0, 16)` of a text that starts with `0x` (trusted). -/
def strtoull16 (s : List Char) : Nat := min (hexNum 0 (dropHexPrefix s)) (2 ^ 64 - 1)

/-- The test for a hexadecimal number, `INIentry.cpp:33`. -/
def isHex : List Char → Bool
  | a :: b :: _ => a == '0' && (b == 'x' || b == 'X')
  | _ => false

/-- `INIentry::Set`, `INIentry.cpp:28-50`; a null pointer changes nothing. `none` is undefined behaviour. -/
def set (fp : FP D) (e : Entry D) : Option (List Char) → Option (Entry D)
  | none => some e
  | some s =>
    if isHex s then
      let v := strtoull16 s
      some { e with sval := s, ival := toI64 v, dval := fp.ofInt v }
    else if !s.contains '.' then
      let i := strtoll s
      some { e with sval := s, ival := i, dval := fp.ofInt i }
    else
      let d := fp.atof s
      (fp.trunc d).map fun i => { e with sval := s, ival := i, dval := d }

/-- `INIentry::SetInt`, `INIentry.cpp:51-56`. -/
def setInt (fp : FP D) (e : Entry D) (i : Int) : Entry D := { e with ival := i, dval := fp.ofInt i, sval := decimal i }

/-- The conversions to the integer types, `INIentry.h:30-38`: `w` is the width, `sg` whether the type is signed. -/
def toInt (sg : Bool) (w : Nat) (e : Entry D) : Int :=
  let v := e.ival % 2 ^ w
  if sg ∧ 2 ^ (w - 1) ≤ v then v - 2 ^ w else v

/-- `operator bool`, `INIentry.h:29`. -/
def toBool (e : Entry D) : Bool := e.ival != 0

/-- `operator==`, `INIentry.cpp:22`. -/
def eqv [BEq D] (a b : Entry D) : Bool := stricmpEq a.key b.key && stricmpEq a.sval b.sval && a.ival == b.ival && a.dval == b.dval

/-! ## Reading numerals -/

theorem isDigit_iff {c : Char} : isDigit c = true ↔ '0' ≤ c ∧ c ≤ '9' := by simp [isDigit]

theorem decNum_append {ds : List Char} (hd : ∀ c ∈ ds, '0' ≤ c ∧ c ≤ '9') {r : List Char} (hr : ∀ c ∈ r.head?, isDigit c = false) :
    ∀ acc, decNum acc (ds ++ r) = ds.foldl (fun a c => 10 * a + (c.toNat - 48)) acc := by
  induction ds with
  | nil =>
    intro acc
    cases r with
    | nil => rfl
    | cons c r => simp [decNum, hr c (by simp)]
  | cons c ds ih =>
    intro acc
    have hc : isDigit c = true := isDigit_iff.2 (hd c (by simp))
    simp only [List.cons_append, decNum, hc, if_true, List.foldl_cons]
    exact ih (fun c h => hd c (by simp [h])) _

theorem foldl_decVal (ds : List Char) : ds.foldl (fun a c => 10 * a + (c.toNat - 48)) 0 = decVal ds := by
  rfl

/-- Specification: the value of hexadecimal digits, most significant first. -/
def hexOf (ns : List Nat) : Nat := ns.foldl (fun a n => 16 * a + n) 0

theorem hexNum_append {ds : List Char} {ns : List Nat} (h : ds.map hexVal = ns.map some) {r : List Char} (hr : ∀ c ∈ r.head?, hexVal c = none) :
    ∀ acc, hexNum acc (ds ++ r) = ns.foldl (fun a n => 16 * a + n) acc := by
  induction ds generalizing ns with
  | nil =>
    intro acc
    cases ns with
    | cons n ns => simp at h
    | nil =>
      cases r with
      | nil => rfl
      | cons c r => simp [hexNum, hr c (by simp)]
  | cons c ds ih =>
    intro acc
    cases ns with
    | nil => simp at h
    | cons n ns =>
      simp only [List.map_cons, List.cons.injEq] at h
      simp only [List.cons_append, hexNum, h.1, List.foldl_cons]
      exact ih h.2 _

theorem hexVal_lt {c : Char} {n : Nat} (h : hexVal c = some n) : n < 16 := by
  unfold hexVal at h
  have hl : ∀ a b : Char, a ≤ b ↔ a.toNat ≤ b.toNat := fun a b => Char.le_def
  simp only [hl] at h
  have e1 : '0'.toNat = 48 := rfl
  have e2 : '9'.toNat = 57 := rfl
  have e3 : 'a'.toNat = 97 := rfl
  have e4 : 'f'.toNat = 102 := rfl
  have e5 : 'A'.toNat = 65 := rfl
  have e6 : 'F'.toNat = 70 := rfl
  simp only [e1, e2, e3, e4, e5, e6] at h
  split at h
  · cases h; omega
  · split at h
    · cases h; omega
    · split at h
      · cases h; omega
      · cases h

theorem hexOf_lt : ∀ {ns : List Nat}, (∀ n ∈ ns, n < 16) → ∀ acc, ns.foldl (fun a n => 16 * a + n) acc < (acc + 1) * 16 ^ ns.length := by
  intro ns
  induction ns with
  | nil => intro _ acc; simp
  | cons n ns ih =>
    intro h acc
    have hn := h n (by simp)
    have := ih (fun m hm => h m (by simp [hm])) (16 * acc + n)
    simp only [List.foldl_cons, List.length_cons]
    refine Nat.lt_of_lt_of_le this ?_
    rw [Nat.pow_succ, Nat.mul_comm (16 ^ ns.length) 16, ← Nat.mul_assoc]
    exact Nat.mul_le_mul_right _ (by omega)

/-- A text that begins with a digit or a sign and contains only digits otherwise is not taken for a hexadecimal one. -/
theorem isHex_decimal {ds r : List Char} (hd : ∀ c ∈ ds, '0' ≤ c ∧ c ≤ '9') (hr : ∀ c ∈ r.head?, c ≠ 'x' ∧ c ≠ 'X') (hne : ds ≠ []) : isHex (ds ++ r) = false := by
  have hx : ∀ c : Char, '0' ≤ c ∧ c ≤ '9' → (c == 'x' || c == 'X') = false := by
    intro c hc
    simp only [Bool.or_eq_false_iff, beq_eq_false_iff_ne]
    constructor <;> rintro rfl <;> exact absurd hc (by decide)
  match ds with
  | [] => exact absurd rfl hne
  | [a] =>
    cases r with
    | nil => rfl
    | cons b r =>
      have := hr b (by simp)
      simp [isHex, this.1, this.2]
  | a :: b :: ds => simp only [List.cons_append, isHex, hx b (hd b (by simp)), Bool.and_false]

theorem dropWhile_space {s : List Char} (h : ∀ c ∈ s.head?, isSpace c = false) : s.dropWhile isSpace = s := by
  cases s with
  | nil => rfl
  | cons c s => simp [List.dropWhile, h c (by simp)]

theorem digit_facts {c : Char} (h : '0' ≤ c ∧ c ≤ '9') : isSpace c = false ∧ c ≠ '-' ∧ c ≠ '+' ∧ c ≠ '.' := by
  refine ⟨?_, ?_, ?_, ?_⟩
  · unfold isSpace
    simp only [Bool.or_eq_false_iff, beq_eq_false_iff_ne]
    refine ⟨⟨⟨⟨⟨?_, ?_⟩, ?_⟩, ?_⟩, ?_⟩, ?_⟩ <;> rintro rfl <;> exact absurd h (by decide)
  all_goals rintro rfl; exact absurd h (by decide)

/-- `strtoll` of a numeral followed by something that is not a digit. -/
theorem strtoll_pos {ds r : List Char} (hd : ∀ c ∈ ds, '0' ≤ c ∧ c ≤ '9') (hne : ds ≠ []) (hr : ∀ c ∈ r.head?, isDigit c = false) (hb : (decVal ds : Int) < 2 ^ 63) :
    strtoll (ds ++ r) = decVal ds := by
  obtain ⟨c, ds', rfl⟩ := List.exists_cons_of_ne_nil hne
  obtain ⟨f1, f2, f3, -⟩ := digit_facts (hd c (by simp))
  unfold strtoll
  rw [dropWhile_space (by simpa using f1)]
  have e : splitSign (c :: ds' ++ r) = (false, c :: ds' ++ r) := by simp [splitSign, f2, f3]
  dsimp only
  rw [e]
  dsimp only
  rw [decNum_append hd hr, foldl_decVal]
  simp only [Bool.false_eq_true, if_false]
  omega

theorem strtoll_neg {ds r : List Char} (hd : ∀ c ∈ ds, '0' ≤ c ∧ c ≤ '9') (hr : ∀ c ∈ r.head?, isDigit c = false) (hb : (decVal ds : Int) ≤ 2 ^ 63) :
    strtoll ('-' :: ds ++ r) = -(decVal ds : Int) := by
  unfold strtoll
  rw [dropWhile_space (by simp only [List.cons_append, List.head?_cons, Option.mem_def, Option.some.injEq]; rintro c rfl; decide)]
  have e : splitSign ('-' :: ds ++ r) = (true, ds ++ r) := by simp [splitSign]
  dsimp only
  rw [e]
  dsimp only
  rw [decNum_append hd hr, foldl_decVal]
  simp only [if_true]
  omega

/-! ## Theorems -/

/-- C154: a decimal numeral that fits in 64 bits (and has no period, nor a digit or an `x` right after it) is its number, as an integer and as a `double`. -/
theorem C154_decimal_partial (fp : FP D) (e : Entry D) {ds r : List Char} (hd : ∀ c ∈ ds, '0' ≤ c ∧ c ≤ '9') (hne : ds ≠ []) (hr : ∀ c ∈ r.head?, isDigit c = false ∧ c ≠ 'x' ∧ c ≠ 'X')
    (hp : '.' ∉ r) :
    ((decVal ds : Int) < 2 ^ 63 → set fp e (some (ds ++ r)) = some ⟨e.key, ds ++ r, decVal ds, fp.ofInt (decVal ds)⟩) ∧
    ((decVal ds : Int) ≤ 2 ^ 63 → set fp e (some ('-' :: ds ++ r)) = some ⟨e.key, '-' :: ds ++ r, -(decVal ds : Int), fp.ofInt (-(decVal ds : Int))⟩) := by
  have hdot : '.' ∉ ds := fun h => (digit_facts (hd _ h)).2.2.2 rfl
  constructor <;> intro hb
  · have e1 : isHex (ds ++ r) = false := isHex_decimal hd (fun c hc => (hr c hc).2) hne
    have e2 : (ds ++ r).contains '.' = false := by simp [hdot, hp]
    unfold set
    simp only [e1, e2, Bool.not_false, if_true, Bool.false_eq_true, if_false, strtoll_pos hd hne (fun c hc => (hr c hc).1) hb]
  · have e1 : isHex ('-' :: ds ++ r) = false := by
      simp only [List.cons_append]
      cases h : ds ++ r with
      | nil => rfl
      | cons a l => simp [isHex]
    have e2 : ('-' :: ds ++ r).contains '.' = false := by simp [hdot, hp]
    unfold set
    simp only [e1, e2, Bool.not_false, if_true, Bool.false_eq_true, if_false, strtoll_neg hd (fun c hc => (hr c hc).1) hb]

/-- C154: a hexadecimal numeral of up to sixteen digits is its number as an unsigned integer and as a `double`; the signed integer is the same 64 bits. Setting a null pointer afterwards changes nothing. -/
theorem C154_hex (fp : FP D) (e : Entry D) {ds r : List Char} {ns : List Nat} (hne : ns ≠ []) (hds : ds.map hexVal = ns.map some) (hl : ns.length ≤ 16) (hr : ∀ c ∈ r.head?, hexVal c = none)
    {x : Char} (hx : x = 'x' ∨ x = 'X') :
    ∃ e', set fp e (some ('0' :: x :: ds ++ r)) = some e' ∧ e'.sval = '0' :: x :: ds ++ r ∧ e'.dval = fp.ofInt (hexOf ns) ∧ toInt false 64 e' = hexOf ns ∧ -2 ^ 63 ≤ e'.ival ∧ e'.ival < 2 ^ 63 ∧ e'.key = e.key ∧ set fp e' none = some e' := by
  have h1 : isHex ('0' :: x :: ds ++ r) = true := by rcases hx with rfl | rfl <;> simp [isHex]
  obtain ⟨c, ds', rfl⟩ : ∃ c ds', ds = c :: ds' := by
    cases ds with
    | nil => cases ns with
      | nil => exact absurd rfl hne
      | cons n ns => simp at hds
    | cons c ds' => exact ⟨c, ds', rfl⟩
  have hc : (hexVal c).isSome = true := by
    cases ns with
    | nil => simp at hds
    | cons n ns => simp only [List.map_cons, List.cons.injEq] at hds; simp [hds.1]
  have h2 : dropHexPrefix ('0' :: x :: (c :: ds') ++ r) = (c :: ds') ++ r := by
    simp only [List.cons_append, dropHexPrefix, hc, and_true, true_and]
    rw [if_pos hx]
  have hb : hexOf ns < 2 ^ 64 := by
    have hn : ∀ n ∈ ns, n < 16 := by
      intro n hn
      have : some n ∈ (c :: ds').map hexVal := by rw [hds]; exact List.mem_map_of_mem hn
      obtain ⟨b, -, hb⟩ := List.mem_map.1 this
      exact hexVal_lt hb
    have h := hexOf_lt hn 0
    have : (16 : Nat) ^ ns.length ≤ 16 ^ 16 := Nat.pow_le_pow_right (by decide) hl
    unfold hexOf
    have e16 : (16 : Nat) ^ 16 = 2 ^ 64 := by decide
    omega
  have h3 : strtoull16 ('0' :: x :: (c :: ds') ++ r) = hexOf ns := by
    unfold strtoull16
    rw [h2, hexNum_append hds hr]
    show min (hexOf ns) _ = _
    omega
  refine ⟨{ e with sval := '0' :: x :: (c :: ds') ++ r, ival := toI64 (hexOf ns), dval := fp.ofInt (hexOf ns) }, ?_, rfl, rfl, ?_, ?_, ?_, rfl, rfl⟩
  · unfold set
    simp only [h1, if_true, h3]
  · unfold toInt toI64
    dsimp only
    simp only [Bool.false_eq_true, false_and, if_false]
    split <;> omega
  · dsimp only; unfold toI64; split <;> omega
  · dsimp only; unfold toI64; split <;> omega

/-- C155: an integer that is set comes back from the integer, from the `double` and from the text: storing the text again changes nothing. -/
theorem C155_int (fp : FP D) (e : Entry D) {i : Int} (h1 : -2 ^ 63 ≤ i) (h2 : i < 2 ^ 63) :
    (setInt fp e i).ival = i ∧ (setInt fp e i).dval = fp.ofInt i ∧ set fp (setInt fp e i) (some (setInt fp e i).sval) = some (setInt fp e i) ∧
    (∀ e' : Entry D, e'.key = e.key → set fp e' (some (setInt fp e i).sval) = some (setInt fp e i)) := by
  have key : ∀ e' : Entry D, e'.key = e.key → set fp e' (some (setInt fp e i).sval) = some (setInt fp e i) := by
    intro e' hk
    obtain ⟨⟨d1, d2⟩, d3, -⟩ := Json.digits_spec i.natAbs
    unfold setInt
    dsimp only
    unfold decimal
    by_cases hi : i < 0
    · rw [if_pos hi]
      have := (C154_decimal_partial fp e' d2 d1 (r := []) (by simp) (by simp)).2 (by rw [d3]; omega)
      rw [List.append_nil] at this
      rw [this, d3, hk]
      have e1 : -((i.natAbs : Nat) : Int) = i := by omega
      rw [e1]
    · rw [if_neg hi]
      have := (C154_decimal_partial fp e' d2 d1 (r := []) (by simp) (by simp)).1 (by rw [d3]; omega)
      rw [List.append_nil] at this
      rw [this, d3, hk]
      have e1 : ((i.natAbs : Nat) : Int) = i := by omega
      rw [e1]
  exact ⟨rfl, rfl, key _ rfl, key⟩

/-- C155: the conversion to an integer type gives the number itself if it fits, and the same low bits otherwise. -/
theorem C155_convert (e : Entry D) {w : Nat} (hw : 1 ≤ w) :
    (0 ≤ e.ival → e.ival < 2 ^ w → toInt false w e = e.ival) ∧ (-2 ^ (w - 1) ≤ e.ival → e.ival < 2 ^ (w - 1) → toInt true w e = e.ival) ∧
    (∀ sg, (2 ^ w : Int) ∣ toInt sg w e - e.ival) ∧ (toBool e = true ↔ e.ival ≠ 0) := by
  have hp : (2 : Int) ^ w = 2 * 2 ^ (w - 1) := by
    obtain ⟨k, rfl⟩ : ∃ k, w = k + 1 := ⟨w - 1, by omega⟩
    rw [Int.pow_succ, Nat.add_sub_cancel]; omega
  have hpos : (0 : Int) < 2 ^ (w - 1) := Int.pow_pos (by decide)
  unfold toInt
  dsimp only
  refine ⟨?_, ?_, ?_, ?_⟩
  · intro a b
    simp only [Bool.false_eq_true, false_and, if_false]
    exact Int.emod_eq_of_lt a b
  · intro a b
    simp only [true_and]
    rw [hp]
    by_cases hi : 0 ≤ e.ival
    · rw [Int.emod_eq_of_lt hi (by omega), if_neg (by omega)]
    · have : e.ival % (2 * 2 ^ (w - 1)) = e.ival + 2 * 2 ^ (w - 1) := by
        rw [← Int.add_emod_right]
        exact Int.emod_eq_of_lt (by omega) (by omega)
      rw [this, if_pos (by omega)]
      omega
  · intro sg
    have h := Int.emod_add_mul_ediv e.ival (2 ^ w)
    split
    · exact ⟨-(e.ival / 2 ^ w) - 1, by rw [Int.mul_sub, Int.mul_neg]; omega⟩
    · exact ⟨-(e.ival / 2 ^ w), by rw [Int.mul_neg]; omega⟩
  · simp [toBool]

/-- C155: equality of entries is an equivalence (if that of the numbers is) that ignores the case of letters, and a copy is equal to its original. -/
theorem C155_equality [BEq D] [EquivBEq D] (a b c : Entry D) : eqv a a = true ∧ eqv a b = eqv b a ∧ (eqv a b = true → eqv b c = true → eqv a c = true) ∧
    (eqv a b = true ↔ a.key.map Char.toLower = b.key.map Char.toLower ∧ a.sval.map Char.toLower = b.sval.map Char.toLower ∧ a.ival = b.ival ∧ (a.dval == b.dval) = true) := by
  have h : ∀ a b : Entry D, eqv a b = true ↔ a.key.map Char.toLower = b.key.map Char.toLower ∧ a.sval.map Char.toLower = b.sval.map Char.toLower ∧ a.ival = b.ival ∧ (a.dval == b.dval) = true := by
    intro a b
    simp [eqv, stricmpEq, and_assoc]
  refine ⟨(h a a).2 ⟨rfl, rfl, rfl, BEq.rfl⟩, ?_, ?_, h a b⟩
  · rw [Bool.eq_iff_iff, h, h]
    constructor
    · rintro ⟨p, q, r, s⟩; exact ⟨p.symm, q.symm, r.symm, BEq.symm s⟩
    · rintro ⟨p, q, r, s⟩; exact ⟨p.symm, q.symm, r.symm, BEq.symm s⟩
  · rw [h, h, h]
    rintro ⟨p, q, r, s⟩ ⟨p', q', r', s'⟩
    exact ⟨p.trans p', q.trans q', r.trans r', BEq.trans s s'⟩

/-- Doubles that remember the text they were read from. -/
def showFP : FP String := ⟨fun i => toString i, fun s => if s = "1e300." then none else some 0, fun s => String.ofList s⟩

/-- C154 fails: an exponent without a period is cut off, a sign before `0x` gives zero, a number with a period that does not fit in 64 bits is undefined behaviour, even if only the text or the
`double` is wanted. -/
theorem C154_counterexample :
    (set showFP ⟨[], [], 0, ""⟩ (some "1e5".toList)).map (fun e => (e.ival, e.dval)) = some (1, "1") ∧
    (set showFP ⟨[], [], 0, ""⟩ (some "-0x10".toList)).map (fun e => (e.ival, e.dval)) = some (0, "0") ∧
    (set showFP ⟨[], [], 0, ""⟩ (some "0x10".toList)).map (fun e => (e.ival, e.dval)) = some (16, "16") ∧
    (set showFP ⟨[], [], 0, ""⟩ (some "1e300.".toList)).map (fun e => (e.ival, e.dval)) = none := by decide +kernel

example : (set showFP ⟨['k'], [], 0, ""⟩ (some "-9223372036854775808 ; low".toList)).map (fun e => (e.ival, e.dval)) = some (-2 ^ 63, "-9223372036854775808") ∧
    (set showFP ⟨['k'], [], 0, ""⟩ (some "0xFFFFFFFFFFFFFFFE".toList)).map (fun e => (e.ival, e.dval, toInt false 64 e)) = some (-2, "18446744073709551614", 18446744073709551614) ∧
    toInt true 8 (⟨[], [], 200, ()⟩ : Entry Unit) = -56 := by decide +kernel

end Verif.IniEnt
