import Verif.Arith.Date
import Verif.Toml.Model
/-!
# Dates in TOML documents (C152, C153), `/repo/include/bss-util/TOML.h:402-452`, `777-788`

A `system_clock::time_point` is a 64-bit count of ticks since the epoch, a billion of them a second (libstdc++). The parts of the standard library the code calls are modelled from their
documentation and from libstdc++, and are part of the trusted base:

* `time_get::get` with a format walks over the format; a field reads exactly its number of digits and fails outside its range; it sets `eofbit` when a field ends at the end of the
  input. The code only asks if the outcome is `goodbit`. What is left in the stream after a failure is not specified here, and no theorem speaks of it.
* `gmtime` gives the day of the proleptic Gregorian calendar and the time of that day; `put_time` prints the year with at least four digits, the other fields with two.
* `to_time_t` drops the fraction of a second (rounding towards zero).
-/

namespace Verif.Toml
open Verif.Arith

/-! ## The calendar (specification of `gmtime`) -/

/-- The day before. -/
def prevDay (t : Date) : Date :=
  if 1 < t.d then ⟨t.y, t.m, t.d - 1⟩
  else if 1 < t.m then ⟨t.y, t.m - 1, daysInMonth t.y (t.m - 1)⟩
  else ⟨t.y - 1, 12, 31⟩

def before (t : Date) : Nat → Date
  | 0 => t
  | n + 1 => prevDay (before t n)

/-- The date `n` days after (before, if negative) 1970-01-01: what `gmtime` puts in `tm_year`, `tm_mon`, `tm_mday`. -/
def civil : Int → Date
  | .ofNat n => Date.after ⟨1970, 1, 1⟩ n
  | .negSucc n => before ⟨1970, 1, 1⟩ (n + 1)

/-! ## Model -/

/-- Ticks of the system clock in a second. -/
def ticks : Int := 1000000000

/-- `std::tm` as far as it is used; the month and the year are counted as people do (`t.tm_mon + 1`, `t.tm_year + 1900`). A value-initialized `tm` is 1900-01-00. -/
structure Tm where
  year : Int := 1900
  mon : Nat := 1
  mday : Nat := 0
  hour : Nat := 0
  min : Nat := 0
  sec : Nat := 0
  deriving DecidableEq, Repr

inductive Fld where
  | Y | m | d | H | M | S
  deriving DecidableEq

/-- The number of digits and the range of a field of `time_get` (trusted). -/
def Fld.range : Fld → Nat × Nat × Nat
  | .Y => (4, 0, 9999)
  | .m => (2, 1, 12)
  | .d => (2, 1, 31)
  | .H => (2, 0, 23)
  | .M => (2, 0, 59)
  | .S => (2, 0, 60)

def Fld.set (f : Fld) (v : Nat) (t : Tm) : Tm :=
  match f with
  | .Y => { t with year := v }
  | .m => { t with mon := v }
  | .d => { t with mday := v }
  | .H => { t with hour := v }
  | .M => { t with min := v }
  | .S => { t with sec := v }

/-- A format: fields and literal characters. -/
inductive Item where
  | fld (f : Fld)
  | lit (c : Char)

/-- `w` digits (trusted). -/
def readDigits : Nat → Nat → List Char → Option (Nat × List Char)
  | 0, acc, s => some (acc, s)
  | _ + 1, _, [] => none
  | w + 1, acc, c :: s => if Json.isDigit c then readDigits w (acc * 10 + (c.toNat - 48)) s else none

/-- `std::time_get<char>::get` with a format (trusted). The first component is `err == std::ios_base::goodbit`. -/
def timeGet : List Item → List Char → Tm → Bool × Tm × List Char
  | [], s, t => (true, t, s)
  | _ :: _, [], t => (false, t, [])
  | .lit c :: fmt, x :: s, t => if x = c then timeGet fmt s t else (false, t, x :: s)
  | .fld f :: fmt, x :: s, t =>
    match readDigits f.range.1 0 (x :: s) with
    | none => (false, t, s)
    | some (v, s') =>
      if f.range.2.1 ≤ v ∧ v ≤ f.range.2.2 then
        if s' = [] then (false, f.set v t, []) else timeGet fmt s' (f.set v t)
      else (false, t, s')

/-- `DATE`, `TIME` and `ZONE`, `TOML.h:406-408`. -/
def fmtDate : List Item := [.fld .Y, .lit '-', .fld .m, .lit '-', .fld .d]
def fmtTime : List Item := [.fld .H, .lit ':', .fld .M, .lit ':', .fld .S]
def fmtZone : List Item := [.fld .H, .lit ':', .fld .M]

/-- The conversion of a duration in seconds to the 64-bit count of the clock; overflow is undefined behaviour (`none`). -/
def toPoint (secs : Int) : Option Int := if -2 ^ 63 ≤ secs * ticks ∧ secs * ticks < 2 ^ 63 then some (secs * ticks) else none

/-- `ParseTOMLBase<time_point>`, `TOML.h:402-452`: the new value of `target`, and what is left of the stream. -/
def readTime (target : Int) (s0 : List Char) : Option (Int × List Char) :=
  let (ok, t, s) := timeGet fmtDate (eatWs s0) {}
  if !ok then some (target, s)
  else
    let day := daysFromCivil t.year t.mon t.mday
    match s with
    | 'T' :: s1 =>
      let (ok2, t, s2) := timeGet fmtTime s1 t
      if !ok2 then (toPoint (day * 86400)).map (·, s2)
      else
        match s2 with
        | '+' :: s3 =>
          let (ok3, tz, s4) := timeGet fmtZone s3 {}
          let offset : Int := if ok3 then tz.hour * 60 + tz.min else 0
          (toPoint (day * 86400 + t.hour * 3600 + t.min * 60 + t.sec - offset * 60)).map (·, s4)
        | '-' :: s3 =>
          let (ok3, tz, s4) := timeGet fmtZone s3 {}
          let offset : Int := if ok3 then -((tz.hour : Int) * 60 + tz.min) else 0
          (toPoint (day * 86400 + t.hour * 3600 + t.min * 60 + t.sec - offset * 60)).map (·, s4)
        | 'Z' :: s3 => (toPoint (day * 86400)).map (·, s3)
        | _ => (toPoint (day * 86400)).map (·, s2)
    | _ => (toPoint (day * 86400)).map (·, s)

/-- A decimal digit. -/
def digit (n : Nat) : Char := Char.ofNat (48 + n % 10)

/-- Two and four digits, as `put_time` prints them (trusted). -/
def pad2 (n : Nat) : List Char := [digit (n / 10), digit n]
def pad4 (n : Nat) : List Char := [digit (n / 1000), digit (n / 100), digit (n / 10), digit n]

/-- `%Y` (trusted): other years are never printed, the clock cannot hold them. -/
def showYear (y : Int) : List Char := if 1000 ≤ y ∧ y ≤ 9999 then pad4 y.toNat else (toString y).toList

/-- The value written for a time point, `TOML.h:783-785`. -/
def writeTime (t : Int) : List Char :=
  let time := Int.tdiv t ticks
  let date := civil (time / 86400)
  let sod := (time % 86400).toNat
  showYear date.y ++ '-' :: pad2 date.m ++ '-' :: pad2 date.d ++ 'T' :: pad2 (sod / 3600) ++ ':' :: pad2 (sod / 60 % 60) ++ ':' :: pad2 (sod % 60) ++ "+00:00".toList

/-! ## The calendar agrees with the day count -/

theorem dim_pos (y : Int) (m : Nat) : 28 ≤ daysInMonth y m ∧ daysInMonth y m ≤ 31 := by
  unfold daysInMonth
  repeat' split
  all_goals omega

theorem prev_valid {t : Date} (h : t.Valid) : (prevDay t).Valid := by
  obtain ⟨y, m, d⟩ := t
  obtain ⟨h1, h2, h3, h4⟩ := h
  simp only at h1 h2 h3 h4
  unfold prevDay
  dsimp only
  split
  · exact ⟨h1, h2, by dsimp only; omega, by dsimp only; omega⟩
  · split
    · have := dim_pos y (m - 1)
      exact ⟨by dsimp only; omega, by dsimp only; omega, by dsimp only; omega, by simp⟩
    · exact ⟨by simp, by simp, by simp, by simp [daysInMonth]⟩

theorem next_prev {t : Date} (h : t.Valid) : (prevDay t).next = t := by
  obtain ⟨y, m, d⟩ := t
  obtain ⟨h1, h2, h3, h4⟩ := h
  simp only at h1 h2 h3 h4
  unfold prevDay
  dsimp only
  split
  · unfold Date.next
    dsimp only
    rw [if_pos (by omega)]
    congr
    omega
  · split
    · unfold Date.next
      dsimp only
      rw [if_neg (by omega), if_pos (by omega)]
      have e1 : m - 1 + 1 = m := by omega
      have e2 : d = 1 := by omega
      rw [e1, e2]
    · have e1 : m = 1 := by omega
      have e2 : d = 1 := by omega
      subst e1 e2
      simp [Date.next, daysInMonth]

theorem after_valid (n : Nat) : (Date.after ⟨1970, 1, 1⟩ n).Valid := by
  induction n with
  | zero => exact ⟨by decide, by decide, by decide, by decide⟩
  | succ n ih => exact next_valid _ ih

theorem before_valid (n : Nat) : (before ⟨1970, 1, 1⟩ n).Valid := by
  induction n with
  | zero => exact ⟨by decide, by decide, by decide, by decide⟩
  | succ n ih => exact prev_valid ih

theorem before_count (n : Nat) : daysFromCivil (before ⟨1970, 1, 1⟩ n).y (before ⟨1970, 1, 1⟩ n).m (before ⟨1970, 1, 1⟩ n).d = -(n : Int) := by
  induction n with
  | zero => decide
  | succ n ih =>
    have h := C54_next (prevDay (before ⟨1970, 1, 1⟩ n)) (prev_valid (before_valid n))
    rw [next_prev (before_valid n), ih] at h
    have e : before ⟨1970, 1, 1⟩ (n + 1) = prevDay (before ⟨1970, 1, 1⟩ n) := rfl
    rw [e]
    omega

theorem civil_valid (n : Int) : (civil n).Valid := by
  cases n with
  | ofNat n => exact after_valid n
  | negSucc n => exact before_valid (n + 1)

theorem civil_days (n : Int) : daysFromCivil (civil n).y (civil n).m (civil n).d = n := by
  cases n with
  | ofNat n =>
    have h := C54_count ⟨1970, 1, 1⟩ ⟨by decide, by decide, by decide, by decide⟩ n
    have e : daysFromCivil 1970 1 1 = 0 := by decide
    simp only [e] at h
    have e' : civil (.ofNat n) = Date.after ⟨1970, 1, 1⟩ n := rfl
    rw [e', h]; simp
  | negSucc n =>
    have e' : civil (.negSucc n) = before ⟨1970, 1, 1⟩ (n + 1) := rfl
    rw [e', before_count]; omega

/-- The years the calendar reaches within given day counts. -/
theorem civil_year {n : Int} (h1 : daysFromCivil 1000 1 1 ≤ n) (h2 : n < daysFromCivil 10000 1 1) : 1000 ≤ (civil n).y ∧ (civil n).y ≤ 9999 := by
  have hv := civil_valid n
  have hd := civil_days n
  have v1 : (⟨1000, 1, 1⟩ : Date).Valid := ⟨by decide, by decide, by decide, by decide⟩
  have v2 : (⟨10000, 1, 1⟩ : Date).Valid := ⟨by decide, by decide, by decide, by decide⟩
  constructor
  · refine Classical.byContradiction fun hc => ?_
    have := C54_monotone (civil n) ⟨1000, 1, 1⟩ hv v1 (Or.inl (by dsimp only; omega))
    rw [hd] at this
    dsimp only at this
    omega
  · refine Classical.byContradiction fun hc => ?_
    by_cases he : (civil n).y = 10000 ∧ (civil n).m = 1 ∧ (civil n).d = 1
    · rw [he.1, he.2.1, he.2.2] at hd
      omega
    · obtain ⟨p1, p2, p3, p4⟩ := hv
      have := C54_monotone ⟨10000, 1, 1⟩ (civil n) v2 ⟨p1, p2, p3, p4⟩ (by
        dsimp only
        by_cases q1 : (civil n).y = 10000
        · refine Or.inr ⟨q1.symm, ?_⟩
          by_cases q2 : (civil n).m = 1
          · exact Or.inr ⟨q2.symm, by omega⟩
          · exact Or.inl (by omega)
        · exact Or.inl (by omega))
      rw [hd] at this
      dsimp only at this
      omega

/-! ## Digits -/

theorem digit_ok (n : Nat) : Json.isDigit (digit n) = true ∧ (digit n).toNat - 48 = n % 10 := by
  have h : n % 10 < 10 := Nat.mod_lt _ (by omega)
  unfold digit
  generalize n % 10 = k at h
  have : k = 0 ∨ k = 1 ∨ k = 2 ∨ k = 3 ∨ k = 4 ∨ k = 5 ∨ k = 6 ∨ k = 7 ∨ k = 8 ∨ k = 9 := by omega
  rcases this with rfl | rfl | rfl | rfl | rfl | rfl | rfl | rfl | rfl | rfl <;> decide

theorem read_pad2 {n : Nat} (h : n < 100) (s : List Char) : readDigits 2 0 (pad2 n ++ s) = some (n, s) := by
  simp only [pad2, List.cons_append, List.nil_append, readDigits, (digit_ok _).1, (digit_ok _).2, if_true]
  congr 2
  omega

theorem read_pad4 {n : Nat} (h : n < 10000) (s : List Char) : readDigits 4 0 (pad4 n ++ s) = some (n, s) := by
  simp only [pad4, List.cons_append, List.nil_append, readDigits, (digit_ok _).1, (digit_ok _).2, if_true]
  congr 2
  omega

theorem get_pad2 {f : Fld} (hf : f.range.1 = 2) {n : Nat} (h1 : f.range.2.1 ≤ n) (h2 : n ≤ f.range.2.2) (h3 : n < 100) {fmt : List Item} {s : List Char} (hs : s ≠ []) (t : Tm) :
    timeGet (.fld f :: fmt) (pad2 n ++ s) t = timeGet fmt s (f.set n t) := by
  have e := read_pad2 h3 s
  simp only [pad2, List.cons_append, List.nil_append] at e ⊢
  simp only [timeGet, hf, e, if_pos (And.intro h1 h2), if_neg hs]

theorem get_last2 {f : Fld} (hf : f.range.1 = 2) {n : Nat} (h1 : f.range.2.1 ≤ n) (h2 : n ≤ f.range.2.2) (h3 : n < 100) {fmt : List Item} (t : Tm) :
    timeGet (.fld f :: fmt) (pad2 n) t = (false, f.set n t, []) := by
  have e := read_pad2 h3 []
  simp only [pad2, List.cons_append, List.nil_append] at e ⊢
  simp only [timeGet, hf, e, if_pos (And.intro h1 h2), if_true]

theorem get_pad4 {n : Nat} (h3 : n < 10000) {fmt : List Item} {s : List Char} (hs : s ≠ []) (t : Tm) :
    timeGet (.fld .Y :: fmt) (pad4 n ++ s) t = timeGet fmt s (Fld.Y.set n t) := by
  have e := read_pad4 h3 s
  have h2 : n ≤ 9999 := by omega
  simp only [pad4, List.cons_append, List.nil_append] at e ⊢
  simp only [timeGet, Fld.range, e, Nat.zero_le, h2, true_and, if_true, if_neg hs]

theorem get_lit (c : Char) (fmt : List Item) (s : List Char) (t : Tm) : timeGet (.lit c :: fmt) (c :: s) t = timeGet fmt s t := by
  simp [timeGet]

/-- The date part of a text. -/
def dateText (d : Date) : List Char := pad4 d.y.toNat ++ '-' :: (pad2 d.m ++ '-' :: pad2 d.d)

def timeText (H M S : Nat) : List Char := pad2 H ++ ':' :: (pad2 M ++ ':' :: pad2 S)

theorem get_date {d : Date} (hv : d.Valid) (h1 : 0 ≤ d.y) (h2 : d.y ≤ 9999) {s : List Char} (hs : s ≠ []) (t : Tm) :
    timeGet fmtDate (dateText d ++ s) t = (true, { t with year := d.y, mon := d.m, mday := d.d }, s) := by
  obtain ⟨p1, p2, p3, p4⟩ := hv
  have := dim_pos d.y d.m
  simp only [fmtDate, dateText, List.append_assoc, List.cons_append]
  rw [get_pad4 (by omega) (by simp), get_lit, get_pad2 rfl (by simp only [Fld.range]; omega) (by simp only [Fld.range]; omega) (by omega) (by simp), get_lit,
    get_pad2 rfl (by simp only [Fld.range]; omega) (by simp only [Fld.range]; omega) (by omega) hs]
  simp only [timeGet, Fld.set]
  have : ((d.y.toNat : Nat) : Int) = d.y := Int.toNat_of_nonneg h1
  rw [this]

theorem get_time {H M S : Nat} (h1 : H < 24) (h2 : M < 60) (h3 : S ≤ 60) {s : List Char} (hs : s ≠ []) (t : Tm) :
    timeGet fmtTime (timeText H M S ++ s) t = (true, { t with hour := H, min := M, sec := S }, s) := by
  simp only [fmtTime, timeText, List.append_assoc, List.cons_append]
  rw [get_pad2 rfl (by simp [Fld.range]) (by simp only [Fld.range]; omega) (by omega) (by simp), get_lit,
    get_pad2 rfl (by simp [Fld.range]) (by simp only [Fld.range]; omega) (by omega) (by simp), get_lit,
    get_pad2 rfl (by simp [Fld.range]) (by simp only [Fld.range]; omega) (by omega) hs]
  simp only [timeGet, Fld.set]

theorem get_zone {H M : Nat} (h1 : H < 24) (h2 : M < 60) {s : List Char} (hs : s ≠ []) (t : Tm) :
    timeGet fmtZone (pad2 H ++ ':' :: pad2 M ++ s) t = (true, { t with hour := H, min := M }, s) := by
  simp only [fmtZone, List.append_assoc, List.cons_append]
  rw [get_pad2 rfl (by simp [Fld.range]) (by simp only [Fld.range]; omega) (by omega) (by simp), get_lit,
    get_pad2 rfl (by simp [Fld.range]) (by simp only [Fld.range]; omega) (by omega) hs]
  simp only [timeGet, Fld.set]

theorem get_zone_end {H M : Nat} (h1 : H < 24) (h2 : M < 60) (t : Tm) :
    timeGet fmtZone (pad2 H ++ ':' :: pad2 M) t = (false, { t with hour := H, min := M }, []) := by
  simp only [fmtZone]
  rw [get_pad2 rfl (by simp [Fld.range]) (by simp only [Fld.range]; omega) (by omega) (by simp), get_lit,
    get_last2 rfl (by simp [Fld.range]) (by simp only [Fld.range]; omega) (by omega)]
  simp only [Fld.set]

theorem eat_digit (n : Nat) (s : List Char) : eatWs (digit n :: s) = digit n :: s := by
  have h : n % 10 < 10 := Nat.mod_lt _ (by omega)
  have hb : isBlank (digit n) = false := by
    unfold digit
    generalize n % 10 = k at h
    have : k = 0 ∨ k = 1 ∨ k = 2 ∨ k = 3 ∨ k = 4 ∨ k = 5 ∨ k = 6 ∨ k = 7 ∨ k = 8 ∨ k = 9 := by omega
    rcases this with rfl | rfl | rfl | rfl | rfl | rfl | rfl | rfl | rfl | rfl <;> decide
  simp [eatWs, List.dropWhile, hb]

/-- Blanks before a date are skipped. -/
theorem eat_date (w : List Char) (hw : ∀ c ∈ w, isBlank c = true) (d : Date) (s : List Char) : eatWs (w ++ (dateText d ++ s)) = dateText d ++ s := by
  induction w with
  | nil => simp only [List.nil_append, dateText, pad4, List.cons_append, eat_digit]
  | cons c w ih =>
    have hc := hw c (by simp)
    simp only [eatWs, List.cons_append, List.dropWhile, hc]
    exact ih fun c h => hw c (by simp [h])

/-! ## Theorems -/

/-- Specification: the seconds from the epoch to a moment of day `n` given as a local time with an offset in minutes. -/
def moment (n : Int) (H M S : Nat) (offset : Int) : Int := n * 86400 + H * 3600 + M * 60 + S - offset * 60

def fits (secs : Int) : Prop := -2 ^ 63 ≤ secs * ticks ∧ secs * ticks < 2 ^ 63

theorem toPoint_ok {secs : Int} (h : fits secs) : toPoint secs = some (secs * ticks) := by
  unfold toPoint; exact if_pos h

/-- C153: a date and time with a numeric offset is the right moment, if anything follows it in the document. -/
theorem C153_offset_partial (target : Int) (w : List Char) (hw : ∀ c ∈ w, isBlank c = true) (n : Int) (hy : 0 ≤ (civil n).y ∧ (civil n).y ≤ 9999) {H M S oh om : Nat} (h1 : H < 24) (h2 : M < 60)
    (h3 : S ≤ 60) (h4 : oh < 24) (h5 : om < 60) {rest : List Char} (hr : rest ≠ []) :
    (fits (moment n H M S (oh * 60 + om)) →
      readTime target (w ++ (dateText (civil n) ++ 'T' :: (timeText H M S ++ '+' :: (pad2 oh ++ ':' :: pad2 om ++ rest)))) = some (moment n H M S (oh * 60 + om) * ticks, rest)) ∧
    (fits (moment n H M S (-(oh * 60 + om))) →
      readTime target (w ++ (dateText (civil n) ++ 'T' :: (timeText H M S ++ '-' :: (pad2 oh ++ ':' :: pad2 om ++ rest)))) = some (moment n H M S (-(oh * 60 + om)) * ticks, rest)) := by
  constructor
  all_goals
    intro hf
    unfold readTime
    rw [eat_date w hw, get_date (civil_valid n) hy.1 hy.2 (by simp)]
    simp only [Bool.not_true, Bool.false_eq_true, if_false]
    rw [get_time h1 h2 h3 (by simp)]
    simp only [Bool.not_true, Bool.false_eq_true, if_false, get_zone h4 h5 hr, if_true, civil_days]
    unfold moment at hf ⊢
    rw [toPoint_ok hf]
    rfl

/-- C153: a date alone is the midnight that begins it, if anything follows it in the document. -/
theorem C153_date_partial (target : Int) (w : List Char) (hw : ∀ c ∈ w, isBlank c = true) (n : Int) (hy : 0 ≤ (civil n).y ∧ (civil n).y ≤ 9999) (hf : fits (moment n 0 0 0 0))
    {c : Char} (hc : c ≠ 'T') (rest : List Char) : readTime target (w ++ (dateText (civil n) ++ c :: rest)) = some (moment n 0 0 0 0 * ticks, c :: rest) := by
  unfold readTime
  rw [eat_date w hw, get_date (civil_valid n) hy.1 hy.2 (by simp)]
  simp only [Bool.not_true, Bool.false_eq_true, if_false, civil_days]
  have e : moment n 0 0 0 0 = n * 86400 := by simp [moment]
  rw [e] at hf ⊢
  split
  · next h => cases h; exact absurd rfl hc
  · rw [toPoint_ok hf]; rfl

/-- C153: text that does not begin with a digit is no date and leaves the value as it was. -/
theorem C153_other (target : Int) (w : List Char) (hw : ∀ c ∈ w, isBlank c = true) {c : Char} (hc : isBlank c = false) (hd : Json.isDigit c = false) (rest : List Char) :
    readTime target (w ++ c :: rest) = some (target, rest) := by
  have e : eatWs (w ++ c :: rest) = c :: rest := by
    unfold eatWs
    induction w with
    | nil => simp [List.dropWhile, hc]
    | cons a w ih =>
      rw [List.cons_append, List.dropWhile_cons, hw a (by simp)]
      exact ih (fun b hb => hw b (by simp [hb]))
  unfold readTime
  rw [e]
  simp [timeGet, fmtDate, readDigits, Fld.range, hd]

example : isBlank '"' = false ∧ Json.isDigit '"' = false := by decide

/-- C153 fails for times in UTC (`Z`): whatever the time of the day, the result is midnight. -/
theorem C153_zulu_false (target : Int) (n : Int) (hy : 0 ≤ (civil n).y ∧ (civil n).y ≤ 9999) (hf : fits (moment n 0 0 0 0)) {H M S : Nat} (h1 : H < 24) (h2 : M < 60) (h3 : S ≤ 60) (rest : List Char) :
    readTime target (dateText (civil n) ++ 'T' :: (timeText H M S ++ 'Z' :: rest)) = some (moment n 0 0 0 0 * ticks, rest) := by
  unfold readTime
  have e := eat_date [] (by simp) (civil n) ('T' :: (timeText H M S ++ 'Z' :: rest))
  rw [List.nil_append] at e
  rw [e, get_date (civil_valid n) hy.1 hy.2 (by simp)]
  simp only [Bool.not_true, Bool.false_eq_true, if_false]
  rw [get_time h1 h2 h3 (by simp)]
  simp only [Bool.not_true, Bool.false_eq_true, if_false, civil_days]
  have e : moment n 0 0 0 0 = n * 86400 := by simp [moment]
  rw [e] at hf ⊢
  rw [toPoint_ok hf]; rfl

/-- C153 fails for an offset at the very end of the document: it is ignored. -/
theorem C153_end_false (target : Int) (n : Int) (hy : 0 ≤ (civil n).y ∧ (civil n).y ≤ 9999) {H M S oh om : Nat} (hf : fits (moment n H M S 0)) (h1 : H < 24) (h2 : M < 60) (h3 : S ≤ 60)
    (h4 : oh < 24) (h5 : om < 60) :
    readTime target (dateText (civil n) ++ 'T' :: (timeText H M S ++ '+' :: (pad2 oh ++ ':' :: pad2 om))) = some (moment n H M S 0 * ticks, []) := by
  unfold readTime
  have e := eat_date [] (by simp) (civil n) ('T' :: (timeText H M S ++ '+' :: (pad2 oh ++ ':' :: pad2 om)))
  rw [List.nil_append] at e
  rw [e, get_date (civil_valid n) hy.1 hy.2 (by simp)]
  simp only [Bool.not_true, Bool.false_eq_true, if_false]
  rw [get_time h1 h2 h3 (by simp)]
  simp only [Bool.not_true, Bool.false_eq_true, if_false, get_zone_end h4 h5, civil_days]
  unfold moment at hf ⊢
  rw [toPoint_ok hf]; rfl

/-- C153 fails: a time in UTC loses its time of day, a fraction of a second loses the time of day and the offset, an offset or a date at the end of the document is ignored, a day that does not
exist is accepted, and a date the clock cannot hold is undefined behaviour. -/
theorem C153_counterexample :
    readTime 7 "1970-01-02T03:04:05Z\n".toList = some (86400 * ticks, ['\n']) ∧
    readTime 7 "1970-01-02T03:04:05.5-07:00\n".toList = some (86400 * ticks, ".5-07:00\n".toList) ∧
    readTime 7 "1970-01-01T05:00:00+05:00".toList = some (18000 * ticks, []) ∧
    readTime 7 "1970-01-01T05:00:00+05:00\n".toList = some (0, ['\n']) ∧
    readTime 7 "1970-01-02".toList = some (7, []) ∧
    readTime 7 "1970-02-31\n".toList = readTime 7 "1970-03-03\n".toList ∧
    readTime 7 "2300-01-01\n".toList = none := by decide +kernel

theorem showYear_eq {y : Int} (h1 : 1000 ≤ y) (h2 : y ≤ 9999) : showYear y = pad4 y.toNat := by
  unfold showYear; exact if_pos ⟨h1, h2⟩

/-- C152: a time point written to a TOML document and read back is the same time point without its fraction of a second, whatever follows it; nothing overflows. -/
theorem C152_roundtrip (t : Int) (h1 : -2 ^ 63 ≤ t) (h2 : t < 2 ^ 63) (target : Int) (rest : List Char) :
    readTime target (writeTime t ++ rest) = some (Int.tdiv t ticks * ticks, rest) := by
  have hb : -9223372036 ≤ Int.tdiv t ticks ∧ Int.tdiv t ticks ≤ 9223372036 := by
    unfold ticks
    rw [Int.tdiv_eq_ediv]
    have : Int.sign 1000000000 = 1 := by decide
    rw [this]
    constructor
    · split <;> omega
    · split <;> omega
  have hfit : fits (Int.tdiv t ticks) := by
    unfold fits ticks at *
    have := Int.mul_tdiv_add_tmod t 1000000000
    have s1 := Int.tmod_nonneg (a := t) 1000000000
    have s2 : t ≤ 0 → Int.tmod t 1000000000 ≤ 0 := fun h => by
      have := Int.tmod_nonneg (a := -t) 1000000000 (by omega)
      rw [Int.neg_tmod] at this
      omega
    constructor <;> omega
  unfold writeTime
  dsimp only
  generalize Int.tdiv t ticks = T at *
  have hd : T / 86400 * 86400 + T % 86400 = T := by omega
  have hs : 0 ≤ T % 86400 ∧ T % 86400 < 86400 := by omega
  have hsn : ((T % 86400).toNat : Int) = T % 86400 := Int.toNat_of_nonneg hs.1
  have hn : -110000 ≤ T / 86400 ∧ T / 86400 ≤ 110000 := by omega
  generalize T / 86400 = n at *
  generalize (T % 86400).toNat = k at *
  have c1 : daysFromCivil 1000 1 1 = -354285 := by decide
  have c2 : daysFromCivil 10000 1 1 = 2932897 := by decide
  have hy := civil_year (n := n) (by rw [c1]; omega) (by rw [c2]; omega)
  rw [showYear_eq hy.1 hy.2]
  have hk : k < 86400 := by omega
  have e : pad4 (civil n).y.toNat ++ '-' :: pad2 (civil n).m ++ '-' :: pad2 (civil n).d ++ 'T' :: pad2 (k / 3600) ++ ':' :: pad2 (k / 60 % 60) ++ ':' :: pad2 (k % 60) ++ "+00:00".toList ++ rest =
      [] ++ (dateText (civil n) ++ 'T' :: (timeText (k / 3600) (k / 60 % 60) (k % 60) ++ '+' :: (pad2 0 ++ ':' :: pad2 0 ++ rest))) := by
    have : "+00:00".toList = '+' :: (pad2 0 ++ ':' :: pad2 0) := by decide
    rw [this]
    simp [dateText, timeText]
  rw [e]
  have em : moment n (k / 3600) (k / 60 % 60) (k % 60) 0 = T := by
    unfold moment; omega
  by_cases hr : rest = []
  · subst hr
    rw [List.nil_append, List.append_nil]
    rw [C153_end_false target n ⟨by omega, hy.2⟩ (by rw [em]; exact hfit) (by omega) (by omega) (by omega) (by omega) (by omega), em]
  · have := (C153_offset_partial target [] (by simp) n ⟨by omega, hy.2⟩ (H := k / 3600) (M := k / 60 % 60) (S := k % 60) (oh := 0) (om := 0) (by omega) (by omega) (by omega) (by omega) (by omega) hr).1
    rw [show ((0 : Nat) : Int) * 60 + (0 : Nat) = 0 by omega, em] at this
    exact this hfit

/-- C152: whole seconds come back exactly, any other time point within less than a second. -/
theorem C152_exact (t : Int) (h1 : -2 ^ 63 ≤ t) (h2 : t < 2 ^ 63) (target : Int) (rest : List Char) :
    ∃ t', readTime target (writeTime t ++ rest) = some (t', rest) ∧ (1000000000 ∣ t → t' = t) ∧ -1000000000 < t' - t ∧ t' - t < 1000000000 := by
  refine ⟨_, C152_roundtrip t h1 h2 target rest, fun h => Int.tdiv_mul_cancel h, ?_⟩
  have := Int.mul_tdiv_add_tmod t 1000000000
  have s3 := Int.tmod_lt_of_pos t (b := 1000000000) (by omega)
  have s4 := Int.tmod_lt_of_pos (-t) (b := 1000000000) (by omega)
  rw [Int.neg_tmod] at s4
  unfold ticks
  omega

/-- C152: the text is the date of the calendar and the time of that day, with a zero offset. -/
theorem C152_text {n : Int} {H M S : Nat} (h1 : H < 24) (h2 : M < 60) (h3 : S < 60) (hf : fits (moment n H M S 0)) :
    writeTime (moment n H M S 0 * ticks) = dateText (civil n) ++ 'T' :: (timeText H M S ++ "+00:00".toList) := by
  unfold fits ticks at hf
  unfold writeTime ticks
  rw [Int.mul_tdiv_cancel _ (by omega)]
  unfold moment at *
  have e1 : (n * 86400 + (H : Int) * 3600 + M * 60 + S - 0 * 60) / 86400 = n := by omega
  have e2 : ((n * 86400 + (H : Int) * 3600 + M * 60 + S - 0 * 60) % 86400).toNat = H * 3600 + M * 60 + S := by omega
  have c1 : daysFromCivil 1000 1 1 = -354285 := by decide
  have c2 : daysFromCivil 10000 1 1 = 2932897 := by decide
  have hy := civil_year (n := n) (by rw [c1]; omega) (by rw [c2]; omega)
  dsimp only
  rw [e1, e2, showYear_eq hy.1 hy.2, show (H * 3600 + M * 60 + S) / 3600 = H by omega, show (H * 3600 + M * 60 + S) / 60 % 60 = M by omega, show (H * 3600 + M * 60 + S) % 60 = S by omega]
  simp [dateText, timeText]

/-- C152 in numbers: the first moon landing, and the first tick the clock can hold. -/
example : writeTime (-14182940 * ticks) = "1969-07-20T20:17:40+00:00".toList ∧ (-2 ^ 63 : Int) ≤ -14182940 * ticks ∧ writeTime (-14182940 * ticks + 1) = "1969-07-20T20:17:41+00:00".toList := by
  decide +kernel

/-- The hypotheses of C153 are met by an ordinary date. -/
example : civil 59 = ⟨1970, 3, 1⟩ ∧ civil (-1) = ⟨1969, 12, 31⟩ ∧ fits (moment 59 23 59 60 (-(12 * 60 + 30))) := by
  refine ⟨by decide +kernel, by decide +kernel, ?_, ?_⟩ <;> decide

end Verif.Toml
