import Verif.BitStream.Model
import Mathlib.Tactic.Ring

/-!
# C12: `BitStream` round trip
-/

namespace Verif.BitStream

/-- Little-endian value of a byte string. -/
def val : List Nat → Nat
  | [] => 0
  | b :: bs => b + 256 * val bs

/-- A write request: bytes of the variable and number of bits; the bits must come from the variable. -/
def Req.Ok (q : List Nat × Nat) : Prop := (∀ b ∈ q.1, b < 256) ∧ q.2 ≤ 8 * q.1.length

/-- All writes of a history, one after the other. -/
def writeAll : List (List Nat × Nat) → W → Option W
  | [], st => some st
  | q :: qs, st => (write q.1 q.2 st).bind (writeAll qs)

/-- All reads, each into a zeroed variable of the same size as the one written. -/
def readAll : List (List Nat × Nat) → R → Option (List (List Nat) × R)
  | [], r => some ([], r)
  | q :: qs, r => (read (List.replicate q.1.length 0) q.2 r).bind fun (d, r1) =>
      (readAll qs r1).map fun (ds, r2) => (d :: ds, r2)

/-! ### lemmas -/

theorem val_append (a b : List Nat) : val (a ++ b) = val a + 256 ^ a.length * val b := by
  induction a with
  | nil => simp [val]
  | cons x a ih => simp only [List.cons_append, val, ih, List.length_cons]; ring

theorem val_replicate_zero (n : Nat) : val (List.replicate n 0) = 0 := by
  induction n with
  | zero => rfl
  | succ n ih => simp [List.replicate_succ, val, ih]

theorem val_lt : ∀ (l : List Nat), (∀ b ∈ l, b < 256) → val l < 256 ^ l.length
  | [], _ => by simp [val]
  | b :: l, h => by
    have h1 := val_lt l (fun x hx => h x (by simp [hx]))
    have h2 := h b (by simp)
    simp only [val, List.length_cons, pow_succ]
    omega

theorem pow256 (n : Nat) : 256 ^ n = 2 ^ (8 * n) := by
  rw [show 256 = 2 ^ 8 from rfl, ← pow_mul]

theorem lor_shift {buf w d : Nat} (h : buf < 2 ^ w) : buf ||| (d <<< w) = buf + 2 ^ w * d := by
  rw [Nat.or_comm, Nat.shiftLeft_eq, Nat.mul_comm d, ← Nat.two_pow_add_eq_or_of_lt h]
  omega

theorem carry {buf w d : Nat} (hw : w < 8) (h : buf < 2 ^ w) (hd : d < 256) :
    (d >>> (8 - w)) % 256 = (buf + 2 ^ w * d) / 256 := by
  have e : 256 = 2 ^ w * 2 ^ (8 - w) := by rw [← pow_add, show w + (8 - w) = 8 by omega]; rfl
  rw [Nat.shiftRight_eq_div_pow]
  have h1 : (buf + 2 ^ w * d) / 256 = d / 2 ^ (8 - w) := by
    conv_lhs => rw [e]
    rw [← Nat.div_div_eq_div_mul, Nat.add_mul_div_left _ _ (Nat.two_pow_pos w), Nat.div_eq_of_lt h, Nat.zero_add]
  rw [h1, Nat.mod_eq_of_lt]
  exact Nat.lt_of_le_of_lt (Nat.div_le_self _ _) hd

theorem and_mask (x w : Nat) : x &&& ((1 <<< w) - 1) = x % 2 ^ w := by
  rw [Nat.shiftLeft_eq, Nat.one_mul]; exact Nat.and_two_pow_sub_one_eq_mod x w

/-- The bits handed over so far, as a number and a count. -/
def W.num (st : W) : Nat := val st.out + 256 ^ st.out.length * st.buf
def W.len (st : W) : Nat := 8 * st.out.length + st.woff

/-- Writer invariant. -/
structure W.Ok (st : W) : Prop where
  woff : st.woff < 8
  buf : st.buf < 2 ^ st.woff
  bytes : ∀ b ∈ st.out, b < 256

theorem and7 (n : Nat) : n &&& 7 = n % 8 := Nat.and_two_pow_sub_one_eq_mod n 3

theorem write_spec : ∀ (src : List Nat) (bits : Nat) (st : W), st.Ok → (∀ b ∈ src, b < 256) → bits ≤ 8 * src.length →
    ∃ st', write src bits st = some st' ∧ st'.Ok ∧ st'.len = st.len + bits ∧
      st'.num = st.num + 2 ^ st.len * (val src % 2 ^ bits)
  | [], bits, st, hok, _, hb => by
    have : bits = 0 := by simpa using hb
    subst this
    exact ⟨st, by simp [write], hok, rfl, by simp [Nat.mod_one]⟩
  | d :: ds, bits, st, hok, hs, hb => by
    have hd : d < 256 := hs d (by simp)
    have hL : 2 ^ st.len = 256 ^ st.out.length * 2 ^ st.woff := by rw [W.len, pow_add, pow256]
    have hor := lor_shift (d := d) hok.buf
    have hc := carry hok.woff hok.buf hd
    unfold write
    by_cases h8 : 8 ≤ bits
    · rw [if_pos h8]
      have hok1 : W.Ok { st with out := st.out ++ [(st.buf ||| (d <<< st.woff)) % 256], buf := (d >>> (8 - st.woff)) % 256 } := by
        refine ⟨hok.woff, ?_, ?_⟩
        · simp only
          rw [hc]
          rw [Nat.div_lt_iff_lt_mul (by omega)]
          have := hok.buf
          have h2 : 2 ^ st.woff * d ≤ 2 ^ st.woff * 255 := Nat.mul_le_mul_left _ (by omega)
          omega
        · intro b hb
          rcases List.mem_append.1 hb with hb | hb
          · exact hok.bytes b hb
          · simp at hb; subst hb; omega
      obtain ⟨st', e1, e2, e3, e4⟩ := write_spec ds (bits - 8) _ hok1 (fun b hb => hs b (by simp [hb]))
        (by simp at hb; omega)
      refine ⟨st', e1, e2, ?_, ?_⟩
      · rw [e3]; simp only [W.len, List.length_append, List.length_singleton]; omega
      · rw [e4]
        have hlen1 : 2 ^ (W.len { st with out := st.out ++ [(st.buf ||| (d <<< st.woff)) % 256], buf := (d >>> (8 - st.woff)) % 256 }) =
            2 ^ st.len * 256 := by
          rw [show 256 = 2 ^ 8 from rfl, ← pow_add]
          congr 1
          simp only [W.len, List.length_append, List.length_singleton]; omega
        rw [hlen1]
        have hnum1 : W.num { st with out := st.out ++ [(st.buf ||| (d <<< st.woff)) % 256], buf := (d >>> (8 - st.woff)) % 256 } =
            st.num + 2 ^ st.len * d := by
          simp only [W.num, val_append, List.length_append, List.length_singleton, val, hor, hc, hL]
          have hdm := Nat.mod_add_div (st.buf + 2 ^ st.woff * d) 256
          have : val st.out + 256 ^ st.out.length * ((st.buf + 2 ^ st.woff * d) % 256 + 256 * 0) +
              256 ^ (st.out.length + 1) * ((st.buf + 2 ^ st.woff * d) / 256) =
              val st.out + 256 ^ st.out.length * ((st.buf + 2 ^ st.woff * d) % 256 + 256 * ((st.buf + 2 ^ st.woff * d) / 256)) := by
            ring
          rw [this, hdm]; ring
        rw [hnum1]
        have hmod : val (d :: ds) % 2 ^ bits = d + 256 * (val ds % 2 ^ (bits - 8)) := by
          have : 2 ^ bits = 256 * 2 ^ (bits - 8) := by
            rw [show 256 = 2 ^ 8 from rfl, ← pow_add]; congr 1; omega
          rw [this, Nat.mod_mul, val, Nat.add_mul_mod_self_left, Nat.mod_eq_of_lt hd, Nat.add_mul_div_left _ _ (by omega),
            Nat.div_eq_of_lt hd, Nat.zero_add]
        rw [hmod]; ring
    · rw [if_neg h8]
      by_cases h0 : bits = 0
      · rw [if_pos h0]
        subst h0
        exact ⟨st, rfl, hok, rfl, by simp [Nat.mod_one]⟩
      · rw [if_neg h0]
        refine ⟨_, rfl, ?_, ?_, ?_⟩
        · refine ⟨?_, ?_, ?_⟩
          · simp only [and7]; omega
          · simp only [and_mask]
            exact Nat.mod_lt _ (Nat.two_pow_pos _)
          · intro b hb
            simp only at hb
            split at hb
            · rcases List.mem_append.1 hb with hb | hb
              · exact hok.bytes b hb
              · simp at hb; subst hb; omega
            · exact hok.bytes b hb
        · have hw := hok.woff
          simp only [W.len, and7]
          split
          · simp only [List.length_append, List.length_singleton]; omega
          · simp only; omega
        · have hw := hok.woff
          have hbuf := hok.buf
          have hmod : val (d :: ds) % 2 ^ bits = d % 2 ^ bits := by
            rw [val, show 256 = 2 ^ bits * 2 ^ (8 - bits) by rw [← pow_add, show bits + (8 - bits) = 8 by omega]; rfl,
              Nat.mul_assoc, Nat.add_mul_mod_self_left]
          have ht : (st.buf + 2 ^ st.woff * d) % 2 ^ (st.woff + bits) = st.buf + 2 ^ st.woff * (d % 2 ^ bits) := by
            rw [pow_add, Nat.mod_mul, Nat.add_mul_mod_self_left, Nat.mod_eq_of_lt hbuf,
              Nat.add_mul_div_left _ _ (Nat.two_pow_pos _), Nat.div_eq_of_lt hbuf, Nat.zero_add]
          rw [hmod, hL]
          simp only [W.num, and7, and_mask]
          by_cases hr : 8 ≤ st.woff + bits
          · rw [if_pos hr]
            simp only [val_append, List.length_append, List.length_singleton, val, hor, hc]
            have e1 : (st.woff + bits) % 8 = st.woff + bits - 8 := by omega
            rw [e1]
            have e2 : 2 ^ (st.woff + bits) = 256 * 2 ^ (st.woff + bits - 8) := by
              rw [show 256 = 2 ^ 8 from rfl, ← pow_add]; congr 1; omega
            rw [e2, Nat.mod_mul] at ht
            have : val st.out + 256 ^ st.out.length * ((st.buf + 2 ^ st.woff * d) % 256 + 256 * 0) +
              256 ^ (st.out.length + 1) * ((st.buf + 2 ^ st.woff * d) / 256 % 2 ^ (st.woff + bits - 8)) =
              val st.out + 256 ^ st.out.length * ((st.buf + 2 ^ st.woff * d) % 256 +
                256 * ((st.buf + 2 ^ st.woff * d) / 256 % 2 ^ (st.woff + bits - 8))) := by
              ring
            rw [this, ht]; ring
          · rw [if_neg hr]
            simp only [hor]
            have e1 : (st.woff + bits) % 8 = st.woff + bits := by omega
            rw [e1, Nat.mod_mod_of_dvd _ (by
              rw [show 256 = 2 ^ 8 from rfl]; exact Nat.pow_dvd_pow 2 (by omega)), ht]
            ring

/-- The specification of the whole stream: the requested low bits, packed from the least significant end. -/
def pack : List (List Nat × Nat) → Nat
  | [] => 0
  | q :: qs => val q.1 % 2 ^ q.2 + 2 ^ q.2 * pack qs

def total (qs : List (List Nat × Nat)) : Nat := (qs.map (·.2)).sum

theorem writeAll_spec : ∀ (qs : List (List Nat × Nat)) (st : W), st.Ok → (∀ q ∈ qs, Req.Ok q) →
    ∃ st', writeAll qs st = some st' ∧ st'.Ok ∧ st'.len = st.len + total qs ∧ st'.num = st.num + 2 ^ st.len * pack qs
  | [], st, hok, _ => ⟨st, rfl, hok, by simp [total], by simp [pack]⟩
  | q :: qs, st, hok, h => by
    have hq := h q (by simp)
    obtain ⟨s1, e1, e2, e3, e4⟩ := write_spec q.1 q.2 st hok hq.1 hq.2
    obtain ⟨s2, f1, f2, f3, f4⟩ := writeAll_spec qs s1 e2 (fun x hx => h x (by simp [hx]))
    refine ⟨s2, by simp [writeAll, e1, f1], f2, ?_, ?_⟩
    · rw [f3, e3]; simp [total]; omega
    · rw [f4, e4, e3, pow_add, pack]; ring

theorem flush_spec {st : W} (h : st.Ok) : val (flush st) = st.num ∧ (∀ b ∈ flush st, b < 256) ∧
    (flush st).length = (st.len + 7) / 8 := by
  have hw := h.woff
  have hb := h.buf
  unfold flush
  by_cases h0 : st.woff = 0
  · rw [if_neg (by simpa using h0)]
    rw [h0] at hb
    have : st.buf = 0 := by omega
    refine ⟨by simp [W.num, this], h.bytes, by simp [W.len, h0]; omega⟩
  · rw [if_pos h0]
    refine ⟨by simp [val_append, val, W.num], ?_, by simp [W.len]; omega⟩
    intro b hb'
    rcases List.mem_append.1 hb' with hb' | hb'
    · exact h.bytes b hb'
    · simp at hb'; subst hb'
      have : 2 ^ st.woff ≤ 2 ^ 7 := Nat.pow_le_pow_right (by omega) (by omega)
      omega

/-! ### reading -/

theorem val_drop (l : List Nat) (h : ∀ b ∈ l, b < 256) (p : Nat) : val l / 256 ^ p = val (l.drop p) := by
  induction p generalizing l with
  | zero => simp
  | succ p ih =>
    cases l with
    | nil => simp [val]
    | cons b l =>
      rw [List.drop_succ_cons, ← ih l (fun x hx => h x (by simp [hx])), pow_succ, Nat.mul_comm, ← Nat.div_div_eq_div_mul]
      congr 1
      have := h b (by simp)
      rw [val]; omega

/-- Two consecutive bytes seen through the reader's offset. -/
theorem two_bytes {l : List Nat} (h : ∀ b ∈ l, b < 256) {p r : Nat} (hr : r < 8) {a : Nat} (ha : l[p]? = some a) :
    val l / 2 ^ (8 * p + r) % 256 = (a / 2 ^ r + 2 ^ (8 - r) * (l[p+1]?.getD 0)) % 256 := by
  have hlt := (List.getElem?_eq_some_iff.1 ha).1
  have hda : l.drop p = a :: l.drop (p + 1) := by
    rw [List.drop_eq_getElem_cons hlt, (List.getElem?_eq_some_iff.1 ha).2]
  have e256 : 256 = 2 ^ r * 2 ^ (8 - r) := by rw [← pow_add, show r + (8 - r) = 8 by omega]; rfl
  rw [pow_add, ← pow256, ← Nat.div_div_eq_div_mul, val_drop l h, hda, val]
  have h1 : (a + 256 * val (l.drop (p + 1))) / 2 ^ r = a / 2 ^ r + 2 ^ (8 - r) * val (l.drop (p + 1)) := by
    conv_lhs => rw [e256]
    rw [Nat.mul_assoc, Nat.add_mul_div_left _ _ (Nat.two_pow_pos r)]
  rw [h1]
  cases hb : l[p + 1]? with
  | none =>
    have : l.drop (p + 1) = [] := List.drop_eq_nil_of_le (List.getElem?_eq_none_iff.1 hb)
    simp [this, val]
  | some b =>
    have hlt' := (List.getElem?_eq_some_iff.1 hb).1
    rw [List.drop_eq_getElem_cons hlt', (List.getElem?_eq_some_iff.1 hb).2, val]
    simp only [Option.getD_some]
    have e : a / 2 ^ r + 2 ^ (8 - r) * (b + 256 * val (List.drop (p + 1 + 1) l)) =
        a / 2 ^ r + 2 ^ (8 - r) * b + 256 * (2 ^ (8 - r) * val (List.drop (p + 1 + 1) l)) := by ring
    rw [e, Nat.add_mul_mod_self_left]

theorem shr_nat {a r : Nat} (ha : a < 256) : shr (a : Int) r = a / 2 ^ r := by
  unfold shr
  have : ((a : Int) >>> r) = ((a >>> r : Nat) : Int) := rfl
  rw [this, Nat.shiftRight_eq_div_pow]
  have h1 : a / 2 ^ r ≤ a := Nat.div_le_self _ _
  generalize a / 2 ^ r = y at h1 ⊢
  omega

theorem shl_nat (b n : Nat) : shl (b : Int) n = (b * 2 ^ n) % 256 := by
  unfold shl
  have : ((b : Int) * 2 ^ n) = ((b * 2 ^ n : Nat) : Int) := by push_cast; rfl
  rw [this]
  generalize b * 2 ^ n = x
  omega

theorem shl_eof8 : shl (-1) 8 = 0 := by decide

theorem lor_high {a r : Nat} (ha : a < 256) (hr : r < 8) (b : Nat) :
    (a / 2 ^ r) ||| ((b * 2 ^ (8 - r)) % 256) = (a / 2 ^ r + 2 ^ (8 - r) * b) % 256 := by
  have e256 : 256 = 2 ^ (8 - r) * 2 ^ r := by rw [← pow_add, show (8 - r) + r = 8 by omega]; rfl
  have hlt : a / 2 ^ r < 2 ^ (8 - r) := by
    rw [Nat.div_lt_iff_lt_mul (Nat.two_pow_pos _), ← e256]; exact ha
  have e1 : (b * 2 ^ (8 - r)) % 256 = 2 ^ (8 - r) * (b % 2 ^ r) := by
    rw [Nat.mul_comm]; conv_lhs => rw [e256]
    rw [Nat.mul_mod_mul_left]
  rw [e1, Nat.or_comm, ← Nat.two_pow_add_eq_or_of_lt hlt]
  conv_rhs => rw [e256]
  rw [Nat.mod_mul, Nat.add_mul_mod_self_left, Nat.mod_eq_of_lt hlt, Nat.add_mul_div_left _ _ (Nat.two_pow_pos _),
    Nat.div_eq_of_lt hlt, Nat.zero_add]
  omega

theorem read_spec : ∀ (n bits : Nat) (r : R), (∀ b ∈ r.data, b < 256) → r.roff < 8 → bits ≤ 8 * n →
    8 * r.pos + r.roff + bits ≤ 8 * r.data.length →
    ∃ d r', read (List.replicate n 0) bits r = some (d, r') ∧ r'.data = r.data ∧ r'.roff < 8 ∧
      8 * r'.pos + r'.roff = 8 * r.pos + r.roff + bits ∧ d.length = n ∧ (∀ b ∈ d, b < 256) ∧
      val d = val r.data / 2 ^ (8 * r.pos + r.roff) % 2 ^ bits
  | 0, bits, r, _, hro, hb, _ => by
    have : bits = 0 := by omega
    subst this
    exact ⟨[], r, by simp [read], rfl, hro, rfl, rfl, by simp, by simp [val, Nat.mod_one]⟩
  | n + 1, bits, r, hd, hro, hb, hav => by
    rw [List.replicate_succ]
    unfold read
    by_cases h8 : 8 ≤ bits
    · rw [if_pos h8]
      have hpos : r.pos < r.data.length := by omega
      obtain ⟨a, ha⟩ : ∃ a, r.data[r.pos]? = some a := ⟨_, List.getElem?_eq_getElem hpos⟩
      have ha256 : a < 256 := hd a (List.mem_of_getElem? ha)
      have hget : get r = { r with pos := r.pos + 1 } := by simp [get, hpos]
      have hpk : peek r = (a : Int) := by simp [peek, ha]
      -- the byte produced
      have hbyte : shr (peek r) r.roff ||| shl (peek (get r)) (8 - r.roff) = val r.data / 2 ^ (8 * r.pos + r.roff) % 256 := by
        rw [two_bytes hd hro ha, hpk, shr_nat ha256, hget]
        cases hb1 : r.data[r.pos + 1]? with
        | some b =>
          have : peek { r with pos := r.pos + 1 } = (b : Int) := by simp [peek, hb1]
          rw [this, shl_nat, lor_high ha256 hro, Option.getD_some]
        | none =>
          have h1 := List.getElem?_eq_none_iff.1 hb1
          have h0 : r.roff = 0 := by omega
          have : peek { r with pos := r.pos + 1 } = -1 := by simp [peek, hb1]
          rw [this, h0]
          simp [shl_eof8]
          omega
      obtain ⟨d, r', e1, e2, e3, e4, e5, e6, e7⟩ := read_spec n (bits - 8) { r with pos := r.pos + 1 } hd hro (by omega)
        (by simp only; omega)
      simp only [hget] at hbyte ⊢
      rw [e1]
      refine ⟨_, r', rfl, e2, e3, by simp only at e4; omega, by simp [e5], ?_, ?_⟩
      · intro b hb'
        rcases List.mem_cons.1 hb' with rfl | hb'
        · rw [hbyte]; omega
        · exact e6 b hb'
      · rw [val, e7, hbyte]
        simp only
        have hp1 : 2 ^ (8 * (r.pos + 1) + r.roff) = 2 ^ (8 * r.pos + r.roff) * 256 := by
          rw [show 256 = 2 ^ 8 from rfl, ← pow_add]; congr 1; omega
        have hp2 : 2 ^ bits = 256 * 2 ^ (bits - 8) := by
          rw [show 256 = 2 ^ 8 from rfl, ← pow_add]; congr 1; omega
        rw [hp1, hp2, ← Nat.div_div_eq_div_mul, Nat.mod_mul]
    · rw [if_neg h8]
      by_cases h0 : bits = 0
      · rw [if_pos h0]
        subst h0
        refine ⟨_, r, rfl, rfl, hro, rfl, by simp, ?_, ?_⟩
        · intro b hb'
          rw [← List.replicate_succ] at hb'
          have := (List.mem_replicate.1 hb').2; omega
        · rw [← List.replicate_succ, val_replicate_zero, Nat.pow_zero, Nat.mod_one]
      · rw [if_neg h0]
        have hpos : r.pos < r.data.length := by omega
        obtain ⟨a, ha⟩ : ∃ a, r.data[r.pos]? = some a := ⟨_, List.getElem?_eq_getElem hpos⟩
        have ha256 : a < 256 := hd a (List.mem_of_getElem? ha)
        have hget : get r = { r with pos := r.pos + 1 } := by simp [get, hpos]
        have hpk : peek r = (a : Int) := by simp [peek, ha]
        have hdvd : 2 ^ bits ∣ 256 := by rw [show 256 = 2 ^ 8 from rfl]; exact Nat.pow_dvd_pow 2 (by omega)
        refine ⟨_, _, rfl, ?_, ?_, ?_, by simp, ?_, ?_⟩
        · split
          · rw [hget]
          · rfl
        · simp only [and7]; omega
        · simp only [and7]
          split
          · rw [hget]; simp only; omega
          · omega
        · intro b hb'
          rcases List.mem_cons.1 hb' with rfl | hb'
          · rw [and_mask]
            have h1 : 2 ^ bits ≤ 2 ^ 7 := Nat.pow_le_pow_right (by omega) (by omega)
            exact Nat.lt_of_lt_of_le (Nat.mod_lt _ (Nat.two_pow_pos _)) (by omega)
          · have := (List.mem_replicate.1 hb').2; omega
        · rw [val, val_replicate_zero, and_mask, ← Nat.mod_mod_of_dvd (val r.data / _) hdvd, two_bytes hd hro ha, hpk, shr_nat ha256]
          rw [Nat.mod_mod_of_dvd _ hdvd, Nat.mul_zero, Nat.add_zero, Nat.zero_or]
          by_cases h9 : 8 < r.roff + bits
          · rw [if_pos h9, if_pos (by omega), hget]
            obtain ⟨b, hb1⟩ : ∃ b, r.data[r.pos + 1]? = some b := ⟨_, List.getElem?_eq_getElem (by omega)⟩
            have : peek { r with pos := r.pos + 1 } = (b : Int) := by simp [peek, hb1]
            rw [this, shl_nat, lor_high ha256 hro, hb1, Option.getD_some, Nat.mod_mod_of_dvd _ hdvd]
          · rw [if_neg h9]
            -- the second byte does not reach into the low bits
            have : 2 ^ (8 - r.roff) = 2 ^ bits * 2 ^ (8 - r.roff - bits) := by
              rw [← pow_add]; congr 1; omega
            rw [this, Nat.mul_assoc, Nat.add_mul_mod_self_left]

theorem readAll_spec : ∀ (qs : List (List Nat × Nat)) (r : R), (∀ q ∈ qs, Req.Ok q) → (∀ b ∈ r.data, b < 256) → r.roff < 8 →
    8 * r.pos + r.roff + total qs ≤ 8 * r.data.length → val r.data / 2 ^ (8 * r.pos + r.roff) = pack qs →
    ∃ ds r', readAll qs r = some (ds, r') ∧ ds.length = qs.length ∧
      ∀ (i : Nat) (d : List Nat) (q : List Nat × Nat), ds[i]? = some d → qs[i]? = some q → d.length = q.1.length ∧ val d = val q.1 % 2 ^ q.2
  | [], r, _, _, _, _, _ => ⟨[], r, rfl, rfl, by simp⟩
  | q :: qs, r, hok, hd, hro, hav, hv => by
    have hq := hok q (by simp)
    have ht : total (q :: qs) = q.2 + total qs := by simp [total]
    obtain ⟨d, r1, e1, e2, e3, e4, e5, e6, e7⟩ := read_spec q.1.length q.2 r hd hro hq.2 (by omega)
    have hmod : val r.data / 2 ^ (8 * r.pos + r.roff) % 2 ^ q.2 = val q.1 % 2 ^ q.2 := by
      rw [hv, pack, Nat.add_mul_mod_self_left, Nat.mod_mod]
    have hdiv : val r1.data / 2 ^ (8 * r1.pos + r1.roff) = pack qs := by
      rw [e2, e4, pow_add, ← Nat.div_div_eq_div_mul, hv, pack, Nat.add_mul_div_left _ _ (Nat.two_pow_pos _),
        Nat.div_eq_of_lt (Nat.mod_lt _ (Nat.two_pow_pos _)), Nat.zero_add]
    obtain ⟨ds, r2, f1, f2, f3⟩ := readAll_spec qs r1 (fun x hx => hok x (by simp [hx])) (by rw [e2]; exact hd) e3
      (by rw [e2]; omega) hdiv
    refine ⟨d :: ds, r2, by simp [readAll, e1, f1], by simp [f2], ?_⟩
    intro i x y hx hy
    cases i with
    | zero =>
      simp at hx hy; subst hx; subst hy
      exact ⟨e5, by rw [e7, hmod]⟩
    | succ i => exact f3 i x y (by simpa using hx) (by simpa using hy)

/-! ### the property -/

/-- C12: for every sequence of writes (bytes of a variable, number of low bits), writing them all to a fresh
`BitStream`, flushing, and reading them back in the same order into zeroed variables of the same sizes succeeds, and
the `i`-th variable read holds exactly the low bits of the `i`-th variable written; the stream is as short as the bits
allow. -/
theorem C12_round_trip {qs : List (List Nat × Nat)} (h : ∀ q ∈ qs, Req.Ok q) :
    ∃ st ds r, writeAll qs W.init = some st ∧ readAll qs (R.init (flush st)) = some (ds, r) ∧
      (flush st).length = ((qs.map (·.2)).sum + 7) / 8 ∧ ds.length = qs.length ∧
      ∀ (i : Nat) (d : List Nat) (q : List Nat × Nat), ds[i]? = some d → qs[i]? = some q → d.length = q.1.length ∧ val d = val q.1 % 2 ^ q.2 := by
  have h0 : W.Ok W.init := ⟨by decide, by decide, by simp [W.init]⟩
  obtain ⟨st, e1, e2, e3, e4⟩ := writeAll_spec qs W.init h0 h
  obtain ⟨f1, f2, f3⟩ := flush_spec e2
  have hl : st.len = total qs := by rw [e3]; simp [W.init, W.len]
  have hn : st.num = pack qs := by rw [e4]; simp [W.init, W.num, W.len, val]
  obtain ⟨ds, r, g1, g2, g3⟩ := readAll_spec qs (R.init (flush st)) h f2 (by simp [R.init])
    (by simp only [R.init, f3, hl]; omega) (by simp [R.init, f1, hn])
  exact ⟨st, ds, r, e1, g1, by rw [f3, hl]; rfl, g2, g3⟩

/-- Every value of `n` bytes is determined by `val`, so for whole-variable writes the variable itself comes back. -/
theorem val_inj : ∀ {a b : List Nat}, (∀ x ∈ a, x < 256) → (∀ x ∈ b, x < 256) → a.length = b.length → val a = val b → a = b
  | [], [], _, _, _, _ => rfl
  | x :: a, y :: b, ha, hb, hl, hv => by
    have h1 := ha x (by simp)
    have h2 := hb y (by simp)
    simp only [val] at hv
    have hxy : x = y := by omega
    have := val_inj (a := a) (b := b) (fun z hz => ha z (by simp [hz])) (fun z hz => hb z (by simp [hz])) (by simpa using hl) (by omega)
    rw [hxy, this]

/-- Hypotheses met by a mixed-alignment history: 1 bit, 12 bits, 8 bits and 0 bits. -/
example : (∀ q ∈ [([1], 1), ([0xCD, 0xFB], 12), ([0x5A], 8), ([7], 0)], Req.Ok q) ∧
    (writeAll [([1], 1), ([0xCD, 0xFB], 12), ([0x5A], 8), ([7], 0)] W.init).map flush = some [0x9B, 0x57, 0x0B] := by
  refine ⟨?_, by decide +kernel⟩
  intro q hq
  simp only [List.mem_cons, List.not_mem_nil, or_false] at hq
  rcases hq with rfl | rfl | rfl | rfl <;> (refine ⟨?_, by decide⟩; decide)

/-- Why "into zeroed variables": a partial byte is OR-ed into the old contents of the destination. -/
theorem C12_dirty_destination_counterexample :
    (read [1] 3 (R.init [0b100])).map (·.1) = some [0b101] ∧ (read [0] 3 (R.init [0b100])).map (·.1) = some [0b100] := by
  decide +kernel

end Verif.BitStream
