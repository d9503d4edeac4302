import Verif.Itoa.Model

/-! # Integer to text: specification and properties -/

namespace Verif.Itoa

/-! ## Specification -/

/-- The characters of the digits. -/
def alphabet : List Nat := "0123456789ABCDEFGHIJKLMNOPQRSTUVWXYZ".toList.map (·.toNat)

/-- `s` is the usual numeral of `v`: digits below the radix, most significant first, no leading zeros. -/
def Numeral (radix : Nat) (s : List Nat) (v : Nat) : Prop :=
  ∃ ds : List Nat, ds ≠ [] ∧ s.map some = ds.map (alphabet[·]?) ∧ (∀ d ∈ ds, d < radix) ∧ ds.foldl (fun a d => a * radix + d) 0 = v ∧
    (ds.head? = some 0 → ds = [0])

/-- The text of an integer: a minus sign exactly for negative ones. -/
def Text (radix : Nat) (s : List Nat) (v : Int) : Prop :=
  (0 ≤ v ∧ Numeral radix s v.natAbs) ∨ (v < 0 ∧ ∃ m, s = '-'.toNat :: m ∧ Numeral radix m v.natAbs)

/-! ## Lemmas -/

/-- The digits produced, least significant first. -/
def lows (radix : Nat) : Nat → Nat → List Nat
  | 0, _ => []
  | n + 1, val => (val % radix) :: if val / radix = 0 then [] else lows radix n (val / radix)

theorem lows_le (radix : Nat) : ∀ n val, (lows radix n val).length ≤ n
  | 0, _ => Nat.le_refl _
  | n + 1, val => by
    rw [lows]
    split
    · simp
    · have := lows_le radix n (val / radix)
      simp; omega

theorem wr_app {pre l : List Nat} {k v : Nat} : wr (pre ++ l) (pre.length + k) v = (wr l k v).map (pre ++ ·) := by
  unfold wr
  by_cases h : k < l.length
  · rw [if_pos (by simp; exact h), if_pos h]
    simp [List.set_append_right _ _ (Nat.le_add_right _ _)]
  · rw [if_neg (by simp; omega), if_neg h]; rfl

theorem wr_at {pre l : List Nat} {a v : Nat} : wr (pre ++ a :: l) pre.length v = some (pre ++ v :: l) := by
  have := wr_app (pre := pre) (l := a :: l) (k := 0) (v := v)
  simpa [wr] using this

theorem rd_at {pre l : List Nat} {a : Nat} : rd (pre ++ a :: l) pre.length = some a := by simp [rd]

theorem emit_eq {radix : Nat} : ∀ {n val : Nat} {pre rest : List Nat}, n ≤ rest.length →
    emit radix n val (pre ++ rest) pre.length =
      some (pre ++ ((lows radix n val).map digit ++ rest.drop (lows radix n val).length), pre.length + (lows radix n val).length)
  | 0, val, pre, rest, h => by simp [emit, lows]
  | n + 1, val, pre, a :: rest, h => by
    rw [emit, wr_at, Option.bind_some, lows]
    by_cases h0 : val / radix = 0
    · rw [if_pos h0, if_pos h0]; simp
    · rw [if_neg h0, if_neg h0]
      have := emit_eq (radix := radix) (n := n) (val := val / radix) (pre := pre ++ [digit (val % radix)]) (rest := rest) (by simpa using h)
      simp only [List.append_assoc, List.singleton_append, List.length_append, List.length_singleton] at this
      refine this.trans (congrArg some (Prod.ext ?_ ?_))
      · simp
      · simp; omega

theorem swaps_eq : ∀ (n : Nat) (l pre post : List Nat), l.length ≤ n + 1 → swaps n (pre ++ (l ++ post)) pre.length (pre.length + l.length - 1) = some (pre ++ (l.reverse ++ post))
  | n, [], pre, post, _ => by
    cases n with
    | zero => rfl
    | succ n => rw [swaps, if_neg (by simp)]; rfl
  | n, [a], pre, post, _ => by
    cases n with
    | zero => rfl
    | succ n => rw [swaps, if_neg (by simp)]; rfl
  | 0, a :: b :: l, pre, post, h => by simp at h
  | n + 1, a :: b :: l, pre, post, h => by
    obtain ⟨m, c, hm⟩ : ∃ m c, b :: l = m ++ [c] := ⟨(b :: l).dropLast, (b :: l).getLast (by simp), (List.dropLast_concat_getLast (by simp)).symm⟩
    rw [hm]
    have hlen : (b :: l).length = m.length + 1 := by rw [hm]; simp
    simp only [List.length_cons] at h hlen
    rw [swaps, if_pos (by simp)]
    have e1 : pre.length + (a :: (m ++ [c])).length - 1 = (pre ++ a :: m).length := by simp
    have e2 : pre ++ (a :: (m ++ [c]) ++ post) = (pre ++ a :: m) ++ c :: post := by simp
    have e3 : ∀ x y, (pre ++ x :: m) ++ y :: post = pre ++ x :: (m ++ y :: post) := by simp
    have r1 : rd ((pre ++ a :: m) ++ c :: post) pre.length = some a := by rw [e3]; exact rd_at
    have w1 : wr ((pre ++ a :: m) ++ c :: post) pre.length c = some ((pre ++ c :: m) ++ c :: post) := by rw [e3, wr_at, ← e3]
    have w2 : wr ((pre ++ c :: m) ++ c :: post) (pre ++ a :: m).length a = some ((pre ++ c :: m) ++ a :: post) := by
      have : (pre ++ a :: m).length = (pre ++ c :: m).length := by simp
      rw [this]; exact wr_at
    rw [e1, e2, r1, Option.bind_some, rd_at, Option.bind_some, w1, Option.bind_some, w2, Option.bind_some]
    have := swaps_eq n m (pre ++ [c]) (a :: post) (by omega)
    have e4 : (pre ++ [c]).length + m.length - 1 = (pre ++ a :: m).length - 1 := by simp
    rw [e4] at this
    simpa using this

theorem finish_eq {val size radix : Nat} {pre rest : List Nat} (hs : 2 ≤ size) (hb : size ≤ (pre ++ rest).length) (hp : pre.length < size) (hp1 : pre.length ≤ 1) :
    finish val (pre ++ rest) size radix pre.length =
      some (0, pre ++ (((lows radix (size - 1 - pre.length) val).map digit).reverse ++ 0 :: rest.drop ((lows radix (size - 1 - pre.length) val).length + 1))) := by
  have hl := lows_le radix (size - 1 - pre.length) val
  rw [List.length_append] at hb
  unfold finish
  rw [emit_eq (by omega), Option.bind_some]
  have hne : pre.length + (lows radix (size - 1 - pre.length) val).length ≠ 0 := by
    cases hpre : pre.length with
    | zero =>
      obtain ⟨k, hk⟩ : ∃ k, size - 1 - 0 = k + 1 := ⟨size - 2, by omega⟩
      rw [hk, lows]; simp
    | succ k => omega
  generalize hd : lows radix (size - 1 - pre.length) val = ds at *
  obtain ⟨x, hx⟩ : ∃ x, rest.drop ds.length = x :: rest.drop (ds.length + 1) := by
    have : ds.length < rest.length := by omega
    exact ⟨rest[ds.length], List.drop_eq_getElem_cons this⟩
  have hl' : pre.length + ds.length = (pre ++ ds.map digit).length := by simp
  simp only [hx]
  rw [← List.append_assoc, hl', wr_at, Option.bind_some, ← hl', if_neg hne, List.append_assoc]
  have := swaps_eq (pre.length + ds.length - 1) (ds.map digit) pre (0 :: rest.drop (ds.length + 1)) (by simp; omega)
  rw [List.length_map] at this
  rw [this]; rfl

/-- Enough room: all the digits. -/
theorem lows_all {radix : Nat} (hr : 2 ≤ radix) : ∀ (k val : Nat), val < 2 ^ k →
    ∃ ds : List Nat, ds ≠ [] ∧ ds.length ≤ max k 1 ∧ (∀ n, ds.length ≤ n → lows radix n val = ds) ∧ (∀ d ∈ ds, d < radix) ∧
      ds.foldr (fun d a => a * radix + d) 0 = val ∧ (ds.getLast? = some 0 → ds = [0]) := by
  intro k
  induction k with
  | zero =>
    intro val h
    have : val = 0 := by omega
    subst this
    refine ⟨[0], by simp, by simp, fun n hn => ?_, by simp; omega, by simp, fun _ => rfl⟩
    cases n with
    | zero => simp at hn
    | succ n => simp [lows]
  | succ k ih =>
    intro val h
    by_cases h0 : val / radix = 0
    · have hv : val % radix = val := by
        rcases (Nat.div_eq_zero_iff).1 h0 with h | h
        · omega
        · exact Nat.mod_eq_of_lt h
      have hlt : val < radix := by rw [← hv]; exact Nat.mod_lt _ (by omega)
      refine ⟨[val], by simp, by simp, fun n hn => ?_, by simpa using hlt, by simp, ?_⟩
      · cases n with
        | zero => simp at hn
        | succ n => rw [lows, if_pos h0, hv]
      · intro h; simpa using h
    · have hd : val / radix < 2 ^ k := by
        have h1 : val / radix ≤ val / 2 := Nat.div_le_div_left hr (by omega)
        rw [Nat.pow_succ] at h
        omega
      obtain ⟨ds, a1, a2, a3, a4, a5, a6⟩ := ih _ hd
      have hk : 1 ≤ k := by
        cases k with
        | zero => rw [Nat.pow_zero] at hd; omega
        | succ k => omega
      refine ⟨(val % radix) :: ds, by simp, by simp; omega, fun n hn => ?_, ?_, ?_, ?_⟩
      · cases n with
        | zero => simp at hn
        | succ n => rw [lows, if_neg h0, a3 n (by simpa using hn)]
      · intro d hd
        rcases List.mem_cons.1 hd with rfl | hd
        · exact Nat.mod_lt _ (by omega)
        · exact a4 d hd
      · rw [List.foldr_cons, a5, Nat.mul_comm]; exact Nat.div_add_mod ..
      · intro h
        have : ds.getLast? = some 0 := by
          cases ds with
          | nil => exact absurd rfl a1
          | cons x ds => simpa [List.getLast?_cons_cons] using h
        have := a6 this
        subst this
        simp at a5
        omega

theorem numeral_of {radix val : Nat} (hr : 2 ≤ radix) (hr36 : radix ≤ 36) {k : Nat} (hk : 1 ≤ k) (h : val < 2 ^ k) :
    ∃ m : List Nat, Numeral radix m val ∧ m.length ≤ k ∧ ∀ n, m.length ≤ n → ((lows radix n val).map digit).reverse = m ∧ (lows radix n val).length = m.length := by
  obtain ⟨ds, a1, a2, a3, a4, a5, a6⟩ := lows_all hr k val h
  refine ⟨(ds.map digit).reverse, ⟨ds.reverse, by simpa using a1, ?_, by simpa using a4, ?_, ?_⟩, by simp; omega, fun n hn => ?_⟩
  · rw [List.map_reverse, List.map_reverse, List.map_map]
    congr 1
    apply List.map_congr_left
    intro d hd
    have key : ∀ d < 36, some (digit d) = alphabet[d]? := by decide
    exact key d (Nat.lt_of_lt_of_le (a4 d hd) hr36)
  · rw [List.foldl_reverse]; exact a5
  · intro hh
    rw [List.head?_reverse] at hh
    rw [a6 hh]; rfl
  · have hn : ds.length ≤ n := by simpa using hn
    rw [a3 n hn]; exact ⟨rfl, by simp⟩

/-! ## C51 -/

/-- **C51.** Every 32-bit integer other than the least one, in every radix from 2 to 36, has a text of at most 32 characters (its numeral, with a sign exactly when it is negative),
and that text with its terminator is what any buffer with room for it receives; nothing else in the buffer changes. -/
theorem C51_text_partial {val : Int} (h1 : -2 ^ 31 < val) (h2 : val < 2 ^ 31) {radix : Nat} (hr : 2 ≤ radix) (hr36 : radix ≤ 36) :
    ∃ s : List Nat, Text radix s val ∧ s.length ≤ 32 ∧ ∀ (buf : List Nat) (size : Int), (s.length : Int) + 1 ≤ size → size ≤ buf.length →
      itoa val buf size radix = some (0, s ++ 0 :: buf.drop (s.length + 1)) := by
  obtain ⟨m, b1, b2, b3⟩ := numeral_of hr hr36 (k := 31) (by omega) (show val.natAbs < 2 ^ 31 by omega)
  have hm : 1 ≤ m.length := by
    obtain ⟨ds, c1, c2, -⟩ := b1
    have := congrArg List.length c2
    simp only [List.length_map] at this
    cases ds with
    | nil => exact absurd rfl c1
    | cons d ds => simp at this; omega
  by_cases hneg : val < 0
  · refine ⟨45 :: m, .inr ⟨hneg, m, rfl, b1⟩, by simp; omega, fun buf size hs hb => ?_⟩
    simp only [List.length_cons] at hs
    match buf, hb with
    | [], hb => simp at hb; omega
    | a :: buf, hb =>
    unfold itoa
    have e : wr (a :: buf) 0 45 = some (45 :: buf) := by simp [wr]
    rw [if_neg (by omega), if_pos hneg, e, Option.bind_some, if_neg (by omega)]
    have := finish_eq (val := val.natAbs) (size := size.toNat) (radix := radix) (pre := [45]) (rest := buf) (by omega) (by simp at hb ⊢; omega) (by simp; omega) (by simp)
    obtain ⟨c1, c2⟩ := b3 (size.toNat - 1 - 1) (by omega)
    simp only [List.singleton_append, List.length_singleton, c1, c2] at this
    rw [this]; simp
  · refine ⟨m, .inl ⟨by omega, b1⟩, by omega, fun buf size hs hb => ?_⟩
    unfold itoa
    rw [if_neg (by omega), if_neg hneg]
    have := finish_eq (val := val.natAbs) (size := size.toNat) (radix := radix) (pre := []) (rest := buf) (by omega) (by simp; omega) (by simp; omega) (by simp)
    obtain ⟨c1, c2⟩ := b3 (size.toNat - 1 - 0) (by omega)
    simp only [List.nil_append, List.length_nil, c1, c2] at this
    rw [this]

/-- **C51, small buffers.** Whatever the size, nothing beyond the first `size` characters is touched, and unless the call is refused (size below 2 or bad radix) the result is terminated within them. -/
theorem C51_bounds_partial {val : Int} (h1 : -2 ^ 31 < val) {radix : Nat} {buf : List Nat} {size : Int} (hb : size ≤ buf.length) :
    ∃ r out, itoa val buf size radix = some (r, out) ∧ out.length = buf.length ∧ out.drop size.toNat = buf.drop size.toNat ∧
      (r ≠ 0 → (radix < 2 ∨ size ≤ 1) ∧ out = buf) ∧ (r = 0 → ∃ i : Nat, (i : Int) < size ∧ out[i]? = some 0) := by
  have key : ∀ {v : Nat} {pre rest : List Nat}, 2 ≤ size → size.toNat ≤ (pre ++ rest).length → pre.length < size.toNat → pre.length ≤ 1 →
      ∃ out, finish v (pre ++ rest) size.toNat radix pre.length = some (0, out) ∧ out.length = (pre ++ rest).length ∧ out.drop size.toNat = (pre ++ rest).drop size.toNat ∧
        ∃ i : Nat, (i : Int) < size ∧ out[i]? = some 0 := by
    intro v pre rest hs hb hp hp1
    have hl := lows_le radix (size.toNat - 1 - pre.length) v
    refine ⟨_, finish_eq (by omega) hb hp hp1, ?_, ?_, pre.length + (lows radix (size.toNat - 1 - pre.length) v).length, by omega, ?_⟩
    · simp at hb ⊢; omega
    · generalize lows radix (size.toNat - 1 - pre.length) v = ds at *
      simp only [List.drop_append, List.length_reverse, List.length_map, List.drop_eq_nil_of_le (show pre.length ≤ size.toNat by omega), List.nil_append]
      rw [List.drop_eq_nil_of_le (by simp; omega), List.nil_append]
      obtain ⟨j, hj⟩ : ∃ j, size.toNat - pre.length - ds.length = j + 1 := ⟨size.toNat - pre.length - ds.length - 1, by omega⟩
      rw [hj, List.drop_succ_cons, List.drop_drop]
      congr 1
      omega
    · rw [List.getElem?_append_right (by omega), List.getElem?_append_right (by simp), ]
      simp
  unfold itoa
  by_cases h0 : radix < 2 ∨ size ≤ 1
  · rw [if_pos h0]
    exact ⟨22, buf, rfl, rfl, rfl, fun _ => ⟨h0, rfl⟩, fun h => (by cases h)⟩
  · rw [if_neg h0]
    by_cases hneg : val < 0
    · rw [if_pos hneg]
      match buf, hb with
      | a :: buf, hb =>
        have e : wr (a :: buf) 0 45 = some (45 :: buf) := by simp [wr]
        rw [e, Option.bind_some, if_neg (by omega)]
        obtain ⟨out, c1, c2, c3, c4⟩ := key (v := val.natAbs) (pre := [45]) (rest := buf) (by omega) (by simp at hb ⊢; omega) (by simp; omega) (by simp)
        refine ⟨0, out, c1, by simpa using c2, ?_, fun h => absurd rfl h, fun _ => c4⟩
        rw [c3]
        obtain ⟨j, hj⟩ : ∃ j, size.toNat = j + 1 := ⟨size.toNat - 1, by omega⟩
        rw [hj]; rfl
      | [], hb => simp at hb; omega
    · rw [if_neg hneg]
      obtain ⟨out, c1, c2, c3, c4⟩ := key (v := val.natAbs) (pre := []) (rest := buf) (by omega) (by simp; omega) (by simp; omega) (by simp)
      exact ⟨0, out, c1, c2, c3, fun h => absurd rfl h, fun _ => c4⟩

/-- A negative number in hexadecimal, and what too small a buffer gives: the least significant digits, with no error. -/
example : itoa (-48879) [1, 1, 1, 1, 1, 1, 1] 7 16 = some (0, "-BEEF".toList.map (·.toNat) ++ [0, 1]) ∧
    itoa 12345 [1, 1, 1, 1, 1] 4 10 = some (0, "345".toList.map (·.toNat) ++ [0, 1]) := by decide

/-- The least integer: its negation overflows, whatever the buffer and the radix. -/
theorem C51_min_counterexample {buf : List Nat} {size : Int} {radix : Nat} (hs : 1 < size) (hr : 2 ≤ radix) : itoa (-2 ^ 31) buf size radix = none := by
  unfold itoa
  rw [if_neg (by omega), if_pos (by decide)]
  cases buf <;> rfl

end Verif.Itoa
