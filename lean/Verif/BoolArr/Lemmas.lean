import Verif.BoolArr.Model

/-! # Lemmas on the packed bool array -/

namespace Verif.BoolArr

/-- Bit `k` of a block (false outside it). -/
def bits (a : List (BitVec 8)) (k : Nat) : Bool := ((a[k / 8]?).getD 0#8).getLsbD (k % 8)

theorem bits_set {a : List (BitVec 8)} {p : Nat} (hp : p < a.length) (v : BitVec 8) (k : Nat) :
    bits (a.set p v) k = if k / 8 = p then v.getLsbD (k % 8) else bits a k := by
  unfold bits
  split
  · next h => rw [h, List.getElem?_set_self hp]; rfl
  · next h => rw [List.getElem?_set_ne (fun e => h e.symm)]

theorem bits_of_getElem? {a : List (BitVec 8)} {k : Nat} {w : BitVec 8} (h : a[k / 8]? = some w) :
    bits a k = w.getLsbD (k % 8) := by simp [bits, h]

theorem one_shift_bit {o j : Nat} (ho : o < 8) (hj : j < 8) : (1#8 <<< o).getLsbD j = decide (j = o) := by
  rw [BitVec.getLsbD_shiftLeft, Bool.eq_iff_iff]
  simp [hj]
  omega

theorem mask_bit {o j : Nat} (hj : j < 8) : (255#8 <<< o).getLsbD j = decide (o ≤ j) := by
  have h255 : ∀ i < 8, (255#8).getLsbD i = true := by decide
  simp only [BitVec.getLsbD_shiftLeft]
  by_cases h : o ≤ j
  · simp [hj, h, h255 (j - o) (by omega)]
  · simp [h]

theorem neg_flag_bit (f : Bool) {j : Nat} (hj : j < 8) : (-(if f then 1#8 else 0#8)).getLsbD j = f := by
  have : ∀ i < 8, (-(1#8)).getLsbD i = true := by decide
  cases f
  · simp
  · simpa using this j hj

theorem setBit_spec {a : List (BitVec 8)} {i : Nat} (h : i < 8 * a.length) (f : Bool) :
    ∃ a', setBit a i f = some a' ∧ a'.length = a.length ∧ ∀ k, bits a' k = if k = i then f else bits a k := by
  have hlt : i / 8 < a.length := by omega
  refine ⟨a.set (i / 8) ((a[i / 8] &&& ~~~(1#8 <<< (i % 8))) ||| ((-(if f then 1#8 else 0#8)) &&& (1#8 <<< (i % 8)))),
    by simp [setBit, rd, hlt], by simp, fun k => ?_⟩
  rw [bits_set hlt]
  have hm : k % 8 < 8 := Nat.mod_lt _ (by omega)
  split
  · next hk =>
    have e1 := one_shift_bit (o := i % 8) (j := k % 8) (by omega) hm
    have e2 := neg_flag_bit f hm
    have e3 : bits a k = a[i / 8].getLsbD (k % 8) := bits_of_getElem? (by simp [hk, hlt])
    rw [BitVec.getLsbD_or, BitVec.getLsbD_and, BitVec.getLsbD_and, BitVec.getLsbD_not, e1, e2, e3]
    by_cases hki : k = i
    · subst hki; simp
    · have : ¬ k % 8 = i % 8 := by omega
      simp [this, hki, hm]
  · next hk =>
    rw [if_neg (by rintro rfl; exact hk rfl)]

theorem getBit_spec {a : List (BitVec 8)} {i : Nat} (h : i < 8 * a.length) : getBit a i = some (bits a i) := by
  have hlt : i / 8 < a.length := by omega
  have e : bits a i = a[i / 8].getLsbD (i % 8) := bits_of_getElem? (by simp [hlt])
  simp only [getBit, rd, List.getElem?_eq_getElem hlt, Option.bind_eq_bind, Option.bind_some, e]
  congr 1
  generalize a[i / 8] = w
  have ho : i % 8 < 8 := Nat.mod_lt _ (by omega)
  generalize i % 8 = o at ho
  by_cases hb : w.getLsbD o = true
  · rw [hb]
    simp only [bne_iff_ne, ne_eq]
    intro hz
    have := congrArg (fun v : BitVec 8 => v.getLsbD o) hz
    simp [one_shift_bit ho ho, hb] at this
  · rw [Bool.not_eq_true] at hb
    rw [hb]
    have : w &&& 1#8 <<< o = 0#8 := by
      apply BitVec.eq_of_getLsbD_eq
      intro j hj
      rw [BitVec.getLsbD_and, one_shift_bit ho hj]
      by_cases hjo : j = o
      · subst hjo; simp [hb]
      · simp [hjo]
    simp [this]

theorem bits_setCap {junk : Nat → BitVec 8} {a : List (BitVec 8)} {c : Nat} (hc : a.length ≤ c) {k : Nat}
    (hk : k < 8 * a.length) : bits (setCap junk a c) k = bits a k := by
  unfold bits setCap
  rw [List.take_of_length_le hc, List.getElem?_append_left (by omega)]

theorem setCap_length {junk : Nat → BitVec 8} {a : List (BitVec 8)} {c : Nat} (hc : a.length ≤ c) :
    (setCap junk a c).length = c := by
  simp [setCap]; omega

/-! ### `_shiftDelete` -/

theorem delLoop_spec : ∀ (n i : Nat) (a : List (BitVec 8)), 1 ≤ i → i + n ≤ a.length →
    ∃ a', delLoop n i a = some a' ∧ a'.length = a.length ∧
      ∀ k, bits a' k = if 8 * i - 1 ≤ k ∧ k < 8 * (i + n) - 1 then bits a (k + 1)
        else if k = 8 * (i + n) - 1 ∧ n ≠ 0 then false else bits a k := by
  intro n
  induction n with
  | zero =>
    intro i a _ _
    exact ⟨a, rfl, rfl, fun k => by rw [if_neg (by omega), if_neg (by omega)]⟩
  | succ n ih =>
    intro i a hi hin
    have h1 : i - 1 < a.length := by omega
    have h2 : i < a.length := by omega
    let a1 := (a.set (i - 1) ((a[i - 1] &&& (255#8 >>> 1)) ||| ((a[i] &&& 1#8) <<< 7))).set i (a[i] >>> 1)
    obtain ⟨a', e1, e2, e3⟩ := ih (i + 1) a1 (by omega) (by simp [a1]; omega)
    refine ⟨a', ?_, by simpa [a1] using e2, fun k => ?_⟩
    · simp only [delLoop, rd, List.getElem?_eq_getElem h1, List.getElem?_eq_getElem h2, Option.bind_some,
        wr_of_lt h1, wr_of_lt (show i < (a.set (i - 1) ((a[i - 1] &&& (255#8 >>> 1)) ||| ((a[i] &&& 1#8) <<< 7))).length by
          simpa using h2)]
      exact e1
    · have hm : k % 8 < 8 := Nat.mod_lt _ (by omega)
      have hb : ∀ k, bits a1 k = if 8 * i - 1 ≤ k ∧ k < 8 * (i + 1) - 1 then bits a (k + 1)
          else if k = 8 * (i + 1) - 1 then false else bits a k := by
        intro k
        have hm : k % 8 < 8 := Nat.mod_lt _ (by omega)
        simp only [a1]
        rw [bits_set (by simpa using h2), bits_set h1]
        by_cases hk : k / 8 = i
        · rw [if_pos hk, BitVec.getLsbD_ushiftRight]
          by_cases h7 : k % 8 = 7
          · rw [if_neg (by omega), if_pos (by omega)]
            exact BitVec.getLsbD_of_ge _ _ (by omega)
          · rw [if_pos (by omega), bits_of_getElem? (w := a[i]) (by
              rw [show (k + 1) / 8 = i by omega, List.getElem?_eq_getElem h2])]
            congr 1; omega
        · rw [if_neg hk]
          by_cases hk1 : k / 8 = i - 1
          · rw [if_pos hk1]
            have hc : ∀ c : BitVec 8, ((c &&& 1#8) <<< 7).getLsbD 7 = c.getLsbD 0 := by decide
            have hc2 : ∀ c : BitVec 8, ∀ j < 7, ((c &&& 1#8) <<< 7).getLsbD j = false := by
              intro c j hj
              simp [BitVec.getLsbD_shiftLeft, hj]
            have hp : ∀ j < 7, (255#8 >>> 1).getLsbD j = true := by decide
            have hp7 : (255#8 >>> 1).getLsbD 7 = false := by decide
            rw [BitVec.getLsbD_or, BitVec.getLsbD_and]
            by_cases h7 : k % 8 = 7
            · rw [if_pos (by omega), h7, hp7, hc]
              rw [bits_of_getElem? (w := a[i]) (by
                rw [show (k + 1) / 8 = i by omega, List.getElem?_eq_getElem h2])]
              rw [show (k + 1) % 8 = 0 by omega]
              simp
            · rw [if_neg (by omega), if_neg (by omega), hp _ (by omega), hc2 _ _ (by omega)]
              rw [bits_of_getElem? (w := a[i - 1]) (by rw [hk1, List.getElem?_eq_getElem h1])]
              simp
          · rw [if_neg hk1, if_neg (by omega), if_neg (by omega)]
      rw [e3]
      by_cases c1 : 8 * (i + 1) - 1 ≤ k ∧ k < 8 * (i + 1 + n) - 1
      · rw [if_pos c1, hb, if_neg (by omega), if_neg (by omega), if_pos (by omega)]
      · rw [if_neg c1]
        by_cases c2 : k = 8 * (i + 1 + n) - 1 ∧ n ≠ 0
        · rw [if_pos c2, if_neg (by omega), if_pos (by omega)]
        · rw [if_neg c2, hb]
          by_cases c3 : 8 * i - 1 ≤ k ∧ k < 8 * (i + 1) - 1
          · rw [if_pos c3, if_pos (by omega)]
          · rw [if_neg c3]
            by_cases c4 : k = 8 * (i + 1) - 1
            · have : n = 0 := by omega
              subst this
              rw [if_pos c4, if_neg (by omega), if_pos (by omega)]
            · rw [if_neg c4, if_neg (by omega), if_neg (by omega)]

theorem shiftDelete_spec {a : List (BitVec 8)} {len index : Nat} (hi : index < len) (hl : len ≤ 8 * a.length) :
    ∃ a', shiftDelete a len index = some a' ∧ a'.length = a.length ∧
      ∀ k, k < len - 1 → bits a' k = if k < index then bits a k else bits a (k + 1) := by
  have h1 : index / 8 < a.length := by omega
  have hch : maxChunks len / 8 = (len + 7) / 8 := by unfold maxChunks; omega
  let a1 := a.set (index / 8) (((a[index / 8] >>> 1) &&& (255#8 <<< (index % 8))) |||
    (a[index / 8] &&& ~~~(255#8 <<< (index % 8))))
  obtain ⟨a', e1, e2, e3⟩ := delLoop_spec (maxChunks len / 8 - (index / 8 + 1)) (index / 8 + 1) a1 (by omega)
    (by simp [a1]; omega)
  refine ⟨a', ?_, by simpa [a1] using e2, fun k hk => ?_⟩
  · simp only [shiftDelete, rd, List.getElem?_eq_getElem h1, Option.bind_some, wr_of_lt h1]
    exact e1
  · have hb : ∀ k, bits a1 k = if k / 8 = index / 8 then
        (if k < index then bits a k else if k % 8 = 7 then false else bits a (k + 1)) else bits a k := by
      intro k
      have hm : k % 8 < 8 := Nat.mod_lt _ (by omega)
      simp only [a1]
      rw [bits_set h1]
      by_cases hk : k / 8 = index / 8
      · rw [if_pos hk, if_pos hk, BitVec.getLsbD_or, BitVec.getLsbD_and, BitVec.getLsbD_and, BitVec.getLsbD_not,
          BitVec.getLsbD_ushiftRight, mask_bit hm]
        have ek : bits a k = a[index / 8].getLsbD (k % 8) := bits_of_getElem? (by rw [hk, List.getElem?_eq_getElem h1])
        by_cases hki : k < index
        · have : ¬ index % 8 ≤ k % 8 := by omega
          simp [hki, this, ek, hm]
        · have : index % 8 ≤ k % 8 := by omega
          rw [if_neg hki]
          by_cases h7 : k % 8 = 7
          · have e7 : a[index / 8].getLsbD (1 + k % 8) = false := BitVec.getLsbD_of_ge _ _ (by omega)
            rw [e7, if_pos h7]
            simp [this]
          · rw [if_neg h7, bits_of_getElem? (w := a[index / 8]) (by
              rw [show (k + 1) / 8 = index / 8 by omega, List.getElem?_eq_getElem h1])]
            rw [show (k + 1) % 8 = 1 + k % 8 by omega]
            simp [this]
      · rw [if_neg hk, if_neg hk]
    rw [e3]
    by_cases c1 : 8 * (index / 8 + 1) - 1 ≤ k ∧ k < 8 * (index / 8 + 1 + (maxChunks len / 8 - (index / 8 + 1))) - 1
    · rw [if_pos c1, hb, if_neg (by omega), if_neg (by omega)]
    · rw [if_neg c1]
      rw [if_neg (by omega), hb]
      by_cases hk2 : k / 8 = index / 8
      · rw [if_pos hk2]
        by_cases hki : k < index
        · rw [if_pos hki, if_pos hki]
        · rw [if_neg hki, if_neg hki, if_neg (by omega)]
      · rw [if_neg hk2]
        by_cases hki : k < index
        · rw [if_pos hki]
        · omega

/-! ### `_shiftInsert` -/

theorem insLoop_spec : ∀ (n i : Nat) (store : BitVec 8) (a : List (BitVec 8)), i + n ≤ a.length →
    ∃ a', insLoop n i store a = some a' ∧ a'.length = a.length ∧
      ∀ k, bits a' k = if 8 * i ≤ k ∧ k < 8 * (i + n) then
          (if k = 8 * i then store.getLsbD 7 else if k % 8 = 0 then bits a (k - 2) else bits a (k - 1))
        else bits a k := by
  intro n
  induction n with
  | zero =>
    intro i store a _
    exact ⟨a, rfl, rfl, fun k => by rw [if_neg (by omega)]⟩
  | succ n ih =>
    intro i store a hin
    have h2 : i < a.length := by omega
    let c' := (store >>> 7) ||| ((a[i] <<< 1) &&& ~~~1#8)
    obtain ⟨a', e1, e2, e3⟩ := ih (i + 1) c' (a.set i c') (by simp; omega)
    refine ⟨a', ?_, by simpa using e2, fun k => ?_⟩
    · simp only [insLoop, rd, List.getElem?_eq_getElem h2, Option.bind_some, wr_of_lt h2]
      exact e1
    · have hc0 : c'.getLsbD 0 = store.getLsbD 7 := by
        simp only [c']
        have h : ∀ s : BitVec 8, (s >>> 7).getLsbD 0 = s.getLsbD 7 := by intro s; simp
        have h' : ∀ s : BitVec 8, ((s <<< 1) &&& ~~~1#8).getLsbD 0 = false := by intro s; simp
        rw [BitVec.getLsbD_or, h, h']
        simp
      have hcj : ∀ j, 1 ≤ j → j < 8 → c'.getLsbD j = a[i].getLsbD (j - 1) := by
        intro j h1 h8
        have hn : ∀ j < 8, 1 ≤ j → (~~~1#8).getLsbD j = true := by decide
        have hs : (store >>> 7).getLsbD j = false := by
          rw [BitVec.getLsbD_ushiftRight]
          exact BitVec.getLsbD_of_ge _ _ (by omega)
        simp only [c']
        rw [BitVec.getLsbD_or, BitVec.getLsbD_and, hs, hn j h8 h1, BitVec.getLsbD_shiftLeft]
        simp [h8]
        omega
      have hb : ∀ k, bits (a.set i c') k = if k / 8 = i then
          (if k = 8 * i then store.getLsbD 7 else bits a (k - 1)) else bits a k := by
        intro k
        have hm : k % 8 < 8 := Nat.mod_lt _ (by omega)
        rw [bits_set h2]
        split
        · next hk =>
          split
          · next h0 => rw [show k % 8 = 0 by omega, hc0]
          · next h0 =>
            rw [hcj _ (by omega) hm, bits_of_getElem? (w := a[i]) (by
              rw [show (k - 1) / 8 = i by omega, List.getElem?_eq_getElem h2])]
            rw [show (k - 1) % 8 = k % 8 - 1 by omega]
        · rfl
      rw [e3]
      by_cases c1 : 8 * (i + 1) ≤ k ∧ k < 8 * (i + 1 + n)
      · rw [if_pos c1, if_pos (show 8 * i ≤ k ∧ k < 8 * (i + (n + 1)) by omega), if_neg (show ¬ k = 8 * i by omega)]
        by_cases hk : k = 8 * (i + 1)
        · rw [if_pos hk, if_pos (by omega), hcj 7 (by omega) (by omega)]
          rw [bits_of_getElem? (w := a[i]) (by
              rw [show (k - 2) / 8 = i by omega, List.getElem?_eq_getElem h2])]
          rw [show (k - 2) % 8 = 6 by omega]
        · rw [if_neg hk]
          by_cases h0 : k % 8 = 0
          · rw [if_pos h0, if_pos h0, hb, if_neg (by omega)]
          · rw [if_neg h0, if_neg h0, hb, if_neg (by omega)]
      · rw [if_neg c1, hb]
        by_cases hk : k / 8 = i
        · rw [if_pos hk, if_pos (show 8 * i ≤ k ∧ k < 8 * (i + (n + 1)) by omega)]
          by_cases h0 : k = 8 * i
          · rw [if_pos h0, if_pos h0]
          · rw [if_neg h0, if_neg h0, if_neg (by omega)]
        · rw [if_neg hk, if_neg (by omega)]

/-- Complete description of the bits `_shiftInsert` produces: the first bit of every byte at least two bytes after the
insertion point is taken from two positions back instead of one. -/
theorem shiftInsert_spec {a : List (BitVec 8)} {len index : Nat} (hi : index ≤ len) (hl : len < 8 * a.length) :
    ∃ a', shiftInsert a len index = some a' ∧ a'.length = a.length ∧
      ∀ k, k ≤ len → k ≠ index → bits a' k = if k < index then bits a k else
        if k % 8 = 0 ∧ index / 8 + 2 ≤ k / 8 then bits a (k - 2) else bits a (k - 1) := by
  have h1 : index / 8 < a.length := by omega
  have hch : maxChunks (len + 1) / 8 = (len + 1 + 7) / 8 := by unfold maxChunks; omega
  let a1 := a.set (index / 8) (((a[index / 8] &&& (255#8 <<< (index % 8))) <<< 1) |||
    (a[index / 8] &&& ~~~(255#8 <<< (index % 8))))
  obtain ⟨a', e1, e2, e3⟩ := insLoop_spec (maxChunks (len + 1) / 8 - (index / 8 + 1)) (index / 8 + 1) a[index / 8] a1
    (by simp [a1]; omega)
  refine ⟨a', ?_, by simpa [a1] using e2, fun k hk hne => ?_⟩
  · simp only [shiftInsert, rd, List.getElem?_eq_getElem h1, Option.bind_some, wr_of_lt h1]
    exact e1
  · have hb : ∀ k, k ≠ index → bits a1 k = if k / 8 = index / 8 then
        (if k < index then bits a k else bits a (k - 1)) else bits a k := by
      intro k hne
      have hm : k % 8 < 8 := Nat.mod_lt _ (by omega)
      simp only [a1]
      rw [bits_set h1]
      by_cases hk : k / 8 = index / 8
      · rw [if_pos hk, if_pos hk, BitVec.getLsbD_or, BitVec.getLsbD_and, BitVec.getLsbD_not,
          BitVec.getLsbD_shiftLeft, mask_bit hm]
        have ek : bits a k = a[index / 8].getLsbD (k % 8) := bits_of_getElem? (by rw [hk, List.getElem?_eq_getElem h1])
        by_cases hki : k < index
        · have h' : ¬ index % 8 ≤ k % 8 := by omega
          have h'' : (a[index / 8] &&& 255#8 <<< (index % 8)).getLsbD (k % 8 - 1) = false := by
            rw [BitVec.getLsbD_and, mask_bit (by omega)]
            have : ¬ index % 8 ≤ k % 8 - 1 := by omega
            simp [this]
          simp only [h'', if_pos hki, ek]
          simp [h', hm]
        · have h' : index % 8 ≤ k % 8 := by omega
          rw [if_neg hki, bits_of_getElem? (w := a[index / 8]) (by
              rw [show (k - 1) / 8 = index / 8 by omega, List.getElem?_eq_getElem h1])]
          rw [show (k - 1) % 8 = k % 8 - 1 by omega, BitVec.getLsbD_and, mask_bit (by omega)]
          have h1' : ¬ k % 8 < 1 := by omega
          have h2' : index % 8 ≤ k % 8 - 1 := by omega
          simp only [h', hm, h1', h2', decide_true, decide_false, Bool.not_true, Bool.not_false, Bool.and_true,
            Bool.true_and, Bool.and_false, Bool.or_false]
      · rw [if_neg hk, if_neg hk]
    rw [e3]
    by_cases c1 : 8 * (index / 8 + 1) ≤ k ∧ k < 8 * (index / 8 + 1 + (maxChunks (len + 1) / 8 - (index / 8 + 1)))
    · rw [if_pos c1, if_neg (show ¬ k < index by omega)]
      by_cases c2 : k = 8 * (index / 8 + 1)
      · rw [if_pos c2, if_neg (by omega), bits_of_getElem? (k := k - 1) (w := a[index / 8]) (by
              rw [show (k - 1) / 8 = index / 8 by omega, List.getElem?_eq_getElem h1])]
        congr 1; omega
      · rw [if_neg c2]
        by_cases c3 : k % 8 = 0
        · rw [if_pos c3, if_pos (by omega), hb _ (by omega), if_neg (by omega)]
        · rw [if_neg c3, if_neg (by omega), hb _ (by omega), if_neg (by omega)]
    · rw [if_neg c1, hb _ hne]
      by_cases hki : k < index
      · simp [hki]
      · simp only [hki, if_false]
        rw [if_pos (by omega), if_neg (by omega)]

theorem clearFrom_spec : ∀ (n i : Nat) (a : List (BitVec 8)), i + n ≤ 8 * a.length →
    ∃ a', clearFrom n i a = some a' ∧ a'.length = a.length ∧
      ∀ k, bits a' k = if i ≤ k ∧ k < i + n then false else bits a k := by
  intro n
  induction n with
  | zero => intro i a _; exact ⟨a, rfl, rfl, fun k => by rw [if_neg (by omega)]⟩
  | succ n ih =>
    intro i a h
    obtain ⟨a1, e1, e2, e3⟩ := setBit_spec (a := a) (i := i) (by omega) false
    obtain ⟨a2, f1, f2, f3⟩ := ih (i + 1) a1 (by omega)
    refine ⟨a2, by simp [clearFrom, e1, f1], by omega, fun k => ?_⟩
    rw [f3, e3]
    by_cases h1 : i + 1 ≤ k ∧ k < i + 1 + n
    · rw [if_pos h1, if_pos (by omega)]
    · rw [if_neg h1]
      by_cases h2 : k = i
      · rw [if_pos h2, if_pos (by omega)]
      · rw [if_neg h2, if_neg (by omega)]

/-- The array represents the sequence `l`. -/
structure Rep (b : BArr) (l : List Bool) : Prop where
  len : b.len = l.length
  cap : l.length ≤ 8 * b.arr.length
  bit : ∀ k : Nat, k < l.length → l[k]? = some (bits b.arr k)

theorem Rep.new (junk : Nat → BitVec 8) (c : Nat) : Rep (new junk c) [] := ⟨rfl, by simp, by simp⟩

theorem Rep.checkSize {b : BArr} {l : List Bool} (junk : Nat → BitVec 8) (h : Rep b l) :
    Rep (checkSize junk b) l ∧ l.length < 8 * (checkSize junk b).arr.length := by
  have h1 := h.len
  have h2 := h.cap
  unfold BoolArr.checkSize
  split
  · have hf : b.arr.length < Arith.fbnextN b.arr.length := by unfold Arith.fbnextN; omega
    have hs := setCap_length (junk := junk) (a := b.arr) (c := Arith.fbnextN b.arr.length) (by omega)
    refine ⟨⟨h1, by simp only [hs]; omega, fun k hk => ?_⟩, by simp only [hs]; omega⟩
    rw [h.bit k hk, bits_setCap (by omega) (by omega)]
  · exact ⟨h, by omega⟩

theorem Rep.of_bits {b : BArr} {l : List Bool} (h1 : b.len = l.length) (h2 : l.length ≤ 8 * b.arr.length)
    (h3 : ∀ k : Nat, k < l.length → l[k]? = some (bits b.arr k)) : Rep b l := ⟨h1, h2, h3⟩

theorem Rep.add {b : BArr} {l : List Bool} (junk : Nat → BitVec 8) (h : Rep b l) (f : Bool) :
    ∃ b', add junk b f = some (b', l.length) ∧ Rep b' (l ++ [f]) := by
  obtain ⟨h1, h2⟩ := h.checkSize junk
  obtain ⟨a', e1, e2, e3⟩ := setBit_spec (a := (BoolArr.checkSize junk b).arr) (i := l.length) h2 f
  refine ⟨⟨a', l.length + 1⟩, ?_, ⟨by simp, by simp; omega, fun k hk => ?_⟩⟩
  · simp [BoolArr.add, h1.len, e1]
  · rw [e3]
    simp at hk
    by_cases hkl : k = l.length
    · subst hkl; simp
    · rw [if_neg hkl, List.getElem?_append_left (by omega)]
      exact h1.bit k (by omega)

theorem Rep.put {b : BArr} {l : List Bool} (h : Rep b l) {i : Nat} (hi : i < l.length) (f : Bool) :
    ∃ b', put b i f = some b' ∧ Rep b' (l.set i f) := by
  obtain ⟨a', e1, e2, e3⟩ := setBit_spec (a := b.arr) (i := i) (by have := h.cap; omega) f
  refine ⟨⟨a', b.len⟩, ?_, ⟨by simp [h.len], by simp [e2]; exact h.cap, fun k hk => ?_⟩⟩
  · simp [BoolArr.put, h.len, hi, e1]
  · simp at hk
    rw [e3]
    by_cases hki : k = i
    · subst hki; rw [if_pos rfl, List.getElem?_set_self hi]
    · rw [if_neg hki, List.getElem?_set_ne (fun e => hki e.symm)]
      exact h.bit k hk

theorem Rep.remove {b : BArr} {A B : List Bool} {x : Bool} (h : Rep b (A ++ x :: B)) :
    ∃ b', remove b A.length = some b' ∧ Rep b' (A ++ B) := by
  have hl : b.len = A.length + 1 + B.length := by rw [h.len]; simp; omega
  have hcap := h.cap
  simp at hcap
  obtain ⟨a', e1, e2, e3⟩ := shiftDelete_spec (a := b.arr) (len := b.len) (index := A.length) (by omega) (by omega)
  refine ⟨⟨a', b.len - 1⟩, ?_, ⟨by simp; omega, by simp [e2]; omega, fun k hk => ?_⟩⟩
  · simp [BoolArr.remove, e1]; omega
  · simp at hk
    rw [e3 k (by omega)]
    by_cases hk2 : k < A.length
    · rw [if_pos hk2, List.getElem?_append_left hk2, ← h.bit k (by simp; omega), List.getElem?_append_left hk2]
    · rw [if_neg hk2, List.getElem?_append_right (by omega), ← h.bit (k + 1) (by simp; omega),
        List.getElem?_append_right (by omega), show k + 1 - A.length = (k - A.length) + 1 by omega, List.getElem?_cons_succ]

theorem Rep.removeLast {b : BArr} {A : List Bool} {x : Bool} (h : Rep b (A ++ [x])) :
    ∃ b', removeLast b = some b' ∧ Rep b' A := by
  have hl : b.len = A.length + 1 := by rw [h.len]; simp
  have hcap := h.cap
  simp at hcap
  refine ⟨⟨b.arr, b.len - 1⟩, ?_, ⟨by simp [hl], by simp; omega, fun k hk => ?_⟩⟩
  · simp [BoolArr.removeLast]; omega
  · rw [← h.bit k (by simp; omega), List.getElem?_append_left hk]

/-- What `Insert` produces, at every position. -/
theorem Rep.insert_bits {b : BArr} {l : List Bool} (junk : Nat → BitVec 8) (h : Rep b l) (f : Bool) {index : Nat}
    (hi : index ≤ l.length) : ∃ b', insert junk b f index = some b' ∧ b'.len = l.length + 1 ∧
      l.length + 1 ≤ 8 * b'.arr.length ∧
      ∀ k, k ≤ l.length → some (bits b'.arr k) = if k < index then l[k]? else if k = index then some f else
        if k % 8 = 0 ∧ index / 8 + 2 ≤ k / 8 then l[k - 2]? else l[k - 1]? := by
  obtain ⟨h1, h2⟩ := h.checkSize junk
  obtain ⟨a1, e1, e2, e3⟩ := shiftInsert_spec (a := (BoolArr.checkSize junk b).arr) (len := l.length) (index := index) hi h2
  obtain ⟨a2, f1, f2, f3⟩ := setBit_spec (a := a1) (i := index) (by omega) f
  refine ⟨⟨a2, l.length + 1⟩, ?_, rfl, by simp; omega, fun k hk => ?_⟩
  · simp [BoolArr.insert, h1.len, e1, f1]
  · rw [f3]
    by_cases hki : k = index
    · subst hki; simp
    · rw [if_neg hki, e3 k hk hki, if_neg hki]
      by_cases hlt : k < index
      · rw [if_pos hlt, if_pos hlt, h1.bit k (by omega)]
      · rw [if_neg hlt, if_neg hlt]
        split
        · rw [h1.bit _ (by omega)]
        · rw [h1.bit _ (by omega)]

theorem Rep.setLength {b : BArr} {l : List Bool} (junk : Nat → BitVec 8) (h : Rep b l) (n : Nat) :
    ∃ b', setLength junk b n = some b' ∧ Rep b' (l.take n ++ List.replicate (n - l.length) false) := by
  have hl := h.len
  have hcap := h.cap
  let arr := if n > b.arr.length * 8 then setCap junk b.arr (maxChunks n / 8) else b.arr
  have harr : n ≤ 8 * arr.length ∧ l.length ≤ 8 * arr.length ∧ ∀ k, k < l.length → bits arr k = bits b.arr k := by
    simp only [arr]
    split
    · have hm : maxChunks n / 8 = (n + 7) / 8 := by unfold maxChunks; omega
      have hs := setCap_length (junk := junk) (a := b.arr) (c := maxChunks n / 8) (by omega)
      refine ⟨by rw [hs]; omega, by rw [hs]; omega, fun k hk => bits_setCap (by omega) (by omega)⟩
    · exact ⟨by omega, hcap, fun _ _ => rfl⟩
  obtain ⟨a', e1, e2, e3⟩ := clearFrom_spec (n - b.len) b.len arr (by omega)
  refine ⟨⟨a', n⟩, ?_, ⟨by simp; omega, by simp; omega, fun k hk => ?_⟩⟩
  · simp only [BoolArr.setLength]
    rw [show (if n > b.arr.length * 8 then setCap junk b.arr (maxChunks n / 8) else b.arr) = arr from rfl, e1]
    rfl
  · have hkn : k < n := by simp at hk; omega
    rw [e3]
    by_cases hkl : k < l.length
    · rw [if_neg (by omega), harr.2.2 k hkl, List.getElem?_append_left (by simp; omega), List.getElem?_take_of_lt hkn]
      exact h.bit k hkl
    · rw [if_pos (by omega), List.getElem?_append_right (by simp; omega), List.getElem?_replicate]
      simp; omega

theorem Rep.flip {b : BArr} {l : List Bool} (h : Rep b l) : Rep (flip b) (l.map (!·)) := by
  refine ⟨by simp [BoolArr.flip, h.len], by simp [BoolArr.flip]; exact h.cap, fun k hk => ?_⟩
  simp at hk
  have hc := h.cap
  have hlt : k / 8 < b.arr.length := by omega
  have hm : k % 8 < 8 := Nat.mod_lt _ (by omega)
  rw [List.getElem?_map, h.bit k hk]
  simp only [Option.map_some, bits, BoolArr.flip, List.getElem?_map, List.getElem?_eq_getElem hlt]
  simp [hm]

theorem Rep.get {b : BArr} {l : List Bool} (h : Rep b l) {k : Nat} (hk : k < l.length) : getBit b.arr k = l[k]? := by
  rw [getBit_spec (by have := h.cap; omega), h.bit k hk]

end Verif.BoolArr
