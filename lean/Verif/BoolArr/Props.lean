import Verif.BoolArr.Lemmas
import Verif.Arith.BitCount

/-!
# C28: the packed bool array and sequences of booleans

The full claim is false for `Insert` (see `C28_insert_counterexample`); everything else is proved in general, and the
effect of `Insert` is described exactly.
-/

namespace Verif.BoolArr

inductive Op
  | add (f : Bool)
  | insert (f : Bool) (index : Nat)
  | remove (index : Nat)
  | removeLast
  | setLength (n : Nat)
  | put (index : Nat) (f : Bool)
  | flip

/-- Specification on sequences of booleans; `none` outside the precondition.  `insert` here is limited to insertions
whose effect ends in the byte after the one containing the insertion point. -/
def spec : Op → List Bool → Option (List Bool)
  | .add f, l => some (l ++ [f])
  | .insert f i, l =>
    if i ≤ l.length ∧ l.length < 8 * (i / 8 + 2) then some (l.take i ++ f :: l.drop i) else none
  | .remove i, l => if i < l.length then some (l.take i ++ l.drop (i + 1)) else none
  | .removeLast, l => if l = [] then none else some l.dropLast
  | .setLength n, l => some (l.take n ++ List.replicate (n - l.length) false)
  | .put i f, l => if i < l.length then some (l.set i f) else none
  | .flip, l => some (l.map (!·))

/-- The code. -/
def exec (junk : Nat → BitVec 8) : Op → BArr → Option BArr
  | .add f, b => (add junk b f).map (·.1)
  | .insert f i, b => insert junk b f i
  | .remove i, b => remove b i
  | .removeLast, b => removeLast b
  | .setLength n, b => setLength junk b n
  | .put i f, b => put b i f
  | .flip, b => some (flip b)

def runAll {σ : Type} (f : Op → σ → Option σ) : List Op → σ → Option σ
  | [], s => some s
  | o :: os, s => (f o s).bind (runAll f os)

/-- The result of `Insert` in general: right except at the first bit of every byte that lies two or more bytes after the
one containing the insertion point; that bit is a copy of the element two places before instead of one. -/
theorem C28_insert_effect (junk : Nat → BitVec 8) {b : BArr} {l : List Bool} (h : Rep b l) (f : Bool) {index : Nat}
    (hi : index ≤ l.length) : ∃ b', insert junk b f index = some b' ∧ b'.len = l.length + 1 ∧
      ∀ k : Nat, k ≤ l.length → getBit b'.arr k =
        if k % 8 = 0 ∧ index / 8 + 2 ≤ k / 8 then l[k - 2]? else (l.take index ++ f :: l.drop index)[k]? := by
  obtain ⟨b', e1, e2, e3, e4⟩ := h.insert_bits junk f hi
  refine ⟨b', e1, e2, fun k hk => ?_⟩
  rw [getBit_spec (by omega), e4 k hk]
  by_cases h1 : k < index
  · rw [if_pos h1, if_neg (by omega), List.getElem?_append_left (by simp; omega), List.getElem?_take_of_lt h1]
  · rw [if_neg h1]
    have e5 : (l.take index).length = index := by simp; omega
    by_cases h2 : k = index
    · subst h2
      rw [if_pos rfl, if_neg (by omega), List.getElem?_append_right (by omega), e5]
      simp
    · rw [if_neg h2]
      split
      · rfl
      · rw [List.getElem?_append_right (by omega), e5, show k - index = (k - index - 1) + 1 by omega,
          List.getElem?_cons_succ, List.getElem?_drop]
        congr 1; omega

theorem exec_sim (junk : Nat → BitVec 8) {b : BArr} {l l' : List Bool} (h : Rep b l) (o : Op) (hs : spec o l = some l') :
    ∃ b', exec junk o b = some b' ∧ Rep b' l' := by
  cases o with
  | add f =>
    cases hs
    obtain ⟨b', e1, e2⟩ := h.add junk f
    exact ⟨b', by simp [exec, e1], e2⟩
  | insert f i =>
    simp only [spec] at hs
    split at hs
    · next hi =>
      cases hs
      obtain ⟨b1, g1, g2, g3, g4⟩ := h.insert_bits junk f hi.1
      obtain ⟨b', e1, e2, e3⟩ := C28_insert_effect junk h f hi.1
      have : b1 = b' := by rw [g1] at e1; exact Option.some.inj e1
      subst this
      have hlen : (l.take i ++ f :: l.drop i).length = l.length + 1 := by simp; omega
      refine ⟨b1, e1, ⟨by omega, by omega, fun k hk => ?_⟩⟩
      have := e3 k (by omega)
      rw [if_neg (by omega), getBit_spec (by omega)] at this
      exact this.symm
    · simp at hs
  | remove i =>
    simp only [spec] at hs
    split at hs
    · next hi =>
      cases hs
      have e : l = l.take i ++ l[i] :: l.drop (i + 1) := by
        rw [List.getElem_cons_drop]; simp
      rw [e] at h
      obtain ⟨b', e1, e2⟩ := h.remove
      have e3 : (l.take i).length = i := by simp; omega
      rw [e3] at e1
      exact ⟨b', e1, e2⟩
    · simp at hs
  | removeLast =>
    simp only [spec] at hs
    split at hs
    · simp at hs
    · next hne =>
      cases hs
      rw [← List.dropLast_concat_getLast hne] at h
      exact h.removeLast
  | setLength n => cases hs; exact h.setLength junk n
  | put i f =>
    simp only [spec] at hs
    split at hs
    · next hi => cases hs; exact h.put hi f
    · simp at hs
  | flip => cases hs; exact ⟨_, rfl, h.flip⟩

theorem run_sim (junk : Nat → BitVec 8) : ∀ (os : List Op) {b : BArr} {l l' : List Bool}, Rep b l →
    runAll spec os l = some l' → ∃ b', runAll (exec junk) os b = some b' ∧ Rep b' l' := by
  intro os
  induction os with
  | nil => intro b l l' h hs; cases hs; exact ⟨b, rfl, h⟩
  | cons o os ih =>
    intro b l l' h hs
    simp only [runAll, Option.bind_eq_some_iff] at hs
    obtain ⟨l1, h1, h2⟩ := hs
    obtain ⟨b1, e1, e2⟩ := exec_sim junk h o h1
    obtain ⟨b2, f1, f2⟩ := ih e2 h2
    exact ⟨b2, by simp [runAll, e1, f1], f2⟩

/-- C28, for every history in which each `Insert` shifts no further than the byte after its insertion point: whatever
the initial capacity and the contents of fresh memory, the packed array never accesses memory outside its block and holds
exactly the sequence of booleans the specification computes.  Missing: longer insertions, for which the claim is false. -/
theorem C28_bool_sequence_partial (junk : Nat → BitVec 8) (capacity : Nat) (os : List Op) {l : List Bool}
    (h : runAll spec os [] = some l) :
    ∃ b, runAll (exec junk) os (new junk capacity) = some b ∧ b.len = l.length ∧ l.length ≤ 8 * b.arr.length ∧
      ∀ k : Nat, k < l.length → getBit b.arr k = l[k]? := by
  obtain ⟨b, e1, e2⟩ := run_sim junk os (Rep.new junk capacity) h
  exact ⟨b, e1, e2.len, e2.cap, fun k hk => e2.get hk⟩

example : runAll spec [.add true, .setLength 9, .insert true 3, .add true, .remove 0, .put 1 true, .flip, .removeLast] [] =
    some [true, false, false, true, true, true, true, true, true] := by decide +kernel

/-- `Insert` on 17 elements at index 0 loses the element at index 15 and doubles the one at 14. -/
theorem C28_insert_counterexample : ∃ (b : BArr) (l : List Bool), Rep b l ∧ l.length = 17 ∧
    ∃ b', insert (fun _ => 0#8) b false 0 = some b' ∧ getBit b'.arr 16 = some false ∧ (false :: l)[16]? = some true := by
  refine ⟨⟨[0#8, 128#8, 0#8], 17⟩, (List.replicate 15 false) ++ [true, false], ⟨rfl, by simp, ?_⟩, rfl,
    ⟨[0#8, 0#8, 0#8], 18⟩, by decide +kernel, by decide +kernel, by decide +kernel⟩
  intro k hk
  have hk' : k < 17 := by simpa using hk
  have : ∀ k < 17, ((List.replicate 15 false) ++ [true, false])[k]? = some (bits [0#8, 128#8, 0#8] k) := by
    decide +kernel
  exact this k hk'

/-- `Insert` is right on an array of at most two bytes. -/
theorem C28_insert_short_partial (junk : Nat → BitVec 8) {b : BArr} {l : List Bool} (h : Rep b l) (f : Bool) {index : Nat}
    (hi : index ≤ l.length) (hl : l.length < 16) :
    ∃ b', insert junk b f index = some b' ∧ b'.len = l.length + 1 ∧
      ∀ k : Nat, k ≤ l.length → getBit b'.arr k = (l.take index ++ f :: l.drop index)[k]? := by
  obtain ⟨b', e1, e2, e3⟩ := C28_insert_effect junk h f hi
  refine ⟨b', e1, e2, fun k hk => ?_⟩
  rw [e3 k hk, if_neg (by omega)]

/-- `AddConstruct` uses the bit count as byte subscript: it writes outside the block, or does not give the new element
the value false. -/
theorem C28_addConstruct_counterexample :
    (∃ b : BArr, Rep b [true] ∧ addConstruct (fun _ => 0#8) b = none) ∧
    ∃ b b' : BArr, Rep b [true] ∧ addConstruct (fun _ => 0#8) b = some (b', 1) ∧ getBit b'.arr 1 = some true := by
  have g1 : ∀ k < 1, [true][k]? = some (bits [1#8] k) := by decide
  have g2 : ∀ k < 1, [true][k]? = some (bits [255#8, 255#8] k) := by decide
  exact ⟨⟨⟨[1#8], 1⟩, ⟨rfl, by simp, fun k hk => g1 k (by simpa using hk)⟩, by decide⟩,
    ⟨[255#8, 255#8], 1⟩, ⟨[255#8, 0#8], 2⟩, ⟨rfl, by simp, fun k hk => g2 k (by simpa using hk)⟩, by decide, by decide⟩

/-- `Front() const` reads a whole byte and `Back() const` a byte outside the block. -/
theorem C28_const_front_back_counterexample :
    ∃ b : BArr, Rep b [false, true] ∧ frontConst b = some true ∧ backConst b = none := by
  have g1 : ∀ k < 2, [false, true][k]? = some (bits [2#8] k) := by decide
  exact ⟨⟨[2#8], 2⟩, ⟨rfl, by simp, fun k hk => g1 k (by simpa using hk)⟩, by decide, by decide⟩

/-- Copy assignment to an array with the larger capacity reads outside the source's block. -/
theorem C28_assign_counterexample : ∃ b c : BArr, Rep b [] ∧ Rep c [true] ∧ assign b c = none := by
  have g1 : ∀ k < 1, [true][k]? = some (bits [1#8] k) := by decide
  exact ⟨⟨[0#8, 0#8], 0⟩, ⟨[1#8], 1⟩, ⟨rfl, by simp, by simp⟩,
    ⟨rfl, by simp, fun k hk => g1 k (by simpa using hk)⟩, by decide⟩

/-- Copy assignment is right when the destination's capacity does not exceed the source's. -/
theorem C28_assign_partial {b c : BArr} {l m : List Bool} (_ : Rep b l) (hc : Rep c m)
    (hcap : b.arr.length ≤ c.arr.length) : ∃ b', assign b c = some b' ∧ Rep b' m := by
  have h1 := hc.len
  have h2 := hc.cap
  have hle : (if c.len > b.arr.length * 8 then c.arr.length else b.arr.length) ≤ c.arr.length := by split <;> omega
  have hge : m.length ≤ 8 * (if c.len > b.arr.length * 8 then c.arr.length else b.arr.length) := by split <;> omega
  refine ⟨_, by simp only [assign]; rw [if_pos hle], ?_⟩
  generalize (if c.len > b.arr.length * 8 then c.arr.length else b.arr.length) = q at hle hge
  refine ⟨h1, by simp; omega, fun k hk => ?_⟩
  rw [hc.bit k hk]
  simp only [bits]
  rw [List.getElem?_take_of_lt (by omega)]

/-! ## `CountBits` (`DynArray.h:218-237`) -/

/-- `CountBits(bitindex, length)`; `BitCount<uint8_t>` is the model verified in C55. -/
def countBits (arr : List (BitVec 8)) (bitindex length : Nat) : Option Nat :=
  if length = 0 then some 0
  else
    let length := length + bitindex
    let start := bitindex / 8
    let e := maxChunks length / 8
    let smask := ~~~((1#8 <<< (bitindex - start * 8)) - 1#8)
    let emask := 255#8 >>> (e * 8 - length)
    let bc := fun w : BitVec 8 => Arith.bitCount false 1 w.toNat
    let e := e - 1
    if start = e then (rd arr start).map fun w => bc ((w &&& smask) &&& emask)
    else
      (rd arr start).bind fun ws => (rd arr e).bind fun we =>
        ((List.range' (start + 1) (e - (start + 1))).mapM (rd arr)).map fun ms =>
          bc (ws &&& smask) + bc (we &&& emask) + (ms.map bc).sum

/-- The number of true bits among positions `i, …, i + n - 1`. -/
def cnt (a : List (BitVec 8)) (i n : Nat) : Nat := ((List.range n).filter fun j => bits a (i + j)).length

theorem filter_range_add (p : Nat → Bool) (n m : Nat) : ((List.range (n + m)).filter p).length =
    ((List.range n).filter p).length + ((List.range m).filter fun j => p (n + j)).length := by
  induction m with
  | zero => simp
  | succ m ih =>
    rw [← Nat.add_assoc, List.range_succ, List.filter_append, List.length_append, ih, List.range_succ,
      List.filter_append, List.length_append]
    simp only [List.filter_cons, List.filter_nil]
    split <;> simp <;> omega

theorem cnt_add (a : List (BitVec 8)) (i n m : Nat) : cnt a i (n + m) = cnt a i n + cnt a (i + n) m := by
  unfold cnt
  rw [filter_range_add (fun j => bits a (i + j))]
  simp only [Nat.add_assoc]

theorem filter_range_congr {p q : Nat → Bool} {n : Nat} (h : ∀ j < n, p j = q j) :
    (List.range n).filter p = (List.range n).filter q :=
  List.filter_congr fun j hj => h j (List.mem_range.1 hj)

theorem filter_range_false {p : Nat → Bool} {n : Nat} (h : ∀ j < n, p j = false) :
    ((List.range n).filter p).length = 0 := by
  rw [List.length_eq_zero_iff, List.filter_eq_nil_iff]
  intro j hj
  rw [h j (List.mem_range.1 hj)]
  simp

/-- The population count of a byte whose bits are those at positions `8p + j` for `o ≤ j < o + n`, and zero elsewhere. -/
theorem bitCount_window {a : List (BitVec 8)} {p o n : Nat} (hn : o + n ≤ 8) {w : BitVec 8}
    (hw : ∀ j < 8, w.getLsbD j = if o ≤ j ∧ j < o + n then bits a (8 * p + j) else false) :
    Arith.bitCount false 1 w.toNat = cnt a (8 * p + o) n := by
  rw [Arith.C55_bitCount_unsigned 1 _ (by omega) (by omega) (by simpa using w.isLt)]
  unfold Arith.onesBelow cnt
  have e : 8 * 1 = o + (n + (8 - (o + n))) := by omega
  rw [e, filter_range_add, filter_range_add]
  have h1 : ((List.range o).filter (fun j => w.toNat.testBit j)).length = 0 :=
    filter_range_false fun j hj => by
      have := hw j (by omega)
      rw [if_neg (by omega)] at this
      simpa [BitVec.getLsbD] using this
  have h2 : ((List.range (8 - (o + n))).filter (fun j => w.toNat.testBit (o + (n + j)))).length = 0 :=
    filter_range_false fun j hj => by
      have := hw (o + (n + j)) (by omega)
      rw [if_neg (by omega)] at this
      simpa [BitVec.getLsbD] using this
  rw [h1, h2, Nat.zero_add, Nat.add_zero]
  congr 1
  apply filter_range_congr
  intro j hj
  have := hw (o + j) (by omega)
  rw [if_pos (by omega)] at this
  rw [Nat.add_assoc, ← this]
  rfl

theorem smask_bit : ∀ o < 8, ∀ j < 8, (~~~((1#8 <<< o) - 1#8)).getLsbD j = decide (o ≤ j) := by decide +kernel
theorem emask_bit : ∀ s < 8, ∀ j < 8, (255#8 >>> s).getLsbD j = decide (j < 8 - s) := by decide +kernel

theorem mapM_rd (a : List (BitVec 8)) : ∀ (n i : Nat), i + n ≤ a.length →
    ∃ ms, (List.range' i n).mapM (rd a) = some ms ∧
      (ms.map fun w : BitVec 8 => Arith.bitCount false 1 w.toNat).sum = cnt a (8 * i) (8 * n) := by
  intro n
  induction n with
  | zero => intro i _; exact ⟨[], by simp, by simp [cnt]⟩
  | succ n ih =>
    intro i h
    obtain ⟨ms, e1, e2⟩ := ih (i + 1) (by omega)
    have hi : i < a.length := by omega
    refine ⟨a[i] :: ms, ?_, ?_⟩
    · rw [List.range'_succ, List.mapM_cons, rd, List.getElem?_eq_getElem hi]
      simp [e1]
    · rw [List.map_cons, List.sum_cons, e2, show 8 * (n + 1) = 8 + 8 * n by omega, cnt_add]
      congr 1
      rw [bitCount_window (a := a) (p := i) (o := 0) (n := 8) (by omega)]
      · rfl
      · intro j hj
        rw [if_pos (by omega), bits_of_getElem? (w := a[i]) (by
          rw [show (8 * i + j) / 8 = i by omega, List.getElem?_eq_getElem hi])]
        congr 1; omega

/-- C28: `CountBits(i, n)` is the number of true elements among `i, …, i + n - 1`. -/
theorem C28_countBits {b : BArr} {l : List Bool} (h : Rep b l) {i n : Nat} (hin : i + n ≤ l.length) :
    countBits b.arr i n = some (((l.drop i).take n).count true) := by
  have hcap := h.cap
  have hspec : ((l.drop i).take n).count true = cnt b.arr i n := by
    have hb := h.bit
    clear h hcap
    induction n with
    | zero => simp [cnt]
    | succ n ih =>
      have hlt : i + n < l.length := by omega
      rw [List.take_succ, List.count_append, ih (by omega), cnt_add]
      congr 1
      rw [List.getElem?_drop, hb _ hlt]
      simp only [cnt, Option.toList, Nat.add_zero]
      cases hbit : bits b.arr (i + n) <;> simp [List.range_succ, hbit]
  rw [hspec]
  unfold countBits
  split
  · next h0 => subst h0; simp [cnt]
  · next h0 =>
    have hch : maxChunks (n + i) / 8 = (n + i + 7) / 8 := by unfold maxChunks; omega
    have hs : i / 8 < b.arr.length := by omega
    have he : maxChunks (n + i) / 8 - 1 < b.arr.length := by omega
    have ho : i - i / 8 * 8 < 8 := by omega
    have hsh : maxChunks (n + i) / 8 * 8 - (n + i) < 8 := by omega
    simp only []
    split
    · next hse =>
      rw [rd, List.getElem?_eq_getElem hs, Option.map_some]
      congr 1
      rw [bitCount_window (a := b.arr) (p := i / 8) (o := i % 8) (n := n) (by omega)]
      · congr 1; omega
      · intro j hj
        rw [BitVec.getLsbD_and, BitVec.getLsbD_and, smask_bit _ ho j hj, emask_bit _ hsh j hj]
        have hbj : bits b.arr (8 * (i / 8) + j) = b.arr[i / 8].getLsbD j := by
          rw [bits_of_getElem? (w := b.arr[i / 8]) (by
            rw [show (8 * (i / 8) + j) / 8 = i / 8 by omega, List.getElem?_eq_getElem hs])]
          congr 1; omega
        rw [hbj]
        by_cases c : i % 8 ≤ j ∧ j < i % 8 + n
        · have c1 : i - i / 8 * 8 ≤ j := by omega
          have c2 : j < 8 - (maxChunks (n + i) / 8 * 8 - (n + i)) := by omega
          rw [if_pos c, decide_eq_true c1, decide_eq_true c2]; simp
        · rw [if_neg c]
          have : ¬ (i - i / 8 * 8 ≤ j ∧ j < 8 - (maxChunks (n + i) / 8 * 8 - (n + i))) := by omega
          rcases Decidable.not_and_iff_not_or_not.1 this with c | c
          · rw [decide_eq_false c]; simp
          · rw [decide_eq_false c]; simp
    · next hse =>
      obtain ⟨ms, m1, m2⟩ := mapM_rd b.arr (maxChunks (n + i) / 8 - 1 - (i / 8 + 1)) (i / 8 + 1) (by omega)
      rw [m1]
      simp only [rd, List.getElem?_eq_getElem hs, List.getElem?_eq_getElem he, Option.bind_some, Option.map_some]
      congr 1
      rw [m2]
      have q1 : Arith.bitCount false 1 (b.arr[i / 8] &&& ~~~((1#8 <<< (i - i / 8 * 8)) - 1#8)).toNat =
          cnt b.arr (8 * (i / 8) + i % 8) (8 - i % 8) := by
        apply bitCount_window (by omega)
        intro j hj
        rw [BitVec.getLsbD_and, smask_bit _ ho j hj]
        have hbj : bits b.arr (8 * (i / 8) + j) = b.arr[i / 8].getLsbD j := by
          rw [bits_of_getElem? (w := b.arr[i / 8]) (by
            rw [show (8 * (i / 8) + j) / 8 = i / 8 by omega, List.getElem?_eq_getElem hs])]
          congr 1; omega
        rw [hbj]
        by_cases c : i % 8 ≤ j
        · have c1 : i - i / 8 * 8 ≤ j := by omega
          rw [if_pos (by omega), decide_eq_true c1]; simp
        · have c1 : ¬ i - i / 8 * 8 ≤ j := by omega
          rw [if_neg (by omega), decide_eq_false c1]; simp
      have q2 : Arith.bitCount false 1 (b.arr[maxChunks (n + i) / 8 - 1] &&&
          255#8 >>> (maxChunks (n + i) / 8 * 8 - (n + i))).toNat =
          cnt b.arr (8 * (maxChunks (n + i) / 8 - 1) + 0) (n + i - 8 * (maxChunks (n + i) / 8 - 1)) := by
        apply bitCount_window (by omega)
        intro j hj
        rw [BitVec.getLsbD_and, emask_bit _ hsh j hj]
        have hbj : bits b.arr (8 * (maxChunks (n + i) / 8 - 1) + j) = b.arr[maxChunks (n + i) / 8 - 1].getLsbD j := by
          rw [bits_of_getElem? (w := b.arr[maxChunks (n + i) / 8 - 1]) (by
            rw [show (8 * (maxChunks (n + i) / 8 - 1) + j) / 8 = maxChunks (n + i) / 8 - 1 by omega,
              List.getElem?_eq_getElem he])]
          congr 1; omega
        rw [hbj]
        by_cases c : j < 8 - (maxChunks (n + i) / 8 * 8 - (n + i))
        · rw [if_pos (by omega), decide_eq_true c]; simp
        · rw [if_neg (by omega), decide_eq_false c]; simp
      rw [q1, q2]
      have s1 : n = (8 - i % 8) + (8 * (maxChunks (n + i) / 8 - 1 - (i / 8 + 1)) + (n + i - 8 * (maxChunks (n + i) / 8 - 1))) := by
        omega
      have key : cnt b.arr i n = cnt b.arr i ((8 - i % 8) +
          (8 * (maxChunks (n + i) / 8 - 1 - (i / 8 + 1)) + (n + i - 8 * (maxChunks (n + i) / 8 - 1)))) :=
        congrArg (cnt b.arr i) s1
      rw [key, cnt_add, cnt_add]
      have t1 : 8 * (i / 8) + i % 8 = i := by omega
      have t2 : i + (8 - i % 8) = 8 * (i / 8 + 1) := by omega
      have t3 : i + (8 - i % 8) + 8 * (maxChunks (n + i) / 8 - 1 - (i / 8 + 1)) = 8 * (maxChunks (n + i) / 8 - 1) + 0 := by
        omega
      rw [t1, t3, t2]
      omega

example : countBits [0xf0#8, 0x0f#8, 0x81#8] 3 21 = some 10 := by decide +kernel

end Verif.BoolArr
