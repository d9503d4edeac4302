import Verif.Circ.Model

namespace Verif.Circ
variable {α : Type}

theorem cmod_eq {x : Int} {m : Nat} (hm : 0 < m) : cmod x m = x % m := by
  unfold cmod
  rw [Int.tmod_eq_emod]
  have h0 : (0 : Int) < m := by omega
  have h1 := Int.emod_nonneg x (show (m : Int) ≠ 0 by omega)
  have h2 := Int.emod_lt_of_pos x h0
  by_cases hx : 0 ≤ x ∨ (m : Int) ∣ x
  · simp only [hx, if_true]
    simp; omega
  · simp only [hx, if_false]
    have : ((m : Int).natAbs : Int) = m := by omega
    rw [this]
    rw [if_pos (by omega)]
    omega

theorem cmod_small {x : Int} {m : Nat} (h1 : -(m : Int) ≤ x) (h2 : x < m) (hm : 0 < m) :
    cmod x m = if x < 0 then x + m else x := by
  rw [cmod_eq hm]
  split
  · rw [← Int.add_emod_right, Int.emod_eq_of_lt (by omega) (by omega)]
  · rw [Int.emod_eq_of_lt (by omega) (by omega)]

/-- Slot of the `k`-th newest element. -/
def ix (cur : Int) (cap k : Nat) : Nat := (if (k : Int) ≤ cur then cur - k else cur - k + cap).toNat

/-- The block holds `l`, newest first. -/
structure Rep (c : Circ α) (l : List α) : Prop where
  len : c.len = l.length
  le : c.len ≤ c.arr.length
  lo : -1 ≤ c.cur
  hi : c.cur < c.arr.length
  live : 0 < c.len → 0 ≤ c.cur
  slots : ∀ (k : Nat) (x : α), l[k]? = some x → c.arr[ix c.cur c.arr.length k]? = some (some x)

/-- No slot outside the live range holds an element. -/
def Exact (c : Circ α) : Prop :=
  ∀ (j : Nat) (x : α), c.arr[j]? = some (some x) → ∃ k, k < c.len ∧ j = ix c.cur c.arr.length k

theorem modIndex_eq {c : Circ α} {l : List α} (h : Rep c l) {k : Nat} (hk : k < c.arr.length) :
    modIndex c (k : Int) = some (ix c.cur c.arr.length k) := by
  have := h.lo
  have := h.hi
  unfold modIndex Circ.cap ix
  rw [if_neg (by omega), cmod_small (by omega) (by omega) (by omega)]
  congr 2
  split <;> split <;> omega

theorem Rep.new (n : Nat) : Rep (new n : Circ α) [] :=
  ⟨rfl, by simp [Circ.new], by simp [Circ.new], by simp [Circ.new]; omega, by simp [Circ.new], by simp⟩

theorem Exact.new (n : Nat) : Exact (new n : Circ α) := by
  intro j x h
  simp [Circ.new, List.getElem?_replicate] at h

theorem push_spec {c : Circ α} {l : List α} (h : Rep c l) (hc : 0 < c.arr.length) (x : α) :
    ∃ c', push c x = some c' ∧ Rep c' ((x :: l).take c.arr.length) ∧ c'.arr.length = c.arr.length ∧ (Exact c → Exact c') := by
  obtain ⟨h1, h2, h3, h4, h5, h6⟩ := h
  have hcur : (c.cur + 1).tmod (c.arr.length : Int) = if c.cur + 1 < c.arr.length then c.cur + 1 else 0 := by
    rw [Int.tmod_eq_emod_of_nonneg (by omega)]
    split
    · rw [Int.emod_eq_of_lt (by omega) (by omega)]
    · rw [show c.cur + 1 = c.arr.length by omega, Int.emod_self]
  -- facts about the new cursor
  have hnew : ∀ (cur' : Int), cur' = (if c.cur + 1 < c.arr.length then c.cur + 1 else 0) →
      0 ≤ cur' ∧ cur' < c.arr.length ∧ ix cur' c.arr.length 0 = cur'.toNat ∧
      (∀ k, k + 1 < c.arr.length → ix cur' c.arr.length (k + 1) = ix c.cur c.arr.length k ∧
        ix c.cur c.arr.length k ≠ cur'.toNat) := by
    intro cur' he
    unfold ix
    refine ⟨by split at he <;> omega, by split at he <;> omega, ?_, ?_⟩
    · congr 1; split at he <;> split <;> omega
    · intro k hk
      constructor
      · congr 1; split at he <;> split <;> split <;> omega
      · split at he <;> split <;> omega
  have main : ∀ (cur' : Int), cur' = (if c.cur + 1 < c.arr.length then c.cur + 1 else 0) →
      ∀ len', len' = (if c.len < c.arr.length then c.len + 1 else c.len) →
      Rep ⟨c.arr.set cur'.toNat (some x), cur', len'⟩ ((x :: l).take c.arr.length) ∧
      (Exact c → Exact ⟨c.arr.set cur'.toNat (some x), cur', len'⟩) := by
    intro cur' he len' hl
    obtain ⟨a1, a2, a3, a4⟩ := hnew cur' he
    have hlt : cur'.toNat < c.arr.length := by omega
    refine ⟨⟨?_, ?_, ?_, ?_, ?_, ?_⟩, ?_⟩
    · simp only [List.length_take, List.length_cons]; split at hl <;> omega
    · simp only [List.length_set]; split at hl <;> omega
    · show -1 ≤ cur'; omega
    · simp only [List.length_set]; exact a2
    · intro _; exact a1
    · intro k y hk
      simp only [List.length_set]
      have hkc : k < c.arr.length := by
        have := (List.getElem?_eq_some_iff.1 hk).1
        simp only [List.length_take] at this; omega
      rw [List.getElem?_take, if_pos hkc] at hk
      cases k with
      | zero =>
        simp at hk; subst hk
        rw [a3, List.getElem?_set_self hlt]
      | succ k =>
        simp at hk
        obtain ⟨b1, b2⟩ := a4 k hkc
        rw [b1, List.getElem?_set_ne (Ne.symm b2)]
        exact h6 k y hk
    · intro hex j y hj
      simp only [List.length_set] at hj ⊢
      by_cases hjc : cur'.toNat = j
      · exact ⟨0, by split at hl <;> omega, by rw [a3, hjc]⟩
      · rw [List.getElem?_set_ne hjc] at hj
        obtain ⟨k, hk, rfl⟩ := hex j y hj
        by_cases hk' : k + 1 < c.arr.length
        · exact ⟨k + 1, by split at hl <;> omega, (a4 k hk').1.symm⟩
        · -- then k is the last of a full array, whose slot is the one just overwritten
          exfalso
          apply hjc
          unfold ix
          split at he <;> split <;> omega
  unfold push Circ.cap
  rw [if_neg (by omega)]
  simp only [hcur]
  by_cases hlen : c.len < c.arr.length
  · rw [if_pos hlen]
    have := main _ rfl (c.len + 1) (by rw [if_pos hlen])
    exact ⟨_, rfl, this.1, by simp, this.2⟩
  · rw [if_neg hlen]
    have hfull : c.len = c.arr.length := by omega
    -- the slot to overwrite is the oldest element's
    obtain ⟨y, hy⟩ : ∃ y, l[c.arr.length - 1]? = some y := ⟨_, List.getElem?_eq_getElem (by omega)⟩
    have hold := h6 _ y hy
    have hix : ix c.cur c.arr.length (c.arr.length - 1) = (if c.cur + 1 < c.arr.length then c.cur + 1 else 0).toNat := by
      unfold ix
      congr 1
      split <;> split <;> omega
    rw [hix] at hold
    simp only [hold]
    have := main _ rfl c.len (by rw [if_neg hlen])
    exact ⟨_, rfl, this.1, by simp, this.2⟩

theorem ix_inj {cur : Int} {cap k k' : Nat} (h1 : -1 ≤ cur) (h2 : cur < cap) (hk : k < cap) (hk' : k' < cap)
    (h : ix cur cap k = ix cur cap k') : k = k' := by
  unfold ix at h
  split at h <;> split at h <;> omega

theorem pop_spec {c : Circ α} {x : α} {l : List α} (h : Rep c (x :: l)) :
    ∃ c', pop c = some (x, c') ∧ Rep c' l ∧ c'.arr.length = c.arr.length ∧ (Exact c → Exact c') := by
  obtain ⟨h1, h2, h3, h4, h5, h6⟩ := h
  simp only [List.length_cons] at h1
  have hcur := h5 (by omega)
  have h0 := h6 0 x rfl
  have hix0 : ix c.cur c.arr.length 0 = c.cur.toNat := by unfold ix; congr 1; split <;> omega
  rw [hix0] at h0
  have hcap : 0 < c.arr.length := by omega
  have hcm : cmod (c.cur - 1) c.arr.length = if c.cur - 1 < 0 then c.cur - 1 + c.arr.length else c.cur - 1 :=
    cmod_small (by omega) (by omega) hcap
  have hstep : ∀ k, k + 1 < c.arr.length → ix (cmod (c.cur - 1) c.arr.length) c.arr.length k = ix c.cur c.arr.length (k + 1) := by
    intro k hk
    rw [hcm]; unfold ix; congr 1
    split <;> split <;> split <;> omega
  unfold pop Circ.cap
  rw [if_neg (by omega), if_neg (by omega)]
  simp only [h0]
  refine ⟨_, rfl, ⟨?_, ?_, ?_, ?_, ?_, ?_⟩, by simp, ?_⟩
  · simp only; omega
  · simp only [List.length_set]; omega
  · simp only [hcm]; split <;> omega
  · simp only [hcm, List.length_set]; split <;> omega
  · simp only [hcm]; intro _; split <;> omega
  · intro k y hk
    have hlt := (List.getElem?_eq_some_iff.1 hk).1
    simp only [List.length_set]
    rw [hstep k (by omega)]
    have hne : ix c.cur c.arr.length (k + 1) ≠ c.cur.toNat := by
      rw [← hix0]
      intro he
      have := ix_inj h3 h4 (by omega) (by omega) he
      omega
    rw [List.getElem?_set_ne (Ne.symm hne)]
    exact h6 (k + 1) y (by simpa using hk)
  · intro hex j y hj
    simp only [List.length_set] at hj ⊢
    by_cases hjc : c.cur.toNat = j
    · subst hjc
      rw [List.getElem?_set_self (by omega)] at hj
      simp at hj
    · rw [List.getElem?_set_ne hjc] at hj
      obtain ⟨k, hk, rfl⟩ := hex j y hj
      cases k with
      | zero => exact absurd hix0.symm hjc
      | succ k => exact ⟨k, by omega, (hstep k (by omega)).symm⟩

theorem popBack_spec {c : Circ α} {x : α} {l : List α} (h : Rep c (l ++ [x])) :
    ∃ c', popBack c = some (x, c') ∧ Rep c' l ∧ c'.arr.length = c.arr.length ∧ (Exact c → Exact c') := by
  have hm := modIndex_eq h (k := c.len - 1) (by
    have := h.len; have := h.le; simp at *; omega)
  obtain ⟨h1, h2, h3, h4, h5, h6⟩ := h
  simp only [List.length_append, List.length_singleton] at h1
  have hl : c.len - 1 = l.length := by omega
  unfold popBack
  rw [if_neg (by omega)]
  simp only [hm, Option.bind_eq_bind, Option.bind_some]
  have hx := h6 l.length x (by simp)
  rw [hl]
  simp only [hx]
  refine ⟨_, rfl, ⟨?_, ?_, ?_, ?_, ?_, ?_⟩, by simp, ?_⟩
  · simp
  · simp only [List.length_set]; omega
  · exact h3
  · simpa using h4
  · intro _; exact h5 (by omega)
  · intro k y hk
    have hlt := (List.getElem?_eq_some_iff.1 hk).1
    simp only [List.length_set]
    have hne : ix c.cur c.arr.length l.length ≠ ix c.cur c.arr.length k := by
      intro he
      have := ix_inj h3 h4 (by omega) (by omega) he
      omega
    rw [List.getElem?_set_ne hne]
    exact h6 k y (by rw [List.getElem?_append_left hlt]; exact hk)
  · intro hex j y hj
    simp only [List.length_set] at hj ⊢
    by_cases hjc : ix c.cur c.arr.length l.length = j
    · subst hjc
      rw [List.getElem?_set_self ((List.getElem?_eq_some_iff.1 hx).1)] at hj
      simp at hj
    · rw [List.getElem?_set_ne hjc] at hj
      obtain ⟨k, hk, rfl⟩ := hex j y hj
      refine ⟨k, ?_, rfl⟩
      rcases Nat.lt_or_ge k l.length with hkl | hkl
      · exact hkl
      · exact absurd (by rw [show k = l.length by omega]) hjc

theorem at_spec {c : Circ α} {l : List α} (h : Rep c l) {k : Nat} (hk : k < c.len) : at' c k = l[k]? := by
  have hlt : k < l.length := by have := h.len; omega
  have hx : l[k]? = some l[k] := List.getElem?_eq_getElem hlt
  unfold at'
  rw [modIndex_eq h (by have := h.le; omega)]
  simp only [Option.bind_eq_bind, Option.bind_some]
  rw [h.slots k _ hx, hx]
  rfl

theorem front_spec {c : Circ α} {x : α} {l : List α} (h : Rep c (x :: l)) : front c = some x := by
  have h0 := h.slots 0 x rfl
  have := h.live (by have := h.len; simp at this; omega)
  have hix0 : ix c.cur c.arr.length 0 = c.cur.toNat := by unfold ix; congr 1; split <;> omega
  have hl := h.len
  simp at hl
  unfold front
  rw [if_neg (by omega), ← hix0, h0]
  rfl

theorem back_spec {c : Circ α} {x : α} {l : List α} (h : Rep c (l ++ [x])) : back c = some x := by
  have hl := h.len
  simp at hl
  unfold back
  rw [if_neg (by omega), at_spec h (by omega), show c.len - 1 = l.length by omega]
  simp

/-! ### block operations -/

theorem destroy_spec {arr : List (Option α)} {p n : Nat} (h : p + n ≤ arr.length) :
    ∃ a, destroy arr p n = some a ∧ a.length = arr.length ∧
      ∀ j, a[j]? = if p ≤ j ∧ j < p + n then some none else arr[j]? := by
  unfold destroy
  rw [if_pos h]
  refine ⟨_, rfl, by simp; omega, ?_⟩
  intro j
  rw [List.append_assoc, List.getElem?_append]
  simp only [List.length_take]
  by_cases h1 : j < p
  · rw [if_pos (by omega), List.getElem?_take, if_pos h1, if_neg (by omega)]
  · rw [if_neg (by omega), List.getElem?_append]
    simp only [List.length_replicate]
    rw [show min p arr.length = p by omega]
    by_cases h2 : j < p + n
    · rw [if_pos (by omega), if_pos ⟨by omega, h2⟩, List.getElem?_replicate, if_pos (by omega)]
    · rw [if_neg (by omega), if_neg (by omega), List.getElem?_drop]
      congr 1; omega

theorem blit_spec {dst src : List (Option α)} {di si n : Nat} (h1 : di + n ≤ dst.length) (h2 : si + n ≤ src.length) :
    ∃ a, blit dst di src si n = some a ∧ a.length = dst.length ∧
      ∀ j, a[j]? = if di ≤ j ∧ j < di + n then src[si + (j - di)]? else dst[j]? := by
  unfold blit
  rw [if_pos ⟨h1, h2⟩]
  refine ⟨_, rfl, by simp; omega, ?_⟩
  intro j
  rw [List.append_assoc, List.getElem?_append]
  simp only [List.length_take]
  by_cases h3 : j < di
  · rw [if_pos (by omega), List.getElem?_take, if_pos h3, if_neg (by omega)]
  · rw [if_neg (by omega), List.getElem?_append]
    simp only [List.length_take, List.length_drop]
    rw [show min di dst.length = di by omega]
    by_cases h4 : j < di + n
    · rw [if_pos (by omega), if_pos ⟨by omega, h4⟩, List.getElem?_take, if_pos (by omega), List.getElem?_drop]
    · rw [if_neg (by omega), if_neg (by omega), List.getElem?_drop]
      congr 1; omega

theorem clear_spec {c : Circ α} {l : List α} (h : Rep c l) :
    ∃ c', clear c = some c' ∧ Rep c' [] ∧ c'.cur = -1 ∧ c'.arr.length = c.arr.length ∧
      (Exact c → ∀ (j : Nat) (x : α), c'.arr[j]? ≠ some (some x)) := by
  obtain ⟨h1, h2, h3, h4, h5, h6⟩ := h
  have fin : ∀ a : List (Option α), a.length = c.arr.length → Rep ⟨a, -1, 0⟩ ([] : List α) := by
    intro a ha
    exact ⟨rfl, by simp, by simp, by simp; omega, by simp, by simp⟩
  unfold clear Circ.cap
  by_cases hf : c.len = c.arr.length
  · rw [if_pos hf]
    obtain ⟨a, a1, a2, a3⟩ := destroy_spec (arr := c.arr) (p := 0) (n := c.len) (by omega)
    simp only [a1, Option.bind_eq_bind, Option.bind_some]
    refine ⟨_, rfl, fin a a2, rfl, a2, ?_⟩
    intro _ j x hj
    have hjlt := (List.getElem?_eq_some_iff.1 hj).1
    simp only at hj hjlt
    rw [a3, if_pos (by omega)] at hj
    simp at hj
  · rw [if_neg hf]
    by_cases hcont : c.cur - c.len ≥ -1
    · rw [if_pos hcont]
      obtain ⟨a, a1, a2, a3⟩ := destroy_spec (arr := c.arr) (p := (c.cur - c.len + 1).toNat) (n := c.len) (by omega)
      simp only [a1, Option.bind_eq_bind, Option.bind_some]
      refine ⟨_, rfl, fin a a2, rfl, a2, ?_⟩
      intro hex j x hj
      simp only at hj
      rw [a3] at hj
      split at hj
      · simp at hj
      · obtain ⟨k, hk, rfl⟩ := hex j x hj
        rename_i hn
        apply hn
        unfold ix
        split <;> omega
    · rw [if_neg hcont]
      have hm : modIndex c ((c.len : Int) - 1) = some (ix c.cur c.arr.length (c.len - 1)) := by
        rw [← modIndex_eq ⟨h1, h2, h3, h4, h5, h6⟩ (k := c.len - 1) (by omega)]
        congr 1; omega
      have hi : ix c.cur c.arr.length (c.len - 1) = (c.cur - c.len + 1 + c.arr.length).toNat := by
        unfold ix; congr 1; split <;> omega
      simp only [hm, hi, Option.bind_eq_bind, Option.bind_some]
      obtain ⟨a, a1, a2, a3⟩ := destroy_spec (arr := c.arr) (p := (c.cur - c.len + 1 + c.arr.length).toNat)
        (n := c.arr.length - (c.cur - c.len + 1 + c.arr.length).toNat) (by omega)
      obtain ⟨b, b1, b2, b3⟩ := destroy_spec (arr := a) (p := 0) (n := (c.cur + 1).toNat) (by omega)
      simp only [a1, b1, Option.bind_some]
      refine ⟨_, rfl, fin b (by omega), rfl, by simp only; omega, ?_⟩
      intro hex j x hj
      simp only at hj
      rw [b3] at hj
      split at hj
      · simp at hj
      · rw [a3] at hj
        split at hj
        · simp at hj
        · obtain ⟨k, hk, rfl⟩ := hex j x hj
          rename_i hn1 hn2
          unfold ix at hn1 hn2
          split at hn1 <;> omega

theorem setCapacity_grow {c : Circ α} {l : List α} (h : Rep c l) {n : Nat} (hn : c.arr.length ≤ n) :
    ∃ c', setCapacity c n = some c' ∧ Rep c' l ∧ c'.arr.length = n ∧ (Exact c → Exact c') := by
  have h' := h
  obtain ⟨h1, h2, h3, h4, h5, h6⟩ := h
  unfold setCapacity Circ.cap
  rw [if_neg (by omega)]
  by_cases hgt : n > c.arr.length
  · rw [if_pos hgt]
    by_cases hcont : c.cur - c.len ≥ -1
    · rw [if_pos hcont]
      obtain ⟨a, a1, a2, a3⟩ := blit_spec (dst := List.replicate n none) (src := c.arr) (di := (c.cur - c.len + 1).toNat)
        (si := (c.cur - c.len + 1).toNat) (n := c.len) (by simp; omega) (by omega)
      simp only [List.length_replicate] at a2
      simp only [a1, Option.bind_eq_bind, Option.bind_some]
      have hix : ∀ k, k < c.len → ix c.cur n k = ix c.cur c.arr.length k := by
        intro k hk; unfold ix; congr 1; split <;> omega
      have hin : ∀ k, k < c.len → (c.cur - c.len + 1).toNat ≤ ix c.cur c.arr.length k ∧
          ix c.cur c.arr.length k < (c.cur - c.len + 1).toNat + c.len := by
        intro k hk; unfold ix; split <;> omega
      refine ⟨_, rfl, ⟨h1, by simp only; omega, h3, by simp only; omega, h5, ?_⟩, a2, ?_⟩
      · intro k x hk
        have hlt := (List.getElem?_eq_some_iff.1 hk).1
        simp only [a2]
        have := hin k (by omega)
        rw [hix k (by omega), a3, if_pos this, ← h6 k x hk]
        congr 1; omega
      · intro hex j x hj
        simp only [a2] at hj ⊢
        rw [a3] at hj
        split at hj
        · obtain ⟨k, hk, he⟩ := hex _ x hj
          exact ⟨k, hk, by rw [hix k hk, ← he]; omega⟩
        · simp [List.getElem?_replicate] at hj
    · rw [if_neg hcont]
      have hm : modIndex c ((c.len : Int) - 1) = some (ix c.cur c.arr.length (c.len - 1)) := by
        rw [← modIndex_eq h' (k := c.len - 1) (by omega)]
        congr 1; omega
      have hi : ix c.cur c.arr.length (c.len - 1) = (c.cur - c.len + 1 + c.arr.length).toNat := by
        unfold ix; congr 1; split <;> omega
      have hcm : cmod (c.cur - c.len + 1) n = c.cur - c.len + 1 + n := by
        rw [cmod_small (by omega) (by omega) (by omega), if_pos (by omega)]
      simp only [hm, hi, hcm, Option.bind_eq_bind, Option.bind_some]
      obtain ⟨a, a1, a2, a3⟩ := blit_spec (dst := List.replicate n none) (src := c.arr)
        (di := (c.cur - c.len + 1 + n).toNat) (si := (c.cur - c.len + 1 + c.arr.length).toNat)
        (n := c.arr.length - (c.cur - c.len + 1 + c.arr.length).toNat) (by simp; omega) (by omega)
      simp only [List.length_replicate] at a2
      obtain ⟨b, b1, b2, b3⟩ := blit_spec (dst := a) (src := c.arr) (di := 0) (si := 0) (n := (c.cur + 1).toNat)
        (by omega) (by omega)
      simp only [a1, b1, Option.bind_some]
      refine ⟨_, rfl, ⟨h1, by simp only; omega, h3, by simp only; omega, h5, ?_⟩, by simp only; omega, ?_⟩
      · intro k x hk
        have hlt := (List.getElem?_eq_some_iff.1 hk).1
        have hs := h6 k x hk
        simp only [b2, a2]
        by_cases hkc : (k : Int) ≤ c.cur
        · have e1 : ix c.cur n k = ix c.cur c.arr.length k := by unfold ix; rw [if_pos hkc, if_pos hkc]
          have e2 : ix c.cur c.arr.length k < (c.cur + 1).toNat := by unfold ix; rw [if_pos hkc]; omega
          rw [e1, b3, if_pos ⟨by omega, by omega⟩, ← hs]
          congr 1; omega
        · have e1 : ix c.cur n k = (c.cur - k + n).toNat := by unfold ix; rw [if_neg hkc]
          have e2 : ix c.cur c.arr.length k = (c.cur - k + c.arr.length).toNat := by unfold ix; rw [if_neg hkc]
          rw [e1, b3, if_neg (by omega), a3, if_pos (by omega), ← hs, e2]
          congr 1; omega
      · intro hex j x hj
        simp only [b2, a2] at hj ⊢
        rw [b3] at hj
        split at hj
        · rename_i hjr
          obtain ⟨k, hk, he⟩ := hex _ x hj
          refine ⟨k, hk, ?_⟩
          unfold ix at he ⊢
          split at he
          · omega
          · omega
        · rw [a3] at hj
          split at hj
          · rename_i hjr hjr2
            obtain ⟨k, hk, he⟩ := hex _ x hj
            refine ⟨k, hk, ?_⟩
            unfold ix at he ⊢
            split at he
            · omega
            · omega
          · simp [List.getElem?_replicate] at hj
  · rw [if_neg hgt]
    exact ⟨c, rfl, h', by omega, id⟩

theorem setCapacity_shrink {c : Circ α} {l : List α} (h : Rep c l) {n : Nat} (hn : n < c.arr.length) :
    ∃ c', setCapacity c n = some c' ∧ Rep c' ([] : List α) ∧ c'.arr.length = n ∧ Exact c' := by
  obtain ⟨c1, e1, e2, hcur, e3, _⟩ := clear_spec h
  unfold setCapacity Circ.cap
  rw [if_pos hn]
  simp only [e1, Option.bind_eq_bind, Option.bind_some]
  have hl := e2.len
  simp at hl
  refine ⟨_, rfl, ⟨hl, by simp [hl], e2.lo, by simp [hcur]; omega, by simp [hl], by simp⟩, by simp, ?_⟩
  intro j x hj
  simp [List.getElem?_replicate] at hj

theorem assign_spec {c r : Circ α} {l m : List α} (hc : Rep c l) (hr : Rep r m) :
    ∃ c', assign c r = some c' ∧ Rep c' m ∧ c'.arr.length = r.arr.length ∧ (Exact r → Exact c') := by
  obtain ⟨c1, e1, _⟩ := clear_spec hc
  have hr' := hr
  obtain ⟨h1, h2, h3, h4, h5, h6⟩ := hr
  unfold assign Circ.cap
  simp only [e1, Option.bind_eq_bind, Option.bind_some]
  -- it is enough that the live slots were copied and nothing else
  have fin : ∀ a : List (Option α), a.length = r.arr.length →
      (∀ k, k < r.len → a[ix r.cur r.arr.length k]? = r.arr[ix r.cur r.arr.length k]?) →
      (∀ (j : Nat) (x : α), a[j]? = some (some x) → r.arr[j]? = some (some x)) →
      Rep ⟨a, r.cur, r.len⟩ m ∧ (Exact r → Exact ⟨a, r.cur, r.len⟩) := by
    intro a ha hs hx
    refine ⟨⟨h1, by simp only; omega, h3, by simp only; omega, h5, ?_⟩, ?_⟩
    · intro k x hk
      simp only [ha]
      rw [hs k (by have := (List.getElem?_eq_some_iff.1 hk).1; omega)]
      exact h6 k x hk
    · intro hex j x hj
      simp only [ha]
      exact hex j x (hx j x hj)
  by_cases hf : r.len = r.arr.length
  · rw [if_pos hf]
    obtain ⟨a, a1, a2, a3⟩ := blit_spec (dst := List.replicate r.arr.length none) (src := r.arr) (di := 0) (si := 0) (n := r.len)
      (by simp; omega) (by omega)
    simp only [List.length_replicate] at a2
    simp only [a1, Option.bind_some]
    have hf' := fin a a2 (by
      intro k hk
      rw [a3, if_pos ⟨by omega, by unfold ix; split <;> omega⟩]
      congr 1; omega) (by
      intro j x hj
      rw [a3] at hj
      split at hj
      · rw [← hj]; congr 1; omega
      · simp [List.getElem?_replicate] at hj)
    exact ⟨_, rfl, hf'.1, a2, hf'.2⟩
  · rw [if_neg hf]
    by_cases hcont : r.cur - r.len ≥ -1
    · rw [if_pos hcont]
      obtain ⟨a, a1, a2, a3⟩ := blit_spec (dst := List.replicate r.arr.length none) (src := r.arr)
        (di := (r.cur - r.len + 1).toNat) (si := (r.cur - r.len + 1).toNat) (n := r.len) (by simp; omega) (by omega)
      simp only [List.length_replicate] at a2
      simp only [a1, Option.bind_some]
      have hf' := fin a a2 (by
        intro k hk
        rw [a3, if_pos (by unfold ix; split <;> omega)]
        congr 1; unfold ix; split <;> omega) (by
        intro j x hj
        rw [a3] at hj
        split at hj
        · rw [← hj]; congr 1; omega
        · simp [List.getElem?_replicate] at hj)
      exact ⟨_, rfl, hf'.1, a2, hf'.2⟩
    · rw [if_neg hcont]
      have hm : modIndex r ((r.len : Int) - 1) = some (ix r.cur r.arr.length (r.len - 1)) := by
        rw [← modIndex_eq hr' (k := r.len - 1) (by omega)]
        congr 1; omega
      have hi : ix r.cur r.arr.length (r.len - 1) = (r.cur - r.len + 1 + r.arr.length).toNat := by
        unfold ix; congr 1; split <;> omega
      simp only [hm, hi, Option.bind_some]
      obtain ⟨a, a1, a2, a3⟩ := blit_spec (dst := List.replicate r.arr.length none) (src := r.arr)
        (di := (r.cur - r.len + 1 + r.arr.length).toNat) (si := (r.cur - r.len + 1 + r.arr.length).toNat)
        (n := r.arr.length - (r.cur - r.len + 1 + r.arr.length).toNat) (by simp; omega) (by omega)
      simp only [List.length_replicate] at a2
      obtain ⟨b, b1, b2, b3⟩ := blit_spec (dst := a) (src := r.arr) (di := 0) (si := 0) (n := (r.cur + 1).toNat)
        (by omega) (by omega)
      simp only [a1, b1, Option.bind_some]
      have hf' := fin b (by omega) (by
        intro k hk
        rw [b3]
        split
        · congr 1; omega
        · rename_i hn
          rw [a3, if_pos (by unfold ix at hn ⊢; split at hn <;> omega)]
          congr 1; unfold ix at hn ⊢; split at hn <;> omega) (by
        intro j x hj
        rw [b3] at hj
        split at hj
        · rw [← hj]; congr 1; omega
        · rw [a3] at hj
          split at hj
          · rw [← hj]; congr 1; omega
          · simp [List.getElem?_replicate] at hj)
      exact ⟨_, rfl, hf'.1, by simp only; omega, hf'.2⟩

end Verif.Circ
