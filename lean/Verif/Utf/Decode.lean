import Verif.Utf.Lemmas

/-! # Lemmas about UTF decoding -/

namespace Verif.Utf

/-! ## UTF-16 input -/

/-- The units of the output. -/
def d16 : List Nat → List Nat
  | [] => []
  | [ch] => if ch ≥ 0xD800 ∧ ch ≤ 0xDBFF then [] else [ch]
  | ch :: ch2 :: src =>
    if ch ≥ 0xD800 ∧ ch ≤ 0xDBFF then
      if ch2 ≥ 0xDC00 ∧ ch2 ≤ 0xDFFF then ((ch - 0xD800) * 1024 + (ch2 - 0xDC00) + 0x10000) :: d16 src
      else ch :: d16 (ch2 :: src)
    else ch :: d16 (ch2 :: src)

theorem d16_le : ∀ src : List Nat, (d16 src).length ≤ src.length
  | [] => Nat.le_refl _
  | [ch] => by rw [d16]; split <;> simp
  | ch :: ch2 :: src => by
    have h1 := d16_le src
    have h2 := d16_le (ch2 :: src)
    rw [d16]
    repeat' split
    all_goals (simp only [List.length_cons] at *; omega)

theorem put_eq {pre rest out : List Nat} {v : Nat} {k : List Nat → Nat → Option (Nat × List Nat)}
    (hk : ∀ pre rest, k (pre ++ rest) pre.length = some (pre.length + (out.take rest.length).length, pre ++ (out.take rest.length ++ rest.drop (out.take rest.length).length))) :
    put (pre ++ rest) pre.length v k = some (pre.length + ((v :: out).take rest.length).length, pre ++ ((v :: out).take rest.length ++ rest.drop ((v :: out).take rest.length).length)) := by
  unfold put
  match rest with
  | [] => rw [if_pos (by simp)]; simp
  | a :: rest =>
    rw [if_neg (by simp)]
    have e1 : wr (pre ++ a :: rest) pre.length v = some (pre ++ v :: rest) := by simp [wr_app0, wr]
    have := hk (pre ++ [v]) rest
    simp only [List.append_assoc, List.singleton_append, List.length_append, List.length_singleton] at this
    rw [e1, Option.bind_some]
    refine this.trans (congrArg some (Prod.ext ?_ ?_))
    · simp only [List.length_cons, List.take_succ_cons]; omega
    · simp only [List.length_cons, List.take_succ_cons, List.cons_append, List.drop_succ_cons]

theorem loop16to32_eq : ∀ (src pre rest : List Nat), loop16to32 src (pre ++ rest) pre.length =
    some (pre.length + ((d16 src).take rest.length).length, pre ++ ((d16 src).take rest.length ++ rest.drop ((d16 src).take rest.length).length))
  | [], pre, rest => by simp [loop16to32, d16]
  | [ch], pre, rest => by
    rw [loop16to32, d16]
    split
    · simp
    · exact put_eq fun pre rest => by simp
  | ch :: ch2 :: src, pre, rest => by
    have hs : ∀ x : Nat, x <<< 10 = x * 1024 := fun x => Nat.shiftLeft_eq x 10
    rw [loop16to32, d16]
    split
    · split
      · rw [hs]; exact put_eq fun pre rest => loop16to32_eq src pre rest
      · exact put_eq fun pre rest => loop16to32_eq (ch2 :: src) pre rest
    · exact put_eq fun pre rest => loop16to32_eq (ch2 :: src) pre rest

/-! ## UTF-8 input -/

/-- The first unit of the output. -/
def d1 (src : List Nat) : Option Nat :=
  match src with
  | [] => none
  | b :: src =>
    if trailing b ≥ (b :: src).length then none
    else if isLegal (b :: src) (trailing b + 1) = some true then
      (gather (trailing b) 0 (b :: src)).bind fun g => (offsets[trailing b]?).map fun o =>
        let ch := (g + (2 ^ 32 - o)) % 2 ^ 32
        if ch ≤ 0x10FFFF ∧ ¬(ch ≥ 0xD800 ∧ ch ≤ 0xDFFF) then ch else 0xFFFD
    else none

def d8 : Nat → List Nat → List Nat
  | 0, _ => []
  | _ + 1, [] => []
  | n + 1, b :: src => match d1 (b :: src) with
    | none => []
    | some v => v :: d8 n ((b :: src).drop (trailing b + 1))

theorem trailing_le (b : Nat) : trailing b ≤ 5 := by unfold trailing; repeat' split
                                                     all_goals omega

theorem isLegal_some {src : List Nat} {n : Nat} (h : n ≤ src.length) : ∃ r, isLegal src n = some r := by
  unfold isLegal
  match n with
  | 0 => exact ⟨_, rfl⟩
  | 1 => match src, h with
    | a :: src, _ => exact ⟨_, rfl⟩
  | 2 => match src, h with
    | a :: b :: src, _ => simp only [List.getElem?_cons_succ, List.getElem?_cons_zero, Option.bind_some, Option.map_some]; split <;> exact ⟨_, rfl⟩
  | 3 => match src, h with
    | a :: b :: c :: src, _ =>
      simp only [List.getElem?_cons_succ, List.getElem?_cons_zero, Option.bind_some, Option.map_some]
      repeat' split
      all_goals exact ⟨_, rfl⟩
  | 4 => match src, h with
    | a :: b :: c :: d :: src, _ =>
      simp only [List.getElem?_cons_succ, List.getElem?_cons_zero, Option.bind_some, Option.map_some]
      repeat' split
      all_goals exact ⟨_, rfl⟩
  | n + 5 => exact ⟨_, rfl⟩

theorem gather_some : ∀ {k ch : Nat} {src : List Nat}, k < src.length → ∃ g, gather k ch src = some g
  | 0, _, _ :: _, _ => ⟨_, rfl⟩
  | k + 1, ch, b :: src, h => by
    rw [gather]
    exact gather_some (by simpa using h)

theorem offsets_some {k : Nat} (h : k ≤ 5) : ∃ o, offsets[k]? = some o := by
  have : ∀ k ≤ 5, (offsets[k]?).isSome := by decide
  exact Option.isSome_iff_exists.1 (this k h)

theorem loop8to32_eq : ∀ (n : Nat) (src pre rest : List Nat), loop8to32 n src (pre ++ rest) pre.length =
    some (pre.length + ((d8 n src).take rest.length).length, pre ++ ((d8 n src).take rest.length ++ rest.drop ((d8 n src).take rest.length).length))
  | 0, src, pre, rest => by simp [loop8to32, d8]
  | n + 1, [], pre, rest => by simp [loop8to32, d8]
  | n + 1, b :: src, pre, rest => by
    rw [loop8to32, d8]
    simp only [d1]
    by_cases h : trailing b ≥ (b :: src).length
    · rw [if_pos h, if_pos h]; simp
    · obtain ⟨r, hr⟩ := isLegal_some (src := b :: src) (n := trailing b + 1) (by omega)
      obtain ⟨g, hg⟩ := gather_some (k := trailing b) (ch := 0) (src := b :: src) (by omega)
      obtain ⟨o, ho⟩ := offsets_some (trailing_le b)
      rw [if_neg h, if_neg h, hr, Option.bind_some]
      cases r with
      | false => simp
      | true =>
        simp only [hg, ho, Option.bind_some, Option.map_some, Bool.not_true, if_true]
        have key := fun v => put_eq (pre := pre) (rest := rest) (v := v) (fun pre rest => loop8to32_eq n ((b :: src).drop (trailing b + 1)) pre rest)
        simp only [put] at key
        rw [if_neg (by simp)]
        by_cases h1 : pre.length ≥ (pre ++ rest).length
        · rw [if_pos h1, ← key, if_pos h1]
        · rw [if_neg h1]
          by_cases h2 : (g + (2 ^ 32 - o)) % 2 ^ 32 ≤ 0x10FFFF
          · by_cases h3 : (g + (2 ^ 32 - o)) % 2 ^ 32 ≥ 0xD800 ∧ (g + (2 ^ 32 - o)) % 2 ^ 32 ≤ 0xDFFF
            · rw [if_pos h2, if_pos h3, if_neg (fun c => c.2 h3), ← key, if_neg h1]
            · rw [if_pos h2, if_neg h3, if_pos ⟨h2, h3⟩, ← key, if_neg h1]
          · rw [if_neg h2, if_neg (fun c => h2 c.1), ← key, if_neg h1]

theorem first_lead {b : Nat} (h : first b = true) : wlead b = 1 := by
  unfold first at h
  simp at h
  rw [lead_eq b (by omega), if_neg (by omega)]

theorem isLegal_first {b : Nat} {src : List Nat} {n : Nat} (h : isLegal (b :: src) n = some true) : first b = true := by
  unfold isLegal at h
  match n with
  | 0 => simp at h
  | 1 => simpa using h
  | 2 =>
    simp only [Option.bind_eq_some_iff] at h
    obtain ⟨a, -, h⟩ := h
    split at h <;> simp at h
    exact h.2
  | 3 =>
    simp only [Option.bind_eq_some_iff] at h
    obtain ⟨a, -, h⟩ := h
    split at h
    · simp at h
    simp only [Option.bind_eq_some_iff] at h
    obtain ⟨a, -, h⟩ := h
    split at h <;> simp at h
    exact h.2
  | 4 =>
    simp only [Option.bind_eq_some_iff] at h
    obtain ⟨a, -, h⟩ := h
    split at h
    · simp at h
    simp only [Option.bind_eq_some_iff] at h
    obtain ⟨a, -, h⟩ := h
    split at h
    · simp at h
    simp only [Option.bind_eq_some_iff] at h
    obtain ⟨a, -, h⟩ := h
    split at h <;> simp at h
    exact h.2
  | n + 5 => simp at h

theorem d1_lead {b v : Nat} {src : List Nat} (h : d1 (b :: src) = some v) : wlead b = 1 := by
  simp only [d1] at h
  split at h
  · cases h
  · split at h
    · next h1 => exact first_lead (isLegal_first h1)
    · cases h

theorem total_drop_le {w : Nat → Nat} : ∀ {l : List Nat} {k : Nat}, total w (l.drop k) ≤ total w l
  | [], k => by simp
  | a :: l, 0 => Nat.le_refl _
  | a :: l, k + 1 => by
    have := total_drop_le (w := w) (l := l) (k := k)
    rw [List.drop_succ_cons, total_cons]; omega

theorem d8_le : ∀ (n : Nat) (src : List Nat), (d8 n src).length ≤ total wlead src
  | 0, _ => Nat.zero_le _
  | n + 1, [] => Nat.zero_le _
  | n + 1, b :: src => by
    rw [d8]
    split
    · exact Nat.zero_le _
    · next v h =>
      have h1 := d1_lead h
      have h2 := d8_le n ((b :: src).drop (trailing b + 1))
      have h3 := total_drop_le (w := wlead) (l := src) (k := trailing b)
      rw [List.drop_succ_cons] at h2
      rw [List.length_cons, total_cons, h1]
      rw [List.drop_succ_cons]
      omega

/-! ## One character -/

def IsScalar (v : Nat) : Prop := v < 0xD800 ∨ (0xDFFF < v ∧ v < 0x110000)

instance (v : Nat) : Decidable (IsScalar v) := inferInstanceAs (Decidable (_ ∨ _))

/-- Reading back what was written for one scalar value. -/
theorem d1_e8 {v : Nat} (hv : IsScalar v) (rest : List Nat) : ∃ b m, e8 v = b :: m ∧ trailing b = m.length ∧ d1 (e8 v ++ rest) = some v := by
  have hs : ∀ x : Nat, x <<< 6 = x * 64 := fun x => Nat.shiftLeft_eq x 6
  unfold IsScalar at hv
  have fin : ∀ {g o : Nat}, (g + (2 ^ 32 - o)) % 2 ^ 32 = v → (if (g + (2 ^ 32 - o)) % 2 ^ 32 ≤ 0x10FFFF ∧ ¬((g + (2 ^ 32 - o)) % 2 ^ 32 ≥ 0xD800 ∧ (g + (2 ^ 32 - o)) % 2 ^ 32 ≤ 0xDFFF) then (g + (2 ^ 32 - o)) % 2 ^ 32 else 0xFFFD) = v := by
    intro g o h
    rw [h, if_pos (by omega)]
  have cont128 : ∀ x, cont (x % 64 + 128) = true := fun x => by unfold cont; simp; omega
  unfold e8
  simp only
  rw [if_pos (show v ≤ 0x10FFFF by omega)]
  by_cases h1 : v < 0x80
  · rw [if_pos h1]
    have ht : trailing (v % 256) = 0 := by unfold trailing; rw [if_pos (by omega)]
    refine ⟨_, _, rfl, ht, ?_⟩
    simp only [List.cons_append, List.nil_append, d1, ht]
    rw [if_neg (by simp), if_pos (by simp [isLegal, first]; omega)]
    simp only [gather, offsets, Option.bind_some, List.getElem?_cons_zero, Option.map_some]
    exact congrArg some (fin (by omega))
  by_cases h2 : v < 0x800
  · rw [if_neg h1, if_pos h2]
    have ht : trailing (v / 64 + 192) = 1 := by unfold trailing; rw [if_neg (by omega), if_pos (by omega)]
    have hc := cont128 v
    refine ⟨_, _, rfl, ht, ?_⟩
    simp only [List.cons_append, List.nil_append, d1, ht]
    rw [if_neg (by simp), if_pos ?_]
    · simp only [gather, offsets, Option.bind_some, List.getElem?_cons_zero, List.getElem?_cons_succ, Option.map_some, hs]
      exact congrArg some (fin (by omega))
    · simp only [isLegal, List.getElem?_cons_zero, List.getElem?_cons_succ, Option.bind_some, Option.map_some, hc, Bool.not_true]
      simp [second, first]
      refine ⟨?_, by omega⟩
      repeat' split
      all_goals omega
  by_cases h3 : v < 0x10000
  · rw [if_neg h1, if_neg h2, if_pos (.inl h3)]
    have ht : trailing (v / 4096 + 224) = 2 := by unfold trailing; rw [if_neg (by omega), if_neg (by omega), if_pos (by omega)]
    have hc := cont128 v
    have hc2 := cont128 (v / 64)
    refine ⟨_, _, rfl, ht, ?_⟩
    simp only [List.cons_append, List.nil_append, d1, ht]
    rw [if_neg (by simp), if_pos ?_]
    · simp only [gather, offsets, Option.bind_some, List.getElem?_cons_zero, List.getElem?_cons_succ, Option.map_some, hs]
      exact congrArg some (fin (by omega))
    · simp only [isLegal, List.getElem?_cons_zero, List.getElem?_cons_succ, Option.bind_some, Option.map_some, hc, hc2, Bool.not_true]
      simp [second, first]
      refine ⟨?_, by omega⟩
      repeat' split
      all_goals omega
  · rw [if_neg h1, if_neg h2, if_neg (by omega)]
    have ht : trailing (v / 262144 + 240) = 3 := by unfold trailing; rw [if_neg (by omega), if_neg (by omega), if_neg (by omega), if_pos (by omega)]
    have hc := cont128 v
    have hc2 := cont128 (v / 64)
    have hc3 := cont128 (v / 4096)
    refine ⟨_, _, rfl, ht, ?_⟩
    simp only [List.cons_append, List.nil_append, d1, ht]
    rw [if_neg (by simp), if_pos ?_]
    · simp only [gather, offsets, Option.bind_some, List.getElem?_cons_zero, List.getElem?_cons_succ, Option.map_some, hs]
      exact congrArg some (fin (by omega))
    · simp only [isLegal, List.getElem?_cons_zero, List.getElem?_cons_succ, Option.bind_some, Option.map_some, hc, hc2, hc3, Bool.not_true]
      simp [second, first]
      refine ⟨?_, by omega⟩
      repeat' split
      all_goals omega

theorem d8_e8s : ∀ {l : List Nat} {n : Nat}, (∀ v ∈ l, IsScalar v) → (l.flatMap e8).length ≤ n → d8 n (l.flatMap e8) = l
  | [], 0, _, _ => rfl
  | [], n + 1, _, _ => rfl
  | v :: l, n, hv, hn => by
    rw [List.flatMap_cons] at hn ⊢
    obtain ⟨b, m, h1, h2, h3⟩ := d1_e8 (hv v (by simp)) (l.flatMap e8)
    rw [h1] at hn h3 ⊢
    cases n with
    | zero => simp at hn
    | succ n =>
      rw [List.cons_append, d8, ← List.cons_append, h3]
      simp only
      rw [h2, List.cons_append, List.drop_succ_cons, List.drop_left, d8_e8s (fun v hv' => hv v (by simp [hv']))]
      simp at hn ⊢
      omega

/-- No zero bytes, and one leading byte. -/
theorem e8_nonzero {v : Nat} (h : v ≠ 0) : ∀ x ∈ e8 v, x ≠ 0 := by
  intro x hx
  unfold e8 at hx
  simp only at hx
  repeat' split at hx
  all_goals (simp at hx; omega)

theorem e8_lead {v : Nat} (hv : IsScalar v) : total wlead (e8 v) = 1 := by
  unfold IsScalar at hv
  have hc : ∀ x, wlead (x % 64 + 128) = 0 := fun x => by rw [lead_eq _ (by omega), if_pos (by omega)]
  have hl : ∀ x, x < 256 → (x < 128 ∨ 192 ≤ x) → wlead x = 1 := fun x h1 h2 => by rw [lead_eq _ h1, if_neg (by omega)]
  unfold e8
  simp only
  rw [if_pos (show v ≤ 0x10FFFF by omega)]
  repeat' split
  all_goals (simp only [total, List.map_cons, List.map_nil, List.sum_cons, List.sum_nil, hc]; rw [hl _ (by omega) (by omega)]; try rfl)

theorem e8s_lead : ∀ {l : List Nat}, (∀ v ∈ l, IsScalar v) → total wlead (l.flatMap e8) = l.length
  | [], _ => rfl
  | v :: l, h => by
    rw [List.flatMap_cons, total_append, e8_lead (h v (by simp)), e8s_lead fun v hv => h v (by simp [hv])]
    simp; omega

theorem d16_e16s : ∀ {l : List Nat}, (∀ v ∈ l, IsScalar v) → ∀ m, d16 (l.flatMap e16 ++ 0 :: m) = l ++ d16 (0 :: m)
  | [], _, m => rfl
  | v :: l, h, m => by
    have hv := h v (by simp)
    unfold IsScalar at hv
    have ih := d16_e16s (l := l) (fun v hv => h v (by simp [hv])) m
    have hne : ∃ y t, l.flatMap e16 ++ 0 :: m = y :: t := by
      cases l.flatMap e16 with
      | nil => exact ⟨_, _, rfl⟩
      | cons y t => exact ⟨_, _, rfl⟩
    obtain ⟨y, t, hne⟩ := hne
    rw [List.flatMap_cons, List.append_assoc]
    by_cases h1 : v ≤ 0xFFFF
    · have : e16 v = [v] := by unfold e16; rw [if_pos h1, if_neg (by omega)]
      rw [this, List.singleton_append, hne, d16, if_neg (by omega), ← hne, ih]; rfl
    · have : e16 v = [0xD800 + (v - 0x10000) / 1024, 0xDC00 + (v - 0x10000) % 1024] := by unfold e16; rw [if_neg h1, if_neg (by omega)]
      rw [this, List.cons_append, List.cons_append, List.nil_append, d16, if_pos (by omega), if_pos (by omega), ih, List.cons_append]
      congr 1
      omega

theorem e16_nonzero {v : Nat} (h : v ≠ 0) : ∀ x ∈ e16 v, x ≠ 0 := by
  intro x hx
  unfold e16 at hx
  repeat' split at hx
  all_goals (simp at hx; omega)

theorem wcslen_text : ∀ {l : List Nat} (rest : List Nat), (∀ c ∈ l, c ≠ 0) → wcslen (l ++ 0 :: rest) = some l.length
  | [], rest, _ => by simp [wcslen]
  | c :: l, rest, h => by
    have h1 : c ≠ 0 := h c (by simp)
    rw [List.cons_append, wcslen, if_neg h1, wcslen_text rest fun c hc => h c (by simp [hc])]
    simp

end Verif.Utf
