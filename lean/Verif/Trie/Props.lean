import Verif.Trie.Init

/-!
# C26: `Trie`
-/

namespace Verif.Trie

variable {w : Nat} {fold : Nat → Nat}

theorem cmpStr_sym : ∀ a b : List Nat, cmpStr fold a b < 0 ↔ 0 < cmpStr fold b a
  | [], [] => by simp [cmpStr]
  | [], _ :: _ => by simp [cmpStr]
  | _ :: _, [] => by simp [cmpStr]
  | a :: s, b :: t => by
    have ih := cmpStr_sym s t
    simp only [cmpStr]
    by_cases h1 : fold a < fold b
    · rw [if_pos h1, if_neg (by omega), if_pos h1]; omega
    · rw [if_neg h1]
      by_cases h2 : fold b < fold a
      · rw [if_pos h2, if_pos h2]; omega
      · rw [if_neg h2, if_neg h2, if_neg h1]; exact ih

theorem cmpStr_trans : ∀ a b c : List Nat, cmpStr fold a b ≤ 0 → cmpStr fold b c ≤ 0 → cmpStr fold a c ≤ 0
  | [], _, [] => by simp [cmpStr]
  | [], _, _ :: _ => by simp [cmpStr]
  | _ :: _, [], _ => by simp [cmpStr]
  | _ :: _, _ :: _, [] => by simp [cmpStr]
  | a :: s, b :: t, c :: u => by
    have ih := cmpStr_trans s t u
    simp only [cmpStr]
    intro h1 h2
    split
    · omega
    · next h3 =>
      split at h1
      · split at h2
        · omega
        · split at h2
          · omega
          · omega
      · split at h1
        · omega
        · split at h2
          · omega
          · split at h2
            · omega
            · split
              · omega
              · exact ih h1 h2

theorem cmpStr_eq : ∀ a b : List Nat, cmpStr fold a b = 0 → a.map fold = b.map fold
  | [], [] => by simp
  | [], _ :: _ => by simp [cmpStr]
  | _ :: _, [] => by simp [cmpStr]
  | a :: s, b :: t => by
    have ih := cmpStr_eq s t
    simp only [cmpStr]
    intro h
    split at h
    · omega
    · split at h
      · omega
      · rw [List.map_cons, List.map_cons, ih h, show fold a = fold b by omega]

theorem cmpWord_ord (fold : Nat → Nat) : CmpOrd (cmpWord fold) :=
  ⟨fun a b => cmpStr_sym a.2 b.2, fun a b c => cmpStr_trans a.2 b.2 c.2⟩

theorem number_length : ∀ (i : Nat) (ws : List (List Nat)), (number i ws).length = ws.length
  | _, [] => rfl
  | i, _ :: ws => by rw [number, List.length_cons, List.length_cons, number_length (i + 1) ws]

theorem number_mem : ∀ (i : Nat) (ws : List (List Nat)) (s : Word), s ∈ number i ws ↔ ∃ j, ws[j]? = some s.2 ∧ s.1 = i + j
  | _, [], s => by simp [number]
  | i, x :: ws, s => by
    rw [number, List.mem_cons, number_mem (i + 1) ws s]
    constructor
    · rintro (rfl | ⟨j, h1, h2⟩)
      · exact ⟨0, by simp, by simp⟩
      · exact ⟨j + 1, by simpa using h1, by omega⟩
    · rintro ⟨j, h1, h2⟩
      cases j with
      | zero =>
        left
        simp only [List.getElem?_cons_zero, Option.some.injEq] at h1
        obtain ⟨a, b⟩ := s
        simp only at h1 h2
        subst h1 h2
        rfl
      | succ j => exact Or.inr ⟨j, by simpa using h1, by omega⟩

theorem number_map : ∀ (i : Nat) (ws : List (List Nat)), (number i ws).map (·.2) = ws
  | _, [] => rfl
  | i, x :: ws => by rw [number, List.map_cons, number_map (i + 1) ws]

/-- **C26** (partial).  `fold` is the identity or `tolower`.  A trie built from a list of words that are not empty, differ after
folding and consist of bytes 1..127, with `2 * (total length + number of words) ≤ 2^w`, answers every string of bytes with the
index of the word that equals it after folding, and with `2^w - 1` (that is, `(T)-1`) if there is none.  No access is out of range.

Missing: words with bytes above 127 (siblings are sorted by `strcmp`, as unsigned bytes, but searched as signed `char`: see
`C26_high_bytes_counterexample`), the empty word (`C26_empty_word_counterexample`) and tries whose capacity overflows `T` when doubled
(`C26_overflow_counterexample`). -/
theorem C26_lookup_partial (h0 : fold 0 = 0) (hb : ∀ c, c < 256 → fold c < 256) (words : List (List Nat)) (hne : words ≠ [])
    (hch : ∀ s ∈ words, s ≠ [] ∧ ∀ c ∈ s, 1 ≤ fold c ∧ fold c ≤ 127) (hd : (words.map (·.map fold)).Nodup)
    (hsz : 2 * ((words.map List.length).sum + words.length) ≤ 2 ^ w) (f : Nat) (hf : ∀ s ∈ words, s.length < f) :
    ∃ m, build w fold f words = some m ∧
      (∀ (i : Nat) (s : List Nat), words[i]? = some s → ∀ q : List Nat, (∀ c ∈ q, c < 256) → q.map fold = s.map fold →
        get w fold m q = some i) ∧
      (∀ q : List Nat, (∀ c ∈ q, c < 256) → (∀ s ∈ words, s.map fold ≠ q.map fold) → get w fold m q = some (2 ^ w - 1)) := by
  obtain ⟨ss, hs1, hs2, hs3⟩ := Heap.C02_heapSort_sorts (cmpWord_ord fold) (number 0 words)
  rw [number_length] at hs1
  have hmem : ∀ s : Word, s ∈ ss ↔ words[s.1]? = some s.2 := fun s => by
    rw [hs2.mem_iff, number_mem]
    constructor
    · rintro ⟨j, h1, h2⟩
      rw [h2, Nat.zero_add]
      exact h1
    · exact fun h => ⟨s.1, h, by omega⟩
  have htot : tot ss = (words.map List.length).sum + words.length := by
    have e1 : tot ss = tot (number 0 words) := (hs2.map _).sum_nat
    have e2 : ∀ (i : Nat) (ws : List (List Nat)), tot (number i ws) = (ws.map List.length).sum + ws.length := by
      intro i ws
      induction ws generalizing i with
      | nil => rfl
      | cons x ws ih =>
        rw [number, tot_cons, ih]
        simp only [List.map_cons, List.sum_cons, List.length_cons]
        omega
    rw [e1, e2]
  have hnd : (ss.map fun s => s.2.map fold).Nodup := by
    have h1 : ((number 0 words).map fun s => s.2.map fold) = words.map (·.map fold) := by
      have h3 := congrArg (List.map fun t : List Nat => t.map fold) (number_map 0 words)
      rw [List.map_map] at h3
      exact h3
    have h2 := hs2.map fun s => s.2.map fold
    rw [h1] at h2
    exact h2.nodup_iff.2 hd
  have hlt : ss.Pairwise fun a b => cmpWord fold a b < 0 := by
    have h1 : ss.Pairwise fun a b => a.2.map fold ≠ b.2.map fold := List.pairwise_map.1 hnd
    refine (hs3.and h1).imp fun {a b} h => ?_
    have : cmpWord fold a b ≠ 0 := fun e => h.2 (cmpStr_eq _ _ e)
    have := h.1
    omega
  have hw : ∀ s ∈ ss, s.2 ∈ words := fun s hs => List.mem_of_getElem? ((hmem s).1 hs)
  have hpos : 0 < words.length := List.length_pos_iff.2 hne
  have hsne : ss ≠ [] := by
    intro e
    have := hs2.length_eq
    rw [e, number_length] at this
    simp at this
    omega
  have hlw : words.length ≤ (words.map List.length).sum + words.length := Nat.le_add_left _ _
  have hlw2 : 0 < (words.map List.length).sum := by
    cases words with
    | nil => simp at hpos
    | cons x xs =>
      have := (hch x (by simp)).1
      have : 0 < x.length := List.length_pos_iff.2 this
      simp only [List.map_cons, List.sum_cons]
      omega
  obtain ⟨m', r', hi, pl⟩ := init_spec (w := w) h0 f ss 0 ⟨words.length, fun _ => blank w⟩ hsne hlt
    (fun s hs => (hch _ (hw s hs)).2) (fun s hs => hf _ (hw s hs)) (fun _ s hs => (hch _ (hw s hs)).1) hpos
    (by simp only; omega) (Nat.zero_le _) (by rw [htot]; omega) (fun _ _ _ => rfl)
  have hlook := pl.look m' pl.fits (fun _ _ _ => rfl)
  refine ⟨m', ?_, ?_, ?_⟩
  · rw [build, hs1, Option.bind_some, hi]
    rfl
  · intro i s hi q hq hqs
    rw [get, hlook q fun c hc => hb c (hq c hc)]
    have hin : (i, s) ∈ ss := (hmem (i, s)).2 hi
    obtain ⟨l, r, rfl⟩ := List.append_of_mem hin
    congr 1
    rw [find_append]
    · simp [find, hqs]
    · intro x hx
      have := List.pairwise_append.1 (List.pairwise_map.1 hnd)
      rw [hqs]
      exact this.2.2 x hx (i, s) (by simp)
  · intro q hq hn
    rw [get, hlook q fun c hc => hb c (hq c hc), find_none]
    intro s hs
    exact hn s.2 (hw s hs)

/-- A trie of four words in a `Trie<uint8_t>`. -/
example : (build 8 id 10 [[98, 97, 114], [97], [98, 97, 122], [98]]).bind (fun m => get 8 id m [98, 97, 122]) = some 2 := by decide +kernel
example : (build 8 id 10 [[98, 97, 114], [97], [98, 97, 122], [98]]).bind (fun m => get 8 id m [98, 97]) = some 255 := by decide +kernel

/-- The same hypotheses for these words. -/
example : ∃ m, build 8 id 10 [[98, 97, 114], [97], [98, 97, 122], [98]] = some m ∧ get 8 id m [98] = some 3 :=
  (C26_lookup_partial (w := 8) (fold := id) rfl (fun _ h => h) [[98, 97, 114], [97], [98, 97, 122], [98]] (by simp) (by decide)
    (by decide) (by decide) 10 (by decide)).imp fun _ h => ⟨h.1, h.2.1 3 _ rfl _ (by decide) rfl⟩

/-- `tolower` on ASCII. -/
def lower (c : Nat) : Nat := if 65 ≤ c ∧ c ≤ 90 then c + 32 else c

example : ∃ m, build 8 lower 10 [[66, 97], [97], [67, 65, 122]] = some m ∧ get 8 lower m [98, 65] = some 0 :=
  (C26_lookup_partial (w := 8) (fold := lower) rfl (fun c h => by unfold lower; split <;> omega) [[66, 97], [97], [67, 65, 122]] (by simp)
    (by decide) (by decide) (by decide) 10 (by decide)).imp fun _ h => ⟨h.1, h.2.1 0 _ rfl _ (by decide) (by decide)⟩

/-- Words with bytes above 127: `"a"` and `"\xE9"` are stored in the order of unsigned bytes and searched as signed ones; the word
`"\xE9"` is not found. -/
theorem C26_high_bytes_counterexample :
    (build 8 id 10 [[97], [0xE9]]).bind (fun m => get 8 id m [0xE9]) = some 255 ∧
    (build 8 id 10 [[97], [0xE9]]).bind (fun m => get 8 id m [97]) = some 0 := by decide +kernel

/-- The empty word: `_array[r + 1]` is computed with `r = (uint8_t)-1`, that is index 256. -/
theorem C26_empty_word_counterexample : (build 8 id 10 [[], [97]]).isNone = true := by decide +kernel

/-- A word given twice: the second copy of `"a"` is counted at the node before its own, here that of `"b"`, whose count then runs
past the list of words. -/
theorem C26_duplicate_counterexample : (build 8 id 10 [[98], [97], [97]]).isNone = true := by decide +kernel

/-- A `Trie<uint8_t>` cannot grow past 128 nodes: the doubled capacity wraps to 0. -/
theorem C26_overflow_counterexample : (build 8 id 200 [List.replicate 130 97]).isNone = true := by decide +kernel

end Verif.Trie
