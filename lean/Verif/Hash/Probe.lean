import Verif.Hash.Model
import Mathlib.Data.Nat.Prime.Basic
import Mathlib.Data.Nat.ModEq
import Mathlib.Data.Finset.Card
import Mathlib.Data.Finset.Range
import Mathlib.Data.Finset.Image
import Mathlib.Tactic.Ring

/-! The triangular probe sequence visits every bucket; list lemmas for arrays of optional entries. -/

namespace Verif.Hash

variable {κ δ : Type}

/-- Bucket at step `s` of the probe sequence from hash `h`. -/
def pos (n h s : Nat) : Nat := (h + s * (s + 1) / 2) % n

theorem pos_zero (n h : Nat) : pos n h 0 = h % n := by simp [pos]

theorem tri_succ (s : Nat) : (s + 1) * (s + 1 + 1) / 2 = s * (s + 1) / 2 + (s + 1) := by
  have h : (s + 1) * (s + 1 + 1) = s * (s + 1) + 2 * (s + 1) := by ring
  omega

theorem pos_succ (n h s : Nat) : (pos n h s + (s + 1)) % n = pos n h (s + 1) := by
  unfold pos
  rw [Nat.mod_add_mod, tri_succ]
  congr 1; omega

theorem pos_lt {n : Nat} (hn : 0 < n) (h s : Nat) : pos n h s < n := Nat.mod_lt _ hn

theorem two_tri (s : Nat) : 2 * (s * (s + 1) / 2) = s * (s + 1) := by
  induction s with
  | zero => rfl
  | succ s ih =>
    rw [tri_succ]
    have h : (s + 1) * (s + 1 + 1) = s * (s + 1) + 2 * (s + 1) := by ring
    omega

theorem tri_inj {k a b : Nat} (hab : a < b) (hb : b < 2 ^ k) (h : Nat)
    (heq : (h + a * (a + 1) / 2) % 2 ^ k = (h + b * (b + 1) / 2) % 2 ^ k) : False := by
  have h1 : (2 ^ k : Nat) ∣ (h + b * (b + 1) / 2) - (h + a * (a + 1) / 2) := (Nat.modEq_iff_dvd' (by
    have : a * (a + 1) ≤ b * (b + 1) := Nat.mul_le_mul (by omega) (by omega)
    omega)).1 heq
  have h2 : 2 * ((h + b * (b + 1) / 2) - (h + a * (a + 1) / 2)) = (b - a) * (b + a + 1) := by
    have e1 := two_tri a
    have e2 := two_tri b
    obtain ⟨d, rfl⟩ := Nat.exists_eq_add_of_lt hab
    have e3 : (a + d + 1) * (a + d + 1 + 1) = a * (a + 1) + (a + d + 1 - a) * (a + d + 1 + a + 1) := by
      rw [show a + d + 1 - a = d + 1 by omega]; ring
    omega
  have h3 : 2 ^ (k + 1) ∣ (b - a) * (b + a + 1) := by
    rw [← h2, Nat.pow_succ, Nat.mul_comm]; exact Nat.mul_dvd_mul_left 2 h1
  rcases Nat.even_or_odd (b - a) with he | ho
  · -- the other factor is odd
    have hodd : Nat.Coprime (2 ^ (k + 1)) (b + a + 1) := by
      apply Nat.Coprime.pow_left
      rw [Nat.coprime_two_left]
      rcases he with ⟨m, hm⟩
      exact ⟨a + m, by omega⟩
    have := hodd.dvd_of_dvd_mul_right h3
    have h4 := Nat.le_of_dvd (by omega) this
    rw [Nat.pow_succ] at h4
    omega
  · have hodd : Nat.Coprime (2 ^ (k + 1)) (b - a) := by
      apply Nat.Coprime.pow_left
      rw [Nat.coprime_two_left]
      exact ho
    have := hodd.dvd_of_dvd_mul_left h3
    have h4 := Nat.le_of_dvd (by omega) this
    rw [Nat.pow_succ] at h4
    omega

theorem pos_inj {n k h a b : Nat} (hn : n = 2 ^ k) (ha : a < n) (hb : b < n) (heq : pos n h a = pos n h b) : a = b := by
  subst hn
  unfold pos at heq
  rcases Nat.lt_trichotomy a b with hlt | he | hlt
  · exact absurd heq (fun heq => tri_inj hlt hb h heq)
  · exact he
  · exact absurd heq.symm (fun heq => tri_inj hlt ha h heq)

theorem pos_surj {n k : Nat} (h : Nat) (hn : n = 2 ^ k) {i : Nat} (hi : i < n) : ∃ s, s < n ∧ pos n h s = i := by
  have hpos : 0 < n := by omega
  have himg : (Finset.range n).image (pos n h) = Finset.range n := by
    apply Finset.eq_of_subset_of_card_le
    · intro x hx
      obtain ⟨s, _, rfl⟩ := Finset.mem_image.1 hx
      exact Finset.mem_range.2 (pos_lt hpos h s)
    · rw [Finset.card_image_of_injOn]
      intro a ha b hb heq
      exact pos_inj hn (by simpa using ha) (by simpa using hb) heq
  have : i ∈ (Finset.range n).image (pos n h) := by rw [himg]; exact Finset.mem_range.2 hi
  obtain ⟨s, hs, rfl⟩ := Finset.mem_image.1 this
  exact ⟨s, Finset.mem_range.1 hs, rfl⟩

/-! ## Arrays of optional entries -/

theorem entries_split {β : Type} (f : Nat → Option β) {i : Nat} : ∀ {n : Nat}, i < n →
    ∃ A B, entries f n = A ++ (f i).toList ++ B ∧ ∀ v, entries (upd f i v) n = A ++ v.toList ++ B := by
  intro n
  induction n with
  | zero => intro h; omega
  | succ n ih =>
    intro h
    have hs : ∀ g : Nat → Option β, entries g (n + 1) = entries g n ++ (g n).toList := by
      intro g
      simp only [entries, List.range_succ, List.filterMap_append]
      cases hg : g n <;> simp [hg]
    by_cases hin : i = n
    · subst hin
      refine ⟨entries f i, [], by simp [hs], ?_⟩
      intro v
      rw [hs]
      have : entries (upd f i v) i = entries f i := by
        unfold entries
        apply List.filterMap_congr
        intro j hj
        simp only [List.mem_range] at hj
        simp [upd, Nat.ne_of_lt hj]
      rw [this]
      simp [upd]
    · obtain ⟨A, B, h1, h2⟩ := ih (by omega)
      refine ⟨A, B ++ (f n).toList, by rw [hs, h1]; simp, ?_⟩
      intro v
      rw [hs, h2]
      have : upd f i v n = f n := by simp [upd, Ne.symm hin]
      rw [this]; simp

theorem entries_congr {β : Type} {f g : Nat → Option β} {n : Nat} (h : ∀ i, i < n → f i = g i) : entries f n = entries g n := by
  unfold entries
  apply List.filterMap_congr
  intro j hj
  exact h j (List.mem_range.1 hj)

theorem entries_add {β : Type} {f : Nat → Option β} {n i : Nat} (hi : i < n) (hf : f i = none) (e : β) :
    (entries (upd f i (some e)) n).Perm (e :: entries f n) := by
  obtain ⟨A, B, h1, h2⟩ := entries_split f hi
  rw [h1, h2, hf]
  simp

theorem entries_del {β : Type} {f : Nat → Option β} {n i : Nat} (hi : i < n) {e : β} (hf : f i = some e) :
    (entries f n).Perm (e :: entries (upd f i none) n) := by
  obtain ⟨A, B, h1, h2⟩ := entries_split f hi
  rw [h1, h2, hf]
  simp

theorem mem_entries {β : Type} {f : Nat → Option β} {n : Nat} {e : β} : e ∈ entries f n ↔ ∃ i, i < n ∧ f i = some e := by
  simp [entries]

theorem entries_full {β : Type} {f : Nat → Option β} : ∀ {n : Nat}, (entries f n).length < n → ∃ i, i < n ∧ f i = none := by
  intro n
  induction n with
  | zero => intro h; omega
  | succ n ih =>
    intro h
    cases hf : f n with
    | none => exact ⟨n, by omega, hf⟩
    | some e =>
      have hl : (entries f (n + 1)).length = (entries f n).length + 1 := by
        simp [entries, List.range_succ, List.filterMap_append, hf]
      obtain ⟨i, h1, h2⟩ := ih (by omega)
      exact ⟨i, by omega, h2⟩

theorem entries_length_le {β : Type} (f : Nat → Option β) (n : Nat) : (entries f n).length ≤ n := by
  unfold entries
  exact Nat.le_trans (List.length_filterMap_le _ _) (by simp)

theorem entries_none {β : Type} {f : Nat → Option β} {n : Nat} (h : ∀ i, i < n → f i = none) : entries f n = [] := by
  rw [List.eq_nil_iff_forall_not_mem]
  intro e he
  obtain ⟨i, h1, h2⟩ := mem_entries.1 he
  rw [h i h1] at h2; cases h2

/-- Entries of a function bounded by another one's. -/
theorem entries_le {β γ : Type} {f : Nat → Option β} {g : Nat → Option γ} :
    ∀ {n : Nat}, (∀ i, i < n → (f i).isSome → (g i).isSome) → (entries f n).length ≤ (entries g n).length := by
  intro n
  induction n with
  | zero => intro _; simp [entries]
  | succ n ih =>
    intro h
    have hs : ∀ {β : Type} (g : Nat → Option β), (entries g (n + 1)).length = (entries g n).length + (g n).toList.length := by
      intro β g
      simp only [entries, List.range_succ, List.filterMap_append, List.length_append]
      cases hg : g n <;> simp [hg]
    rw [hs, hs]
    have h1 := ih (fun i hi => h i (by omega))
    have h2 := h n (by omega)
    cases hf : f n with
    | none => simp; omega
    | some e =>
      rw [hf] at h2
      obtain ⟨e', he'⟩ := Option.isSome_iff_exists.1 (h2 rfl)
      rw [he']; simp; omega

/-! ## Probing -/

/-- Bucket `i` is on the probe sequence of `h` after buckets that are in use. -/
def Reach (used : Nat → Bool) (n h i : Nat) : Prop := ∃ s, pos n h s = i ∧ ∀ s', s' < s → used (pos n h s') = true

theorem Reach.mono {used used' : Nat → Bool} {n h i : Nat} (hm : ∀ j, used j = true → used' j = true)
    (hr : Reach used n h i) : Reach used' n h i := by
  obtain ⟨s, h1, h2⟩ := hr
  exact ⟨s, h1, fun s' hs => hm _ (h2 s' hs)⟩

/-- The least step with a property. -/
theorem least (P : Nat → Prop) [DecidablePred P] {s : Nat} (h : P s) : ∃ m, m ≤ s ∧ P m ∧ ∀ j, j < m → ¬ P j := by
  induction s using Nat.strongRecOn with
  | ind s ih =>
    by_cases hex : ∃ j, j < s ∧ P j
    · obtain ⟨j, h1, h2⟩ := hex
      obtain ⟨m, e1, e2, e3⟩ := ih j h1 h2
      exact ⟨m, by omega, e2, e3⟩
    · exact ⟨s, Nat.le_refl _, h, fun j hj hp => hex ⟨j, hj, hp⟩⟩

theorem probeEmpty_loop (used : Nat → Bool) (m h : Nat) {s0 : Nat} (h0 : used (pos m h s0) = false)
    (hlt : ∀ s, s < s0 → used (pos m h s) = true) :
    ∀ (f s : Nat), s ≤ s0 → s0 < s + f → probeEmpty used m f (pos m h s) s = some (pos m h s0) := by
  intro f
  induction f with
  | zero => intro s h1 h2; omega
  | succ f ih =>
    intro s h1 h2
    unfold probeEmpty
    by_cases hs : s = s0
    · subst hs; simp [h0]
    · rw [hlt s (by omega), if_pos rfl, pos_succ]
      exact ih (s + 1) (by omega) (by omega)

theorem probeEmpty_spec {used : Nat → Bool} {m k : Nat} (h : Nat) (hm : m = 2 ^ k) {i : Nat} (hi : i < m) (hu : used i = false) :
    ∃ x, probeEmpty used m m (h % m) 0 = some x ∧ x < m ∧ used x = false ∧ Reach used m h x := by
  obtain ⟨s, hs, rfl⟩ := pos_surj h hm hi
  obtain ⟨s0, h1, h2, h3⟩ := least (fun s => used (pos m h s) = false) hu
  refine ⟨pos m h s0, ?_, pos_lt (by omega) h s0, h2, s0, rfl, fun s' hs' => by simpa using h3 s' hs'⟩
  rw [← pos_zero]
  exact probeEmpty_loop used m h h2 (fun s hs => by simpa using h3 s hs) m 0 (by omega) (by omega)

end Verif.Hash
