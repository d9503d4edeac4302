import Verif.Hash.Probe

/-! Rehashing, lookup and insertion. -/

namespace Verif.Hash

variable {κ δ : Type}

/-- What the containers assume of `HashFunc` and `HashEqual`. -/
structure HashOK (H : κ → Nat) (eq : κ → κ → Bool) : Prop where
  refl : ∀ a, eq a a = true
  symm : ∀ a b, eq a b = true → eq b a = true
  trans : ∀ a b c, eq a b = true → eq b c = true → eq a c = true
  hash : ∀ a b, eq a b = true → H a = H b

/-! ## Rehash -/

/-- Entries still in their old bucket. -/
def R.oldv (r : R κ δ) (i : Nat) : Option (κ × δ) := if r.live i then r.keys i else none

/-- Entries in their new bucket. -/
def R.newv (r : R κ δ) (i : Nat) : Option (κ × δ) := if r.used i then r.keys i else none

/-- Invariant of the rehash loops. -/
structure RInv (H : κ → Nat) (n m : Nat) (r : R κ δ) : Prop where
  disj : ∀ i, i < n → r.live i = true → r.used i = false
  old : ∀ i, i < n → r.live i = true → (r.keys i).isSome
  bound : ∀ i, r.used i = true → i < m
  new : ∀ i, r.used i = true → ∃ kv, r.keys i = some kv ∧ Reach r.used m (H kv.1) i

theorem upd_same {β : Type} (f : Nat → β) (i : Nat) (v : β) : upd f i v i = v := by simp [upd]
theorem upd_other {β : Type} (f : Nat → β) {i j : Nat} (v : β) (h : j ≠ i) : upd f i v j = f j := by simp [upd, h]

theorem kick_spec {H : κ → Nat} {n m k : Nat} (hm : m = 2 ^ k) {E : List (κ × δ)} (hE : E.length < m) :
    ∀ (f : Nat) (r : R κ δ) (kv : κ × δ), RInv H n m r → (entries r.oldv n).length < f →
      (kv :: (entries r.oldv n ++ entries r.newv m)).Perm E →
      ∃ r', kick H n m f r kv = some r' ∧ RInv H n m r' ∧ (entries r'.oldv n ++ entries r'.newv m).Perm E ∧
        ∀ j, r'.live j = true → r.live j = true := by
  intro f
  induction f with
  | zero => intro r kv _ h; omega
  | succ f ih =>
    intro r kv hr hf hperm
    have hlen : (entries r.newv m).length < m := by
      have := hperm.length_eq
      simp only [List.length_cons, List.length_append] at this
      omega
    obtain ⟨i0, hi0, hn0⟩ := entries_full hlen
    have hu0 : r.used i0 = false := by
      cases hu : r.used i0 with
      | false => rfl
      | true =>
        obtain ⟨kv', e1, _⟩ := hr.new i0 hu
        simp [R.newv, hu, e1] at hn0
    obtain ⟨x, p1, p2, p3, p4⟩ := probeEmpty_spec (H kv.1) hm hi0 hu0
    have hnewx : r.newv x = none := by simp [R.newv, p3]
    have hmono : ∀ j, r.used j = true → upd r.used x true j = true := by
      intro j hj; unfold upd; split <;> simp [hj]
    -- the new half of the invariant after storing at `x`
    have hnew : ∀ live : Nat → Bool, ∀ i, upd r.used x true i = true →
        ∃ kv', upd r.keys x (some kv) i = some kv' ∧ Reach (upd r.used x true) m (H kv'.1) i := by
      intro _ i hi
      by_cases hix : i = x
      · subst hix
        exact ⟨kv, upd_same _ _ _, p4.mono hmono⟩
      · rw [upd_other _ _ hix] at hi ⊢
        obtain ⟨kv', e1, e2⟩ := hr.new i hi
        exact ⟨kv', e1, e2.mono hmono⟩
    have hbound : ∀ i, upd r.used x true i = true → i < m := by
      intro i hi
      by_cases hix : i = x
      · subst hix; exact p2
      · rw [upd_other _ _ hix] at hi; exact hr.bound i hi
    unfold kick
    rw [p1, Option.bind_some]
    by_cases hk : x < n ∧ r.live x = true
    · rw [if_pos hk]
      obtain ⟨kv', hkv'⟩ := Option.isSome_iff_exists.1 (hr.old x hk.1 hk.2)
      rw [hkv', Option.bind_some]
      let r1 : R κ δ := ⟨upd r.keys x (some kv), upd r.live x false, upd r.used x true⟩
      have hold1 : entries r1.oldv n = entries (upd r.oldv x none) n := by
        apply entries_congr
        intro i hi
        by_cases hix : i = x
        · subst hix; simp [R.oldv, r1, upd]
        · simp [R.oldv, r1, upd, hix]
      have hnew1 : entries r1.newv m = entries (upd r.newv x (some kv)) m := by
        apply entries_congr
        intro i hi
        by_cases hix : i = x
        · subst hix; simp [R.newv, r1, upd]
        · simp [R.newv, r1, upd, hix]
      have hp1 := entries_del hk.1 (show r.oldv x = some kv' by simp [R.oldv, hk.2, hkv'])
      have hp2 := entries_add p2 hnewx kv
      have hr1 : RInv H n m r1 := by
        refine ⟨?_, ?_, hbound, hnew r1.live⟩
        · intro i hi hl
          by_cases hix : i = x
          · subst hix; simp [r1, upd] at hl
          · simp only [r1, upd_other _ _ hix] at hl ⊢
            exact hr.disj i hi hl
        · intro i hi hl
          by_cases hix : i = x
          · subst hix; simp [r1, upd]
          · simp only [r1, upd_other _ _ hix] at hl ⊢
            exact hr.old i hi hl
      obtain ⟨r', e1, e2, e3, e4⟩ := ih r1 kv' hr1 (by
          rw [hold1]
          have := hp1.length_eq
          simp only [List.length_cons] at this
          omega) (by
          rw [hold1, hnew1]
          refine List.Perm.trans ?_ hperm
          refine ((List.Perm.append_left (entries (upd r.oldv x none) n) hp2).cons kv').trans ?_
          refine (List.perm_middle.cons kv').trans ?_
          refine (List.Perm.swap kv kv' _).trans ?_
          refine List.Perm.cons kv ?_
          rw [← List.cons_append]
          exact List.Perm.append_right _ hp1.symm)
      refine ⟨r', e1, e2, e3, ?_⟩
      intro j hj
      have := e4 j hj
      simp only [r1] at this
      by_cases hjx : j = x
      · subst hjx; exact hk.2
      · rwa [upd_other _ _ hjx] at this
    · rw [if_neg hk]
      let r1 : R κ δ := ⟨upd r.keys x (some kv), r.live, upd r.used x true⟩
      have hlx : ∀ i, i < n → r.live i = true → i ≠ x := by
        rintro i hi hl rfl; exact hk ⟨hi, hl⟩
      have hold1 : entries r1.oldv n = entries r.oldv n := by
        apply entries_congr
        intro i hi
        simp only [R.oldv, r1]
        by_cases hl : r.live i = true
        · rw [upd_other _ _ (hlx i hi hl)]
        · simp [hl]
      have hnew1 : entries r1.newv m = entries (upd r.newv x (some kv)) m := by
        apply entries_congr
        intro i hi
        by_cases hix : i = x
        · subst hix; simp [R.newv, r1, upd]
        · simp [R.newv, r1, upd, hix]
      have hp2 := entries_add p2 hnewx kv
      refine ⟨r1, rfl, ⟨?_, ?_, hbound, hnew r1.live⟩, ?_, fun j hj => hj⟩
      · intro i hi hl
        simp only [r1, upd_other _ _ (hlx i hi hl)]
        exact hr.disj i hi hl
      · intro i hi hl
        simp only [r1, upd_other _ _ (hlx i hi hl)]
        exact hr.old i hi hl
      · rw [hold1, hnew1]
        exact (List.Perm.append_left _ hp2).trans (List.perm_middle.trans hperm)

theorem rehash_spec {H : κ → Nat} {n m k : Nat} (hm : m = 2 ^ k) {E : List (κ × δ)} (hE : E.length < m) :
    ∀ (js : List Nat) (r : R κ δ), (∀ j ∈ js, j < n) → RInv H n m r →
      (entries r.oldv n ++ entries r.newv m).Perm E →
      ∃ r', rehash H n m js r = some r' ∧ RInv H n m r' ∧ (entries r'.oldv n ++ entries r'.newv m).Perm E ∧
        (∀ j, r'.live j = true → r.live j = true) ∧ ∀ j ∈ js, r'.live j = false := by
  intro js
  induction js with
  | nil => intro r _ h1 h2; exact ⟨r, rfl, h1, h2, fun j h => h, by simp⟩
  | cons j js ih =>
    intro r hj hr hperm
    have hjn := hj j (by simp)
    unfold rehash
    by_cases hl : r.live j = true
    · rw [if_pos hl]
      obtain ⟨kv, hkv⟩ := Option.isSome_iff_exists.1 (hr.old j hjn hl)
      rw [hkv, Option.bind_some]
      let r1 : R κ δ := ⟨r.keys, upd r.live j false, r.used⟩
      have hold1 : entries r1.oldv n = entries (upd r.oldv j none) n := by
        apply entries_congr
        intro i hi
        by_cases hix : i = j
        · subst hix; simp [R.oldv, r1, upd]
        · simp [R.oldv, r1, upd, hix]
      have hnew1 : r1.newv = r.newv := rfl
      have hp1 := entries_del hjn (show r.oldv j = some kv by simp [R.oldv, hl, hkv])
      have hr1 : RInv H n m r1 := by
        refine ⟨?_, ?_, hr.bound, hr.new⟩
        · intro i hi h1
          by_cases hix : i = j
          · subst hix; simp [r1, upd] at h1
          · simp only [r1, upd_other _ _ hix] at h1
            exact hr.disj i hi h1
        · intro i hi h1
          by_cases hix : i = j
          · subst hix; simp [r1, upd] at h1
          · simp only [r1, upd_other _ _ hix] at h1
            exact hr.old i hi h1
      obtain ⟨r2, e1, e2, e3, e4⟩ := kick_spec hm hE (n + 1) r1 kv hr1
        (Nat.lt_succ_of_le (entries_length_le _ _)) (by
          rw [hold1, hnew1]
          refine List.Perm.trans ?_ hperm
          rw [← List.cons_append]
          exact List.Perm.append_right _ hp1.symm)
      obtain ⟨r3, f1, f2, f3, f4, f5⟩ := ih r2 (fun i hi => hj i (by simp [hi])) e2 e3
      refine ⟨r3, by rw [e1, Option.bind_some, f1], f2, f3, ?_, ?_⟩
      · intro i hi
        have := e4 i (f4 i hi)
        by_cases hix : i = j
        · subst hix; exact hl
        · simpa [r1, upd, hix] using this
      · intro i hi
        rcases List.mem_cons.1 hi with rfl | hi
        · cases h3 : r3.live i with
          | false => rfl
          | true =>
            have := e4 i (f4 i h3)
            simp [r1, upd] at this
        · exact f5 i hi
    · rw [if_neg hl]
      obtain ⟨r3, f1, f2, f3, f4, f5⟩ := ih r (fun i hi => hj i (by simp [hi])) hr hperm
      refine ⟨r3, f1, f2, f3, f4, ?_⟩
      intro i hi
      rcases List.mem_cons.1 hi with rfl | hi
      · cases h3 : r3.live i with
        | false => rfl
        | true => exact absurd (f4 i h3) hl
      · exact f5 i hi

/-! ## The table invariant -/

/-- The buckets that are not empty, as optional entries. -/
def usedv (t : Tbl κ δ) (i : Nat) : Option Unit := if (t.slot i).used then some () else none

/-- Keys pairwise different. -/
def Distinct (eq : κ → κ → Bool) (l : List (κ × δ)) : Prop := l.Pairwise fun a b => eq a.1 b.1 = false

structure Inv (H : κ → Nat) (eq : κ → κ → Bool) (t : Tbl κ δ) : Prop where
  pow : t.n = 0 ∨ ∃ k, t.n = 2 ^ k ∧ 4 ≤ t.n ∧ t.n ≤ 2 ^ 31
  upper : t.upper = upperBound t.n
  occ : t.occ = (entries (usedv t) t.n).length
  le : t.occ ≤ t.upper
  size : t.size = t.entries.length
  placed : ∀ i, i < t.n → ∀ k v, t.slot i = .full k v → Reach (fun i => (t.slot i).used) t.n (H k) i
  distinct : Distinct eq t.entries

theorem Distinct.perm {eq : κ → κ → Bool} {H : κ → Nat} (he : HashOK H eq) {a b : List (κ × δ)} (h : Distinct eq a) (hp : a.Perm b) :
    Distinct eq b := by
  refine (hp.pairwise_iff ?_).1 h
  intro x y hxy
  cases hyx : eq y.1 x.1 with
  | false => rfl
  | true => rw [he.symm _ _ hyx] at hxy; cases hxy

theorem upper_lt {n : Nat} (h : 4 ≤ n) : upperBound n < n := by unfold upperBound; omega

theorem Inv.size_le_occ {H : κ → Nat} {eq : κ → κ → Bool} {t : Tbl κ δ} (h : Inv H eq t) : t.size ≤ t.occ := by
  rw [h.size, h.occ]
  apply entries_le
  intro i _ hs
  cases hsl : t.slot i with
  | empty => simp [hsl, Slot.kv] at hs
  | del => simp [hsl, Slot.kv] at hs
  | full k v => simp [usedv, hsl, Slot.used]

theorem target_spec {c : Nat} (h1 : 1 ≤ c) (h2 : c ≤ 2 ^ 31) :
    ∃ k, target c = 2 ^ k ∧ 4 ≤ target c ∧ target c ≤ 2 ^ 31 ∧ c ≤ target c ∧
      (∀ k', 2 ≤ k' → c ≤ 2 ^ k' → 2 ^ k' < 2 * c → target c = 2 ^ k') := by
  obtain ⟨e, e1, e2, e3⟩ := Arith.C55_nextPow2 5 c h1 (by rw [show (2 : Nat) ^ 2 ^ 5 = 2 * 2 ^ 31 by decide]; omega)
  unfold target
  rw [e1]
  have he31 : e ≤ 31 := e3 31 h2
  by_cases hlt : 2 ^ e < 4
  · rw [if_pos hlt]
    refine ⟨5, rfl, by omega, by decide, by omega, ?_⟩
    intro k' hk h3 h4
    have : (2 : Nat) ^ 2 ≤ 2 ^ k' := Nat.pow_le_pow_right (by decide) hk
    have : e ≤ k' := e3 k' h3
    have hk2 : 2 ^ k' < 2 ^ (e + 1) := by rw [Nat.pow_succ]; omega
    have := (Nat.pow_lt_pow_iff_right (by decide : 1 < 2)).1 hk2
    have hke : k' = e := by omega
    subst hke
    omega
  · rw [if_neg hlt]
    refine ⟨e, rfl, by omega, Nat.pow_le_pow_right (by decide) he31, e2, ?_⟩
    intro k' hk h3 h4
    have : e ≤ k' := e3 k' h3
    have hk2 : 2 ^ k' < 2 ^ (e + 1) := by rw [Nat.pow_succ]; omega
    have := (Nat.pow_lt_pow_iff_right (by decide : 1 < 2)).1 hk2
    have hke : k' = e := by omega
    rw [hke]

theorem slotOf_kv {r : R κ δ} {H : κ → Nat} {n m : Nat} (hr : RInv H n m r) (i : Nat) :
    (slotOf (r.used i) (r.keys i)).kv = r.newv i ∧ (slotOf (r.used i) (r.keys i)).used = r.used i := by
  cases hu : r.used i with
  | false => simp [slotOf, R.newv, hu, Slot.kv, Slot.used]
  | true =>
    obtain ⟨kv, e, _⟩ := hr.new i hu
    simp [slotOf, R.newv, hu, e, Slot.kv, Slot.used]

theorem resize_spec {H : κ → Nat} {eq : κ → κ → Bool} (he : HashOK H eq) {t : Tbl κ δ} (h : Inv H eq t) {c : Nat}
    (h1 : 1 ≤ c) (h2 : c ≤ 2 ^ 31) (hsz : t.size < upperBound (target c)) :
    ∃ t', resize H c t = some t' ∧ Inv H eq t' ∧ t'.entries.Perm t.entries ∧ t'.n = target c ∧ t'.size = t.size ∧
      t'.occ = t.size := by
  obtain ⟨k, k1, k2, k3, k4, _⟩ := target_spec h1 h2
  have hul := upper_lt k2
  unfold resize
  rw [if_neg (by omega)]
  let r0 : R κ δ := ⟨fun i => (t.slot i).kv, fun i => (t.slot i).kv.isSome, fun _ => false⟩
  have hold0 : entries r0.oldv t.n = t.entries := by
    apply entries_congr
    intro i hi
    simp only [R.oldv, r0]
    cases (t.slot i).kv <;> simp
  have hnew0 : entries r0.newv (target c) = [] := entries_none (fun i _ => by simp [R.newv, r0])
  obtain ⟨r, e1, e2, e3, e4, e5⟩ := rehash_spec (H := H) (n := t.n) k1 (E := t.entries) (by rw [← h.size]; omega)
    (List.range t.n) r0 (fun j hj => List.mem_range.1 hj)
    ⟨fun i _ _ => rfl, fun i _ hl => hl, by simp [r0], by simp [r0]⟩
    (by rw [hold0, hnew0]; simp)
  have hold : entries r.oldv t.n = [] := entries_none (fun i hi => by
    simp [R.oldv, e5 i (List.mem_range.2 hi)])
  rw [hold, List.nil_append] at e3
  refine ⟨_, by rw [e1]; rfl, ?_⟩
  have hent : (Tbl.entries ⟨target c, t.size, t.size, upperBound (target c), fun i => slotOf (r.used i) (r.keys i)⟩) =
      entries r.newv (target c) := by
    apply entries_congr
    intro i _
    exact (slotOf_kv e2 i).1
  refine ⟨⟨Or.inr ⟨k, k1, k2, k3⟩, rfl, ?_, by simp only; omega, ?_, ?_, ?_⟩, ?_, rfl, rfl, rfl⟩
  · simp only
    rw [h.size, ← e3.length_eq]
    apply Nat.le_antisymm
    · apply entries_le
      intro i _ hs
      simp only [usedv, (slotOf_kv e2 i).2]
      cases hu : r.used i with
      | false => simp [R.newv, hu] at hs
      | true => simp
    · apply entries_le
      intro i _ hs
      simp only [usedv, (slotOf_kv e2 i).2] at hs
      cases hu : r.used i with
      | false => simp [hu] at hs
      | true =>
        obtain ⟨kv, e, _⟩ := e2.new i hu
        simp [R.newv, hu, e]
  · rw [hent, e3.length_eq]; exact h.size
  · intro i hi k v hs
    simp only at hs ⊢
    have hkv := (slotOf_kv e2 i).1
    rw [hs] at hkv
    simp only [Slot.kv, R.newv] at hkv
    split at hkv
    · next hu =>
      obtain ⟨kv, e6, e7⟩ := e2.new i hu
      rw [e6] at hkv
      simp only [Option.some.injEq] at hkv
      subst hkv
      have hfun : (fun i => (slotOf (r.used i) (r.keys i)).used) = r.used := funext fun i => (slotOf_kv e2 i).2
      rw [hfun]
      exact e7
    · cases hkv
  · rw [hent]; exact h.distinct.perm he e3.symm
  · rw [hent]; exact e3

/-! ## Lookup -/

theorem Inv.has_empty {H : κ → Nat} {eq : κ → κ → Bool} {t : Tbl κ δ} (h : Inv H eq t) (hn : t.n ≠ 0) :
    ∃ i, i < t.n ∧ (t.slot i).used = false := by
  rcases h.pow with h0 | ⟨k, _, h4, _⟩
  · exact absurd h0 hn
  · have hlt : (entries (usedv t) t.n).length < t.n := by
      rw [← h.occ]
      have := h.le
      rw [h.upper] at this
      have := upper_lt h4
      omega
    obtain ⟨i, h1, h2⟩ := entries_full hlt
    refine ⟨i, h1, ?_⟩
    unfold usedv at h2
    split at h2
    · cases h2
    · simpa using (by assumption : ¬ (t.slot i).used = true)

/-- Where a search for `k` stops. -/
def Stop (eq : κ → κ → Bool) (k : κ) (t : Tbl κ δ) (i : Nat) : Prop := (t.slot i).used = false ∨ (t.slot i).holds eq k = true

instance (eq : κ → κ → Bool) (k : κ) (t : Tbl κ δ) (i : Nat) : Decidable (Stop eq k t i) := by unfold Stop; infer_instance

/-- The step at which a search stops, and what is found there. -/
theorem search {H : κ → Nat} {eq : κ → κ → Bool} (he : HashOK H eq) {t : Tbl κ δ} (h : Inv H eq t) (hn : t.n ≠ 0) (k : κ) :
    ∃ s0, s0 < t.n ∧ Stop eq k t (pos t.n (H k) s0) ∧ (∀ s, s < s0 → ¬ Stop eq k t (pos t.n (H k) s)) ∧
      ((t.slot (pos t.n (H k) s0)).used = false → ∀ i, i < t.n → (t.slot i).holds eq k = false) := by
  obtain ⟨i, h1, h2⟩ := h.has_empty hn
  obtain ⟨kk, hpow⟩ : ∃ kk, t.n = 2 ^ kk := by
    rcases h.pow with h0 | ⟨kk, h1, _⟩
    · exact absurd h0 hn
    · exact ⟨kk, h1⟩
  obtain ⟨s, hs, rfl⟩ := pos_surj (H k) hpow h1
  obtain ⟨s0, g1, g2, g3⟩ := least (fun s => Stop eq k t (pos t.n (H k) s)) (Or.inl h2)
  refine ⟨s0, by omega, g2, g3, ?_⟩
  intro hem i hi
  cases hho : (t.slot i).holds eq k with
  | false => rfl
  | true =>
    exfalso
    cases hsl : t.slot i with
    | empty => simp [hsl, Slot.holds] at hho
    | del => simp [hsl, Slot.holds] at hho
    | full k' v =>
      have hk : eq k' k = true := by simpa [hsl, Slot.holds] using hho
      obtain ⟨s', r1, r2⟩ := h.placed i hi k' v hsl
      rw [he.hash _ _ hk] at r1 r2
      rcases Nat.lt_or_ge s' s0 with hlt | hge
      · exact g3 s' hlt (Or.inr (by rw [r1]; exact hho))
      · rcases Nat.lt_or_eq_of_le hge with hlt | heq
        · have := r2 s0 hlt
          simp only [hem] at this
          cases this
        · subst heq
          rw [r1, hsl] at hem
          simp [Slot.used] at hem

theorem Slot.holds_iff {eq : κ → κ → Bool} {k : κ} {s : Slot κ δ} : s.holds eq k = true ↔ ∃ k' v, s = .full k' v ∧ eq k' k = true := by
  cases s <;> simp [Slot.holds]

theorem getLoop_eq {H : κ → Nat} {eq : κ → κ → Bool} {t : Tbl κ δ} {kk : Nat} (hpow : t.n = 2 ^ kk) (k : κ) {s0 : Nat} (hs0 : s0 < t.n)
    (hstop : Stop eq k t (pos t.n (H k) s0)) (hgo : ∀ s, s < s0 → ¬ Stop eq k t (pos t.n (H k) s)) :
    ∀ (f s : Nat), s ≤ s0 → s0 < s + f →
      getLoop eq k t (H k % t.n) f (pos t.n (H k) s) s =
        some (if (t.slot (pos t.n (H k) s0)).kv.isSome then pos t.n (H k) s0 else t.n) := by
  intro f
  induction f with
  | zero => intro s h1 h2; omega
  | succ f ih =>
    intro s h1 h2
    unfold getLoop
    by_cases hs : s = s0
    · subst hs; unfold Stop at hstop; rw [if_pos hstop]
    · have hns := hgo s (by omega)
      unfold Stop at hns
      rw [if_neg hns, pos_succ, if_neg]
      · exact ih (s + 1) (by omega) (by omega)
      · rw [← pos_zero]
        intro heq
        have := pos_inj hpow (by omega) (by omega) heq
        omega

theorem iter_spec {H : κ → Nat} {eq : κ → κ → Bool} (he : HashOK H eq) {t : Tbl κ δ} (h : Inv H eq t) (k : κ) :
    ∃ i, iter H eq k t = some i ∧
      ((∃ k' v, i < t.n ∧ t.slot i = .full k' v ∧ eq k' k = true) ∨ (i = t.n ∧ ∀ j, j < t.n → (t.slot j).holds eq k = false)) := by
  unfold iter
  by_cases hn : t.n = 0
  · rw [if_pos hn]
    exact ⟨0, rfl, Or.inr ⟨hn.symm, fun j hj => by omega⟩⟩
  · rw [if_neg hn]
    obtain ⟨kk, hpow⟩ : ∃ kk, t.n = 2 ^ kk := by
      rcases h.pow with h0 | ⟨kk, h1, _⟩
      · exact absurd h0 hn
      · exact ⟨kk, h1⟩
    obtain ⟨s0, g1, g2, g3, g4⟩ := search he h hn k
    have := getLoop_eq (H := H) hpow k g1 g2 g3 t.n 0 (by omega) (by omega)
    rw [pos_zero] at this
    rw [this]
    refine ⟨_, rfl, ?_⟩
    have hlt := pos_lt (Nat.pos_of_ne_zero hn) (H k) s0
    rcases g2 with g2 | g2
    · right
      have : (t.slot (pos t.n (H k) s0)).kv = none := by
        cases hsl : t.slot (pos t.n (H k) s0) with
        | empty => rfl
        | del => rfl
        | full k' v => simp [hsl, Slot.used] at g2
      rw [this]
      exact ⟨rfl, g4 g2⟩
    · left
      obtain ⟨k', v, e1, e2⟩ := Slot.holds_iff.1 g2
      refine ⟨k', v, ?_⟩
      rw [e1]
      simp only [Slot.kv, Option.isSome_some, if_true]
      exact ⟨hlt, e1, e2⟩

/-- Lookup in terms of the entries. -/
theorem iter_entries {H : κ → Nat} {eq : κ → κ → Bool} (he : HashOK H eq) {t : Tbl κ δ} (h : Inv H eq t) (k : κ) :
    ∃ i, iter H eq k t = some i ∧
      ((∃ k' v, i < t.n ∧ t.slot i = .full k' v ∧ eq k' k = true ∧ (k', v) ∈ t.entries) ∨
        (i = t.n ∧ ∀ e ∈ t.entries, eq e.1 k = false)) := by
  obtain ⟨i, h1, h2⟩ := iter_spec he h k
  refine ⟨i, h1, ?_⟩
  rcases h2 with ⟨k', v, a, b, c⟩ | ⟨a, b⟩
  · exact Or.inl ⟨k', v, a, b, c, mem_entries.2 ⟨i, a, by simp [b, Slot.kv]⟩⟩
  · refine Or.inr ⟨a, ?_⟩
    intro e hm
    obtain ⟨j, hj, hjs⟩ := mem_entries.1 hm
    cases hsl : t.slot j with
    | empty => simp [hsl, Slot.kv] at hjs
    | del => simp [hsl, Slot.kv] at hjs
    | full k' v =>
      simp only [hsl, Slot.kv, Option.some.injEq] at hjs
      subst hjs
      have := b j hj
      simpa [hsl, Slot.holds] using this

/-! ## Insertion -/

theorem putLoop_eq {H : κ → Nat} {eq : κ → κ → Bool} {t : Tbl κ δ} {kk : Nat} (hpow : t.n = 2 ^ kk) (k : κ) {s0 : Nat} (hs0 : s0 < t.n)
    (hstop : Stop eq k t (pos t.n (H k) s0)) (hgo : ∀ s, s < s0 → ¬ Stop eq k t (pos t.n (H k) s)) :
    ∀ (f s site : Nat), s ≤ s0 → s0 < s + f →
      (site ≠ t.n → ∃ s', s' < s ∧ site = pos t.n (H k) s' ∧ t.slot site = .del) →
      ∃ site', putLoop eq k t (H k % t.n) f (pos t.n (H k) s) s site =
        some (if (t.slot (pos t.n (H k) s0)).used = false ∧ site' ≠ t.n then site' else pos t.n (H k) s0) ∧
        (site' ≠ t.n → ∃ s', s' < s0 ∧ site' = pos t.n (H k) s' ∧ t.slot site' = .del) := by
  intro f
  induction f with
  | zero => intro s _ h1 h2; omega
  | succ f ih =>
    intro s site h1 h2 hsite
    unfold putLoop
    by_cases hs : s = s0
    · subst hs
      unfold Stop at hstop
      rw [if_pos hstop]
      exact ⟨site, rfl, hsite⟩
    · have hns := hgo s (by omega)
      unfold Stop at hns
      rw [if_neg hns, pos_succ, if_neg]
      · refine ih (s + 1) _ (by omega) (by omega) ?_
        intro hne
        split
        · next hnone =>
          refine ⟨s, by omega, rfl, ?_⟩
          cases hsl : t.slot (pos t.n (H k) s) with
          | empty => exact absurd (Or.inl (by simp [hsl, Slot.used])) hns
          | del => rfl
          | full k' v => simp [hsl, Slot.kv] at hnone
        · next hnone =>
          rw [if_neg hnone] at hne
          obtain ⟨s', a, b, c⟩ := hsite hne
          exact ⟨s', by omega, b, c⟩
      · rw [← pos_zero]
        intro heq
        have := pos_inj hpow (by omega) (by omega) heq
        omega

theorem putLoop_spec {H : κ → Nat} {eq : κ → κ → Bool} (he : HashOK H eq) {t : Tbl κ δ} (h : Inv H eq t) (hn : t.n ≠ 0) (k : κ) :
    ∃ x, putLoop eq k t (H k % t.n) t.n (H k % t.n) 0 t.n = some x ∧ x < t.n ∧
      ((∃ k' v, t.slot x = .full k' v ∧ eq k' k = true) ∨
        ((t.slot x).kv = none ∧ (∀ j, j < t.n → (t.slot j).holds eq k = false) ∧
          Reach (fun i => (t.slot i).used) t.n (H k) x)) := by
  obtain ⟨kk, hpow⟩ : ∃ kk, t.n = 2 ^ kk := by
    rcases h.pow with h0 | ⟨kk, h1, _⟩
    · exact absurd h0 hn
    · exact ⟨kk, h1⟩
  obtain ⟨s0, g1, g2, g3, g4⟩ := search he h hn k
  obtain ⟨site, e1, e2⟩ := putLoop_eq (H := H) hpow k g1 g2 g3 t.n 0 t.n (by omega) (by omega) (fun hh => absurd rfl hh)
  rw [pos_zero] at e1
  rw [e1]
  refine ⟨_, rfl, ?_⟩
  have hlt := fun s => pos_lt (Nat.pos_of_ne_zero hn) (H k) s
  have hused : ∀ s, s < s0 → (t.slot (pos t.n (H k) s)).used = true := by
    intro s hs
    have := g3 s hs
    unfold Stop at this
    simp only [not_or] at this
    simpa using this.1
  by_cases hem : (t.slot (pos t.n (H k) s0)).used = false
  · by_cases hsi : site ≠ t.n
    · rw [if_pos ⟨hem, hsi⟩]
      obtain ⟨s', a, b, c⟩ := e2 hsi
      refine ⟨by rw [b]; exact hlt s', Or.inr ⟨by rw [c]; rfl, g4 hem, s', b.symm, fun s'' hs => hused s'' (by omega)⟩⟩
    · rw [if_neg (fun hh => hsi hh.2)]
      refine ⟨hlt s0, Or.inr ⟨?_, g4 hem, s0, rfl, hused⟩⟩
      cases hsl : t.slot (pos t.n (H k) s0) with
      | empty => rfl
      | del => rfl
      | full k' v => simp [hsl, Slot.used] at hem
  · rw [if_neg (fun hh => hem hh.1)]
    rcases g2 with g2 | g2
    · exact absurd g2 hem
    · exact ⟨hlt s0, Or.inl (Slot.holds_iff.1 g2)⟩

/-- Making room for one more entry. -/
theorem room_spec {H : κ → Nat} {eq : κ → κ → Bool} (he : HashOK H eq) {t : Tbl κ δ} (h : Inv H eq t) (hsz : t.size < 2 ^ 29) :
    ∃ t', room H t = some t' ∧ Inv H eq t' ∧ t'.entries.Perm t.entries ∧ t'.n ≠ 0 ∧ t'.size = t.size ∧ t'.occ < t'.upper := by
  have hso := h.size_le_occ
  unfold room
  by_cases hocc : t.occ ≥ t.upper
  · rw [if_pos hocc]
    rcases h.pow with h0 | ⟨k, k1, k2, k3⟩
    · rw [if_neg (by omega)]
      have hs0 : t.size = 0 := by
        rw [h.size, Tbl.entries, h0]; rfl
      have ht : target (t.n + 1) = 32 := by rw [h0]; decide
      obtain ⟨t', e1, e2, e3, e4, e5, e6⟩ := resize_spec he h (c := t.n + 1) (by omega) (by omega) (by rw [ht, hs0]; decide)
      refine ⟨t', e1, e2, e3, by omega, e5, ?_⟩
      rw [e6, e2.upper, e4, ht, hs0]; decide
    · by_cases hbig : t.n > t.size * 2
      · rw [if_pos hbig]
        obtain ⟨_, _, _, _, _, hu⟩ := target_spec (c := t.n - 1) (by omega) (by omega)
        have hk2 : 2 ≤ k := by
          rw [k1] at k2
          have : (2 : Nat) ^ 2 ≤ 2 ^ k := k2
          exact (Nat.pow_le_pow_iff_right (by decide)).1 this
        have ht : target (t.n - 1) = t.n := by
          rw [hu k hk2 (by omega) (by omega), k1]
        have hlt : t.size < upperBound t.n := by unfold upperBound; omega
        obtain ⟨t', e1, e2, e3, e4, e5, e6⟩ := resize_spec he h (c := t.n - 1) (by omega) (by omega) (by rw [ht]; exact hlt)
        refine ⟨t', e1, e2, e3, by omega, e5, ?_⟩
        rw [e6, e2.upper, e4, ht]; exact hlt
      · rw [if_neg hbig]
        have hn30 : t.n ≤ 2 ^ 30 := by omega
        obtain ⟨_, _, _, _, _, hu⟩ := target_spec (c := t.n + 1) (by omega) (by omega)
        have hk2 : 2 ≤ k := by
          rw [k1] at k2
          have : (2 : Nat) ^ 2 ≤ 2 ^ k := k2
          exact (Nat.pow_le_pow_iff_right (by decide)).1 this
        have ht : target (t.n + 1) = 2 * t.n := by
          have := hu (k + 1) (by omega) (by rw [Nat.pow_succ]; omega) (by rw [Nat.pow_succ]; omega)
          rw [this, Nat.pow_succ, k1, Nat.mul_comm]
        have hsn : t.size ≤ upperBound t.n := by
          have := h.le; rw [h.upper] at this; omega
        have hlt : t.size < upperBound (2 * t.n) := by unfold upperBound at hsn ⊢; omega
        obtain ⟨t', e1, e2, e3, e4, e5, e6⟩ := resize_spec he h (c := t.n + 1) (by omega) (by omega) (by rw [ht]; exact hlt)
        refine ⟨t', e1, e2, e3, by omega, e5, ?_⟩
        rw [e6, e2.upper, e4, ht]; exact hlt
  · rw [if_neg hocc]
    refine ⟨t, rfl, h, List.Perm.refl _, ?_, rfl, by omega⟩
    intro h0
    have := h.upper
    rw [h0] at this
    have : t.upper = 0 := this
    omega

/-- Storing an entry in a bucket that is not in use. -/
theorem store_new {H : κ → Nat} {eq : κ → κ → Bool} (he : HashOK H eq) {t : Tbl κ δ} (h : Inv H eq t) {x : Nat} (hx : x < t.n)
    (hkv : (t.slot x).kv = none) {k : κ} (v : δ) (hr : Reach (fun i => (t.slot i).used) t.n (H k) x)
    (hno : ∀ j, j < t.n → (t.slot j).holds eq k = false) (hlt : t.occ < t.upper) :
    Inv H eq (fill k v t x) ∧ (fill k v t x).entries.Perm ((k, v) :: t.entries) ∧ (fill k v t x).n = t.n ∧
      (fill k v t x).slot x = .full k v := by
  have hkvs : ∀ t' : Tbl κ δ, t'.n = t.n → t'.slot = upd t.slot x (.full k v) → t'.entries.Perm ((k, v) :: t.entries) := by
    intro t' hn hs
    have : t'.entries = entries (upd (fun i => (t.slot i).kv) x (some (k, v))) t.n := by
      unfold Tbl.entries
      rw [hn, hs]
      apply entries_congr
      intro i _
      by_cases hix : i = x
      · subst hix; simp [upd, Slot.kv]
      · simp [upd, hix]
    rw [this]
    exact entries_add hx hkv (k, v)
  have husedm : ∀ j, (t.slot j).used = true → ((upd t.slot x (.full k v)) j).used = true := by
    intro j hj
    by_cases hjx : j = x
    · subst hjx; simp [upd, Slot.used]
    · rw [upd_other _ _ hjx]; exact hj
  have hplaced : ∀ i, i < t.n → ∀ k' v', (upd t.slot x (.full k v)) i = .full k' v' →
      Reach (fun i => ((upd t.slot x (.full k v)) i).used) t.n (H k') i := by
    intro i hi k' v' hs
    by_cases hix : i = x
    · subst hix
      rw [upd_same] at hs
      cases hs
      exact hr.mono husedm
    · rw [upd_other _ _ hix] at hs
      exact (h.placed i hi k' v' hs).mono husedm
  have hdist : ∀ t' : Tbl κ δ, t'.entries.Perm ((k, v) :: t.entries) → Distinct eq t'.entries := by
    intro t' hp
    have hd : Distinct eq ((k, v) :: t.entries) := by
      unfold Distinct
      rw [List.pairwise_cons]
      refine ⟨?_, h.distinct⟩
      intro e hm
      obtain ⟨j, hj, hjs⟩ := mem_entries.1 hm
      cases hsl : t.slot j with
      | empty => simp [hsl, Slot.kv] at hjs
      | del => simp [hsl, Slot.kv] at hjs
      | full k' v' =>
        simp only [hsl, Slot.kv, Option.some.injEq] at hjs
        subst hjs
        have := hno j hj
        simp only [hsl, Slot.holds] at this
        cases h2 : eq k k' with
        | false => rfl
        | true => rw [he.symm _ _ h2] at this; cases this
    exact hd.perm he hp.symm
  cases hsl : t.slot x with
  | full k' v' => simp [hsl, Slot.kv] at hkv
  | empty =>
    have hf : fill k v t x = ⟨t.n, t.size + 1, t.occ + 1, t.upper, upd t.slot x (.full k v)⟩ := by simp [fill, hsl]
    rw [hf]
    have hp := hkvs ⟨t.n, t.size + 1, t.occ + 1, t.upper, upd t.slot x (.full k v)⟩ rfl rfl
    refine ⟨⟨h.pow, h.upper, ?_, by simp only; omega, ?_, hplaced, hdist _ hp⟩, hp, rfl, upd_same _ _ _⟩
    · have : entries (usedv ⟨t.n, t.size + 1, t.occ + 1, t.upper, upd t.slot x (.full k v)⟩) t.n =
          entries (upd (usedv t) x (some ())) t.n := by
        apply entries_congr
        intro i _
        by_cases hix : i = x
        · subst hix; simp [upd, usedv, Slot.used]
        · simp [upd, usedv, hix]
      simp only
      rw [this, (entries_add hx (by simp [usedv, hsl, Slot.used]) ()).length_eq, h.occ]
      rfl
    · rw [hp.length_eq, List.length_cons, ← h.size]
  | del =>
    have hf : fill k v t x = ⟨t.n, t.size + 1, t.occ, t.upper, upd t.slot x (.full k v)⟩ := by simp [fill, hsl]
    rw [hf]
    have hp := hkvs ⟨t.n, t.size + 1, t.occ, t.upper, upd t.slot x (.full k v)⟩ rfl rfl
    refine ⟨⟨h.pow, h.upper, ?_, h.le, ?_, hplaced, hdist _ hp⟩, hp, rfl, upd_same _ _ _⟩
    · have : entries (usedv ⟨t.n, t.size + 1, t.occ, t.upper, upd t.slot x (.full k v)⟩) t.n = entries (usedv t) t.n := by
        apply entries_congr
        intro i _
        by_cases hix : i = x
        · subst hix; simp [upd, usedv, Slot.used, hsl]
        · simp [upd, usedv, hix]
      simp only
      rw [this]; exact h.occ
    · rw [hp.length_eq, List.length_cons, ← h.size]

/-- Replacing the value in a bucket in use. -/
theorem store_value {H : κ → Nat} {eq : κ → κ → Bool} {t : Tbl κ δ} (h : Inv H eq t) {x : Nat} (hx : x < t.n)
    {k : κ} {w : δ} (hsl : t.slot x = .full k w) (v : δ) :
    Inv H eq { t with slot := upd t.slot x (.full k v) } ∧
      ∃ A B, t.entries = A ++ (k, w) :: B ∧ (Tbl.entries { t with slot := upd t.slot x (.full k v) }) = A ++ (k, v) :: B := by
  have hent : Tbl.entries { t with slot := upd t.slot x (.full k v) } = entries (upd (fun i => (t.slot i).kv) x (some (k, v))) t.n := by
    unfold Tbl.entries
    apply entries_congr
    intro i _
    by_cases hix : i = x
    · subst hix; simp [upd, Slot.kv]
    · simp [upd, hix]
  obtain ⟨A, B, h1, h2⟩ := entries_split (fun i => (t.slot i).kv) hx
  have e1 : t.entries = A ++ (k, w) :: B := by
    unfold Tbl.entries; rw [h1, hsl]; simp [Slot.kv]
  have e2 : Tbl.entries { t with slot := upd t.slot x (.full k v) } = A ++ (k, v) :: B := by
    rw [hent, h2]; simp
  have hused : ∀ j, ((upd t.slot x (.full k v)) j).used = (t.slot j).used := by
    intro j
    by_cases hjx : j = x
    · subst hjx; simp [upd, hsl, Slot.used]
    · rw [upd_other _ _ hjx]
  refine ⟨⟨h.pow, h.upper, ?_, h.le, ?_, ?_, ?_⟩, A, B, e1, e2⟩
  · simp only
    rw [h.occ]
    congr 1
    apply entries_congr
    intro i _
    simp only [usedv, hused]
  · rw [e2]
    simp only
    rw [h.size, e1]; simp
  · intro i hi k' v' hs
    simp only at hs ⊢
    have hfun : (fun i => ((upd t.slot x (.full k v)) i).used) = fun i => (t.slot i).used := funext hused
    rw [hfun]
    by_cases hix : i = x
    · subst hix
      rw [upd_same] at hs
      cases hs
      exact h.placed i hi k w hsl
    · rw [upd_other _ _ hix] at hs
      exact h.placed i hi k' v' hs
  · have hd := h.distinct
    rw [e1] at hd
    rw [e2]
    unfold Distinct at hd ⊢
    rw [List.pairwise_append, List.pairwise_cons] at hd ⊢
    obtain ⟨d1, ⟨d2, d3⟩, d4⟩ := hd
    refine ⟨d1, ⟨d2, d3⟩, ?_⟩
    intro a ha b hb
    rcases List.mem_cons.1 hb with rfl | hb
    · exact d4 a ha (k, w) (by simp)
    · exact d4 a ha b (by simp [hb])

/-- Deleting the entry in a bucket in use. -/
theorem delete_spec {H : κ → Nat} {eq : κ → κ → Bool} (he : HashOK H eq) {t : Tbl κ δ} (h : Inv H eq t) {x : Nat} (hx : x < t.n)
    {k : κ} {w : δ} (hsl : t.slot x = .full k w) :
    Inv H eq (delete x t) ∧ t.entries.Perm ((k, w) :: (delete x t).entries) := by
  have hdel : delete x t = ⟨t.n, t.size - 1, t.occ, t.upper, upd t.slot x .del⟩ := by
    unfold delete
    rw [if_pos ⟨by omega, by simp [hsl, Slot.kv]⟩]
  rw [hdel]
  have hent : Tbl.entries ⟨t.n, t.size - 1, t.occ, t.upper, upd t.slot x .del⟩ = entries (upd (fun i => (t.slot i).kv) x none) t.n := by
    unfold Tbl.entries
    apply entries_congr
    intro i _
    by_cases hix : i = x
    · subst hix; simp [upd, Slot.kv]
    · simp [upd, hix]
  have hp : t.entries.Perm ((k, w) :: Tbl.entries ⟨t.n, t.size - 1, t.occ, t.upper, upd t.slot x .del⟩) := by
    rw [hent]
    exact entries_del (f := fun i => (t.slot i).kv) hx (show (t.slot x).kv = some (k, w) by rw [hsl]; rfl)
  have hused : ∀ j, ((upd t.slot x .del) j).used = (t.slot j).used := by
    intro j
    by_cases hjx : j = x
    · subst hjx; simp [upd, hsl, Slot.used]
    · rw [upd_other _ _ hjx]
  refine ⟨⟨h.pow, h.upper, ?_, h.le, ?_, ?_, ?_⟩, hp⟩
  · simp only
    rw [h.occ]
    congr 1
    apply entries_congr
    intro i _
    simp only [usedv, hused]
  · have := hp.length_eq
    simp only [List.length_cons] at this
    have := h.size
    simp only
    omega
  · intro i hi k' v' hs
    simp only at hs ⊢
    have hfun : (fun i => ((upd t.slot x .del) i).used) = fun i => (t.slot i).used := funext hused
    rw [hfun]
    by_cases hix : i = x
    · subst hix
      rw [upd_same] at hs
      cases hs
    · rw [upd_other _ _ hix] at hs
      exact h.placed i hi k' v' hs
  · have hd := h.distinct.perm he hp
    unfold Distinct at hd ⊢
    rw [List.pairwise_cons] at hd
    exact hd.2

end Verif.Hash
