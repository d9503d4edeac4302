import Verif.DSet.Spec
import Verif.DSet.Model

namespace Verif.DSet

/-- `RootN arr k i r`: following parents from `i` reaches the root `r` in `k` steps. -/
inductive RootN (arr : List Int) : Nat → Nat → Nat → Prop
  | root {i : Nat} {v : Int} : arr[i]? = some v → v < 0 → RootN arr 0 i i
  | step {i k r : Nat} {v : Int} : arr[i]? = some v → 0 ≤ v → RootN arr k v.toNat r → RootN arr (k + 1) i r

theorem RootN.det {arr : List Int} {k i r : Nat} (h : RootN arr k i r) : ∀ {k' r'}, RootN arr k' i r' → k' = k ∧ r' = r := by
  induction h with
  | root h1 h2 =>
    intro k' r' h'
    cases h' with
    | root => exact ⟨rfl, rfl⟩
    | step g1 g2 _ => rw [h1] at g1; injection g1; omega
  | step h1 h2 _ ih =>
    intro k' r' h'
    cases h' with
    | root g1 g2 => rw [h1] at g1; injection g1; omega
    | step g1 g2 g3 =>
      rw [h1] at g1; injection g1 with g1; subst g1
      have := ih g3
      omega

theorem RootN.lt {arr : List Int} {k i r : Nat} (h : RootN arr k i r) : i < arr.length := by
  cases h with
  | root h1 _ => exact (List.getElem?_eq_some_iff.1 h1).1
  | step h1 _ _ => exact (List.getElem?_eq_some_iff.1 h1).1

theorem RootN.is_root {arr : List Int} {k i r : Nat} (h : RootN arr k i r) : ∃ v, arr[r]? = some v ∧ v < 0 := by
  induction h with
  | root h1 h2 => exact ⟨_, h1, h2⟩
  | step _ _ _ ih => exact ih

theorem RootN.zero_of_self {arr : List Int} {k r : Nat} (h : RootN arr k r r) : k = 0 := by
  obtain ⟨v, h1, h2⟩ := h.is_root
  exact (RootN.det (.root h1 h2) h).1

/-- The nodes on a path are different, so the path is shorter than the array. -/
theorem RootN.path {arr : List Int} {k i r : Nat} (h : RootN arr k i r) :
    ∃ l : List Nat, l.length = k + 1 ∧ l.Nodup ∧ ∀ x ∈ l, x < arr.length ∧ ∃ j, j ≤ k ∧ RootN arr j x r := by
  induction h with
  | @root i v h1 h2 =>
    refine ⟨[i], rfl, by simp, ?_⟩
    intro x hx
    simp at hx; subst hx
    exact ⟨(List.getElem?_eq_some_iff.1 h1).1, 0, by omega, .root h1 h2⟩
  | @step i k r v h1 h2 h3 ih =>
    obtain ⟨l, hl1, hl2, hl3⟩ := ih
    refine ⟨i :: l, by simp [hl1], ?_, ?_⟩
    · rw [List.nodup_cons]
      refine ⟨fun hm => ?_, hl2⟩
      obtain ⟨_, j, hj, hr⟩ := hl3 i hm
      have := (RootN.det hr (.step h1 h2 h3)).1
      omega
    · intro x hx
      rcases List.mem_cons.1 hx with rfl | hx
      · exact ⟨(List.getElem?_eq_some_iff.1 h1).1, k + 1, by omega, .step h1 h2 h3⟩
      · obtain ⟨a, j, hj, hr⟩ := hl3 x hx
        exact ⟨a, j, by omega, hr⟩

theorem nodup_length_le : ∀ (n : Nat) (l : List Nat), l.Nodup → (∀ x ∈ l, x < n) → l.length ≤ n
  | 0, l, _, h => by
    cases l with
    | nil => simp
    | cons a l => exact absurd (h a (by simp)) (by omega)
  | n + 1, l, hn, h => by
    have h1 := nodup_length_le n (l.erase n) (hn.erase n) (by
      intro x hx
      have hx' := (hn.mem_erase_iff).1 hx
      have := h x hx'.2
      omega)
    by_cases hm : n ∈ l
    · rw [List.length_erase_of_mem hm] at h1; omega
    · rw [List.erase_of_not_mem hm] at h1; omega

theorem RootN.bound {arr : List Int} {k i r : Nat} (h : RootN arr k i r) : k < arr.length := by
  obtain ⟨l, h1, h2, h3⟩ := h.path
  have := nodup_length_le arr.length l h2 (fun x hx => (h3 x hx).1)
  omega

theorem findRoot_spec {arr : List Int} {k i r : Nat} (h : RootN arr k i r) : ∀ fuel, k < fuel → findRoot arr fuel i = some r := by
  induction h with
  | root h1 h2 =>
    intro fuel hf
    obtain ⟨f, rfl⟩ : ∃ f, fuel = f + 1 := ⟨fuel - 1, by omega⟩
    simp only [findRoot, h1, Option.bind_eq_bind, Option.bind_some]
    rw [if_neg (by omega)]
  | step h1 h2 _ ih =>
    intro fuel hf
    obtain ⟨f, rfl⟩ : ∃ f, fuel = f + 1 := ⟨fuel - 1, by omega⟩
    simp only [findRoot, h1, Option.bind_eq_bind, Option.bind_some]
    rw [if_pos (by omega)]
    exact ih f (by omega)

/-- Pointing a non-root at its own root keeps every root and never lengthens a path. -/
theorem RootN.compress_step {arr : List Int} {k0 x r : Nat} (hx : RootN arr k0 x r) (hne : x ≠ r)
    {k y q : Nat} (h : RootN arr k y q) : ∃ j, j ≤ k ∧ RootN (arr.set x (r : Int)) j y q := by
  have hxlt := hx.lt
  obtain ⟨vr, hr1, hr2⟩ := hx.is_root
  have hk0 : k0 ≠ 0 := by
    rintro rfl
    cases hx; exact hne rfl
  have hroot : RootN (arr.set x (r : Int)) 0 r r :=
    .root (by rw [List.getElem?_set_ne hne]; exact hr1) hr2
  have hxx : RootN (arr.set x (r : Int)) 1 x r := by
    refine .step (v := (r : Int)) (by rw [List.getElem?_set_self hxlt]) (by omega) ?_
    simpa using hroot
  induction h with
  | @root i v h1 h2 =>
    have : x ≠ i := by
      rintro rfl
      exact hk0 (RootN.det (.root h1 h2) hx).1
    exact ⟨0, by omega, .root (by rw [List.getElem?_set_ne this]; exact h1) h2⟩
  | @step i k q v h1 h2 h3 ih =>
    by_cases hxi : x = i
    · subst hxi
      have := (RootN.det hx (.step h1 h2 h3)).2
      subst this
      exact ⟨1, by omega, hxx⟩
    · obtain ⟨j, hj, hr⟩ := ih
      exact ⟨j + 1, by omega, .step (by rw [List.getElem?_set_ne hxi]; exact h1) h2 hr⟩

/-- The compression loop terminates, keeps every root, and touches no root entry. -/
theorem compress_spec (r : Nat) : ∀ (fuel : Nat) (arr : List Int) (x : Nat) (t : Int) (k : Nat),
    arr[x]? = some t → 0 ≤ t → RootN arr k t.toNat r → k < fuel →
    ∃ arr', compress r fuel arr x t = some arr' ∧ arr'.length = arr.length ∧
      (∀ k y q, RootN arr k y q → ∃ j, j ≤ k ∧ RootN arr' j y q) ∧
      (∀ (y : Nat) (v : Int), v < 0 → (arr[y]? = some v ↔ arr'[y]? = some v))
  | 0, _, _, _, _, _, _, _, hf => by omega
  | fuel + 1, arr, x, t, k, hx, ht, hroot, hf => by
    unfold compress
    by_cases htr : t = (r : Int)
    · rw [if_neg (by simpa using htr)]
      exact ⟨arr, rfl, rfl, fun k y q h => ⟨k, Nat.le_refl _, h⟩, fun _ _ _ => Iff.rfl⟩
    · rw [if_pos htr]
      have htr' : t.toNat ≠ r := by omega
      have hxr : RootN arr (k + 1) x r := .step hx ht hroot
      have hne : x ≠ r := by
        rintro rfl
        have := hxr.zero_of_self
        omega
      -- the next node is not a root
      cases hroot with
      | root => exact absurd rfl htr'
      | @step _ k' _ v h1 h2 h3 =>
        have hxt : x ≠ t.toNat := by
          intro e
          have h4 : RootN arr (k' + 1) x r := by rw [e]; exact .step h1 h2 h3
          have := (RootN.det hxr h4).1
          omega
        have h1' : (arr.set x (r : Int))[t.toNat]? = some v := by rw [List.getElem?_set_ne hxt]; exact h1
        obtain ⟨j, hj, hr'⟩ := RootN.compress_step hxr hne h3
        obtain ⟨arr', e1, e2, e3, e4⟩ := compress_spec r fuel (arr.set x (r : Int)) t.toNat v j h1' h2 hr' (by omega)
        simp only [if_neg (show ¬ t < 0 by omega), h1', Option.bind_eq_bind, Option.bind_some]
        refine ⟨arr', e1, by simpa using e2, ?_, ?_⟩
        · intro k y q h
          obtain ⟨j1, hj1, h5⟩ := RootN.compress_step hxr hne h
          obtain ⟨j2, hj2, h6⟩ := e3 _ _ _ h5
          exact ⟨j2, by omega, h6⟩
        · intro y w hw
          rw [← e4 y w hw]
          by_cases hy : x = y
          · subst hy
            rw [hx, List.getElem?_set_self hxr.lt]
            simp; omega
          · rw [List.getElem?_set_ne hy]

/-- Two arrays describe the same rooted partition: same roots everywhere, same root entries. -/
structure Same (a b : List Int) : Prop where
  len : b.length = a.length
  roots : ∀ k y q, RootN a k y q → ∃ j, j ≤ k ∧ RootN b j y q
  entries : ∀ (y : Nat) (v : Int), v < 0 → (a[y]? = some v ↔ b[y]? = some v)

theorem Same.rfl' {a : List Int} : Same a a := ⟨rfl, fun k _ _ h => ⟨k, Nat.le_refl _, h⟩, fun _ _ _ => Iff.rfl⟩

theorem find_spec (s : DSet) {k x r : Nat} (h : RootN s.arr k x r) :
    ∃ s', find s x = some (r, s') ∧ s'.numsets = s.numsets ∧ Same s.arr s'.arr := by
  have hb := h.bound
  unfold find
  simp only [findRoot_spec h (s.arr.length + 1) (by omega), Option.bind_eq_bind, Option.bind_some]
  by_cases hxr : x = r
  · rw [if_neg (by simpa using hxr)]
    exact ⟨s, rfl, rfl, Same.rfl'⟩
  · rw [if_pos hxr]
    cases h with
    | root => exact absurd rfl hxr
    | @step _ k' _ v h1 h2 h3 =>
      have hb3 := h3.bound
      obtain ⟨arr', e1, e2, e3, e4⟩ := compress_spec r (s.arr.length + 1) s.arr x v k' h1 h2 h3 (by omega)
      simp only [h1, Option.bind_some, e1]
      exact ⟨{ s with arr := arr' }, rfl, rfl, ⟨e2, e3, e4⟩⟩

/-- Linking root `b` under root `a`. -/
theorem RootN.link {arr : List Int} {a b : Nat} {va vb w : Int} (ha : arr[a]? = some va) (hva : va < 0)
    (hb : arr[b]? = some vb) (hvb : vb < 0) (hab : a ≠ b) (hw : w < 0) {k y q : Nat} (h : RootN arr k y q) :
    ∃ j, RootN ((arr.set a w).set b (a : Int)) j y (if q = b then a else q) := by
  have halt := (List.getElem?_eq_some_iff.1 ha).1
  have hblt := (List.getElem?_eq_some_iff.1 hb).1
  have hA : RootN ((arr.set a w).set b (a : Int)) 0 a a :=
    .root (v := w) (by rw [List.getElem?_set_ne (Ne.symm hab), List.getElem?_set_self halt]) hw
  have hB : RootN ((arr.set a w).set b (a : Int)) 1 b a := by
    refine .step (v := (a : Int)) (by rw [List.getElem?_set_self (by simpa using hblt)]) (by omega) ?_
    simpa using hA
  induction h with
  | @root i v h1 h2 =>
    by_cases hib : i = b
    · subst hib; rw [if_pos rfl]; exact ⟨1, hB⟩
    · rw [if_neg hib]
      by_cases hia : i = a
      · subst hia; exact ⟨0, hA⟩
      · exact ⟨0, .root (by rw [List.getElem?_set_ne (Ne.symm hib), List.getElem?_set_ne (Ne.symm hia)]; exact h1) h2⟩
  | @step i k q v h1 h2 h3 ih =>
    obtain ⟨j, hj⟩ := ih
    have hia : a ≠ i := by rintro rfl; rw [ha] at h1; injection h1; omega
    have hib : b ≠ i := by rintro rfl; rw [hb] at h1; injection h1; omega
    exact ⟨j + 1, .step (by rw [List.getElem?_set_ne hib, List.getElem?_set_ne hia]; exact h1) h2 hj⟩

/-! ### connectivity -/

theorem Conn.mono {us vs : List (Nat × Nat)} (h : ∀ e ∈ us, e ∈ vs) {x y : Nat} (hc : Conn us x y) : Conn vs x y := by
  induction hc with
  | refl => exact .refl _
  | edge h' => exact .edge (h _ h')
  | symm _ ih => exact .symm ih
  | trans _ _ ih1 ih2 => exact .trans ih1 ih2

/-- Connectivity with one more pair. -/
theorem Conn.cons_iff {us : List (Nat × Nat)} {a b x y : Nat} : Conn ((a, b) :: us) x y ↔
    Conn us x y ∨ (Conn us x a ∧ Conn us b y) ∨ (Conn us x b ∧ Conn us a y) := by
  constructor
  · intro h
    induction h with
    | refl x => exact .inl (.refl x)
    | edge h =>
      rcases List.mem_cons.1 h with h | h
      · injection h with h1 h2; subst h1; subst h2
        exact .inr (.inl ⟨.refl _, .refl _⟩)
      · exact .inl (.edge h)
    | symm _ ih =>
      rcases ih with h | ⟨h1, h2⟩ | ⟨h1, h2⟩
      · exact .inl h.symm
      · exact .inr (.inr ⟨h2.symm, h1.symm⟩)
      · exact .inr (.inl ⟨h2.symm, h1.symm⟩)
    | trans _ _ ih1 ih2 =>
      rcases ih1 with h | ⟨h1, h2⟩ | ⟨h1, h2⟩ <;> rcases ih2 with g | ⟨g1, g2⟩ | ⟨g1, g2⟩
      · exact .inl (h.trans g)
      · exact .inr (.inl ⟨h.trans g1, g2⟩)
      · exact .inr (.inr ⟨h.trans g1, g2⟩)
      · exact .inr (.inl ⟨h1, h2.trans g⟩)
      · exact .inr (.inl ⟨h1, g2⟩)
      · exact .inl (h1.trans g2)
      · exact .inr (.inr ⟨h1, h2.trans g⟩)
      · exact .inl (h1.trans g2)
      · exact .inr (.inr ⟨h1, g2⟩)
  · have m : ∀ {x y}, Conn us x y → Conn ((a, b) :: us) x y := fun h => h.mono (fun e he => List.mem_cons_of_mem _ he)
    have e : Conn ((a, b) :: us) a b := .edge (by simp)
    rintro (h | ⟨h1, h2⟩ | ⟨h1, h2⟩)
    · exact m h
    · exact (m h1).trans (e.trans (m h2))
    · exact (m h1).trans (e.symm.trans (m h2))

theorem Conn.congr {us vs : List (Nat × Nat)} (h : ∀ e, e ∈ us ↔ e ∈ vs) {x y : Nat} : Conn us x y ↔ Conn vs x y :=
  ⟨Conn.mono (fun e => (h e).1), Conn.mono (fun e => (h e).2)⟩

end Verif.DSet
