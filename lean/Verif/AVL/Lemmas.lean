import Verif.AVL.Model
import Verif.Common.Cmp

/-! Lemmas about the AVL tree model. -/

namespace Verif.AVL

variable {κ δ : Type}

/-- Number of levels. -/
def height : Tree κ δ → Nat
  | .leaf => 0
  | .node l _ _ _ r => 1 + max (height l) (height r)

/-- Every stored balance is the height difference and is in {-1,0,1}. -/
def Inv : Tree κ δ → Prop
  | .leaf => True
  | .node l _ _ b r => Inv l ∧ Inv r ∧ b = (height r : Int) - (height l : Int) ∧ -1 ≤ b ∧ b ≤ 1

theorem rebalance_spec {l r : Tree κ δ} {k : κ} {d : δ} {b : Int} (hl : Inv l) (hr : Inv r)
    (hb : b = (height r : Int) - (height l : Int)) (h1 : -2 ≤ b) (h2 : b ≤ 2) :
    ∃ t c, rebalance (.node l k d b r) = some (t, c) ∧ Inv t ∧ toList t = toList (.node l k d b r) ∧
      (height t : Int) + c = height (.node l k d b r) ∧ (c = 0 ∨ c = 1) ∧ (-1 ≤ b → b ≤ 1 → c = 0) := by
  by_cases h3 : b < -1
  · cases l with
    | leaf => simp [height] at hb; omega
    | node ll lk ld lb lr =>
      obtain ⟨hll, hlr, hlb, hl1, hl2⟩ := hl
      by_cases h4 : lb = 1
      · cases lr with
        | leaf => simp [height] at hlb; omega
        | node a ak ad ab ac =>
          obtain ⟨ha, hac, hab, ha1, ha2⟩ := hlr
          simp only [height] at hlb hb
          refine ⟨_, _, by simp [rebalance, h3, balOf, h4, leftRotate, rightRotate]; exact ⟨rfl, rfl⟩, ?_, ?_, ?_, ?_, ?_⟩
          · simp only [Inv, height]
            refine ⟨⟨hll, ha, ?_, ?_, ?_⟩, ⟨hac, hr, ?_, ?_, ?_⟩, ?_, ?_, ?_⟩ <;> omega
          · simp [toList]
          · simp only [height]; omega
          · simp
          · intro h; omega
      · refine ⟨_, _, by simp [rebalance, h3, balOf, h4, rightRotate]; exact ⟨rfl, rfl⟩, ?_, ?_, ?_, ?_, ?_⟩
        · simp only [height] at hb
          simp only [Inv, height]
          refine ⟨hll, ⟨hlr, hr, ?_, ?_, ?_⟩, ?_, ?_, ?_⟩ <;> omega
        · simp [toList]
        · simp only [height] at hb ⊢; split <;> omega
        · split <;> simp
        · intro h; omega
  · by_cases h3' : b > 1
    · cases r with
      | leaf => simp [height] at hb; omega
      | node rl rk rd rb rr =>
        obtain ⟨hrl, hrr, hrb, hr1, hr2⟩ := hr
        by_cases h4 : rb = -1
        · cases rl with
          | leaf => simp [height] at hrb; omega
          | node a ak ad ab ac =>
            obtain ⟨ha, hac, hab, ha1, ha2⟩ := hrl
            simp only [height] at hrb hb
            refine ⟨_, _, by simp [rebalance, h3, h3', balOf, h4, leftRotate, rightRotate]; exact ⟨rfl, rfl⟩, ?_, ?_, ?_, ?_, ?_⟩
            · simp only [Inv, height]
              refine ⟨⟨hl, ha, ?_, ?_, ?_⟩, ⟨hac, hrr, ?_, ?_, ?_⟩, ?_, ?_, ?_⟩ <;> omega
            · simp [toList]
            · simp only [height]; omega
            · simp
            · intro h; omega
        · refine ⟨_, _, by simp [rebalance, h3, h3', balOf, h4, leftRotate]; exact ⟨rfl, rfl⟩, ?_, ?_, ?_, ?_, ?_⟩
          · simp only [height] at hb
            simp only [Inv, height]
            refine ⟨⟨hl, hrl, ?_, ?_, ?_⟩, hrr, ?_, ?_, ?_⟩ <;> omega
          · simp [toList]
          · simp only [height] at hb ⊢; split <;> omega
          · split <;> simp
          · intro h; omega
    · refine ⟨_, 0, by simp [rebalance, h3, h3'], ?_, rfl, by simp, by simp, by simp⟩
      exact ⟨hl, hr, hb, by omega, by omega⟩

/-- The comparison returns -1, 0 or 1. -/
def Sgn (cmp : κ → κ → Int) : Prop := ∀ a b, cmp a b = -1 ∨ cmp a b = 0 ∨ cmp a b = 1

/-- Strictly descending keys, the order of `Traverse`. -/
def Desc (cmp : κ → κ → Int) (l : List (κ × δ)) : Prop := l.Pairwise fun a b => cmp b.1 a.1 < 0

theorem insertFix_left {l l' r : Tree κ δ} {k : κ} {d : δ} {b c : Int} (hl : Inv l') (hr : Inv r)
    (hb : b = (height r : Int) - (height l : Int)) (h1 : -1 ≤ b) (h2 : b ≤ 1)
    (hc : (height l' : Int) = height l + c) (hc01 : c = 0 ∨ c = 1) :
    ∃ t e, insertFix (-1) c l' k d b r = some (t, e) ∧ Inv t ∧ toList t = toList l' ++ (k, d) :: toList r ∧
      (height t : Int) = height (.node l k d b r) + e ∧ (e = 0 ∨ e = 1) := by
  unfold insertFix
  simp only
  by_cases h : -1 * c ≠ 0 ∧ b + -1 * c ≠ 0
  · rw [if_pos h]
    obtain ⟨t, e, e1, e2, e3, e4, e5, e6⟩ := rebalance_spec (k := k) (d := d) (b := b + -1 * c) hl hr (by omega) (by omega) (by omega)
    refine ⟨t, 1 - e, by rw [e1]; rfl, e2, by rw [e3]; rfl, ?_, by omega⟩
    simp only [height] at e4 ⊢
    omega
  · rw [if_neg h]
    refine ⟨_, 0, rfl, ⟨hl, hr, by omega, by omega, by omega⟩, rfl, ?_, by simp⟩
    simp only [height]
    omega

theorem insertFix_right {l r r' : Tree κ δ} {k : κ} {d : δ} {b c : Int} (hl : Inv l) (hr : Inv r')
    (hb : b = (height r : Int) - (height l : Int)) (h1 : -1 ≤ b) (h2 : b ≤ 1)
    (hc : (height r' : Int) = height r + c) (hc01 : c = 0 ∨ c = 1) :
    ∃ t e, insertFix 1 c l k d b r' = some (t, e) ∧ Inv t ∧ toList t = toList l ++ (k, d) :: toList r' ∧
      (height t : Int) = height (.node l k d b r) + e ∧ (e = 0 ∨ e = 1) := by
  unfold insertFix
  simp only
  by_cases h : 1 * c ≠ 0 ∧ b + 1 * c ≠ 0
  · rw [if_pos h]
    obtain ⟨t, e, e1, e2, e3, e4, e5, e6⟩ := rebalance_spec (k := k) (d := d) (b := b + 1 * c) hl hr (by omega) (by omega) (by omega)
    refine ⟨t, 1 - e, by rw [e1]; rfl, e2, by rw [e3]; rfl, ?_, by omega⟩
    simp only [height] at e4 ⊢
    omega
  · rw [if_neg h]
    refine ⟨_, 0, rfl, ⟨hl, hr, by omega, by omega, by omega⟩, rfl, ?_, by simp⟩
    simp only [height]
    omega

theorem insertFix_zero {l r : Tree κ δ} {k : κ} {d : δ} {b result : Int} :
    insertFix result 0 l k d b r = some (.node l k d b r, 0) := by
  simp [insertFix]

theorem removeFix_left {l l' r : Tree κ δ} {k : κ} {d : δ} {b c : Int} (hl : Inv l') (hr : Inv r)
    (hb : b = (height r : Int) - (height l : Int)) (h1 : -1 ≤ b) (h2 : b ≤ 1)
    (hc : (height l' : Int) + c = height l) (hc01 : c = 0 ∨ c = 1) :
    ∃ t e, removeFix (-1 * c) l' k d b r = some (t, e) ∧ Inv t ∧ toList t = toList l' ++ (k, d) :: toList r ∧
      (height t : Int) + e = height (.node l k d b r) ∧ (e = 0 ∨ e = 1) := by
  unfold removeFix
  simp only
  by_cases h : -1 * c ≠ 0
  · rw [if_pos h]
    by_cases h' : b - -1 * c ≠ 0
    · rw [if_pos h']
      obtain ⟨t, e, e1, e2, e3, e4, e5, e6⟩ := rebalance_spec (k := k) (d := d) (b := b - -1 * c) hl hr (by omega) (by omega) (by omega)
      refine ⟨t, e, e1, e2, by rw [e3]; rfl, ?_, by omega⟩
      simp only [height] at e4 ⊢
      omega
    · rw [if_neg h']
      refine ⟨_, 1, rfl, ⟨hl, hr, by omega, by omega, by omega⟩, rfl, ?_, by simp⟩
      simp only [height]
      omega
  · rw [if_neg h]
    refine ⟨_, 0, rfl, ⟨hl, hr, by omega, by omega, by omega⟩, rfl, ?_, by simp⟩
    simp only [height]
    omega

theorem removeFix_right {l r r' : Tree κ δ} {k k' : κ} {d d' : δ} {b c : Int} (hl : Inv l) (hr : Inv r')
    (hb : b = (height r : Int) - (height l : Int)) (h1 : -1 ≤ b) (h2 : b ≤ 1)
    (hc : (height r' : Int) + c = height r) (hc01 : c = 0 ∨ c = 1) :
    ∃ t e, removeFix c l k d b r' = some (t, e) ∧ Inv t ∧ toList t = toList l ++ (k, d) :: toList r' ∧
      (height t : Int) + e = height (.node l k' d' b r) ∧ (e = 0 ∨ e = 1) := by
  unfold removeFix
  simp only
  by_cases h : c ≠ 0
  · rw [if_pos h]
    by_cases h' : b - c ≠ 0
    · rw [if_pos h']
      obtain ⟨t, e, e1, e2, e3, e4, e5, e6⟩ := rebalance_spec (k := k) (d := d) (b := b - c) hl hr (by omega) (by omega) (by omega)
      refine ⟨t, e, e1, e2, by rw [e3]; rfl, ?_, by omega⟩
      simp only [height] at e4 ⊢
      omega
    · rw [if_neg h']
      refine ⟨_, 1, rfl, ⟨hl, hr, by omega, by omega, by omega⟩, rfl, ?_, by simp⟩
      simp only [height]
      omega
  · rw [if_neg h]
    refine ⟨_, 0, rfl, ⟨hl, hr, by omega, by omega, by omega⟩, rfl, ?_, by simp⟩
    simp only [height]
    omega

theorem removeFix_zero {l r : Tree κ δ} {k : κ} {d : δ} {b : Int} :
    removeFix 0 l k d b r = some (.node l k d b r, 0) := by
  simp [removeFix]

theorem desc_node {cmp : κ → κ → Int} {l r : Tree κ δ} {k : κ} {d : δ} {b : Int} (h : Desc cmp (toList (.node l k d b r))) :
    Desc cmp (toList l) ∧ Desc cmp (toList r) ∧ (∀ a ∈ toList l, cmp k a.1 < 0) ∧ (∀ a ∈ toList r, cmp a.1 k < 0) := by
  simp only [Desc, toList, List.pairwise_append, List.pairwise_cons, List.mem_cons] at h
  obtain ⟨h1, ⟨h2, h3⟩, h4⟩ := h
  exact ⟨h1, h3, fun a ha => h4 a ha (k, d) (Or.inl rfl), fun a ha => h2 a ha⟩

theorem insert_spec {cmp : κ → κ → Int} (ho : CmpOrd cmp) (hs : Sgn cmp) (key : κ) (dat : δ) :
    ∀ (t : Tree κ δ), Inv t → Desc cmp (toList t) →
    ∃ t' c ins, insert cmp key dat t = some (t', c, ins) ∧ Inv t' ∧ (height t' : Int) = height t + c ∧ (c = 0 ∨ c = 1) ∧
      ((ins = false ∧ c = 0 ∧ t' = t ∧ ∃ e ∈ toList t, cmp e.1 key = 0) ∨
       (ins = true ∧ ∃ A B, toList t = A ++ B ∧ toList t' = A ++ (key, dat) :: B ∧ (∀ a ∈ A, cmp key a.1 < 0) ∧
          ∀ b ∈ B, cmp b.1 key < 0)) := by
  intro t
  induction t with
  | leaf =>
    intro _ _
    exact ⟨_, _, _, rfl, by simp [Inv, height], by simp [height], Or.inr rfl, Or.inr ⟨rfl, [], [], by simp [toList]⟩⟩
  | node l k d b r ihl ihr =>
    intro hi hd
    obtain ⟨il, ir, hb, hb1, hb2⟩ := hi
    obtain ⟨dl, dr, kl, kr⟩ := desc_node hd
    unfold insert
    simp only
    rcases hs k key with h | h | h
    · rw [if_pos (show cmp k key < 0 by omega), h]
      obtain ⟨l', c, ins, e1, e2, e3, e4, e5⟩ := ihl il dl
      obtain ⟨t', e, f1, f2, f3, f4, f5⟩ := insertFix_left (k := k) (d := d) e2 ir hb hb1 hb2 e3 e4
      refine ⟨t', e, ins, by rw [e1]; simp [f1], f2, f4, f5, ?_⟩
      rcases e5 with ⟨g1, g2, g3, x, g4, g5⟩ | ⟨g1, A, B, g2, g3, g4, g5⟩
      · subst g2; subst g3
        rw [insertFix_zero] at f1
        simp at f1
        exact Or.inl ⟨g1, f1.2.symm, f1.1.symm, x, by simp [toList, g4], g5⟩
      · refine Or.inr ⟨g1, A, B ++ (k, d) :: toList r, by simp [toList, g2], by simp [f3, g3], g4, ?_⟩
        intro x hx
        simp only [List.mem_append, List.mem_cons] at hx
        rcases hx with hx | rfl | hx
        · exact g5 x hx
        · simp [h]
        · exact ho.lt_trans (kr x hx) (show cmp k key < 0 by omega)
    · rw [if_neg (by omega), if_neg (by omega)]
      refine ⟨_, _, _, rfl, ⟨il, ir, hb, hb1, hb2⟩, by simp, Or.inl rfl, Or.inl ⟨rfl, rfl, rfl, (k, d), by simp [toList], h⟩⟩
    · rw [if_neg (by omega), if_pos (by omega), h]
      obtain ⟨r', c, ins, e1, e2, e3, e4, e5⟩ := ihr ir dr
      obtain ⟨t', e, f1, f2, f3, f4, f5⟩ := insertFix_right (k := k) (d := d) il e2 hb hb1 hb2 e3 e4
      refine ⟨t', e, ins, by rw [e1]; simp [f1], f2, f4, f5, ?_⟩
      rcases e5 with ⟨g1, g2, g3, x, g4, g5⟩ | ⟨g1, A, B, g2, g3, g4, g5⟩
      · subst g2; subst g3
        rw [insertFix_zero] at f1
        simp at f1
        exact Or.inl ⟨g1, f1.2.symm, f1.1.symm, x, by simp [toList, g4], g5⟩
      · have hk : cmp key k < 0 := (ho.sym key k).2 (by omega)
        refine Or.inr ⟨g1, toList l ++ (k, d) :: A, B, by simp [toList, g2], by simp [f3, g3], ?_, g5⟩
        intro x hx
        simp only [List.mem_append, List.mem_cons] at hx
        rcases hx with hx | rfl | hx
        · exact ho.lt_trans hk (kl x hx)
        · exact hk
        · exact g4 x hx

theorem minKey_spec : ∀ (t : Tree κ δ), t ≠ .leaf → ∃ k d rest, minKey t = some k ∧ toList t = (k, d) :: rest := by
  intro t
  induction t with
  | leaf => intro h; exact absurd rfl h
  | node l k d b r ihl ihr =>
    intro _
    cases l with
    | leaf => exact ⟨k, d, toList r, by simp [minKey], rfl⟩
    | node ll lk ld lb lr =>
      obtain ⟨k', d', rest, h1, h2⟩ := ihl (by simp)
      exact ⟨k', d', rest ++ (k, d) :: toList r, by simp [minKey, h1], by rw [toList, h2]; simp⟩

theorem remove_spec {cmp : κ → κ → Int} (ho : CmpOrd cmp) (hs : Sgn cmp) :
    ∀ (t : Tree κ δ) (key : κ), Inv t → Desc cmp (toList t) →
    ∃ t' c ret, remove cmp key t = some (t', c, ret) ∧ Inv t' ∧ (height t' : Int) + c = height t ∧ (c = 0 ∨ c = 1) ∧
      ((ret = none ∧ c = 0 ∧ t' = t ∧ ∀ e ∈ toList t, cmp e.1 key ≠ 0) ∨
       (∃ A B k0 d0 k1, toList t = A ++ (k0, d0) :: B ∧ cmp k0 key = 0 ∧ toList t' = A ++ B ∧ ret = some (k1, d0))) := by
  intro t
  induction t with
  | leaf =>
    intro key _ _
    exact ⟨_, _, _, rfl, trivial, by simp, Or.inl rfl, Or.inl ⟨rfl, rfl, rfl, by simp [toList]⟩⟩
  | node l k d b r ihl ihr =>
    intro key hi hd
    obtain ⟨il, ir, hb, hb1, hb2⟩ := hi
    obtain ⟨dl, dr, kl, kr⟩ := desc_node hd
    unfold remove
    simp only
    rcases hs k key with h | h | h
    · rw [if_pos (show cmp k key < 0 by omega), h]
      obtain ⟨l', c, ret, e1, e2, e3, e4, e5⟩ := ihl key il dl
      obtain ⟨t', e, f1, f2, f3, f4, f5⟩ := removeFix_left (k := k) (d := d) e2 ir hb hb1 hb2 e3 e4
      refine ⟨t', e, ret, by rw [e1]; simp only [Option.bind_some, f1]; rfl, f2, f4, f5, ?_⟩
      rcases e5 with ⟨g1, g2, g3, g4⟩ | ⟨A, B, k0, d0, k1, g2, g3, g4, g5⟩
      · subst g2; subst g3
        rw [Int.mul_zero, removeFix_zero] at f1
        simp at f1
        refine Or.inl ⟨g1, f1.2.symm, f1.1.symm, ?_⟩
        intro x hx
        simp only [toList, List.mem_append, List.mem_cons] at hx
        rcases hx with hx | rfl | hx
        · exact g4 x hx
        · simp [h]
        · have := ho.lt_trans (kr x hx) (show cmp k key < 0 by omega); omega
      · exact Or.inr ⟨A, B ++ (k, d) :: toList r, k0, d0, k1, by simp [toList, g2], g3, by simp [f3, g4], g5⟩
    · rw [if_neg (by omega), if_neg (by omega)]
      match l, r, il, ir, hb, dl, dr, kl, kr, hd with
      | .leaf, .leaf, il, ir, hb, dl, dr, kl, kr, hd =>
        refine ⟨_, _, _, rfl, trivial, by simp [height], Or.inr rfl, Or.inr ⟨[], [], k, d, k, by simp [toList], h, by simp [toList], rfl⟩⟩
      | .leaf, .node rl rk rd rb rr, il, ir, hb, dl, dr, kl, kr, hd =>
        refine ⟨_, _, _, rfl, ir, ?_, Or.inr rfl, Or.inr ⟨[], toList (.node rl rk rd rb rr), k, d, k, by simp [toList], h, by simp [toList], rfl⟩⟩
        simp only [height]; omega
      | .node ll lk ld lb lr, .leaf, il, ir, hb, dl, dr, kl, kr, hd =>
        refine ⟨_, _, _, rfl, il, ?_, Or.inr rfl, Or.inr ⟨toList (.node ll lk ld lb lr), [], k, d, k, by simp [toList], h, by simp [toList], rfl⟩⟩
        simp only [height]; omega
      | .node ll lk ld lb lr, .node rl rk rd rb rr, il, ir, hb, dl, dr, kl, kr, hd =>
        obtain ⟨sk, sd, rest, m1, m2⟩ := minKey_spec (.node rl rk rd rb rr) (by simp)
        obtain ⟨r', c, ret, e1, e2, e3, e4, e5⟩ := ihr sk ir dr
        rcases e5 with ⟨g1, g2, g3, g4⟩ | ⟨A, B, k0, d0, k1, g2, g3, g4, g5⟩
        · exact absurd (ho.refl sk) (g4 (sk, sd) (by rw [m2]; simp))
        · -- the removed element is the first one
          have hA : A = [] := by
            cases A with
            | nil => rfl
            | cons a A =>
              rw [m2] at g2
              simp only [List.cons_append, List.cons.injEq] at g2
              have := dr
              rw [m2] at this
              have h5 := (List.pairwise_cons.1 this).1 (k0, d0) (by rw [g2.2]; simp)
              simp only at h5
              omega
          subst hA
          rw [m2] at g2
          simp only [List.nil_append, List.cons.injEq] at g2 g4
          obtain ⟨g2a, g2b⟩ := g2
          cases g2a; subst g2b
          obtain ⟨t', e, f1, f2, f3, f4, f5⟩ := removeFix_right (k := sk) (k' := k) (d := sd) (d' := d) il e2 hb hb1 hb2 e3 e4
          refine ⟨t', e, some (k1, d), ?_, f2, f4, f5, ?_⟩
          · simp only [m1, Option.bind_some]
            rw [e1]
            simp only [Option.bind_some, g5, f1]
            rfl
          · refine Or.inr ⟨toList (.node ll lk ld lb lr), toList (.node rl rk rd rb rr), k, d, k1, rfl, h, ?_, rfl⟩
            rw [f3, m2, g4]
    · rw [if_neg (by omega), if_pos (by omega), h]
      obtain ⟨r', c, ret, e1, e2, e3, e4, e5⟩ := ihr key ir dr
      obtain ⟨t', e, f1, f2, f3, f4, f5⟩ := removeFix_right (k := k) (k' := k) (d := d) (d' := d) il e2 hb hb1 hb2 e3 e4
      refine ⟨t', e, ret, by rw [e1]; simp only [Option.bind_some, Int.one_mul, f1]; rfl, f2, f4, f5, ?_⟩
      rcases e5 with ⟨g1, g2, g3, g4⟩ | ⟨A, B, k0, d0, k1, g2, g3, g4, g5⟩
      · subst g2; subst g3
        rw [removeFix_zero] at f1
        simp at f1
        have hk : cmp key k < 0 := (ho.sym key k).2 (by omega)
        refine Or.inl ⟨g1, f1.2.symm, f1.1.symm, ?_⟩
        intro x hx
        simp only [toList, List.mem_append, List.mem_cons] at hx
        rcases hx with hx | rfl | hx
        · have := ho.lt_trans hk (kl x hx)
          have h6 := ho.sym key x.1
          omega
        · simp [h]
        · exact g4 x hx
      · exact Or.inr ⟨toList l ++ (k, d) :: A, B, k0, d0, k1, by simp [toList, g2], g3, by simp [f3, g4], g5⟩

theorem find_spec {cmp : κ → κ → Int} (ho : CmpOrd cmp) (hs : Sgn cmp) (key : κ) :
    ∀ (t : Tree κ δ), Desc cmp (toList t) → ∀ e, find cmp key t = some e ↔ e ∈ toList t ∧ cmp e.1 key = 0 := by
  intro t
  induction t with
  | leaf => intro _ e; simp [find, toList]
  | node l k d b r ihl ihr =>
    intro hd e
    obtain ⟨dl, dr, kl, kr⟩ := desc_node hd
    unfold find
    rcases hs k key with h | h | h
    · rw [if_pos h, ihl dl]
      simp only [toList, List.mem_append, List.mem_cons]
      constructor
      · rintro ⟨h1, h2⟩; exact ⟨Or.inl h1, h2⟩
      · rintro ⟨h1 | rfl | h1, h2⟩
        · exact ⟨h1, h2⟩
        · simp only at h2; omega
        · have := ho.lt_trans (kr e h1) (show cmp k key < 0 by omega); omega
    · rw [if_neg (by omega), if_neg (by omega)]
      simp only [toList, List.mem_append, List.mem_cons, Option.some.injEq]
      constructor
      · rintro rfl; exact ⟨Or.inr (Or.inl rfl), h⟩
      · have h0 := ho.swap_eq.1 h
        rintro ⟨h1 | rfl | h1, h2⟩
        · have := ho.lt_of_lt_of_le (kl e h1) (show cmp e.1 key ≤ 0 by omega); omega
        · rfl
        · have h3 := ho.swap_eq.1 h2
          have := ho.lt_of_le_of_lt (show cmp key e.1 ≤ 0 by omega) (kr e h1); omega
    · rw [if_neg (by omega), if_pos h, ihr dr]
      have hk : cmp key k < 0 := (ho.sym key k).2 (by omega)
      simp only [toList, List.mem_append, List.mem_cons]
      constructor
      · rintro ⟨h1, h2⟩; exact ⟨Or.inr (Or.inr h1), h2⟩
      · rintro ⟨h1 | rfl | h1, h2⟩
        · have := ho.lt_trans hk (kl e h1)
          have h6 := ho.sym key e.1
          omega
        · simp only at h2; omega
        · exact ⟨h1, h2⟩

end Verif.AVL
