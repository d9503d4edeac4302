import Verif.Trie.Lemmas

namespace Verif.Trie

variable {w : Nat} {fold : Nat → Nat}

/-- A node that has not been used, apart from `word`. -/
def raw (w : Nat) (W : Nat → Nat) (i : Nat) : Node := ⟨0, 2 ^ w - 1, 0, W i⟩

theorem checkSize_spec {m : Mem} {p : Nat} {W : Nat → Nat} {lo : Nat} (hc0 : 0 < m.cap) (hcw : m.cap < 2 ^ w) (hp : p ≤ m.cap)
    (hpw : 2 * p < 2 ^ w) (hW : ∀ i, m.cap ≤ i → W i = 2 ^ w - 1) (hraw : ∀ i, lo ≤ i → i < m.cap → m.node i = raw w W i) :
    let m' := checkSize w p m
    p < m'.cap ∧ m.cap ≤ m'.cap ∧ m'.cap < 2 ^ w ∧ (∀ i, i < m.cap → m'.node i = m.node i) ∧
      (∀ i, lo ≤ i → i < m'.cap → m'.node i = raw w W i) := by
  simp only
  unfold checkSize
  split
  · next h =>
    have he : p = m.cap := by omega
    have hm : 2 * m.cap % 2 ^ w = 2 * m.cap := Nat.mod_eq_of_lt (by omega)
    refine ⟨by simp only [hm]; omega, by simp only [hm]; omega, by simp only [hm]; omega, ?_, ?_⟩
    · intro i hi
      simp only [fill]
      rw [if_neg (by omega)]
    · intro i hl hi
      simp only [hm] at hi
      simp only [fill, hm]
      split
      · next h2 => simp only [blank, raw, hW i h2.1]
      · exact hraw i hl (by omega)
  · exact ⟨by omega, Nat.le_refl _, hcw, fun _ _ => rfl, hraw⟩

theorem letter_eq (s : Word) {a : Nat} {t : List Nat} (h : s.2 = a :: t) : letter fold s = fold a := by simp [letter, h]

/-- Words with the letter of the current node only increase its count. -/
theorem pass1_same (l : Nat) (rest : List Word) (r : Nat) : ∀ (g : List Word) (m : Mem), (∀ s ∈ g, letter fold s = l) → r < m.cap →
    (m.node r).clen + g.length < 2 ^ w →
    pass1 w fold (g ++ rest) l r m =
      pass1 w fold rest l r ⟨m.cap, fun j => if j = r then { m.node r with clen := (m.node r).clen + g.length } else m.node j⟩
  | [], m, _, _, _ => by
    congr 1
    obtain ⟨cap, node⟩ := m
    simp only [Mem.mk.injEq, true_and, List.length_nil, Nat.add_zero]
    funext j
    split
    · subst_vars; rfl
    · rfl
  | s :: g, m, h, hr, hn => by
    simp only [List.length_cons] at hn
    rw [List.cons_append, pass1, if_neg (by rw [h s (by simp)]; simp), rd, if_pos hr, Option.bind_some, wr, if_pos hr,
      Option.bind_some, Nat.mod_eq_of_lt (by omega)]
    rw [pass1_same l rest r g ⟨m.cap, fun j => if j = r then { m.node r with clen := (m.node r).clen + 1 } else m.node j⟩
      (fun x hx => h x (by simp [hx])) hr (by simp only [if_true]; omega)]
    congr 2
    funext j
    by_cases hj : j = r
    · subst hj
      simp only [if_true, List.length_cons]
      congr 1
      omega
    · simp only [hj, if_false]

/-- The first pass. -/
theorem pass1_spec (W : Nat → Nat) : ∀ (gs : List (Nat × List Word)) (l p r : Nat) (m : Mem), Groups fold gs →
    (∀ g ∈ gs, l < g.1) → (r + 1) % 2 ^ w = p → r < 2 ^ w → 0 < m.cap → m.cap < 2 ^ w → p ≤ m.cap → 2 * (p + tot (flat gs)) ≤ 2 ^ w →
    (∀ i, m.cap ≤ i → W i = 2 ^ w - 1) → (∀ i, p ≤ i → i < m.cap → m.node i = raw w W i) →
    ∃ m' r', pass1 w fold (flat gs) l r m = some (m', r') ∧ (r' + 1) % 2 ^ w = p + gs.length ∧ m.cap ≤ m'.cap ∧ m'.cap < 2 ^ w ∧
      p + gs.length ≤ m'.cap ∧ (∀ i, i < p → m'.node i = m.node i) ∧
      (∀ i, p + gs.length ≤ i → i < m'.cap → m'.node i = raw w W i) ∧
      (∀ (j : Nat) (g : Nat × List Word), gs[j]? = some g → m'.node (p + j) = ⟨g.1, 2 ^ w - 1, g.2.length, W (p + j)⟩) := by
  intro gs
  induction gs with
  | nil =>
    intro l p r m hg hl hr hrw hc0 hcw hp hpw hW hraw
    exact ⟨m, r, rfl, hr, Nat.le_refl _, hcw, hp, fun _ _ => rfl, hraw, by simp⟩
  | cons g gs ih =>
    intro l p r m hg hl hr hrw hc0 hcw hp hpw hW hraw
    rw [flat_cons, tot_append] at hpw
    have hne := hg.ne g (by simp)
    have hlet : ∀ s ∈ g.2, letter fold s = g.1 := fun s hs => by
      obtain ⟨a, t, h1, h2⟩ := hg.head g (by simp) s hs
      rw [letter_eq s h1, h2]
    have hgl : ∀ (g : List Word), g.length ≤ tot g := fun g => by
      induction g with
      | nil => simp
      | cons a g ih => rw [tot_cons, List.length_cons]; omega
    have hgt := hgl g.2
    obtain ⟨c, gl⟩ := g
    cases gl with
    | nil => simp at hne
    | cons s g =>
      simp only [List.length_cons] at hgt
      simp only at hpw
      have htt := tot_cons s g
      have hs := hlet s (by simp)
      have hl0 := hl (c, s :: g) (by simp)
      simp only at hl0 hs
      have hp2 : 2 * p < 2 ^ w := by
        have := hgl (s :: g)
        simp only [List.length_cons] at this
        omega
      obtain ⟨hc1, hc2, hc3, hc4, hc5⟩ := checkSize_spec (lo := p) hc0 hcw hp hp2 hW hraw
      rw [flat_cons, List.cons_append, pass1, if_pos (by rw [hs]; omega), hr, rd, if_pos hc1, Option.bind_some, wr, if_pos hc1,
        Option.bind_some, hs, hc5 p (Nat.le_refl _) hc1]
      simp only [raw, Nat.zero_add]
      rw [Nat.mod_eq_of_lt (show 1 < 2 ^ w by omega), pass1_same c (flat gs) p g
        ⟨(checkSize w p m).cap, fun j => if j = p then ⟨c, 2 ^ w - 1, 1, W p⟩ else (checkSize w p m).node j⟩ (fun x hx => hlet x (by simp [hx])) hc1
        (by simp only [if_true]; omega)]
      simp only [if_true]
      obtain ⟨m', r', h1, h2, h3, h4, h5, h6, h7, h8⟩ := ih c (p + 1) p
        ⟨(checkSize w p m).cap, fun j => if j = p then ⟨c, 2 ^ w - 1, 1 + g.length, W p⟩ else (checkSize w p m).node j⟩
        hg.tail (List.pairwise_cons.1 hg.sorted).1 (Nat.mod_eq_of_lt (by omega)) (by omega) (by simp only; omega) hc3
        (by simp only; omega) (by omega) (fun i hi => hW i (by simp only at hi; omega))
        (fun i hi hi2 => by
          simp only
          rw [if_neg (by omega)]
          exact hc5 i (by omega) hi2)
      refine ⟨m', r', ?_, by rw [h2, List.length_cons]; omega, by simp only at h3; omega, h4, by rw [List.length_cons]; omega, ?_, ?_, ?_⟩
      · rw [← h1]
        congr 2
        funext j
        by_cases hj : j = p
        · simp only [hj, if_true]
        · simp only [hj, if_false]
      · intro i hi
        rw [h6 i (by omega)]
        simp only
        rw [if_neg (by omega), hc4 i (by omega)]
      · intro i hi hi2
        rw [List.length_cons] at hi
        exact h7 i (by omega) hi2
      · intro j g' hj
        cases j with
        | zero =>
          simp only [List.getElem?_cons_zero, Option.some.injEq] at hj
          subst hj
          rw [Nat.add_zero, h6 p (by omega)]
          simp only [if_true, List.length_cons, Nat.add_comm]
        | succ j =>
          simp only [List.getElem?_cons_succ] at hj
          have := h8 j g' hj
          rw [show p + (j + 1) = p + 1 + j by omega, this]

/-- What `_init` promises for the words `ss` placed from `cnt`. -/
structure Placed (w : Nat) (fold : Nat → Nat) (ss : List Word) (cnt : Nat) (m m' : Mem) (r' : Nat) : Prop where
  lt : cnt < r'
  le : r' ≤ cnt + tot ss
  cap : m.cap ≤ m'.cap
  capw : m'.cap < 2 ^ w
  fits : r' ≤ m'.cap
  keep : ∀ i, i < cnt → m'.node i = m.node i
  fresh : ∀ i, r' ≤ i → i < m'.cap → m'.node i = blank w
  look : ∀ M : Mem, r' ≤ M.cap → (∀ i, cnt ≤ i → i < r' → M.node i = m'.node i) → ∀ q : List Nat, (∀ c ∈ q, fold c < 256) →
    lookup w fold M q cnt = some (find w fold ss q)

/-- What is required of `go`. -/
def GoOk (w : Nat) (fold : Nat → Nat) (go : List Word → Nat → Mem → Option (Mem × Nat)) (ss : List Word) : Prop :=
  ∀ (cnt : Nat) (m : Mem), 0 < cnt → 0 < m.cap → m.cap < 2 ^ w → cnt ≤ m.cap → 2 * (cnt + tot ss) ≤ 2 ^ w →
    (∀ i, cnt ≤ i → i < m.cap → m.node i = blank w) → ∃ m' r', go ss cnt m = some (m', r') ∧ Placed w fold ss cnt m m' r'

/-- The total of the words without first letters. -/
def totTl (gs : List (Nat × List Word)) : Nat := (gs.map fun g => tot (tl g.2)).sum

/-- The second pass. -/
theorem pass2_spec (go : List Word → Nat → Mem → Option (Mem × Nat)) (W : Nat → Nat) : ∀ (gs : List (Nat × List Word)) (i r : Nat) (m : Mem),
    Groups fold gs → (∀ g ∈ gs, GoOk w fold go (tl g.2)) → i + gs.length ≤ r → 0 < r → 0 < m.cap → m.cap < 2 ^ w → r ≤ m.cap →
    2 * (r + totTl gs) ≤ 2 ^ w →
    (∀ x, r ≤ x → x < m.cap → m.node x = blank w) →
    (∀ (j : Nat) (g : Nat × List Word), gs[j]? = some g → m.node (i + j) = ⟨g.1, 2 ^ w - 1, g.2.length, W (i + j)⟩) →
    ∃ m' r', ∃ ch : Nat → Nat, pass2 go gs.length i (flat gs) r m = some (m', r') ∧ r ≤ r' ∧ r' ≤ r + totTl gs ∧ m.cap ≤ m'.cap ∧
      m'.cap < 2 ^ w ∧ r' ≤ m'.cap ∧ (∀ x, x < i → m'.node x = m.node x) ∧
      (∀ x, i + gs.length ≤ x → x < r → m'.node x = m.node x) ∧
      (∀ x, r' ≤ x → x < m'.cap → m'.node x = blank w) ∧
      (∀ (j : Nat) (g : Nat × List Word), gs[j]? = some g → m'.node (i + j) = ⟨g.1, ch j, g.2.length, W (i + j)⟩) ∧
      (∀ M : Mem, r' ≤ M.cap → (∀ x, r ≤ x → x < r' → M.node x = m'.node x) → ∀ q : List Nat, (∀ c ∈ q, fold c < 256) →
        ∀ (j : Nat) (g : Nat × List Word), gs[j]? = some g → lookup w fold M q (ch j) = some (find w fold (tl g.2) q)) := by
  intro gs
  induction gs with
  | nil =>
    intro i r m hg hgo hir hr hc0 hcw hrc htot hfr hnode
    exact ⟨m, r, fun _ => 0, rfl, Nat.le_refl _, Nat.le_add_right _ _, Nat.le_refl _, hcw, hrc, fun _ _ => rfl, fun _ _ _ => rfl, hfr,
      by simp, by simp⟩
  | cons g gs ih =>
    intro i r m hg hgo hir hr hc0 hcw hrc htot hfr hnode
    have hn0 := hnode 0 g (by simp)
    rw [Nat.add_zero] at hn0
    have ht : totTl (g :: gs) = tot (tl g.2) + totTl gs := by simp [totTl]
    rw [ht] at htot
    rw [List.length_cons] at hir
    have hne : ∀ s ∈ g.2, s.2 ≠ [] := fun s hs => by
      obtain ⟨a, t, h1, -⟩ := hg.head g (by simp) s hs
      simp [h1]
    obtain ⟨m1, r1, hgo1, pl⟩ := hgo g (by simp) r
      ⟨m.cap, fun j => if j = i then ⟨g.1, r, g.2.length, W i⟩ else m.node j⟩ hr hc0 hcw hrc (by omega) (fun x hx hx2 => by
        simp only
        rw [if_neg (by omega)]
        exact hfr x hx hx2)
    have hk1 := pl.keep i (by omega)
    simp only [if_true] at hk1
    have hcap1 := pl.cap
    simp only at hcap1
    have hr1 := pl.lt
    obtain ⟨m', r', ch, h1, h2, h3, h4, h5, h6, h7, h8, h9, h10, h11⟩ := ih (i + 1) r1 m1 hg.tail (fun x hx => hgo x (by simp [hx]))
      (by omega) (by omega) (by omega) pl.capw pl.fits (by have := pl.le; omega) pl.fresh (fun j g' hj => by
        have h := hnode (j + 1) g' (by simpa using hj)
        have hjl : j < gs.length := (List.getElem?_eq_some_iff.1 hj).1
        rw [pl.keep (i + 1 + j) (by omega)]
        simp only
        rw [if_neg (by omega), show i + 1 + j = i + (j + 1) by omega, h])
    refine ⟨m', r', fun j => if j = 0 then r else ch (j - 1), ?_, by omega, by have := pl.le; omega, by omega, h5, h6, ?_, ?_, h9, ?_, ?_⟩
    · rw [List.length_cons, pass2, rd, if_pos (by omega), Option.bind_some, wr, if_pos (by omega), Option.bind_some, hn0, flat_cons]
      simp only
      rw [if_pos (by simp), List.take_left, advance_eq _ hne, Option.bind_some, hgo1, Option.bind_some]
      simp only
      rw [rd, if_pos (by omega), Option.bind_some, hk1]
      simp only
      rw [List.drop_left, h1]
    · intro x hx
      rw [h7 x (by omega), pl.keep x (by omega)]
      simp only
      rw [if_neg (by omega)]
    · intro x hx hx2
      rw [List.length_cons] at hx
      rw [h8 x (by omega) (by omega), pl.keep x hx2]
      simp only
      rw [if_neg (by omega)]
    · intro j g' hj
      cases j with
      | zero =>
        simp only [List.getElem?_cons_zero, Option.some.injEq] at hj
        subst hj
        rw [Nat.add_zero, h7 i (by omega), hk1]
        rfl
      | succ j =>
        simp only [List.getElem?_cons_succ] at hj
        rw [show i + (j + 1) = i + 1 + j by omega, h10 j g' hj]
        simp
    · intro M hM hag q hq j g' hj
      cases j with
      | zero =>
        simp only [List.getElem?_cons_zero, Option.some.injEq] at hj
        subst hj
        simp only [if_true]
        refine pl.look M (by omega) (fun x hx hx2 => ?_) q hq
        rw [hag x hx (by omega), h8 x (by omega) hx2]
      | succ j =>
        simp only [List.getElem?_cons_succ] at hj
        have := h11 M hM (fun x hx hx2 => hag x (by omega) hx2) q hq j g' hj
        simpa using this

end Verif.Trie
