import Verif.AA.Model
import Verif.Common.Cmp

/-! Lemmas about the AA tree model. -/

namespace Verif.AA

variable {α : Type}

/-- The level rules: a leaf has level 1, a left child is one level below, a right child at most one, and a right
grandchild is strictly below. -/
def AATree : Tree α → Prop
  | .sent => True
  | .node lv l _ r => AATree l ∧ AATree r ∧ 1 ≤ lv ∧ level l = lv - 1 ∧ (level r = lv ∨ level r = lv - 1) ∧ level (right r) < lv

theorem level_sent : level (.sent : Tree α) = 0 := rfl

theorem level_node (lv : Int) (l : Tree α) (x : α) (r : Tree α) : level (.node lv l x r) = lv := rfl

theorem right_sent : right (.sent : Tree α) = .sent := rfl

theorem right_node (lv : Int) (l : Tree α) (x : α) (r : Tree α) : right (.node lv l x r) = r := rfl

theorem level_nonneg {t : Tree α} (h : AATree t) : 0 ≤ level t := by
  cases t with
  | sent => simp [level]
  | node lv l x r => simp only [level_node, level_sent, right_node, right_sent]; have := h.2.2.1; omega

theorem level_pos {t : Tree α} (h : AATree t) (hp : 1 ≤ level t) : ∃ l x r, t = .node (level t) l x r := by
  cases t with
  | sent => simp [level] at hp
  | node lv l x r => exact ⟨l, x, r, rfl⟩

theorem skew_id {lv : Int} {l r : Tree α} {x : α} (h : level l ≠ lv) : skew (.node lv l x r) = some (.node lv l x r) := by
  simp [skew, Ne.symm h]

theorem skew_aa {t : Tree α} (h : AATree t) : skew t = some t := by
  cases t with
  | sent => rfl
  | node lv l x r => exact skew_id (by have := h.2.2.2.1; omega)

theorem skew_rot {lv llv : Int} {ll lr r : Tree α} {x lx : α} (h : llv = lv) :
    skew (.node lv (.node llv ll lx lr) x r) = some (.node llv ll lx (.node lv lr x r)) := by
  simp [skew, level, h]

theorem split_id {lv : Int} {l r : Tree α} {x : α} (h : level (right r) ≠ lv) : split (.node lv l x r) = some (.node lv l x r) := by
  simp [split, h]

theorem split_rot {lv rlv : Int} {l rl rr : Tree α} {x rx : α} (h : level rr = lv) :
    split (.node lv l x (.node rlv rl rx rr)) = some (.node (rlv + 1) (.node lv l x rl) rx rr) := by
  simp [split, right, h]

/-- `t'` may replace `t` after an insertion. -/
def InsOK (t t' : Tree α) : Prop :=
  level t' = level t ∨ (level t' = level t + 1 ∧ level (right t') = level t' - 1 ∧ (t = .sent ∨ level (right t) = level t))

theorem insert_aa {cmp : α → α → Int} (data : α) : ∀ (t : Tree α), AATree t →
    ∃ t', insert cmp data t = some t' ∧ AATree t' ∧ InsOK t t' := by
  intro t
  induction t with
  | sent => intro _; exact ⟨_, rfl, by simp [AATree, level, right], Or.inr ⟨by simp [level], by simp [level, right], Or.inl rfl⟩⟩
  | node lv l x r ihl ihr =>
    intro h
    obtain ⟨hl, hr, hlv, h1, h2, h3⟩ := h
    unfold insert
    split
    · obtain ⟨l', e1, e2, e3⟩ := ihl hl
      simp only [e1, Option.bind_some]
      rcases e3 with e3 | ⟨e3, e4, _⟩
      · rw [skew_id (by omega), Option.bind_some, split_id (by omega)]
        exact ⟨_, rfl, ⟨e2, hr, hlv, by omega, h2, h3⟩, Or.inl rfl⟩
      · obtain ⟨a, y, b, hn⟩ := level_pos e2 (by omega)
        rw [show level l' = lv by omega] at hn
        subst hn
        simp only [level_node, right_node] at e3 e4
        rw [skew_rot rfl, Option.bind_some]
        obtain ⟨ha, hb, _, q1, q2, q3⟩ := e2
        rcases h2 with h2 | h2
        · rw [split_rot h2]
          refine ⟨_, rfl, ⟨⟨ha, hb, hlv, q1, q2, q3⟩, hr, by omega, by simp [level], by omega, by omega⟩, ?_⟩
          exact Or.inr ⟨by simp [level], by simp only [level_node, level_sent, right_node, right_sent]; omega, Or.inr h2⟩
        · rw [split_id (by simp only [level_node, level_sent, right_node, right_sent]; omega)]
          refine ⟨_, rfl, ⟨ha, ⟨hb, hr, hlv, e4, Or.inr h2, h3⟩, hlv, q1, Or.inl rfl, by simp only [level_node, level_sent, right_node, right_sent]; omega⟩, Or.inl rfl⟩
    · obtain ⟨r', e1, e2, e3⟩ := ihr hr
      simp only [e1, Option.bind_some]
      rw [skew_id (by omega), Option.bind_some]
      by_cases h4 : level (right r') = lv
      · -- only possible when the right child was and stays on the same level
        have hr'l : level r' = lv := by
          rcases e3 with e3 | ⟨e3, e4, e5⟩
          · rcases h2 with h2 | h2
            · omega
            · cases r' with
              | sent => simp only [level_node, level_sent, right_node, right_sent] at h4; omega
              | node rlv a y b =>
                have := e2.2.2.2.2.1
                simp only [level_node, level_sent, right_node, right_sent] at *
                omega
          · rcases e5 with rfl | e5
            · simp only [level_node, level_sent, right_node, right_sent] at *; omega
            · omega
        have h2' : level r = lv := by
          rcases e3 with e3 | ⟨e3, e4, e5⟩
          · omega
          · omega
        obtain ⟨a, y, b, hn⟩ := level_pos e2 (by omega)
        rw [hr'l] at hn
        subst hn
        simp only [right_node] at h4
        rw [split_rot h4]
        obtain ⟨ha, hb, _, q1, q2, q3⟩ := e2
        refine ⟨_, rfl, ⟨⟨hl, ha, hlv, h1, by omega, ?_⟩, hb, by omega, by simp [level], by omega, by omega⟩, ?_⟩
        · cases a with
          | sent => simp only [level_node, level_sent, right_node, right_sent]; omega
          | node alv c z d =>
            have := ha.2.2.2.2.1
            simp only [level_node, level_sent, right_node, right_sent] at *
            omega
        · exact Or.inr ⟨by simp [level], by simp only [level_node, level_sent, right_node, right_sent]; omega, Or.inr h2'⟩
      · rw [split_id h4]
        have h5 : level r' = lv ∨ level r' = lv - 1 := by
          rcases e3 with e3 | ⟨e3, e4, e5⟩
          · omega
          · rcases e5 with rfl | e5
            · simp only [level_node, level_sent, right_node, right_sent] at *; omega
            · omega
        have h6 : level (right r') < lv := by
          cases r' with
          | sent => simp only [level_node, level_sent, right_node, right_sent]; omega
          | node rlv a y b =>
            have := e2.2.2.2.2.1
            simp only [level_node, level_sent, right_node, right_sent] at *
            omega
        exact ⟨_, rfl, ⟨hl, e2, hlv, h1, h5, h6⟩, Or.inl rfl⟩

theorem level_right_le {t : Tree α} (h : AATree t) : level (right t) ≤ level t := by
  cases t with
  | sent => simp [level, right]
  | node lv l x r => have := h.2.2.2.2.1; simp only [level_node, level_sent, right_node, right_sent]; omega

theorem onRight_skew_id {lv : Int} {l r : Tree α} {x : α} (h : skew r = some r) :
    onRight skew (.node lv l x r) = some (.node lv l x r) := by
  simp [onRight, h]

theorem onRight_node {f : Tree α → Option (Tree α)} {lv : Int} {l r r' : Tree α} {x : α} (h : f r = some r') :
    onRight f (.node lv l x r) = some (.node lv l x r') := by
  simp [onRight, h]

theorem split_aa {t : Tree α} (h : AATree t) (hp : 1 ≤ level t) : split t = some t := by
  cases t with
  | sent => simp [level] at hp
  | node lv l x r => exact split_id (by have := h.2.2.2.2.2; omega)

theorem onRight_skew_aa {t : Tree α} (h : AATree t) : onRight skew t = some t := by
  cases t with
  | sent => rfl
  | node lv l x r => exact onRight_node (skew_aa h.2.1)

/-- The left child has lost a level. -/
theorem fix_left {lv : Int} {l r : Tree α} {x : α} (hl : AATree l) (hr : AATree r) (hlv : 2 ≤ lv) (h1 : level l = lv - 2)
    (h2 : level r = lv ∨ level r = lv - 1) (h3 : level (right r) < lv) :
    ∃ t, fix lv l x r = some t ∧ AATree t ∧ toList t = toList l ++ x :: toList r ∧ (level t = lv ∨ level t = lv - 1) ∧
      (level r < lv → level t = lv → level (right t) < lv) := by
  obtain ⟨m, rfl⟩ : ∃ m, lv = m + 1 := ⟨lv - 1, by omega⟩
  obtain ⟨rl, rx, rr, hrn⟩ := level_pos hr (by omega)
  unfold fix
  rw [show m + 1 - 1 = m by omega] at *
  rcases h2 with h2 | h2
  · -- the right child is on the same level and is lowered
    rw [h2] at hrn
    subst hrn
    obtain ⟨hrl, hrr, _, q1, q2, q3⟩ := hr
    simp only [level_node, level_sent, right_node, right_sent] at h3
    have q4 : level rr = m := by omega
    obtain ⟨a, y, b, hrln⟩ := level_pos hrl (by omega)
    rw [show level rl = m by omega] at hrln
    subst hrln
    obtain ⟨ha, hb, _, p1, p2, p3⟩ := hrl
    obtain ⟨rrl, rrx, rrr, hrrn⟩ := level_pos hrr (by omega)
    rw [q4] at hrrn
    simp only [lower, show m + 1 > m by omega, if_true, Option.bind_some]
    rw [skew_id (by omega), Option.bind_some, onRight_node (skew_rot rfl), Option.bind_some]
    rcases p2 with p2 | p2
    · obtain ⟨c, z, d, hbn⟩ := level_pos hb (by omega)
      rw [p2] at hbn
      subst hbn
      obtain ⟨hc, hd, _, s1, s2, s3⟩ := hb
      simp only [level_node, level_sent, right_node, right_sent] at p3
      rw [onRight_node (onRight_node (skew_rot rfl)), Option.bind_some, split_rot (by simp [level]), Option.bind_some,
        onRight_node (split_rot q4)]
      refine ⟨_, rfl, ⟨⟨hl, ha, by omega, by omega, by omega, ?_⟩, ⟨⟨hc, hd, by omega, by omega, by omega, by omega⟩, hrr, by omega, by simp [level], by omega, ?_⟩,
        by omega, by simp [level], by simp [level], by simp only [level_node, level_sent, right_node, right_sent]; omega⟩, by simp [toList], by simp [level], ?_⟩
      · have := level_right_le ha; omega
      · have := level_right_le hrr; omega
      · intro h; simp only [level_node] at h; omega
    · rw [onRight_node (onRight_node (skew_id (by omega))), Option.bind_some, split_rot (by simp [level]), Option.bind_some]
      have hra := level_right_le ha
      have hrb := level_right_le hb
      subst hrrn
      obtain ⟨hrrl, hrrr, _, s1, s2, s3⟩ := hrr
      by_cases h5 : level rrr = m
      · rw [onRight_node (split_rot h5)]
        have := level_right_le hrrl
        have := level_right_le hrrr
        refine ⟨_, rfl, ⟨⟨hl, ha, by omega, by omega, by omega, by omega⟩, ⟨⟨hb, hrrl, by omega, by omega, by omega, by omega⟩, hrrr, by omega, by simp [level], by omega, by omega⟩,
          by omega, by simp [level], by simp [level], by simp only [level_node, level_sent, right_node, right_sent]; omega⟩, by simp [toList], by simp [level], ?_⟩
        intro h; simp only [level_node] at h; omega
      · rw [onRight_node (split_id (by simpa [right] using h5))]
        refine ⟨_, rfl, ⟨⟨hl, ha, by omega, by omega, by omega, by omega⟩, ⟨hb, ⟨hrrl, hrrr, by omega, by omega, by omega, by omega⟩, by omega, by omega, by simp [level], by simp only [level_node, level_sent, right_node, right_sent]; omega⟩,
          by omega, by simp [level], by simp [level], by simp only [level_node, level_sent, right_node, right_sent]; omega⟩, by simp [toList], by simp [level], ?_⟩
        intro h; simp only [level_node] at h; omega
  · -- the right child is one level below
    rw [show level r = m by omega] at hrn
    subst hrn
    have hr' := hr
    obtain ⟨hrl, hrr, _, q1, q2, q3⟩ := hr
    have hrrl := level_right_le hrl
    have hrrr := level_right_le hrr
    simp only [lower, show ¬ (m > m) by omega, if_false, Option.bind_some]
    rw [skew_id (by omega), Option.bind_some, onRight_node (skew_aa hr'), Option.bind_some,
      onRight_node (onRight_skew_aa hr'), Option.bind_some]
    by_cases h5 : level rr = m
    · rw [split_rot h5, Option.bind_some, onRight_node (split_aa hrr (by omega))]
      refine ⟨_, rfl, ⟨⟨hl, hrl, by omega, by omega, by omega, by omega⟩, hrr, by omega, by simp [level], by omega, by omega⟩,
        by simp [toList], by simp [level], ?_⟩
      intro _ _; simp only [level_node, level_sent, right_node, right_sent]; omega
    · rw [split_id (by simpa [right] using h5), Option.bind_some, onRight_node (split_aa hr' (by simp [level]; omega))]
      refine ⟨_, rfl, ⟨hl, hr', by omega, by omega, by simp [level], by simp only [level_node, level_sent, right_node, right_sent]; omega⟩, by simp [toList], by simp [level], ?_⟩
      intro _ h; simp only [level_node] at h; omega

/-- The right child has lost a level. -/
theorem fix_right {lv : Int} {l r : Tree α} {x : α} (hl : AATree l) (hr : AATree r) (hlv : 2 ≤ lv) (h1 : level l = lv - 1)
    (h2 : level r = lv - 2) :
    ∃ t, fix lv l x r = some t ∧ AATree t ∧ toList t = toList l ++ x :: toList r ∧ (level t = lv ∨ level t = lv - 1) ∧
      (level t = lv → level (right t) < lv) := by
  obtain ⟨m, rfl⟩ : ∃ m, lv = m + 1 := ⟨lv - 1, by omega⟩
  obtain ⟨a, y, b, hln⟩ := level_pos hl (by omega)
  unfold fix
  rw [show m + 1 - 1 = m by omega] at *
  rw [h1] at hln
  subst hln
  obtain ⟨ha, hb, _, p1, p2, p3⟩ := hl
  have hlow : lower m r = some r := by
    cases r with
    | sent => simp only [lower]; rw [if_neg (by omega)]
    | node rlv rl rx rr =>
      simp only [level_node, level_sent, right_node, right_sent] at h2
      simp only [lower]; rw [if_neg (by omega)]
  have hrr := level_right_le hr
  rw [hlow, Option.bind_some, skew_rot rfl, Option.bind_some]
  rcases p2 with p2 | p2
  · obtain ⟨c, z, d, hbn⟩ := level_pos hb (by omega)
    rw [p2] at hbn
    subst hbn
    obtain ⟨hc, hd, _, s1, s2, s3⟩ := hb
    simp only [level_node, level_sent, right_node, right_sent] at p3
    have := level_right_le hc
    have := level_right_le hd
    rw [onRight_node (skew_rot rfl), Option.bind_some, onRight_node (onRight_node (skew_id (by omega))), Option.bind_some,
      split_rot (by simp [level]), Option.bind_some, onRight_node (split_id (by omega))]
    refine ⟨_, rfl, ⟨⟨ha, hc, by omega, by omega, by omega, by omega⟩, ⟨hd, hr, by omega, by omega, by omega, by omega⟩, by omega, by simp [level], by simp [level], by simp only [level_node, level_sent, right_node, right_sent]; omega⟩,
      by simp [toList], by simp [level], ?_⟩
    intro _; simp only [right_node, level_node]; omega
  · rw [onRight_node (skew_id (by omega)), Option.bind_some, onRight_node (onRight_node (skew_aa hr)), Option.bind_some,
      split_id (by simp only [level_node, level_sent, right_node, right_sent]; omega), Option.bind_some, onRight_node (split_id (by omega))]
    refine ⟨_, rfl, ⟨ha, ⟨hb, hr, by omega, by omega, by omega, by omega⟩, by omega, by omega, by simp [level], by simp only [level_node, level_sent, right_node, right_sent]; omega⟩,
      by simp [toList], by simp [level], ?_⟩
    intro h; simp only [level_node] at h; omega

theorem fixup_id {lv : Int} {l r : Tree α} {x : α} (h : AATree (.node lv l x r)) : fixup lv l x r = some (.node lv l x r) := by
  obtain ⟨_, _, _, h1, h2, _⟩ := h
  unfold fixup
  rw [if_neg (by omega)]

/-- `t'` may replace `t` after a removal. -/
def RemOK (t t' : Tree α) : Prop :=
  (level t' = level t ∨ level t' = level t - 1) ∧
  (level (right t) < level t → level t' = level t → level (right t') < level t)

theorem RemOK.refl (t : Tree α) : RemOK t t := ⟨Or.inl rfl, fun h _ => h⟩

theorem fixup_left {lv : Int} {l l' r : Tree α} {x y : α} (h : AATree (.node lv l x r)) (hl' : AATree l') (hok : RemOK l l') :
    ∃ t, fixup lv l' y r = some t ∧ AATree t ∧ toList t = toList l' ++ y :: toList r ∧ RemOK (.node lv l x r) t := by
  obtain ⟨hl, hr, hlv, h1, h2, h3⟩ := h
  rcases hok.1 with h4 | h4
  · have : AATree (.node lv l' y r) := ⟨hl', hr, hlv, by omega, h2, h3⟩
    exact ⟨_, fixup_id this, this, rfl, Or.inl rfl, fun h _ => h⟩
  · have := level_nonneg hl'
    obtain ⟨t, e1, e2, e3, e4, e5⟩ := fix_left (x := y) hl' hr (by omega) (by omega) h2 h3
    refine ⟨t, ?_, e2, e3, e4, ?_⟩
    · unfold fixup; rw [if_pos (by omega), e1]
    · simp only [level_node, level_sent, right_node, right_sent]; exact e5

theorem fixup_right {lv : Int} {l r r' : Tree α} {x y : α} (h : AATree (.node lv l x r)) (hr' : AATree r') (hok : RemOK r r') :
    ∃ t, fixup lv l y r' = some t ∧ AATree t ∧ toList t = toList l ++ y :: toList r' ∧ RemOK (.node lv l x r) t := by
  obtain ⟨hl, hr, hlv, h1, h2, h3⟩ := h
  have hrr := level_right_le hr'
  by_cases h4 : level r' = lv - 2
  · have := level_nonneg hr'
    obtain ⟨t, e1, e2, e3, e4, e5⟩ := fix_right (x := y) hl hr' (by omega) (by omega) h4
    refine ⟨t, ?_, e2, e3, e4, ?_⟩
    · unfold fixup; rw [if_pos (by omega), e1]
    · simp only [level_node, level_sent, right_node, right_sent]; exact fun _ => e5
  · have h5 : level r' = lv ∨ level r' = lv - 1 := by
      have := hok.1; omega
    have h6 : level (right r') < lv := by
      by_cases h7 : level r' = lv
      · have h8 := hok.1
        have h9 := hok.2
        rw [show level r = lv by omega] at h9
        exact h9 h3 h7
      · omega
    have : AATree (.node lv l y r') := ⟨hl, hr', hlv, h1, h5, h6⟩
    refine ⟨_, fixup_id this, this, rfl, Or.inl rfl, ?_⟩
    simp only [level_node, level_sent, right_node, right_sent]
    intro h7 _
    have := hok.1
    omega

/-- What `_remove` does to the in-order contents.  `A` are the elements not above `data`, `B` those above it. -/
def RemSpec (cmp : α → α → Int) (data : α) (t : Tree α) (del : Del α) (A B : List α) (o : Option (Out α)) : Prop :=
  match A.getLast? with
  | some p =>
    if cmp data p = 0 then ∃ t', o = some ⟨t', .sent, true, none⟩ ∧ AATree t' ∧ RemOK t t' ∧ toList t' = A.dropLast ++ B
    else o = some ⟨t, .node p, false, none⟩
  | none =>
    match hit cmp data del with
    | none => o = none
    | some false => o = some ⟨t, del, false, none⟩
    | some true => ∃ b B' t', B = b :: B' ∧ o = some ⟨t', .sent, true, some b⟩ ∧ AATree t' ∧ RemOK t t' ∧ toList t' = B'

theorem remove_spec {cmp : α → α → Int} (data : α) : ∀ (t : Tree α) (del : Del α) (A B : List α), t ≠ .sent → AATree t →
    toList t = A ++ B → (∀ a ∈ A, 0 ≤ cmp data a) → (∀ b ∈ B, cmp data b < 0) →
    RemSpec cmp data t del A B (remove cmp data t del) := by
  intro t
  induction t with
  | sent => intro _ _ _ h; exact absurd rfl h
  | node lv l x r ihl ihr =>
    intro del A B _ haa hAB hA hB
    have haa' := haa
    obtain ⟨hl, hr, hlv, h1, h2, h3⟩ := haa
    simp only [toList] at hAB
    unfold remove
    by_cases hc : cmp data x < 0
    · rw [if_pos hc]
      -- everything from `x` on is above `data`
      obtain ⟨B0, hB0, hlA⟩ : ∃ B0, B = B0 ++ x :: toList r ∧ toList l = A ++ B0 := by
        rcases List.append_eq_append_iff.1 hAB with ⟨C, e1, e2⟩ | ⟨C, e1, e2⟩
        · cases C with
          | nil => exact ⟨[], by simpa using e2.symm, by simpa using e1.symm⟩
          | cons c C =>
            simp only [List.cons_append, List.cons.injEq] at e2
            have := hA c (by rw [e1]; simp)
            rw [← e2.1] at this
            omega
        · exact ⟨C, e2, e1⟩
      cases l with
      | sent =>
        simp only [toList] at hlA
        have := List.append_eq_nil_iff.1 hlA.symm
        obtain ⟨rfl, rfl⟩ := this
        simp only [RemSpec, List.getLast?_nil]
        cases hh : hit cmp data del with
        | none => simp
        | some b =>
          cases b with
          | false => simp [fixup_id haa']
          | true =>
            simp only [Option.bind_some, if_true]
            refine ⟨x, toList r, r, by simpa using hB0, rfl, hr, ?_, rfl⟩
            simp only [level_node, level_sent, right_node, right_sent] at h1
            refine ⟨by simp only [level_node, level_sent, right_node, right_sent]; omega, ?_⟩
            simp only [level_node, level_sent, right_node, right_sent]
            intro h4 h5; omega
      | node llv ll lx lr =>
        have ih := ihl del A B0 (by simp) hl hlA hA (fun b hb => hB b (by rw [hB0]; simp [hb]))
        simp only [RemSpec] at ih ⊢
        cases hlast : A.getLast? with
        | some p =>
          rw [hlast] at ih
          simp only at ih ⊢
          split
          · next h0 =>
            rw [if_pos h0] at ih
            obtain ⟨t', e1, e2, e3, e4⟩ := ih
            obtain ⟨t'', f1, f2, f3, f4⟩ := fixup_left (y := x) haa' e2 e3
            exact ⟨t'', by simp [e1, f1], f2, f4, by simp [f3, e4, hB0]⟩
          · next h0 =>
            rw [if_neg h0] at ih
            simp [ih, fixup_id haa']
        | none =>
          rw [hlast] at ih
          simp only at ih ⊢
          cases hh : hit cmp data del with
          | none => rw [hh] at ih; simp only at ih ⊢; rw [ih]; rfl
          | some b =>
            rw [hh] at ih
            cases b with
            | false => simp only at ih ⊢; simp [ih, fixup_id haa']
            | true =>
              simp only at ih ⊢
              obtain ⟨b, B', t', e0, e1, e2, e3, e4⟩ := ih
              obtain ⟨t'', f1, f2, f3, f4⟩ := fixup_left (y := x) haa' e2 e3
              exact ⟨b, B' ++ x :: toList r, t'', by simp [hB0, e0], by simp [e1, f1], f2, f4, by simp [f3, e4]⟩
    · rw [if_neg hc]
      obtain ⟨A0, hA0, hrB⟩ : ∃ A0, A = toList l ++ x :: A0 ∧ toList r = A0 ++ B := by
        rcases List.append_eq_append_iff.1 hAB with ⟨C, e1, e2⟩ | ⟨C, e1, e2⟩
        · cases C with
          | nil =>
            simp only [List.nil_append] at e2
            exact absurd (hB x (by rw [← e2]; simp)) hc
          | cons c C =>
            simp only [List.cons_append, List.cons.injEq] at e2
            exact ⟨C, by rw [e1, e2.1], e2.2⟩
        · exact absurd (hB x (by rw [e2]; simp)) hc
      cases r with
      | sent =>
        simp only [toList] at hrB
        obtain ⟨rfl, rfl⟩ := List.append_eq_nil_iff.1 hrB.symm
        have hlast : A.getLast? = some x := by rw [hA0]; simp
        simp only [RemSpec, hlast, hit, Option.bind_some, decide_eq_true_eq]
        split
        · next h0 =>
          have hls : l = .sent := by
            cases l with
            | sent => rfl
            | node llv ll lx lr =>
              have := hl.2.2.1
              simp only [level_node, level_sent, right_node, right_sent] at *
              omega
          subst hls
          refine ⟨.sent, rfl, trivial, ?_, by simp [hA0, toList]⟩
          simp only [level_node, level_sent, right_node, right_sent] at h2
          exact ⟨by simp only [level_node, level_sent, right_node, right_sent]; omega, by simp only [level_node, level_sent, right_node, right_sent]; omega⟩
        · simp [fixup_id haa']
      | node rlv rl rx rr =>
        have ih := ihr (.node x) A0 B (by simp) hr hrB (fun a ha => hA a (by rw [hA0]; simp [ha])) hB
        simp only [RemSpec] at ih ⊢
        cases hlast : A0.getLast? with
        | some p =>
          rw [hlast] at ih
          have hlast' : A.getLast? = some p := by
            rw [hA0, List.getLast?_append, List.getLast?_cons, hlast]; simp
          have hne : A0 ≠ [] := by rintro rfl; simp at hlast
          rw [hlast']
          simp only at ih ⊢
          split
          · next h0 =>
            rw [if_pos h0] at ih
            obtain ⟨t', e1, e2, e3, e4⟩ := ih
            obtain ⟨t'', f1, f2, f3, f4⟩ := fixup_right (y := x) haa' e2 e3
            refine ⟨t'', by simp [e1, f1], f2, f4, ?_⟩
            rw [f3, e4, hA0, List.dropLast_append_of_ne_nil (by simp), List.dropLast_cons_of_ne_nil hne]
            simp
          · next h0 =>
            rw [if_neg h0] at ih
            simp [ih, fixup_id haa']
        | none =>
          rw [hlast] at ih
          rw [List.getLast?_eq_none_iff] at hlast
          subst hlast
          have hlast' : A.getLast? = some x := by rw [hA0]; simp
          rw [hlast']
          simp only [hit] at ih ⊢
          split
          · next h0 =>
            simp only [h0, decide_true] at ih
            obtain ⟨b, B', t', e0, e1, e2, e3, e4⟩ := ih
            obtain ⟨t'', f1, f2, f3, f4⟩ := fixup_right (y := b) haa' e2 e3
            refine ⟨t'', by simp [e1, f1], f2, f4, ?_⟩
            rw [f3, e4, e0, hA0]
            simp
          · next h0 =>
            simp only [h0, decide_false] at ih
            simp [ih, fixup_id haa']

theorem skew_toList {t t' : Tree α} (h : skew t = some t') : toList t' = toList t := by
  unfold skew at h
  split at h
  · cases h; rfl
  · split at h
    · split at h
      · cases h
      · cases h; simp [toList]
    · cases h; rfl

theorem split_toList {t t' : Tree α} (h : split t = some t') : toList t' = toList t := by
  unfold split at h
  split at h
  · cases h
  · split at h
    · split at h
      · cases h
      · cases h; simp [toList]
    · cases h; rfl

/-- Ascending order, equal elements allowed. -/
def Asc (cmp : α → α → Int) (l : List α) : Prop := l.Pairwise fun a b => cmp a b ≤ 0

theorem insert_toList {cmp : α → α → Int} (ho : CmpOrd cmp) (data : α) : ∀ (t t' : Tree α), Asc cmp (toList t) →
    insert cmp data t = some t' →
    ∃ A B, toList t = A ++ B ∧ toList t' = A ++ data :: B ∧ (∀ a ∈ A, 0 ≤ cmp data a) ∧ (∀ b ∈ B, cmp data b < 0) := by
  intro t
  induction t with
  | sent => intro t' _ h; simp [insert] at h; subst h; exact ⟨[], [], by simp [toList]⟩
  | node lv l x r ihl ihr =>
    intro t' hs h
    simp only [Asc, toList, List.pairwise_append, List.pairwise_cons, List.mem_cons] at hs
    obtain ⟨s1, ⟨s2, s3⟩, s4⟩ := hs
    unfold insert at h
    split at h
    · next hc =>
      simp only [Option.bind_eq_some_iff] at h
      obtain ⟨l', e1, n, e2, e3⟩ := h
      obtain ⟨A, B, f1, f2, f3, f4⟩ := ihl l' s1 e1
      refine ⟨A, B ++ x :: toList r, by simp [toList, f1], ?_, f3, ?_⟩
      · rw [split_toList e3, skew_toList e2]; simp [toList, f2]
      · intro b hb
        simp only [List.mem_append, List.mem_cons] at hb
        rcases hb with hb | rfl | hb
        · exact f4 b hb
        · exact hc
        · exact ho.lt_of_lt_of_le hc (s2 b hb)
    · next hc =>
      simp only [Option.bind_eq_some_iff] at h
      obtain ⟨r', e1, n, e2, e3⟩ := h
      obtain ⟨A, B, f1, f2, f3, f4⟩ := ihr r' s3 e1
      refine ⟨toList l ++ x :: A, B, by simp [toList, f1], ?_, ?_, f4⟩
      · rw [split_toList e3, skew_toList e2]; simp [toList, f2]
      · intro a ha
        simp only [List.mem_append, List.mem_cons] at ha
        rcases ha with ha | rfl | ha
        · have h5 := s4 a ha x (Or.inl rfl)
          have h6 := ho.trans a x data h5 (ho.swap_le.2 (by omega))
          exact ho.swap_le.1 h6
        · omega
        · exact f3 a ha

theorem get_spec {cmp : α → α → Int} (ho : CmpOrd cmp) (hsg : ∀ a b, cmp a b = -1 ∨ cmp a b = 0 ∨ cmp a b = 1) (data : α) :
    ∀ (t : Tree α), Asc cmp (toList t) →
    (∀ x, get cmp data t = some x → x ∈ toList t ∧ cmp data x = 0) ∧
    (get cmp data t = none → ∀ x ∈ toList t, cmp data x ≠ 0) := by
  intro t
  induction t with
  | sent => intro _; simp [get, toList]
  | node lv l x r ihl ihr =>
    intro hs
    simp only [Asc, toList, List.pairwise_append, List.pairwise_cons, List.mem_cons] at hs
    obtain ⟨s1, ⟨s2, s3⟩, s4⟩ := hs
    unfold get
    rcases hsg data x with h | h | h
    · rw [if_pos h]
      obtain ⟨g1, g2⟩ := ihl s1
      refine ⟨fun y hy => ⟨by simp [toList, (g1 y hy).1], (g1 y hy).2⟩, fun hn y hy => ?_⟩
      simp only [toList, List.mem_append, List.mem_cons] at hy
      rcases hy with hy | rfl | hy
      · exact g2 hn y hy
      · omega
      · have := ho.lt_of_lt_of_le (show cmp data x < 0 by omega) (s2 y hy); omega
    · rw [if_neg (by omega), if_neg (by omega)]
      refine ⟨fun y hy => ?_, fun hn => by simp at hn⟩
      cases hy
      exact ⟨by simp [toList], h⟩
    · rw [if_neg (by omega), if_pos h]
      obtain ⟨g1, g2⟩ := ihr s3
      refine ⟨fun y hy => ⟨by simp [toList, (g1 y hy).1], (g1 y hy).2⟩, fun hn y hy => ?_⟩
      simp only [toList, List.mem_append, List.mem_cons] at hy
      rcases hy with hy | rfl | hy
      · have h5 := s4 y hy x (Or.inl rfl)
        have h6 : cmp x data < 0 := (ho.sym x data).2 (by omega)
        have h7 := ho.lt_of_le_of_lt h5 h6
        have h8 := ho.sym y data
        omega
      · omega
      · exact g2 hn y hy

end Verif.AA
