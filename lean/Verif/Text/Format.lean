import Verif.Text.Basic
import Verif.Text.Spec

/-!
# Formats
-/

namespace Verif.Text

theorem digit_iff (c : Int) : digit c = true ↔ Digit c := by simp [digit, Digit]

theorem rd_off (pre l : List Int) (k : Nat) : rd (pre ++ l) (pre.length + k) = l[k]? := by
  rw [rd, List.getElem?_append_right (by omega)]; congr 1; omega

theorem rd_off0 (pre l : List Int) : rd (pre ++ l) pre.length = l[0]? := by simpa using rd_off pre l 0

/-- `hole` on the text at a position. -/
theorem hole_eq (pre l : List Int) : hole (pre ++ l) pre.length =
    (l[0]?).bind fun c0 => if c0 ≠ 123 then some none else
    (l[1]?).bind fun c1 => if ¬ digit c1 then some none else
    (l[2]?).bind fun c2 => if c2 = 125 then some (some (c1 - 48, pre.length + 3)) else if ¬ digit c2 then some none else
    (l[3]?).bind fun c3 => if c3 = 125 then some (some (c2 - 48 + (c1 - 48) * 10, pre.length + 4)) else some none := by
  simp only [hole, rd_off0, rd_off]

theorem hole_arg {h : List Int} {n : Int} (hh : Placeholder h n) (pre post : List Int) :
    hole (pre ++ (h ++ post)) pre.length = some (some (n, pre.length + h.length)) := by
  rw [hole_eq]
  cases hh with
  | one d hd => simp [(digit_iff d).mpr hd]
  | two d e hd he =>
    have : e ≠ 125 := by rintro rfl; simp [Digit] at he
    simp [(digit_iff d).mpr hd, (digit_iff e).mpr he, this]
    omega

theorem digit_zero : ¬ digit 0 = true := by decide

theorem hole_none (t : List Int) (c : Int) (hn : ∀ h n t', Placeholder h n → c :: t ≠ h ++ t') (pre rest : List Int) :
    hole (pre ++ (c :: t ++ 0 :: rest)) pre.length = some none := by
  rw [hole_eq]
  by_cases h0 : c ≠ 123
  · simp [h0]
  simp only [ne_eq, not_not] at h0
  subst h0
  cases t with
  | nil => simp [digit_zero]
  | cons d t =>
    by_cases hd : digit d = true
    swap
    · simp [hd]
    cases t with
    | nil => simp [hd, digit_zero]
    | cons e t =>
      have he : e ≠ 125 := fun h => hn _ _ t (.one d ((digit_iff d).mp hd)) (by simp [h])
      by_cases hg : digit e = true
      swap
      · simp [hd, hg, he]
      cases t with
      | nil => simp [hd, hg, he]
      | cons f t =>
        have hf : f ≠ 125 := fun h => hn _ _ t (.two d e ((digit_iff d).mp hd) ((digit_iff e).mp hg)) (by simp [h])
        simp [hd, hg, he, hf]

/-- The output character by character. -/
def flat (o : List Out) : List (Int ⊕ Int) := o.flatMap fun
  | .text t => t.map .inl
  | .arg n => [.inr n]

theorem flat_flush (pre u post : List Int) : flat (flush (pre ++ (u ++ post)) pre.length (pre.length + u.length)) = u.map .inl := by
  unfold flush
  split
  · simp [flat]
  · rename_i h
    obtain rfl : u = [] := List.length_eq_zero_iff.mp (by omega)
    rfl

theorem flat_append (a b : List Out) : flat (a ++ b) = flat a ++ flat b := by simp [flat]

theorem format_end (m : List Int) (pos p : Nat) (h : p < m.length) (h0 : m[p] = 0) : format m pos p = some (flush m pos p) := by
  rw [format, dif_pos h, if_pos h0]

theorem format_char (m : List Int) (pos p : Nat) (h : p < m.length) (h0 : m[p] ≠ 0) (hh : hole m p = some none) : format m pos p = format m pos (p + 1) := by
  rw [format, dif_pos h, if_neg h0]
  split
  · rename_i e; rw [hh] at e; cases e
  · rfl
  · rename_i e; rw [hh] at e; cases e

theorem format_arg (m : List Int) (pos p q : Nat) (n : Int) (h : p < m.length) (h0 : m[p] ≠ 0) (hh : hole m p = some (some (n, q))) :
    format m pos p = (format m q q).map fun r => flush m pos p ++ .arg n :: r := by
  rw [format, dif_pos h, if_neg h0]
  split
  · rename_i e; rw [hh] at e; cases e
  · rename_i e; rw [hh] at e; cases e
  · rename_i e; rw [hh] at e; cases e; rfl

theorem format_reads {s : List Int} {r : List (Int ⊕ Int)} (h : Reads s r) : ∀ pre u rest : List Int, 0 ∉ s →
    ∃ o, format (pre ++ (u ++ (s ++ 0 :: rest))) pre.length (pre.length + u.length) = some o ∧ flat o = u.map .inl ++ r := by
  induction h with
  | done =>
    intro pre u rest _
    refine ⟨_, format_end _ _ _ (by simp) ?_, ?_⟩
    · rw [List.getElem_of_eq (show pre ++ (u ++ ([] ++ 0 :: rest)) = (pre ++ u) ++ 0 :: rest by simp)]
      exact getElem_mid (by simp) _
    · rw [flat_flush]; simp
  | arg h t n r hh _ ih =>
    intro pre u rest h0
    obtain ⟨h', hc⟩ : ∃ h', h = 123 :: h' := by cases hh <;> exact ⟨_, rfl⟩
    obtain ⟨o, h1, h2⟩ := ih (pre ++ u ++ h) [] rest (fun e => h0 (by simp [e]))
    have hm : pre ++ (u ++ (h ++ t ++ 0 :: rest)) = (pre ++ u) ++ (h ++ (t ++ 0 :: rest)) := by simp
    have hg := hole_arg hh (pre ++ u) (t ++ 0 :: rest)
    rw [← hm] at hg
    have h0' : ∀ hp, (pre ++ (u ++ (h ++ t ++ 0 :: rest)))[pre.length + u.length]'hp ≠ 0 := by
      intro hp
      rw [List.getElem_of_eq (show pre ++ (u ++ (h ++ t ++ 0 :: rest)) = (pre ++ u) ++ 123 :: (h' ++ (t ++ 0 :: rest)) by simp [hc]), getElem_mid (by simp)]
      decide
    rw [List.length_append] at hg
    refine ⟨flush (pre ++ (u ++ (h ++ t ++ 0 :: rest))) pre.length (pre.length + u.length) ++ .arg n :: o, ?_, ?_⟩
    · rw [format_arg _ _ _ _ n (by simp [hc]) (h0' _) hg,
        show pre ++ (u ++ (h ++ t ++ 0 :: rest)) = pre ++ u ++ h ++ ([] ++ (t ++ 0 :: rest)) by simp,
        show pre.length + u.length + h.length = (pre ++ u ++ h).length by simp; omega]
      simp only [List.length_nil, Nat.add_zero] at h1
      rw [h1]
      rfl
    · rw [flat_append, flat_flush]
      simp only [List.map_nil, List.nil_append] at h2
      rw [← h2]
      simp [flat]
  | char c t r hn _ ih =>
    intro pre u rest h0
    have h0c : c ≠ 0 := fun e => h0 (by simp [e])
    obtain ⟨o, h1, h2⟩ := ih pre (u ++ [c]) rest (fun e => h0 (by simp [e]))
    have hg := hole_none t c hn (pre ++ u) rest
    rw [show pre ++ u ++ (c :: t ++ 0 :: rest) = pre ++ (u ++ (c :: t ++ 0 :: rest)) by simp, List.length_append] at hg
    refine ⟨o, ?_, by rw [h2]; simp⟩
    rw [format_char _ _ _ (by simp) _ hg, ← h1]
    · simp [Nat.add_assoc]
    · rw [List.getElem_of_eq (show pre ++ (u ++ (c :: t ++ 0 :: rest)) = (pre ++ u) ++ c :: (t ++ 0 :: rest) by simp), getElem_mid (by simp)]
      exact h0c

theorem reads_total (n : Nat) : ∀ s : List Int, s.length ≤ n → ∃ r, Reads s r := by
  induction n with
  | zero => intro s h; obtain rfl : s = [] := List.length_eq_zero_iff.mp (by omega); exact ⟨[], .done⟩
  | succ n ih =>
    intro s hs
    cases s with
    | nil => exact ⟨[], .done⟩
    | cons c t =>
      by_cases h : ∃ h n t', Placeholder h n ∧ c :: t = h ++ t'
      · obtain ⟨h, k, t', hh, e⟩ := h
        have hl : 0 < h.length := by cases hh <;> simp
        have := congrArg List.length e
        simp only [List.length_cons, List.length_append] at this hs
        obtain ⟨r, hr⟩ := ih t' (by omega)
        exact ⟨.inr k :: r, by rw [e]; exact .arg h t' k r hh hr⟩
      · obtain ⟨r, hr⟩ := ih t (by simp at hs; omega)
        exact ⟨_, .char c t r (fun h' n t' hh e => h ⟨h', n, t', hh, e⟩) hr⟩

theorem pick_eq {α : Type} (rest : List α) : ∀ (k n : Nat), pick ((rest.length : Int) + k - 1) (n + k) rest = rest[n]? := by
  induction rest with
  | nil => intros; simp [pick]
  | cons a rest ih =>
    intro k n
    rw [pick]
    cases n with
    | zero => rw [if_pos (by simp only [List.length_cons]; omega)]; rfl
    | succ n =>
      rw [if_neg (by simp only [List.length_cons]; omega)]
      have := ih (k + 1) n
      rw [show ((a :: rest).length : Int) + k - 1 = (rest.length : Int) + ((k + 1 : Nat) : Int) - 1 by simp only [List.length_cons]; omega,
        show ((n + 1 : Nat) : Int) + k = (n : Int) + ((k + 1 : Nat) : Int) by omega, this]
      rfl

end Verif.Text
