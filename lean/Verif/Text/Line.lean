import Verif.Text.Args
import Verif.Text.Spec
import Mathlib.Tactic.Tauto

/-!
# Command lines as the grammar describes them
-/

namespace Verif.Text

theorem isSpace_iff (c : Int) : isSpace c = true ↔ White c := by simp [isSpace, White]

theorem qlen_quote (a : List Int) : ∀ t : List Int, (∀ u x v, a = u ++ 34 :: x :: v → ¬ White x) → (∀ c, t.head? = some c → White c) → qlen (a ++ 34 :: t) = a.length := by
  induction a with
  | nil =>
    intro t _ ht
    cases t with
    | nil => rfl
    | cons y t =>
      have := (isSpace_iff y).mpr (ht y rfl)
      simp [qlen, this]
  | cons x a ih =>
    intro t ha ht
    have ih := ih t (fun u y v h => ha (x :: u) y v (by simp [h])) ht
    obtain ⟨y, r, hy, hn⟩ : ∃ y r, a ++ 34 :: t = y :: r ∧ (x ≠ 34 ∨ ¬ isSpace y) := by
      cases a with
      | nil => exact ⟨34, t, rfl, .inr (by decide)⟩
      | cons y a =>
        refine ⟨y, a ++ 34 :: t, rfl, ?_⟩
        by_cases hx : x = 34
        · exact .inr fun h => ha [] y a (by simp [hx]) ((isSpace_iff y).mp h)
        · exact .inl hx
    rw [List.cons_append, hy, qlen, if_pos hn, ← hy, ih, List.length_cons]

theorem plen_word (a : List Int) : ∀ t : List Int, (∀ c ∈ a, ¬ White c) → (∀ c, t.head? = some c → White c) → plen (a ++ t) = a.length := by
  induction a with
  | nil =>
    intro t _ ht
    cases t with
    | nil => rfl
    | cons y t => simp [plen, (isSpace_iff y).mpr (ht y rfl)]
  | cons x a ih =>
    intro t ha ht
    have hx : isSpace x = false := by rw [← Bool.not_eq_true, isSpace_iff]; exact ha x (by simp)
    have := ih t (fun c hc => ha c (by simp [hc])) ht
    simp only [plen, List.cons_append] at this ⊢
    simp [hx, this]

theorem argv_white (w : Bool) (b : List Int) : ∀ pre post : List Int, (∀ c ∈ b, White c) →
    argv w (pre ++ (b ++ post)) pre.length = argv w (pre ++ b ++ post) (pre ++ b).length := by
  induction b with
  | nil => intro pre post _; simp
  | cons c b ih =>
    intro pre post h
    have := ih (pre ++ [c]) post fun x hx => h x (by simp [hx])
    rw [List.cons_append, argv_space w pre _ c ((isSpace_iff c).mpr (h c (by simp)))]
    simpa using this

/-- The argument starts at a position of the result. -/
def Found (m : List Int) (p : Nat) (a : List Int) : Prop := ∃ u v, u.length = p ∧ m = u ++ (a ++ 0 :: v)

theorem Line.of_nil {s : List Int} {as : List (List Int)} (h : Line s as) (hs : s = []) : as = [] := by
  cases h with
  | done => rfl
  | plain w a t as hw ha => simp at hs; exact absurd hs.2.1 ha
  | quoted => simp at hs

theorem Line.uncons {s : List Int} {as : List (List Int)} (h : Line s as) {e : Int} {t : List Int} (hs : s = e :: t) (he : White e) : Line t as := by
  cases h with
  | done w hw => subst hs; exact .done t fun c hc => hw c (by simp [hc])
  | plain w a t' as hw ha hna hq ht hl =>
    cases w with
    | nil =>
      obtain ⟨c, a, rfl⟩ := List.exists_cons_of_ne_nil ha
      simp only [List.nil_append, List.cons_append, List.cons.injEq] at hs
      exact absurd (hs.1 ▸ he) (hna c (by simp))
    | cons x w =>
      simp only [List.cons_append, List.cons.injEq] at hs
      rw [← hs.2]
      exact .plain w a t' as (fun c hc => hw c (by simp [hc])) ha hna hq ht hl
  | quoted w a t' as hw ha ht hl =>
    cases w with
    | nil =>
      simp only [List.nil_append, List.cons.injEq] at hs
      rw [← hs.1] at he
      simp [White] at he
    | cons x w =>
      simp only [List.cons_append, List.cons.injEq] at hs
      rw [← hs.2]
      exact .quoted w a t' as (fun c hc => hw c (by simp [hc])) ha ht hl

theorem Found.mono {pre x rest a : List Int} {p : Nat} (h : Found (pre ++ (x ++ 0 :: rest)) p a) {m : List Int} (hm : m = pre ++ (x ++ 0 :: rest)) : Found m p a := hm ▸ h

/-- The argument whose text, from its first character on, is `c :: (u ++ e :: v)` or ends with the line. -/
theorem argv_line (n : Nat) : ∀ (s : List Int) (as : List (List Int)), s.length ≤ n → Line s as → ∀ pre rest : List Int, 0 ∉ s →
    ∃ s' ps, argv true (pre ++ (s ++ 0 :: rest)) pre.length = some (pre ++ (s' ++ 0 :: rest), ps) ∧
      List.Forall₂ (Found (pre ++ (s' ++ 0 :: rest))) ps as := by
  induction n with
  | zero =>
    intro s as hn h pre rest _
    obtain rfl : s = [] := List.length_eq_zero_iff.mp (by omega)
    rw [h.of_nil rfl]
    exact ⟨[], [], argv_end true pre rest, .nil⟩
  | succ n ih =>
  intro s as hn h pre rest h0
  -- what follows an argument: nothing, or a separator and a line
  have next : ∀ (q : List Int) (t : List Int) (as : List (List Int)), Line t as → (∀ c, t.head? = some c → White c) → t.length ≤ n → 0 ∉ t →
      (t = [] ∧ as = []) ∨ ∃ e t', t = e :: t' ∧ ∃ s' ps, argv true (q ++ [0] ++ (t' ++ 0 :: rest)) (q.length + 1) = some (q ++ [0] ++ (s' ++ 0 :: rest), ps) ∧
        List.Forall₂ (Found (q ++ [0] ++ (s' ++ 0 :: rest))) ps as := by
    intro q t as hl ht hn h0
    cases t with
    | nil => exact .inl ⟨rfl, hl.of_nil rfl⟩
    | cons e t =>
      refine .inr ⟨e, t, rfl, ?_⟩
      have := ih t as (by simp at hn; omega) (hl.uncons rfl (ht e rfl)) (q ++ [0]) rest (fun h => h0 (by simp [h]))
      simpa using this
  cases h with
  | done w hw =>
    refine ⟨s, [], ?_, .nil⟩
    rw [argv_white true s pre _ hw, argv_end]; simp
  | plain w a t as hw ha hna hq ht hl =>
    obtain ⟨c, a, rfl⟩ := List.exists_cons_of_ne_nil ha
    have hc : isSpace c = false := by rw [← Bool.not_eq_true, isSpace_iff]; exact hna c (by simp)
    have hc34 : c ≠ 34 := fun e => hq (by simp [e])
    have hst : ∀ p, start c p = p := fun p => if_neg hc34
    have hwl : wlen c (a ++ t) = a.length := by
      rw [wlen, if_neg hc34]; exact plen_word a t (fun x hx => hna x (by simp [hx])) ht
    have hm : pre ++ (w ++ (c :: a) ++ t ++ 0 :: rest) = pre ++ (w ++ (c :: (a ++ t ++ 0 :: rest))) := by simp
    simp only [List.mem_append, List.mem_cons, not_or] at h0
    rw [hm, argv_white true w pre _ hw]
    rcases next (pre ++ w ++ c :: a) t as hl ht (by simp at hn; omega) h0.2 with ⟨rfl, rfl⟩ | ⟨e, t, rfl, s', ps, h1, h2⟩
    · refine ⟨w ++ (c :: a), [(pre ++ w).length], ?_, .cons ⟨pre ++ w, rest, rfl, by simp⟩ .nil⟩
      have := argv_last true (pre ++ w) a rest c (by simp only [List.mem_cons, not_or]; exact h0.1.2) hc (by simpa using hwl)
      rw [List.append_nil, this, hst]; simp
    · have hword := argv_word true (pre ++ w) a t rest c e (by simp only [List.mem_append, List.mem_cons, not_or] at h0 ⊢; tauto) hc hwl
      rw [if_pos rfl, show pre ++ w ++ c :: (a ++ 0 :: t ++ 0 :: rest) = pre ++ w ++ c :: a ++ [0] ++ (t ++ 0 :: rest) by simp,
        show (pre ++ w).length + 1 + a.length + 1 = (pre ++ w ++ c :: a).length + 1 by simp; omega, h1] at hword
      have he : pre ++ (w ++ c :: a ++ 0 :: s' ++ 0 :: rest) = pre ++ w ++ c :: a ++ [0] ++ (s' ++ 0 :: rest) := by simp
      refine ⟨w ++ c :: a ++ 0 :: s', (pre ++ w).length :: ps, ?_, .cons ⟨pre ++ w, s' ++ 0 :: rest, rfl, by simp⟩ ?_⟩
      · rw [hword, hst, he]; rfl
      · rw [he]; exact h2
  | quoted w a t as hw ha ht hl =>
    have hst : ∀ p, start 34 p = p + 1 := fun p => if_pos rfl
    have hwl : wlen 34 (a ++ 34 :: t) = a.length := by rw [wlen, if_pos rfl]; exact qlen_quote a t ha ht
    have hm : pre ++ (w ++ 34 :: (a ++ 34 :: t) ++ 0 :: rest) = pre ++ (w ++ (34 :: (a ++ 34 :: t ++ 0 :: rest))) := by simp
    simp only [List.mem_append, List.mem_cons, not_or] at h0
    rw [hm, argv_white true w pre _ hw]
    have hword := argv_word true (pre ++ w) a t rest 34 34
      (fun h => by simp only [List.mem_append, List.mem_cons] at h; tauto) (by decide) hwl
    rw [if_pos rfl, show pre ++ w ++ 34 :: (a ++ 0 :: t ++ 0 :: rest) = pre ++ w ++ 34 :: a ++ [0] ++ (t ++ 0 :: rest) by simp,
      show (pre ++ w).length + 1 + a.length + 1 = (pre ++ w ++ 34 :: a ++ [0]).length by simp; omega] at hword
    obtain ⟨s', ps, h1, h2⟩ := ih t as (by simp at hn; omega) hl (pre ++ w ++ 34 :: a ++ [0]) rest h0.2.2.2.2
    rw [h1] at hword
    have he : pre ++ (w ++ 34 :: a ++ 0 :: s' ++ 0 :: rest) = pre ++ w ++ 34 :: a ++ [0] ++ (s' ++ 0 :: rest) := by simp
    refine ⟨w ++ 34 :: a ++ 0 :: s', ((pre ++ w).length + 1) :: ps, ?_, .cons ⟨pre ++ w ++ [34], s' ++ 0 :: rest, by simp; omega, by simp⟩ ?_⟩
    · rw [hword, hst, he]; rfl
    · rw [he]; exact h2

end Verif.Text
