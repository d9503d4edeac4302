import Verif.Text.Model
import Mathlib.Data.List.Induction

/-!
# Lemmas about strings in memory

The memory is written as `pre ++ s ++ 0 :: rest`: the string `s` starts at the position `pre.length`.
-/

namespace Verif.Text

theorem get_mid {pre post : List Int} {c : Int} {i : Nat} (hi : i = pre.length) : (pre ++ c :: post)[i]? = some c := by
  subst hi; simp

theorem lt_mid {pre post : List Int} {c : Int} {i : Nat} (hi : i = pre.length) : i < (pre ++ c :: post).length := by
  subst hi; simp

theorem getElem_mid {pre post : List Int} {c : Int} {i : Nat} (hi : i = pre.length) (h : i < (pre ++ c :: post).length) :
    (pre ++ c :: post)[i] = c := by
  subst hi; simp

theorem rd_mid {pre post : List Int} {c : Int} {i : Nat} (hi : i = pre.length) : rd (pre ++ c :: post) i = some c := get_mid hi

theorem wr_mid {pre post : List Int} {c v : Int} {i : Nat} (hi : i = pre.length) : wr (pre ++ c :: post) i v = some (pre ++ v :: post) := by
  subst hi; simp [wr]

theorem set_mid {pre post : List Int} {c v : Int} {i : Nat} (hi : i = pre.length) : (pre ++ c :: post).set i v = pre ++ v :: post := by
  subst hi; simp

theorem len_step (pre post : List Int) (c : Int) :
    len (pre ++ c :: post) pre.length = if c = 0 then some 0 else (len (pre ++ c :: post) (pre.length + 1)).map (· + 1) := by
  rw [len, dif_pos (lt_mid rfl), getElem_mid rfl]

theorem ltrim_step (pre post : List Int) (c : Int) :
    ltrim (pre ++ c :: post) pre.length = if 0 < c ∧ c < 33 then ltrim (pre ++ c :: post) (pre.length + 1) else some pre.length := by
  rw [ltrim, dif_pos (lt_mid rfl), getElem_mid rfl]

theorem strchr_step (d : Int) (pre post : List Int) (c : Int) :
    strchr d (pre ++ c :: post) pre.length =
      if c = d then some (some pre.length) else if c = 0 then some none else strchr d (pre ++ c :: post) (pre.length + 1) := by
  rw [strchr, dif_pos (lt_mid rfl), getElem_mid rfl]

theorem strreplace_step (f r : Int) (pre post : List Int) (c : Int) :
    strreplace f r (pre ++ c :: post) pre.length =
      if c = 0 then some (pre ++ c :: post) else strreplace f r (if c = f then pre ++ r :: post else pre ++ c :: post) (pre.length + 1) := by
  rw [strreplace, dif_pos (lt_mid rfl), getElem_mid rfl, set_mid rfl]

theorem strccount_step (d : Int) (pre post : List Int) (c : Int) :
    strccount d (pre ++ c :: post) pre.length =
      if c = 0 then some 0 else (strccount d (pre ++ c :: post) (pre.length + 1)).map fun n => if c = d then n + 1 else n := by
  rw [strccount, dif_pos (lt_mid rfl), getElem_mid rfl]

theorem stripLoop_step (d : Int) (pre post : List Int) (c : Int) (r : List Int) (i : Nat) :
    stripLoop d (pre ++ c :: post) pre.length r i =
      if c = 0 then some (r, i)
      else if c ≠ d then (wr r i c).bind fun r => stripLoop d (pre ++ c :: post) (pre.length + 1) r (i + 1)
      else stripLoop d (pre ++ c :: post) (pre.length + 1) r i := by
  rw [stripLoop, dif_pos (lt_mid rfl), getElem_mid rfl]

theorem len_at (s : List Int) : ∀ (pre rest : List Int), 0 ∉ s → len (pre ++ (s ++ 0 :: rest)) pre.length = some s.length := by
  induction s with
  | nil => intro pre rest _; rw [List.nil_append, len_step, if_pos rfl]; rfl
  | cons c s ih =>
    intro pre rest h
    have hc : c ≠ 0 := fun e => h (by simp [e])
    rw [List.cons_append, len_step, if_neg hc]
    have := ih (pre ++ [c]) rest (fun e => h (by simp [e]))
    rw [List.append_assoc, List.length_append] at this
    simp only [List.singleton_append, List.length_singleton] at this
    rw [this]
    rfl

theorem chars_at (s pre rest : List Int) (h : 0 ∉ s) : chars (pre ++ (s ++ 0 :: rest)) pre.length = some s := by
  rw [chars, len_at s pre rest h]
  simp

theorem ltrim_at (a : List Int) : ∀ (pre : List Int) (c : Int) (rest : List Int), (∀ x ∈ a, 0 < x ∧ x < 33) → ¬ (0 < c ∧ c < 33) →
    ltrim (pre ++ (a ++ c :: rest)) pre.length = some (pre.length + a.length) := by
  induction a with
  | nil => intro pre c rest _ hc; rw [List.nil_append, ltrim_step, if_neg hc]; rfl
  | cons x a ih =>
    intro pre c rest h hc
    rw [List.cons_append, ltrim_step, if_pos (h x (by simp))]
    have := ih (pre ++ [x]) c rest (fun y hy => h y (by simp [hy])) hc
    rw [List.append_assoc, List.length_append] at this
    simp only [List.singleton_append, List.length_singleton] at this
    rw [this]
    simp; omega

/-- Going back over characters below 33 until a character that is not, or the start. -/
theorem back_at (b : List Int) : ∀ (pre t : List Int) (c : Int) (rest : List Int), (∀ x ∈ b, x < 33) → (33 ≤ c ∨ t = []) →
    back (pre ++ (t ++ c :: (b ++ rest))) pre.length (t.length + b.length) = some t.length := by
  induction b using List.reverseRecOn with
  | nil =>
    intro pre t c rest _ hc
    rcases hc with hc | rfl
    · cases t with
      | nil => rfl
      | cons x t =>
        simp only [List.nil_append, List.length_nil, Nat.add_zero, List.length_cons]
        rw [back, show pre ++ (x :: t ++ c :: rest) = (pre ++ x :: t) ++ c :: rest by simp, rd_mid (by simp)]
        simp only [Option.bind_some]
        rw [if_neg (by omega)]
    · rfl
  | append_singleton b x ih =>
    intro pre t c rest h hc
    rw [show t.length + (b ++ [x]).length = (t.length + b.length) + 1 by simp; omega, back,
      show pre ++ (t ++ c :: (b ++ [x] ++ rest)) = (pre ++ t ++ c :: b) ++ x :: rest by simp, rd_mid (by simp; omega)]
    simp only [Option.bind_some]
    rw [if_pos (h x (by simp))]
    have := ih pre t c (x :: rest) (fun y hy => h y (by simp [hy])) hc
    simpa using this

theorem rtrimN_at (pre t b rest : List Int) (c : Int) (hb : ∀ x ∈ b, x < 33) (hc : 33 ≤ c ∨ t = []) (hne : b ≠ []) :
    rtrimN (pre ++ (t ++ c :: (b ++ rest))) pre.length (t.length + b.length) = some (pre ++ (t ++ c :: 0 :: (b.tail ++ rest))) := by
  rw [rtrimN, back_at b pre t c rest hb hc]
  cases b with
  | nil => exact absurd rfl hne
  | cons x b =>
    simp only [Option.bind_some]
    rw [show pre ++ (t ++ c :: (x :: b ++ rest)) = (pre ++ t ++ [c]) ++ x :: (b ++ rest) by simp, wr_mid (by simp; omega)]
    simp

theorem strchr_none (s : List Int) : ∀ (pre rest : List Int) (d : Int), 0 ∉ s → d ∉ s → d ≠ 0 → strchr d (pre ++ (s ++ 0 :: rest)) pre.length = some none := by
  induction s with
  | nil =>
    intro pre rest d _ _ hd
    rw [List.nil_append, strchr_step, if_neg (Ne.symm hd), if_pos rfl]
  | cons c s ih =>
    intro pre rest d h hd h0
    simp only [List.mem_cons, not_or] at h hd
    rw [List.cons_append, strchr_step, if_neg (Ne.symm hd.1), if_neg (Ne.symm h.1)]
    have := ih (pre ++ [c]) rest d h.2 hd.2 h0
    simpa using this

theorem strchr_some (s : List Int) : ∀ (pre rest : List Int) (d : Int), 0 ∉ s → d ∉ s →
    strchr d (pre ++ (s ++ d :: rest)) pre.length = some (some (pre.length + s.length)) := by
  induction s with
  | nil =>
    intro pre rest d _ _
    rw [List.nil_append, strchr_step, if_pos rfl]; rfl
  | cons c s ih =>
    intro pre rest d h hd
    simp only [List.mem_cons, not_or] at h hd
    rw [List.cons_append, strchr_step, if_neg (Ne.symm hd.1), if_neg (Ne.symm h.1)]
    have := ih (pre ++ [c]) rest d h.2 hd.2
    simp only [List.append_assoc, List.singleton_append, List.length_append, List.length_singleton] at this
    rw [this]
    simp; omega

theorem strreplace_at (s : List Int) : ∀ (pre rest : List Int) (f r : Int), 0 ∉ s →
    strreplace f r (pre ++ (s ++ 0 :: rest)) pre.length = some (pre ++ (s.map (fun c => if c = f then r else c) ++ 0 :: rest)) := by
  induction s with
  | nil => intro pre rest f r _; rw [List.nil_append, strreplace_step, if_pos rfl]; rfl
  | cons c s ih =>
    intro pre rest f r h
    simp only [List.mem_cons, not_or] at h
    rw [List.cons_append, strreplace_step, if_neg (Ne.symm h.1)]
    by_cases hf : c = f
    · rw [if_pos hf]
      have := ih (pre ++ [r]) rest f r h.2
      simpa [hf] using this
    · rw [if_neg hf]
      have := ih (pre ++ [c]) rest f r h.2
      simpa [hf] using this

theorem strccount_at (s : List Int) : ∀ (pre rest : List Int) (c : Int), 0 ∉ s → strccount c (pre ++ (s ++ 0 :: rest)) pre.length = some (s.count c) := by
  induction s with
  | nil => intro pre rest c _; rw [List.nil_append, strccount_step, if_pos rfl]; rfl
  | cons x s ih =>
    intro pre rest c h
    simp only [List.mem_cons, not_or] at h
    rw [List.cons_append, strccount_step, if_neg (Ne.symm h.1)]
    have := ih (pre ++ [x]) rest c h.2
    simp only [List.append_assoc, List.singleton_append, List.length_append, List.length_singleton] at this
    rw [this]
    simp only [Option.map_some, List.count_cons, beq_iff_eq]
    split <;> rfl

theorem countN_at (t : List Int) : ∀ (pre t0 : List Int) (rest : List Int) (c x : Int), (t0 ++ t).head? = some x → x ≠ 0 →
    countN c (pre ++ (t0 ++ (t ++ rest))) pre.length t0.length t.length = some (t.count c) := by
  induction t with
  | nil => intros; rfl
  | cons y t ih =>
    intro pre t0 rest c x hx h0
    have h1 : rd (pre ++ (t0 ++ (y :: t ++ rest))) pre.length = some x := by
      cases t0 with
      | nil => simp only [List.nil_append, List.head?_cons, Option.some.injEq] at hx; subst hx; exact get_mid rfl
      | cons z t0 => simp only [List.cons_append, List.head?_cons, Option.some.injEq] at hx; subst hx; exact get_mid rfl
    have h2 : rd (pre ++ (t0 ++ (y :: t ++ rest))) (pre.length + t0.length) = some y := by
      rw [show pre ++ (t0 ++ (y :: t ++ rest)) = (pre ++ t0) ++ y :: (t ++ rest) by simp]
      exact get_mid (by simp)
    rw [List.length_cons, countN, h1, Option.bind_some, if_neg h0, h2, Option.bind_some]
    have := ih pre (t0 ++ [y]) rest c x (by simpa using hx) h0
    simp only [List.append_assoc, List.singleton_append, List.length_append, List.length_singleton] at this
    rw [List.cons_append, this]
    simp only [Option.map_some, List.count_cons, beq_iff_eq]
    split <;> rfl

theorem replaceFrom_at (f r : Int) (t : List Int) : ∀ pre : List Int, replaceFrom f r (pre ++ t) pre.length = pre ++ t.map (fun c => if c = f then r else c) := by
  induction t with
  | nil => intro pre; rw [replaceFrom, dif_neg (by simp)]; rfl
  | cons c t ih =>
    intro pre
    rw [replaceFrom, dif_pos (lt_mid rfl), getElem_mid rfl]
    by_cases hf : c = f
    · rw [if_pos hf, set_mid rfl]; simpa [hf] using ih (pre ++ [r])
    · rw [if_neg hf]; simpa [hf] using ih (pre ++ [c])

theorem stripLoop_at (c : Int) (s : List Int) : ∀ (pre rest done : List Int) (k : Nat), 0 ∉ s → s.length ≤ k →
    stripLoop c (pre ++ (s ++ 0 :: rest)) pre.length (done ++ List.replicate k 0) done.length =
      some (done ++ (s.filter (· ≠ c) ++ List.replicate (k - (s.filter (· ≠ c)).length) 0), (done ++ s.filter (· ≠ c)).length) := by
  induction s with
  | nil =>
    intro pre rest done k _ _
    rw [List.nil_append, stripLoop_step, if_pos rfl]; simp
  | cons x s ih =>
    intro pre rest done k h hk
    simp only [List.mem_cons, not_or] at h
    obtain ⟨k, rfl⟩ : ∃ j, k = j + 1 := ⟨k - 1, by simp at hk; omega⟩
    rw [List.cons_append, stripLoop_step, if_neg (Ne.symm h.1)]
    by_cases hx : x = c
    · rw [if_neg (by simp [hx])]
      have := ih (pre ++ [x]) rest done (k + 1) h.2 (by simp at hk; omega)
      simp only [List.append_assoc, List.singleton_append, List.length_append, List.length_singleton] at this
      rw [this]
      simp [hx]
    · rw [if_pos hx, List.replicate_succ, wr_mid rfl, Option.bind_some]
      have := ih (pre ++ [x]) rest (done ++ [x]) k h.2 (by simp at hk; omega)
      simp only [List.append_assoc, List.singleton_append, List.length_append, List.length_singleton] at this
      rw [this]
      simp [hx]

theorem stripChar_at (c : Int) (s pre rest : List Int) (h : 0 ∉ s) : stripChar c (pre ++ (s ++ 0 :: rest)) pre.length = some (s.filter (· ≠ c)) := by
  rw [stripChar, len_at s pre rest h, Option.bind_some]
  have h1 := stripLoop_at c s pre rest [] (s.length + 2) h (by omega)
  simp only [List.nil_append, List.length_nil] at h1
  rw [h1, Option.bind_some]
  have hf : (s.filter (· ≠ c)).length ≤ s.length := List.length_filter_le ..
  obtain ⟨k, hk⟩ : ∃ k, s.length + 2 - (s.filter (· ≠ c)).length = k + 1 := ⟨s.length + 1 - (s.filter (· ≠ c)).length, by omega⟩
  simp only
  rw [hk, List.replicate_succ, wr_mid rfl, Option.bind_some]
  exact chars_at _ [] _ (fun e => h ((List.mem_filter.mp e).1))

end Verif.Text
