import Verif.Log.Spec
import Verif.Text.Props

/-! # The text of an entry -/

namespace Verif.Log

theorem lit_nat (n : Nat) : (Text.lit (toString (n : Int))).length = (Nat.toDigits 10 n).length := by
  have : toString (n : Int) = toString n := rfl
  rw [this, Nat.toString_eq_ofList_toDigits]
  simp [Text.lit]

theorem padded_one (n : Nat) : padded 1 n = Text.lit (toString (n : Int)) := by
  have h := lit_nat n
  have : 0 < (Nat.toDigits 10 n).length := Nat.length_toDigits_pos
  simp only [padded, h]
  rw [show 1 - (Nat.toDigits 10 n).length = 0 by omega]
  rfl

theorem padded_two (n : Nat) : padded 2 n = two n := by
  have h := lit_nat n
  have h0 : 0 < (Nat.toDigits 10 n).length := Nat.length_toDigits_pos
  have h1 := Nat.length_toDigits_le_iff (b := 10) (n := n) (k := 1) (by omega) (by omega)
  simp only [padded, h, two]
  by_cases hn : n < 10
  · rw [if_pos (by omega), show 2 - (Nat.toDigits 10 n).length = 1 by omega]
    rfl
  · rw [if_neg (by omega), show 2 - (Nat.toDigits 10 n).length = 0 by omega]
    rfl

theorem padded_four (n : Nat) (hn : 1000 ≤ n) : padded 4 n = Text.lit (toString (n : Int)) := by
  have h := lit_nat n
  have h1 := Nat.length_toDigits_le_iff (b := 10) (n := n) (k := 3) (by omega) (by omega)
  simp only [padded, h]
  rw [show 4 - (Nat.toDigits 10 n).length = 0 by omega]
  rfl

theorem clock_eq (tz : Int) (c : Clock) (h : -1440 ≤ tz) :
    ((c.hour * 60 + c.min + 1440 + tz : Int).tdiv 60).tmod 24 = minutes tz c / 60 ∧ (c.hour * 60 + c.min + 1440 + tz : Int).tmod 60 = minutes tz c % 60 := by
  have h0 : (0 : Int) ≤ c.hour * 60 + c.min + 1440 + tz := by omega
  rw [Int.tdiv_eq_ediv_of_nonneg h0, Int.tmod_eq_emod_of_nonneg h0, Int.tmod_eq_emod_of_nonneg (by omega)]
  unfold minutes
  omega

theorem dateTime_time (tz : Int) (c : Clock) (h : -1440 ≤ tz) : dateTime tz c true = timeText tz c := by
  obtain ⟨h1, h2⟩ := clock_eq tz c h
  simp only [dateTime, h1, h2, timeText, if_true, List.nil_append]
  have hm : 0 ≤ minutes tz c / 60 ∧ 0 ≤ minutes tz c % 60 := by unfold minutes; omega
  obtain ⟨a, ha⟩ : ∃ a : Nat, minutes tz c / 60 = a := ⟨(minutes tz c / 60).toNat, by omega⟩
  obtain ⟨b, hb⟩ : ∃ b : Nat, minutes tz c % 60 = b := ⟨(minutes tz c % 60).toNat, by omega⟩
  rw [ha, hb, padded_one, padded_two, padded_two]

theorem dateTime_date (tz : Int) (c : Clock) (h : -1440 ≤ tz) (hy : 1000 ≤ c.year) : dateTime tz c false = dateText c ++ [32] ++ timeText tz c := by
  have := dateTime_time tz c h
  simp only [dateTime, if_true, List.nil_append] at this
  simp only [dateTime, Bool.false_eq_true, if_false, padded_four _ hy, padded_two c.month, padded_two c.day, dateText, ← this]
  simp only [List.append_assoc]
  rfl

/-! ## Paths -/

theorem lastOf_append_none (c : Int) (a b : Txt) (h : c ∉ b) : lastOf c (a ++ b) = lastOf c a := by
  have hb : ∀ b : Txt, c ∉ b → lastOf c b = none := by
    intro b h
    induction b with
    | nil => rfl
    | cons x t ih =>
      rw [lastOf, ih (fun e => h (by simp [e]))]
      simp only
      rw [if_neg (fun e => h (by simp [e]))]
  induction a with
  | nil => exact hb b h
  | cons x t ih => simp only [List.cons_append, lastOf, ih]

theorem lastOf_snoc (c : Int) (a : Txt) : lastOf c (a ++ [c]) = some a.length := by
  induction a with
  | nil => simp [lastOf]
  | cons x t ih => simp only [List.cons_append, lastOf, ih, List.length_cons]

theorem lastOf_lt (c : Int) (a : Txt) (i : Nat) (h : lastOf c a = some i) : i < a.length := by
  induction a generalizing i with
  | nil => cases h
  | cons x t ih =>
    simp only [lastOf] at h
    split at h
    · rename_i j hj
      cases h
      have := ih j hj
      simp; omega
    · split at h
      · cases h; simp
      · cases h

theorem trimPath_name (path name : Txt) (h : IsName path name) : trimPath path = name := by
  obtain ⟨dir, rfl, hn, hd⟩ := h
  have n47 : (47 : Int) ∉ name := fun e => (hn _ e).1 rfl
  have n92 : (92 : Int) ∉ name := fun e => (hn _ e).2 rfl
  unfold trimPath
  rw [lastOf_append_none _ _ _ n47, lastOf_append_none _ _ _ n92]
  rcases hd with rfl | hd | hd
  · rfl
  · obtain ⟨d, rfl⟩ := List.getLast?_eq_some_iff.mp hd
    rw [lastOf_snoc]
    cases h2 : lastOf 92 (d ++ [47]) with
    | none => simp [List.drop_append]
    | some j =>
      have := lastOf_lt _ _ _ h2
      simp only [List.length_append, List.length_singleton] at this
      simp only
      rw [show Nat.max d.length j = d.length from Nat.max_eq_left (by omega)]
      simp [List.drop_append]
  · obtain ⟨d, rfl⟩ := List.getLast?_eq_some_iff.mp hd
    rw [lastOf_snoc]
    cases h2 : lastOf 47 (d ++ [92]) with
    | none => simp [List.drop_append]
    | some j =>
      have := lastOf_lt _ _ _ h2
      simp only [List.length_append, List.length_singleton] at this
      simp only
      rw [show Nat.max j d.length = d.length from Nat.max_eq_right (by omega)]
      simp [List.drop_append]

/-! ## Header and message -/

theorem texts_flat (f : Int → Option Txt) (g : Int → Txt) (o : List Text.Out) (h : ∀ n, .inr n ∈ Text.flat o → f n = some (g n)) :
    texts f o = some ((Text.flat o).flatMap fun
      | .inl c => [c]
      | .inr n => g n) := by
  induction o with
  | nil => rfl
  | cons x o ih =>
    have hfl : Text.flat (x :: o) = Text.flat [x] ++ Text.flat o := Text.flat_append [x] o
    rw [hfl] at h ⊢
    have ih := ih fun n hn => h n (by simp [hn])
    rw [List.flatMap_append]
    cases x with
    | text t =>
      simp only [texts, ih, Option.map_some, Text.flat, List.flatMap_cons, List.flatMap_nil, List.append_nil, List.flatMap_map]
      simp
    | arg n =>
      have := h n (by simp [Text.flat])
      simp only [texts, ih, this, Option.bind_some, Option.map_some, Text.flat, List.flatMap_cons, List.flatMap_nil, List.append_nil]

theorem format_texts (f : Int → Option Txt) (g : Int → Txt) (fmt : Txt) (r : List (Int ⊕ Int)) (h0 : 0 ∉ fmt) (hr : Text.Reads fmt r) (h : ∀ n, .inr n ∈ r → f n = some (g n)) :
    (Text.format (fmt ++ [0]) 0 0).bind (texts f) = some (r.flatMap fun
      | .inl c => [c]
      | .inr n => g n) := by
  obtain ⟨o, h1, h2⟩ := Text.format_reads hr [] [] [] h0
  simp only [List.nil_append, List.length_nil, Nat.add_zero, List.map_nil, List.append_nil] at h1 h2
  subst h2
  rw [h1, Option.bind_some]
  exact texts_flat f g o h

theorem msg_text {m : Msg} {t : Txt} (h : IsMsg m t) : m.text = some t := by
  cases h with
  | parts ts => rfl
  | format f args r h0 hr =>
    have := Text.C130_format args (f ++ [0]) 0 f r ⟨h0, [], [], by simp, rfl⟩ hr
    simp only [Msg.text, this, Option.map_some]
    rfl

/-- The settings of a logger as an object. -/
def Logger.is (l : Logger) (c : Conf) : Prop := l.levels = c.levels.map some ∧ l.max = c.max ∧ l.format = c.format ∧ l.null = c.null

theorem entry_text {tz : Int} {l : Logger} {c : Conf} {e : Entry} {t : Txt} (htz : -1440 ≤ tz) (hl : l.is c) (h : IsEntry tz c e t) : entry tz l e = some t := by
  obtain ⟨h1, -, h3, h4⟩ := hl
  cases h with
  | mk fmt level name m r hlev hfmt h0 hr hsrc hdate hname hmsg =>
    have hlt : ¬ (l.levels.length : Int) ≤ e.level := by
      rw [h1, List.length_map]
      unfold levelName at hlev
      split at hlev
      · omega
      · have := (List.getElem?_eq_some_iff.mp hlev).1
        omega
    have hlev' : (if e.level < 0 then some [] else (l.levels[e.level.toNat]?).join) = some level := by
      unfold levelName at hlev
      split at hlev
      · rw [if_pos (by assumption)]; exact hlev
      · rw [if_neg (by assumption), h1, List.getElem?_map, hlev]; rfl
    have hf : l.fmt e.source = fmt := by
      unfold Logger.fmt
      rw [hfmt, h3, h4]
      cases e.source <;> cases c.null <;> rfl
    simp only [entry]
    rw [if_neg hlt, hlev', Option.bind_some]
    have hh : logHeader tz e.clock l e.source e.file (Text.lit (toString e.line)) level = some (r.flatMap fun
        | .inl c => [c]
        | .inr n => argText tz e.clock (e.source.getD []) name (Text.lit (toString e.line)) level n) := by
      unfold logHeader
      rw [hf, trimPath_name _ _ hname]
      apply format_texts _ _ fmt r h0 hr
      intro n hn
      unfold header argText
      by_cases e0 : n = 0
      · subst e0
        rw [if_pos rfl, if_pos rfl]
        cases hs : e.source with
        | none => exact absurd hn (hsrc (by simp [hs]))
        | some x => rfl
      · rw [if_neg e0, if_neg e0]
        by_cases e1 : n = 1
        · rw [if_pos e1, if_pos e1]
        · rw [if_neg e1, if_neg e1]
          by_cases e2 : n = 2
          · rw [if_pos e2, if_pos e2]
          · rw [if_neg e2, if_neg e2]
            by_cases e3 : n = 3
            · rw [if_pos e3, if_pos e3]
            · rw [if_neg e3, if_neg e3]
              by_cases e4 : n = 4
              · rw [if_pos e4, if_pos e4, dateTime_time _ _ htz]
              · rw [if_neg e4, if_neg e4]
                by_cases e5 : n = 5
                · subst e5
                  rw [if_pos rfl, if_pos rfl, dateTime_date _ _ htz (hdate hn).2.2]
                · rw [if_neg e5, if_neg e5]
    rw [hh, Option.bind_some, msg_text hmsg]
    rfl

end Verif.Log
