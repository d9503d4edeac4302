import Verif.Ini.Model
import Verif.Ini.Spec

/-!
# INI look-up (C70)
-/

namespace Verif.Ini

open Spec (lines blank trim fold plain opens header sectionEnd sections isEntry entries same nth Plain Item)

/-! ## Words -/

theorem trimL_eq {w rest : List Int} {p : Nat} (hpos : ∀ c ∈ w, 0 < c) (hvis : w.dropWhile blank ≠ []) : trimL (w ++ rest) p = p + (w.takeWhile blank).length := by
  induction w generalizing p with
  | nil => simp at hvis
  | cons c w ih =>
    have hc := hpos c List.mem_cons_self
    rw [List.cons_append, trimL]
    by_cases hb : c < 33
    · rw [if_pos ⟨hc, hb⟩]
      have hbl : blank c = true := by simpa [blank] using hb
      rw [List.dropWhile_cons_of_pos hbl] at hvis
      rw [ih (fun c h => hpos c (List.mem_cons_of_mem _ h)) hvis, List.takeWhile_cons_of_pos hbl, List.length_cons]
      omega
    · rw [if_neg (fun h => hb h.2), List.takeWhile_cons_of_neg (by simpa [blank] using hb)]
      rfl

/-- Without the white space at the end. -/
def rtrim (w : List Int) : List Int := (w.reverse.dropWhile blank).reverse

theorem rtrim_append_blank {w : List Int} {c : Int} (h : blank c = true) : rtrim (w ++ [c]) = rtrim w := by
  simp only [rtrim, List.reverse_append, List.reverse_singleton, List.singleton_append, List.dropWhile_cons_of_pos h]

theorem rtrim_append_visible {w : List Int} {c : Int} (h : ¬blank c = true) : rtrim (w ++ [c]) = w ++ [c] := by
  simp [rtrim, List.dropWhile_cons_of_neg h]

theorem rtrim_prefix (w : List Int) : rtrim w <+: w := by
  have := List.dropWhile_suffix (l := w.reverse) blank
  have := List.reverse_prefix.2 this
  simpa [rtrim] using this

theorem ch_of_drop {t u rest : List Int} {s i : Nat} (h : t.drop s = u ++ rest) (hi : i < u.length) : ch t (s + i) = u[i] := by
  have h1 : (t.drop s)[i]? = some u[i] := by rw [h, List.getElem?_append_left hi, List.getElem?_eq_getElem hi]
  rw [List.getElem?_drop] at h1
  simp [ch, List.getD_eq_getElem?_getD, h1]

theorem trimR_eq {t u rest : List Int} {s : Nat} (h : t.drop s = u ++ rest) (h0 : ∀ x : Int, u.head? = some x → ¬x < 33) :
    ∀ n, n < u.length → trimR t s n + 1 = s + (rtrim (u.take (n + 1))).length := by
  intro n
  induction n with
  | zero =>
    intro hn
    cases u with
    | nil => simp at hn
    | cons x u =>
      have := h0 x rfl
      rw [trimR, List.take_succ_cons, List.take_zero]
      have e := rtrim_append_visible (w := []) (c := x) (by simpa [blank] using this)
      simp only [List.nil_append] at e
      rw [e]
      rfl
  | succ n ih =>
    intro hn
    rw [trimR, ch_of_drop h hn, List.take_succ_eq_append_getElem hn]
    by_cases hb : u[n + 1] < 33
    · rw [if_pos hb, rtrim_append_blank (by simpa [blank] using hb)]
      exact ih (by omega)
    · rw [if_neg hb, rtrim_append_visible (by simpa [blank] using hb)]
      simp only [List.length_append, List.length_take, List.length_singleton]
      omega

theorem fold_eq (w : List Int) : fold w = w.map lower := rfl

theorem strnicmp_eq : ∀ (n : Nat) (a b a' b' : List Int), n ≤ a.length → n ≤ b.length → (∀ c ∈ a, 0 < c) →
    (strnicmp n (a ++ a') (b ++ b') = true ↔ fold (a.take n) = fold (b.take n)) := by
  intro n
  induction n with
  | zero => intro a b a' b' _ _ _; simp [strnicmp]
  | succ n ih =>
    intro a b a' b' ha hb hpos
    cases a with
    | nil => simp at ha
    | cons x a =>
      cases b with
      | nil => simp at hb
      | cons y b =>
        have hx := hpos x List.mem_cons_self
        rw [List.cons_append, List.cons_append, strnicmp]
        simp only [List.take_succ_cons, fold_eq, List.map_cons, List.cons.injEq]
        by_cases he : lower x = lower y
        · rw [if_neg (fun h => h he), if_neg (by omega), ih a b a' b' (by simpa using ha) (by simpa using hb) (fun c h => hpos c (List.mem_cons_of_mem _ h))]
          simp [he, fold_eq]
        · simp [he]

theorem prefix_of_take_eq {a b : List Int} (h : fold (a.take (min a.length b.length)) = fold (b.take (min a.length b.length))) :
    fold a <+: fold b ∨ fold b <+: fold a := by
  by_cases hl : a.length ≤ b.length
  · rw [Nat.min_eq_left hl, List.take_length] at h
    left
    rw [h]
    exact (List.take_prefix _ _).map _
  · rw [Nat.min_eq_right (by omega), List.take_length] at h
    right
    rw [← h]
    exact (List.take_prefix _ _).map _

theorem compare_eq {t rest : List Int} {s : Nat} {i : Item} (h : t.drop s = i.text ++ rest) {name : List Int} (hp : Plain name i) :
    comparevalues t s (s + i.text.length) name = same name i := by
  obtain ⟨hpos, hne, hpre⟩ := hp
  obtain ⟨w, st, sp⟩ := i
  simp only at *
  have hvis : w.dropWhile blank ≠ [] := by
    intro e
    simp [trim, e] at hne
  have hsplit : w.takeWhile blank ++ w.dropWhile blank = w := List.takeWhile_append_dropWhile
  have hlen := congrArg List.length hsplit
  rw [List.length_append] at hlen
  have hdrop : t.drop (s + (w.takeWhile blank).length) = w.dropWhile blank ++ rest := by
    rw [← List.drop_drop, h]
    conv => lhs; arg 2; rw [← hsplit]
    rw [List.append_assoc, List.drop_left]
  have hlp : 0 < (w.dropWhile blank).length := List.length_pos_iff.2 hvis
  have h0 : ∀ x : Int, (w.dropWhile blank).head? = some x → ¬x < 33 := by
    intro x hx
    have := List.head?_dropWhile_not blank w
    rw [hx] at this
    simpa [blank] using this
  have hR := trimR_eq hdrop h0 ((w.dropWhile blank).length - 1) (by omega)
  rw [Nat.sub_add_cancel hlp, List.take_length] at hR
  have htrim : rtrim (w.dropWhile blank) = trim w := rfl
  rw [htrim] at hR
  have hL : trimL (t.drop s) s = s + (w.takeWhile blank).length := by rw [h, trimL_eq hpos hvis]
  have hpfx : trim w <+: w.dropWhile blank := htrim ▸ rtrim_prefix _
  obtain ⟨q, hq⟩ := hpfx
  have hposT : ∀ c ∈ trim w, 0 < c := fun c hc => hpos c (by rw [← hsplit, ← hq]; simp [hc])
  have hlt := List.length_pos_iff.2 hne
  rw [Bool.eq_iff_iff, comparevalues]
  simp only [hL]
  have hE : (if s + w.length - 1 > s + (w.takeWhile blank).length then trimR t (s + (w.takeWhile blank).length) (s + w.length - 1 - (s + (w.takeWhile blank).length))
      else s + w.length - 1) + 1 = s + (w.takeWhile blank).length + (trim w).length := by
    split
    · rw [show s + w.length - 1 - (s + (w.takeWhile blank).length) = (w.dropWhile blank).length - 1 by omega]
      exact hR
    · rename_i hgt
      have h1 : (w.dropWhile blank).length - 1 = 0 := by omega
      rw [h1] at hR
      simp only [trimR] at hR
      omega
  generalize (if s + w.length - 1 > s + (w.takeWhile blank).length then trimR t (s + (w.takeWhile blank).length) (s + w.length - 1 - (s + (w.takeWhile blank).length))
      else s + w.length - 1) = e at hE
  have hn : min ((e : Int) - ↑(s + (w.takeWhile blank).length) + 1) (name.length : Int) = ((min (trim w).length name.length : Nat) : Int) := by omega
  rw [hn, if_neg (by omega), Int.toNat_natCast, hdrop, ← hq, List.append_assoc, List.append_assoc,
    strnicmp_eq _ _ _ _ _ (Nat.min_le_left _ _) (Nat.min_le_right _ _) hposT]
  simp only [same, beq_iff_eq]
  constructor
  · intro he
    exact hpre (prefix_of_take_eq he)
  · intro he
    have hll : (trim w).length = name.length := by simpa [fold] using congrArg List.length he
    rw [hll, Nat.min_self, List.take_length, ← hll, List.take_length]
    exact he

/-! ## Lines -/

/-- Lines with line breaks between them. -/
def join : List (List Int) → List Int
  | [] => []
  | [l] => l
  | l :: m :: ls => l ++ 10 :: join (m :: ls)

theorem lines_ne_nil (t : List Int) : lines t ≠ [] := by
  cases t with
  | nil => simp [lines]
  | cons c t =>
    rw [lines]
    split
    · simp
    · split <;> simp

theorem join_lines (t : List Int) : join (lines t) = t := by
  induction t with
  | nil => rfl
  | cons c t ih =>
    rw [lines]
    cases hl : lines t with
    | nil => exact absurd hl (lines_ne_nil t)
    | cons x xs =>
      rw [hl] at ih
      by_cases hc : c = 10
      · rw [if_pos hc, join, ih, hc]; rfl
      · rw [if_neg hc]
        cases xs with
        | nil => simp only [join] at *; rw [ih]
        | cons y ys => simp only [join] at *; rw [List.cons_append, ih]

theorem lines_no_break (t : List Int) : ∀ l ∈ lines t, (10 : Int) ∉ l := by
  induction t with
  | nil => simp [lines]
  | cons c t ih =>
    rw [lines]
    by_cases hc : c = 10
    · rw [if_pos hc]
      intro l hl
      rcases List.mem_cons.1 hl with rfl | h
      · simp
      · exact ih l h
    · rw [if_neg hc]
      cases hl : lines t with
      | nil => exact absurd hl (lines_ne_nil t)
      | cons x xs =>
        rw [hl] at ih
        intro l hm
        rcases List.mem_cons.1 hm with rfl | h
        · intro hm
          rcases List.mem_cons.1 hm with e | h
          · exact hc e.symm
          · exact ih x List.mem_cons_self h
        · exact ih l (List.mem_cons_of_mem _ h)

/-- At position `cur` of the text the lines `ls` begin; they end at `stop`. -/
def At (t : List Int) (stop cur : Nat) (ls : List (List Int)) : Prop :=
  (ls = [] ∧ cur = stop + 1) ∨
  (ls ≠ [] ∧ (∃ rest, t.drop cur = join ls ++ rest ∧ (rest = [] ∨ rest.head? = some 10)) ∧ cur + (join ls).length = stop ∧ ∀ l ∈ ls, (10 : Int) ∉ l)

theorem lineEnd_eq {l rest : List Int} {p stop : Nat} (hl : (10 : Int) ∉ l) (hr : (rest = [] ∧ stop = p + l.length) ∨ rest.head? = some 10) :
    lineEnd (l ++ rest) p stop = p + l.length := by
  induction l generalizing p with
  | nil =>
    cases rest with
    | nil => rcases hr with ⟨_, h⟩ | h
             · simpa [lineEnd] using h
             · simp at h
    | cons c rest =>
      rcases hr with ⟨h, _⟩ | h
      · simp at h
      · simp only [List.head?_cons, Option.some.injEq] at h
        simp [lineEnd, h]
  | cons c l ih =>
    rw [List.cons_append, lineEnd, if_neg (fun (e : c = 10) => hl (e ▸ List.mem_cons_self)), ih (fun h => hl (List.mem_cons_of_mem _ h)), List.length_cons]
    · omega
    · rcases hr with ⟨h1, h2⟩ | h
      · exact .inl ⟨h1, by rw [List.length_cons] at h2; omega⟩
      · exact .inr h

theorem At.step {t : List Int} {stop cur : Nat} {l : List Int} {ls : List (List Int)} (h : At t stop cur (l :: ls)) :
    lineEnd (t.drop cur) cur stop = cur + l.length ∧ (∃ tail, t.drop cur = l ++ tail) ∧ At t stop (cur + l.length + 1) ls ∧ cur + l.length ≤ stop ∧
      (cur < stop ∨ (l = [] ∧ ls = [])) := by
  rcases h with ⟨h, _⟩ | ⟨_, ⟨rest, hd, hr⟩, hlen, hno⟩
  · cases h
  · have hl := hno l List.mem_cons_self
    cases ls with
    | nil =>
      simp only [join] at hd hlen
      refine ⟨?_, ⟨rest, hd⟩, .inl ⟨rfl, by omega⟩, by omega, ?_⟩
      · rw [hd]
        exact lineEnd_eq hl (hr.imp (fun h => ⟨h, hlen.symm⟩) id)
      · by_cases he : l = []
        · exact .inr ⟨he, rfl⟩
        · have := List.length_pos_iff.2 he
          exact .inl (by omega)
    | cons m ls =>
      simp only [join, List.length_append, List.length_cons] at hd hlen
      refine ⟨?_, ⟨10 :: join (m :: ls) ++ rest, by rw [hd, List.append_assoc]⟩, .inr ⟨by simp, ⟨rest, ?_, hr⟩, by omega, fun l' h => hno l' (List.mem_cons_of_mem _ h)⟩, by omega,
        .inl (by omega)⟩
      · rw [hd, List.append_assoc]
        exact lineEnd_eq hl (.inr rfl)
      · rw [Nat.add_assoc, ← List.drop_drop, hd, List.append_assoc, List.drop_append]
        simp

theorem At_lines (t : List Int) : At t t.length 0 (lines t) :=
  .inr ⟨lines_ne_nil t, ⟨[], by rw [join_lines]; simp, .inl rfl⟩, by rw [join_lines]; omega, lines_no_break t⟩

theorem range_eq {t l tail : List Int} {cur : Nat} (h : t.drop cur = l ++ tail) (k : Nat) (hk : k ≤ l.length) : range t (cur + k) (cur + l.length) = l.drop k := by
  rw [range, ← List.drop_drop, h, show cur + l.length - (cur + k) = (l.drop k).length by rw [List.length_drop]; omega, List.drop_append_of_le_length hk, List.take_left]

theorem snext_eq (l : List Int) (p : Nat) : snextkeychar l p =
    if (l.dropWhile plain).head? = some 91 then .bracket (p + (l.takeWhile plain).length)
    else if (l.dropWhile plain).head? = some 61 then .equals (p + (l.takeWhile plain).length) else .garbage := by
  induction l generalizing p with
  | nil => simp [snextkeychar]
  | cons c l ih =>
    rw [snextkeychar]
    by_cases h1 : c = 59
    · subst h1; simp [plain]
    · by_cases h2 : c = 61
      · subst h2; simp [plain]
      · by_cases h3 : c = 91
        · subst h3; simp [plain]
        · have hp : plain c = true := by simp [plain, h1, h2, h3]
          rw [if_neg h1, if_neg h2, if_neg h3, ih, List.dropWhile_cons_of_pos hp, List.takeWhile_cons_of_pos hp, List.length_cons,
            show p + 1 + (l.takeWhile plain).length = p + ((l.takeWhile plain).length + 1) by omega]

theorem svalid_eq (l : List Int) (p : Nat) : svalidatesection l p true =
    if (l.drop (l.takeWhile fun c => c ≠ 59 ∧ c ≠ 93).length).head? = some 59 then none else some (p + (l.takeWhile fun c => c ≠ 59 ∧ c ≠ 93).length) := by
  induction l generalizing p with
  | nil => simp [svalidatesection]
  | cons c l ih =>
    rw [svalidatesection]
    by_cases h1 : c = 59
    · subst h1; simp
    · by_cases h2 : c = 93
      · subst h2; simp
      · have hp : (decide (c ≠ 59 ∧ c ≠ 93)) = true := by simp [h1, h2]
        rw [if_neg h1, if_neg h2, Bool.true_or, ih, List.takeWhile_cons_of_pos (p := fun c => decide (c ≠ 59 ∧ c ≠ 93)) hp, List.length_cons, List.drop_succ_cons,
          show p + 1 + (l.takeWhile fun c => decide (c ≠ 59 ∧ c ≠ 93)).length = p + ((l.takeWhile fun c => decide (c ≠ 59 ∧ c ≠ 93)).length + 1) by omega]

theorem svalue_eq (l : List Int) (p : Nat) : svalidatevalue l p = p + (l.takeWhile fun c => c ≠ 59).length := by
  induction l generalizing p with
  | nil => simp [svalidatevalue]
  | cons c l ih =>
    rw [svalidatevalue]
    by_cases h1 : c = 59
    · subst h1; simp
    · rw [if_neg h1, ih, List.takeWhile_cons_of_pos (by simpa using h1), List.length_cons]
      omega

theorem validatekey_eq (l : List Int) : validatekey l = l.any fun c => decide (33 ≤ c) := by
  induction l with
  | nil => rfl
  | cons c l ih =>
    rw [validatekey, List.any_cons, ih]
    by_cases h : c ≥ 33
    · rw [if_pos h]; simp; omega
    · rw [if_neg h]; simp; omega

/-! ## The loops -/

theorem snext_opens {l : List Int} {p : Nat} (h : opens l = true) : snextkeychar l p = .bracket (p + (l.takeWhile plain).length) := by
  rw [snext_eq, if_pos (by simpa [opens] using h)]

theorem snext_not_opens {l : List Int} {p : Nat} (h : ¬opens l = true) : ∀ q, snextkeychar l p ≠ .bracket q := by
  intro q
  rw [snext_eq, if_neg (by simpa [opens] using h)]
  split <;> simp

theorem split_line (l : List Int) : l.drop (l.takeWhile plain).length = l.dropWhile plain := by
  have := List.takeWhile_append_dropWhile (p := plain) (l := l)
  conv => lhs; arg 2; rw [← this]
  rw [List.drop_left]

theorem section_found {t name : List Int} {n s : Nat} : ∀ (ls : List (List Int)) (fuel cur cnt : Nat), At t t.length cur ls → t.length + 1 ≤ fuel + cur → 0 < fuel →
    findSectionLoop t name n fuel cur cnt (some s) = some (s, sectionEnd cur ls) := by
  intro ls
  induction ls with
  | nil =>
    intro fuel cur cnt hat hf h0
    obtain ⟨fuel, rfl⟩ : ∃ f, fuel = f + 1 := ⟨fuel - 1, by omega⟩
    rcases hat with ⟨_, h⟩ | ⟨h, _⟩
    · rw [findSectionLoop, if_neg (by omega), sectionEnd, h]
      rfl
    · exact absurd rfl h
  | cons l ls ih =>
    intro fuel cur cnt hat hf h0
    obtain ⟨fuel, rfl⟩ : ∃ f, fuel = f + 1 := ⟨fuel - 1, by omega⟩
    obtain ⟨hline, ⟨tail, hd⟩, hat', hle, hlt⟩ := hat.step
    rw [findSectionLoop, sectionEnd]
    by_cases hc : cur < t.length
    · have hr := range_eq hd 0 (Nat.zero_le _)
      rw [Nat.add_zero, List.drop_zero] at hr
      simp only [if_pos hc, hline, hr]
      by_cases ho : opens l = true
      · rw [snext_opens ho, if_pos ho]
      · rw [if_neg ho]
        have hi := ih fuel (cur + l.length + 1) cnt hat' (by omega) (by omega)
        cases hk : snextkeychar l cur with
        | bracket q => exact absurd hk (snext_not_opens ho q)
        | equals q => exact hi
        | garbage => exact hi
    · rcases hlt with h | ⟨rfl, rfl⟩
      · exact absurd h hc
      · rw [if_neg hc]
        simp only [List.length_nil] at *
        rw [if_neg (by decide), sectionEnd, show cur = t.length by omega]
        rfl

theorem section_loop {t name : List Int} {n : Nat} : ∀ (ls : List (List Int)) (fuel cur cnt : Nat), At t t.length cur ls → t.length + 1 ≤ fuel + cur → 0 < fuel → cnt ≤ n →
    (∀ i ∈ sections cur ls, Plain name i) → findSectionLoop t name n fuel cur cnt none = nth (sections cur ls) name (n - cnt) := by
  intro ls
  induction ls with
  | nil =>
    intro fuel cur cnt hat hf h0 hn hp
    obtain ⟨fuel, rfl⟩ : ∃ f, fuel = f + 1 := ⟨fuel - 1, by omega⟩
    rcases hat with ⟨_, h⟩ | ⟨h, _⟩
    · rw [findSectionLoop, if_neg (by omega)]
      simp [sections, nth]
    · exact absurd rfl h
  | cons l ls ih =>
    intro fuel cur cnt hat hf h0 hn hp
    obtain ⟨fuel, rfl⟩ : ∃ f, fuel = f + 1 := ⟨fuel - 1, by omega⟩
    obtain ⟨hline, ⟨tail, hd⟩, hat', hle, hlt⟩ := hat.step
    rw [findSectionLoop]
    have hp' : ∀ i ∈ sections (cur + l.length + 1) ls, Plain name i := fun i hi => hp i (by rw [sections]; exact List.mem_append_right _ hi)
    by_cases hc : cur < t.length
    · have hr := range_eq hd 0 (Nat.zero_le _)
      rw [Nat.add_zero, List.drop_zero] at hr
      simp only [if_pos hc, hline, hr]
      have hi : ∀ cnt', cnt' ≤ n → _ := fun cnt' hc' => ih fuel (cur + l.length + 1) cnt' hat' (by omega) (by omega) hc' hp'
      by_cases ho : opens l = true
      · rw [snext_opens ho]
        simp only
        generalize hpre : l.takeWhile plain = pre at *
        have hsp := split_line l
        rw [hpre] at hsp
        have hdw : l.dropWhile plain = 91 :: (l.dropWhile plain).tail := by
          have h : (l.dropWhile plain).head? = some 91 := by simpa [opens] using ho
          cases hw : l.dropWhile plain with
          | nil => rw [hw] at h; simp at h
          | cons x xs => rw [hw] at h; simp at h; simp [h]
        have hplen : pre.length + 1 ≤ l.length := by
          have h := congrArg List.length hsp
          rw [hdw, List.length_drop, List.length_cons] at h
          omega
        rw [range_eq hd pre.length (by omega), hsp]
        generalize hrr : (l.dropWhile plain).tail = r at *
        have hcut : header l = if opens l = true ∧ (r.takeWhile fun c => decide (c ≠ 59 ∧ c ≠ 93)) ≠ [] ∧
            (r.drop (r.takeWhile fun c => decide (c ≠ 59 ∧ c ≠ 93)).length).head? ≠ some 59 then some (r.takeWhile fun c => decide (c ≠ 59 ∧ c ≠ 93)) else none := by
          rw [← hrr]; rfl
        rw [hdw]
        have hdr : t.drop (cur + pre.length + 1) = r ++ tail := by
          rw [Nat.add_assoc, ← List.drop_drop, hd, List.drop_append_of_le_length hplen, ← List.drop_drop, hsp, hdw]
          rfl
        rw [show svalidatesection (91 :: r) (cur + pre.length) false = svalidatesection r (cur + pre.length + 1) true from rfl, svalid_eq]
        by_cases h59 : (r.drop (r.takeWhile fun c => c ≠ 59 ∧ c ≠ 93).length).head? = some 59
        · rw [if_pos h59]
          rw [if_neg (fun h => h.2.2 h59)] at hcut
          rw [sections, hcut, List.nil_append]
          exact hi cnt hn
        · rw [if_neg h59]
          simp only
          by_cases hw : (r.takeWhile fun c => c ≠ 59 ∧ c ≠ 93) = []
          · rw [if_neg (fun h => h.2.1 hw)] at hcut
            rw [if_neg (fun h => h.1 (by rw [hw]; rfl)), sections, hcut, List.nil_append]
            exact hi cnt hn
          · rw [if_pos ⟨ho, hw, h59⟩] at hcut
            rw [sections, hcut, hpre] at hp ⊢
            simp only [List.singleton_append] at hp ⊢
            have hpl := hp _ List.mem_cons_self
            have htw : r.takeWhile (fun c => c ≠ 59 ∧ c ≠ 93) ++ (r.dropWhile (fun c => c ≠ 59 ∧ c ≠ 93)) = r := List.takeWhile_append_dropWhile
            have hcmp := compare_eq (t := t) (s := cur + pre.length + 1) (rest := r.dropWhile (fun c => c ≠ 59 ∧ c ≠ 93) ++ tail)
              (by simp only; rw [hdr, ← List.append_assoc, htw]) hpl
            simp only at hcmp
            rw [hcmp]
            have hwl := List.length_pos_iff.2 hw
            rw [nth, List.filter_cons]
            cases hsame : same name ⟨r.takeWhile (fun c => c ≠ 59 ∧ c ≠ 93), cur + pre.length, sectionEnd (cur + l.length + 1) ls⟩ with
            | false =>
              rw [if_neg (by simp)]
              exact hi cnt hn
            | true =>
              rw [if_pos ⟨by omega, rfl⟩]
              simp only [if_true]
              by_cases hcn : cnt = n
              · rw [if_pos hcn, section_found ls fuel _ _ hat' (by omega) (by omega), hcn, Nat.sub_self]
                rfl
              · rw [if_neg hcn, hi (cnt + 1) (by omega), show n - cnt = (n - (cnt + 1)) + 1 by omega, List.getElem?_cons_succ]
                rfl
      · have hh : header l = none := by simp [header, ho]
        rw [sections, hh, List.nil_append]
        cases hk : snextkeychar l cur with
        | bracket q => exact absurd hk (snext_not_opens ho q)
        | equals q => exact hi cnt hn
        | garbage => exact hi cnt hn
    · rcases hlt with h | ⟨rfl, rfl⟩
      · exact absurd h hc
      · rw [if_neg hc]
        simp [sections, nth, header, opens]

theorem entry_loop {t key : List Int} {stop n : Nat} : ∀ (ls : List (List Int)) (fuel cur cnt : Nat), At t stop cur ls → stop + 1 ≤ fuel + cur → 0 < fuel → cnt ≤ n →
    (∀ i ∈ entries cur ls, Plain key i) → findEntryLoop t stop key n fuel cur cnt = nth (entries cur ls) key (n - cnt) := by
  intro ls
  induction ls with
  | nil =>
    intro fuel cur cnt hat hf h0 hn hp
    obtain ⟨fuel, rfl⟩ : ∃ f, fuel = f + 1 := ⟨fuel - 1, by omega⟩
    rcases hat with ⟨_, h⟩ | ⟨h, _⟩
    · rw [findEntryLoop, if_neg (by omega)]
      simp [entries, nth]
    · exact absurd rfl h
  | cons l ls ih =>
    intro fuel cur cnt hat hf h0 hn hp
    obtain ⟨fuel, rfl⟩ : ∃ f, fuel = f + 1 := ⟨fuel - 1, by omega⟩
    obtain ⟨hline, ⟨tail, hd⟩, hat', hle, hlt⟩ := hat.step
    rw [findEntryLoop]
    have hp' : ∀ i ∈ entries (cur + l.length + 1) ls, Plain key i := fun i hi => hp i (by rw [entries]; exact List.mem_append_right _ hi)
    by_cases hc : cur < stop
    · have hr := range_eq hd 0 (Nat.zero_le _)
      rw [Nat.add_zero, List.drop_zero] at hr
      simp only [if_pos hc, hline, hr]
      have hi : ∀ cnt', cnt' ≤ n → _ := fun cnt' hc' => ih fuel (cur + l.length + 1) cnt' hat' (by omega) (by omega) hc' hp'
      rw [snext_eq]
      by_cases h91 : (l.dropWhile plain).head? = some 91
      · have hh : ¬isEntry l = true := by simp [isEntry, h91]
        rw [if_pos h91, entries, if_neg hh, List.nil_append]
        exact hi cnt hn
      · rw [if_neg h91]
        by_cases h61 : (l.dropWhile plain).head? = some 61
        · rw [if_pos h61]
          simp only
          have hsp := split_line l
          have htd : l.takeWhile plain ++ l.dropWhile plain = l := List.takeWhile_append_dropWhile
          generalize hpre : l.takeWhile plain = k at *
          have hklen : k.length + 1 ≤ l.length := by
            have h := congrArg List.length hsp
            rw [List.length_drop] at h
            cases hw : l.dropWhile plain with
            | nil => rw [hw] at h61; simp at h61
            | cons x xs => rw [hw, List.length_cons] at h; omega
          have hdk : t.drop cur = k ++ (l.dropWhile plain ++ tail) := by rw [hd, ← List.append_assoc, htd]
          have hrk := range_eq hdk 0 (Nat.zero_le _)
          rw [Nat.add_zero, List.drop_zero] at hrk
          rw [hrk, validatekey_eq]
          have hie : isEntry l = k.any fun c => decide (33 ≤ c) := by simp [isEntry, h61, hpre]
          cases hv : k.any fun c => decide (33 ≤ c) with
          | false =>
            rw [if_neg (by simp), entries, if_neg (by rw [hie, hv]; simp), List.nil_append]
            exact hi cnt hn
          | true =>
            have hie' : isEntry l = true := by rw [hie, hv]
            rw [entries, if_pos hie'] at hp ⊢
            simp only [hpre, List.singleton_append] at hp ⊢
            have hpl := hp _ List.mem_cons_self
            have hcmp := compare_eq (t := t) (s := cur) (rest := l.dropWhile plain ++ tail) hdk hpl
            simp only at hcmp
            rw [hcmp]
            generalize hit : (Item.mk k _ _) = it at *
            rw [nth, List.filter_cons]
            cases hsame : same key it with
            | false =>
              rw [if_neg (by simp)]
              exact hi cnt hn
            | true =>
              rw [if_pos ⟨trivial, rfl⟩]
              simp only [if_true]
              by_cases hcn : cnt = n
              · rw [if_pos hcn, hcn, Nat.sub_self, List.getElem?_cons_zero, Option.map_some, svalue_eq, Nat.add_assoc cur, range_eq hd _ hklen, hdk,
                  trimL_eq]
                · rw [← hit]; simp only [Nat.add_assoc]
                · subst hit; exact hpl.1
                · subst hit
                  intro e
                  exact hpl.2.1 (by simp [trim, e])
              · rw [if_neg hcn, hi (cnt + 1) (by omega), show n - cnt = (n - (cnt + 1)) + 1 by omega, List.getElem?_cons_succ]
                rfl
        · have hh : ¬isEntry l = true := by simp [isEntry, h61]
          rw [if_neg h61, entries, if_neg hh, List.nil_append]
          exact hi cnt hn
    · rcases hlt with h | ⟨rfl, rfl⟩
      · exact absurd h hc
      · rw [if_neg hc]
        simp [entries, nth, isEntry]

/-! ## The end of a section is the end of a line -/

theorem At.boundary {t : List Int} {cur : Nat} {l : List Int} {ls : List (List Int)} (h : At t t.length cur (l :: ls)) :
    cur + l.length = t.length ∨ t[cur + l.length]? = some 10 := by
  rcases h with ⟨h, _⟩ | ⟨_, ⟨rest, hd, hr⟩, hlen, hno⟩
  · cases h
  · cases ls with
    | nil => exact .inl hlen
    | cons m ls =>
      right
      rw [← List.getElem?_drop, hd, join, List.append_assoc, List.getElem?_append_right (Nat.le_refl _)]
      simp

theorem sectionEnd_spec {t : List Int} : ∀ (ls : List (List Int)) (cur : Nat), 0 < cur → At t t.length cur ls → (cur - 1 = t.length ∨ t[cur - 1]? = some 10) → cur - 1 ≤ t.length →
    cur - 1 ≤ sectionEnd cur ls ∧ sectionEnd cur ls ≤ t.length ∧ (sectionEnd cur ls = t.length ∨ t[sectionEnd cur ls]? = some 10) := by
  intro ls
  induction ls with
  | nil => intro cur _ _ h h2; exact ⟨Nat.le_refl _, h2, h⟩
  | cons l ls ih =>
    intro cur h0 hat h h2
    rw [sectionEnd]
    split
    · exact ⟨Nat.le_refl _, h2, h⟩
    · obtain ⟨_, _, hat', hle, _⟩ := hat.step
      obtain ⟨h3, h4, h5⟩ := ih (cur + l.length + 1) (by omega) hat' hat.boundary hle
      exact ⟨by omega, h4, h5⟩

theorem sections_spec {t : List Int} : ∀ (ls : List (List Int)) (cur : Nat), At t t.length cur ls → ∀ i ∈ sections cur ls,
    i.start ≤ i.stop ∧ i.stop ≤ t.length ∧ (i.stop = t.length ∨ t[i.stop]? = some 10) := by
  intro ls
  induction ls with
  | nil => intro cur _ i h; cases h
  | cons l ls ih =>
    intro cur hat i hi
    obtain ⟨_, _, hat', hle, _⟩ := hat.step
    rw [sections] at hi
    rcases List.mem_append.1 hi with h | h
    · cases hh : header l with
      | none => rw [hh] at h; cases h
      | some w =>
        rw [hh] at h
        simp only [List.mem_singleton] at h
        subst h
        obtain ⟨h3, h4, h5⟩ := sectionEnd_spec ls (cur + l.length + 1) (by omega) hat' hat.boundary hle
        refine ⟨?_, h4, h5⟩
        have := (List.takeWhile_prefix plain (l := l)).length_le
        simp only
        omega
    · exact ih _ hat' i h

/-! ## Theorems -/

/-- **C70**, sections, for names the code gets right (`Plain`): `bssFindINISection` returns the chunk of the `n`-th section of that name, up to case and the white space around
it: from its `[` to the line before the next section or the end. If there is none, it returns null pointers. Missing: names one of which begins with the other, blank
section names and names of other than ASCII characters; see the counterexamples. -/
theorem C70_section_partial (t name : List Int) (n : Nat) (h : ∀ i ∈ sections 0 (lines t), Plain name i) : findSection t name n = nth (sections 0 (lines t)) name n :=
  section_loop (lines t) (t.length + 1) 0 0 (At_lines t) (by omega) (by omega) (by omega) h

/-- **C70**, entries, for keys the code gets right (`Plain`): in a chunk returned for a section, `bssFindINIEntry` returns the `m`-th entry of that key, from the key to the end of
the value, or null pointers. -/
theorem C70_entry_partial (t name key : List Int) (n m : Nat) (h : ∀ i ∈ sections 0 (lines t), Plain name i) (s e : Nat) (hs : findSection t name n = some (s, e))
    (hk : ∀ i ∈ entries s (lines ((t.take e).drop s)), Plain key i) : findEntry t (s, e) key m = nth (entries s (lines ((t.take e).drop s))) key m := by
  rw [C70_section_partial t name n h, nth, Option.map_eq_some_iff] at hs
  obtain ⟨i, hi, he⟩ := hs
  simp only [Prod.mk.injEq] at he
  obtain ⟨rfl, rfl⟩ := he
  have hmem : i ∈ sections 0 (lines t) := (List.mem_filter.1 (List.mem_of_getElem? hi)).1
  obtain ⟨h1, h2, h3⟩ := sections_spec _ _ (At_lines t) i hmem
  refine entry_loop (lines ((t.take i.stop).drop i.start)) (i.stop + 1) i.start 0 ?_ (by omega) (by omega) (by omega) hk
  refine .inr ⟨lines_ne_nil _, ⟨t.drop i.stop, ?_, ?_⟩, ?_, lines_no_break _⟩
  · rw [join_lines]
    conv => lhs; rw [← List.take_append_drop i.stop t]
    rw [List.drop_append_of_le_length (by rw [List.length_take]; omega)]
  · rcases h3 with h | h
    · exact .inl (by rw [h, List.drop_length])
    · exact .inr (by rw [List.head?_drop, h])
  · rw [join_lines, List.length_drop, List.length_take]
    omega

/-- The characters of a string. -/
def chars (s : String) : List Int := s.toList.map fun c => (c.toNat : Int)

/-- The second section `a`, and the second entry `key` of it. -/
example : findSection (chars "x=1\n[ A ]\n[bc]\ny=2\n [a]\nKey =3;\nkey=4;!\n[bc]") (chars "a") 1 = some (20, 39) ∧
    findEntry (chars "x=1\n[ A ]\n[bc]\ny=2\n [a]\nKey =3;\nkey=4;!\n[bc]") (20, 39) (chars "key") 1 = some (32, 37) ∧
    sections 0 (lines (chars "x=1\n[ A ]\n[bc]\ny=2\n [a]\nKey =3;\nkey=4;!\n[bc]")) = [⟨chars " A ", 4, 9⟩, ⟨chars "bc", 10, 18⟩, ⟨chars "a", 20, 39⟩, ⟨chars "bc", 40, 44⟩] ∧
    entries 20 (lines (((chars "x=1\n[ A ]\n[bc]\ny=2\n [a]\nKey =3;\nkey=4;!\n[bc]").take 39).drop 20)) = [⟨chars "Key ", 24, 30⟩, ⟨chars "key", 32, 37⟩] := by
  decide +kernel

example : (∀ i ∈ sections 0 (lines (chars "x=1\n[ A ]\n[bc]\ny=2\n [a]\nKey =3;\nkey=4;!\n[bc]")), Plain (chars "a") i) ∧
    ∀ i ∈ entries 20 (lines (((chars "x=1\n[ A ]\n[bc]\ny=2\n [a]\nKey =3;\nkey=4;!\n[bc]").take 39).drop 20)), Plain (chars "key") i := by
  unfold Plain
  decide +kernel

/-- A section whose name begins with the requested name, or is the beginning of it, is returned for it. -/
theorem C70_prefix_counterexample : findSection (chars "[ab]") (chars "a") 0 = some (0, 4) ∧ findSection (chars "[a]") (chars "ab") 0 = some (0, 3) ∧
    nth (sections 0 (lines (chars "[ab]"))) (chars "a") 0 = none ∧ findEntry (chars "[s]\nab=1") (0, 8) (chars "a") 0 = some (4, 8) := by
  decide +kernel

/-- A section with a blank name is returned for any name. -/
theorem C70_blank_counterexample : findSection (chars "[ ]") (chars "a") 0 = some (0, 3) := by
  decide +kernel

/-- The bytes of a name that are not ASCII are cut off at its end: `né` in UTF-8 is taken for any name beginning with `n`. -/
theorem C70_utf8_counterexample : findSection [91, 110, -61, -87, 93] (chars "nil") 0 = some (0, 5) := by
  decide +kernel

end Verif.Ini
