import Verif.IniDoc.ParseProps
import Verif.IniDoc.Edit
import Verif.IniDoc.EditSpec

/-!
# What the edits do to the lines of a text
-/

namespace Verif.IniDoc

open Verif.Ini.Spec (lines blank trim plain opens header isEntry fold sections entries sectionEnd Item same nth Plain)
open Verif.IniDoc.Spec
open Verif.Ini (join lines_ne_nil join_lines lines_no_break findSection findEntry)

/-! ## Lines -/

/-- Lines with their line breaks. -/
def cat (ls : List (List Int)) : List Int := ls.flatMap fun l => l ++ [10]

theorem cat_cons (l : List Int) (ls : List (List Int)) : cat (l :: ls) = l ++ 10 :: cat ls := by simp [cat]

theorem cat_append (a b : List (List Int)) : cat (a ++ b) = cat a ++ cat b := by simp [cat]

theorem join_append {A X : List (List Int)} (h : X ≠ []) : join (A ++ X) = cat A ++ join X := by
  induction A with
  | nil => simp [cat]
  | cons l A ih =>
    cases hA : A ++ X with
    | nil => exact absurd (List.append_eq_nil_iff.1 hA).2 h
    | cons m ms =>
      rw [List.cons_append, hA, join, ← hA, ih, cat_cons]
      simp

theorem lines_break {l t : List Int} (h : (10 : Int) ∉ l) : lines (l ++ 10 :: t) = l :: lines t := by
  induction l with
  | nil => simp [lines]
  | cons c l ih =>
    have hc : c ≠ 10 := fun he => h (he ▸ List.mem_cons_self)
    rw [List.cons_append, lines, if_neg hc, ih fun he => h (List.mem_cons_of_mem _ he)]

theorem lines_single {l : List Int} (h : (10 : Int) ∉ l) : lines l = [l] := by
  induction l with
  | nil => rfl
  | cons c l ih =>
    have hc : c ≠ 10 := fun he => h (he ▸ List.mem_cons_self)
    rw [lines, if_neg hc, ih fun he => h (List.mem_cons_of_mem _ he)]

theorem lines_cat {A : List (List Int)} (h : ∀ l ∈ A, (10 : Int) ∉ l) (x : List Int) : lines (cat A ++ x) = A ++ lines x := by
  induction A with
  | nil => simp [cat]
  | cons l A ih =>
    rw [cat_cons, List.append_assoc, List.cons_append, lines_break (h l List.mem_cons_self), ih fun m hm => h m (List.mem_cons_of_mem _ hm), List.cons_append]

theorem lines_join {ls : List (List Int)} (hne : ls ≠ []) (h : ∀ l ∈ ls, (10 : Int) ∉ l) : lines (join ls) = ls := by
  obtain ⟨L, m, rfl⟩ : ∃ L m, ls = L ++ [m] := by
    rcases List.eq_nil_or_concat ls with rfl | ⟨L, m, h⟩
    · exact absurd rfl hne
    · exact ⟨L, m, by rw [h, List.concat_eq_append]⟩
  rw [join_append (by simp), lines_cat (fun l hl => h l (by simp [hl])), show join [m] = m from rfl, lines_single (h m (by simp))]

theorem lines_extend {t : List Int} {L : List (List Int)} {m : List Int} (h : lines t = L ++ [m]) (x : List Int) : lines (t ++ x) = L ++ lines (m ++ x) := by
  have hno := lines_no_break t
  rw [h] at hno
  have ht : t = cat L ++ m := by rw [← join_lines t, h, join_append (by simp)]; rfl
  rw [ht, List.append_assoc, lines_cat fun l hl => hno l (by simp [hl])]

theorem lines_last (t : List Int) : ∃ L m, lines t = L ++ [m] := by
  rcases List.eq_nil_or_concat (lines t) with h | ⟨L, m, h⟩
  · exact absurd h (lines_ne_nil t)
  · exact ⟨L, m, by rw [h, List.concat_eq_append]⟩

/-! ## What a line says -/

theorem header_eq (l : List Int) : header l = if opens l = true ∧ bracketed l ≠ [] ∧ ((l.dropWhile plain).tail.drop (bracketed l).length).head? ≠ some 59 then some (bracketed l) else none := rfl

theorem dropWhile_plain {p c : List Int} (hp : ∀ x ∈ p, plain x = true) : (p ++ c).dropWhile plain = c.dropWhile plain := List.dropWhile_append_of_pos hp

theorem takeWhile_plain {p c : List Int} (hp : ∀ x ∈ p, plain x = true) : (p ++ c).takeWhile plain = p ++ c.takeWhile plain := List.takeWhile_append_of_pos hp

theorem opens_prefix {p c : List Int} (hp : ∀ x ∈ p, plain x = true) : opens (p ++ c) = opens c := by rw [opens, dropWhile_plain hp, opens]

theorem header_prefix {p c : List Int} (hp : ∀ x ∈ p, plain x = true) : header (p ++ c) = header c := by
  unfold header
  rw [opens_prefix hp, dropWhile_plain hp]

theorem header_opens {l w : List Int} (h : header l = some w) : opens l = true ∧ bracketed l = w ∧ w ≠ [] := by
  rw [header_eq] at h
  split at h
  · rename_i hc
    cases h
    exact ⟨hc.1, rfl, hc.2.1⟩
  · cases h

theorem isEntry_opens {l : List Int} (h : opens l = true) : isEntry l = false := by
  simp only [opens, isEntry] at *
  simp only [beq_iff_eq] at h
  rw [h]
  rfl

theorem lineEv_opens {l : List Int} (h : opens l = true) : lineEv l = (header l).map fun w => Ev.sec (trim w) := by
  unfold lineEv
  cases header l with
  | none => simp [isEntry_opens h]
  | some w => rfl

theorem lineEv_prefix {p c : List Int} (hp : ∀ x ∈ p, plain x = true) (hc : opens c = true) : lineEv (p ++ c) = lineEv c := by
  rw [lineEv_opens (by rw [opens_prefix hp]; exact hc), lineEv_opens hc, header_prefix hp]

theorem blank_plain {x : Int} (h : blank x = true) : plain x = true := by
  simp only [blank, plain, decide_eq_true_eq] at *
  refine ⟨?_, ?_, ?_⟩ <;> omega

theorem trim_blank_left {p k : List Int} (hp : ∀ x ∈ p, blank x = true) : trim (p ++ k) = trim k := by
  rw [trim_eq_rtrim, List.dropWhile_append_of_pos hp, trim_eq_rtrim]

theorem isEntry_blank {p c : List Int} (hp : ∀ x ∈ p, blank x = true) : isEntry (p ++ c) = isEntry c := by
  have hpl : ∀ x ∈ p, plain x = true := fun x hx => blank_plain (hp x hx)
  unfold isEntry
  rw [dropWhile_plain hpl, takeWhile_plain hpl, List.any_append]
  have : (p.any fun c => decide (33 ≤ c)) = false := by
    rw [List.any_eq_false]
    intro x hx
    have := hp x hx
    simp [blank] at this ⊢
    omega
  rw [this, Bool.false_or]

theorem lineEv_blank_prefix {p c : List Int} (hp : ∀ x ∈ p, blank x = true) : lineEv (p ++ c) = lineEv c := by
  have hpl : ∀ x ∈ p, plain x = true := fun x hx => blank_plain (hp x hx)
  unfold lineEv
  rw [header_prefix hpl, isEntry_blank hp, takeWhile_plain hpl, dropWhile_plain hpl, trim_blank_left hp]

theorem lineEv_plain {l : List Int} (h : ∀ x ∈ l, plain x = true) : lineEv l = none ∧ opens l = false := by
  have : l.dropWhile plain = [] := dropWhile_all h
  constructor
  · simp [lineEv, header, opens, isEntry, this]
  · simp [opens, this]

theorem lineEv_sec {l w : List Int} (h : lineEv l = some (.sec w)) : ∃ w', header l = some w' ∧ trim w' = w := by
  unfold lineEv at h
  cases hh : header l with
  | none => rw [hh] at h; simp only at h; split at h <;> cases h
  | some w' => rw [hh] at h; cases h; exact ⟨w', rfl, rfl⟩

theorem Spec.GoodLine.of_eq {N K : List Int → Prop} {l m : List Int} (h : GoodLine N K l) (hp : ∀ c ∈ m, 0 < c) (ho : opens m = opens l) (he : lineEv m = lineEv l) : GoodLine N K m :=
  ⟨hp, by rw [ho, he]; exact h.hdr, by rw [he]; exact h.ok⟩

theorem Spec.GoodLine.of_plain {N K : List Int → Prop} {l : List Int} (hp : ∀ c ∈ l, 0 < c) (h : ∀ x ∈ l, plain x = true) : GoodLine N K l :=
  ⟨hp, fun ho => (Bool.false_ne_true ((lineEv_plain h).2.symm.trans ho)).elim, fun e he => (Option.some_ne_none e (he.symm.trans (lineEv_plain h).1)).elim⟩

theorem fold_eq_nil {w : List Int} : fold w = [] ↔ w = [] := by simp [fold]

/-- Trailing white space on a line does not matter. -/
theorem lineEv_blank_suffix {N K : List Int → Prop} (hN : Names N) {l : List Int} {c : Int} (hc : blank c = true) (hg : GoodLine N K (l ++ [c])) :
    lineEv (l ++ [c]) = lineEv l ∧ opens (l ++ [c]) = opens l := by
  have hce : ∀ x ∈ [c], plain x = true := by simpa using blank_plain hc
  have hcb : ∀ x ∈ [c], blank x = true := by simpa using hc
  cases hd : l.dropWhile plain with
  | nil =>
    have hl := all_of_dropWhile hd
    have hall : ∀ x ∈ l ++ [c], plain x = true := by
      intro x hx
      rcases List.mem_append.1 hx with h | h
      · exact hl x h
      · exact hce x h
    rw [(lineEv_plain hall).1, (lineEv_plain hall).2, (lineEv_plain hl).1, (lineEv_plain hl).2]
    exact ⟨rfl, rfl⟩
  | cons a r =>
    have hne : l.dropWhile plain ≠ [] := by rw [hd]; simp
    have hd' : (l ++ [c]).dropWhile plain = a :: (r ++ [c]) := by rw [dropWhile_append' hne, hd]; rfl
    have ht' : (l ++ [c]).takeWhile plain = l.takeWhile plain := takeWhile_append' hne
    have ho : opens (l ++ [c]) = opens l := by simp [opens, hd, hd']
    refine ⟨?_, ho⟩
    by_cases hop : opens l = true
    · obtain ⟨w, hw⟩ := hg.hdr (by rw [ho]; exact hop)
      have hN' := hg.ok _ hw
      obtain ⟨w', hh, rfl⟩ := lineEv_sec hw
      rw [hw, lineEv_opens hop]
      have hbr : bracketed l = r.takeWhile fun c => c ≠ 59 ∧ c ≠ 93 := by simp [bracketed, hd]
      have hbr' : bracketed (l ++ [c]) = (r ++ [c]).takeWhile fun c => c ≠ 59 ∧ c ≠ 93 := by simp [bracketed, hd']
      have hcp : c ≠ 59 ∧ c ≠ 93 := by
        simp only [blank, decide_eq_true_eq] at hc
        constructor <;> omega
      obtain ⟨h1, h2, h3⟩ := header_opens hh
      have hsplit : ∀ x : List Int, x.drop (x.takeWhile fun c => c ≠ 59 ∧ c ≠ 93).length = x.dropWhile fun c => c ≠ 59 ∧ c ≠ 93 := by
        intro x
        have := List.takeWhile_append_dropWhile (p := fun c : Int => c ≠ 59 ∧ c ≠ 93) (l := x)
        conv => lhs; arg 2; rw [← this]
        rw [List.drop_left]
      have hhd := hh
      rw [header_eq] at hhd
      split at hhd
      · rename_i hcond
        have hcond3 := hcond.2.2
        rw [hbr', hd', List.tail_cons, hsplit] at hcond3
        have htrim : trim (bracketed (l ++ [c])) = trim (bracketed l) := by
          rw [hbr, hbr']
          rcases takeWhile_split (p := fun c => c ≠ 59 ∧ c ≠ 93) (r := r) (e := [c]) (fun x hx => by simp at hx; subst hx; simpa using hcp) with ⟨h, _⟩ | ⟨h, h'⟩
          · rw [h]
          · rw [h, h', trim_blank hcb]
        have hne' : bracketed l ≠ [] := by
          intro he
          rw [he] at htrim
          rw [h2] at htrim
          have : fold (trim w') ≠ [] := hN.ne _ hN'
          rw [htrim] at this
          exact this rfl
        have hhl : header l = some (bracketed l) := by
          rw [header_eq, if_pos]
          refine ⟨hop, hne', ?_⟩
          rw [hbr, hd, List.tail_cons, hsplit]
          by_cases hr : r.dropWhile (fun c => c ≠ 59 ∧ c ≠ 93) = []
          · rw [hr]; simp
          · rw [dropWhile_append' hr] at hcond3
            cases hx : r.dropWhile (fun c => c ≠ 59 ∧ c ≠ 93) with
            | nil => exact absurd hx hr
            | cons y ys => rw [hx] at hcond3; simpa using hcond3
        rw [hhl, Option.map_some, ← htrim, h2]
      · cases hhd
    · have hh : header l = none := by simp [header_eq, hop]
      have hh' : header (l ++ [c]) = none := by simp [header_eq, ho, hop]
      unfold lineEv
      rw [hh, hh', ht', hd, hd']
      have hie : isEntry (l ++ [c]) = isEntry l := by simp [isEntry, hd, hd', ht']
      rw [hie]
      simp only [List.tail_cons]
      have : trim ((r ++ [c]).takeWhile fun c => c ≠ 59) = trim (r.takeWhile fun c => c ≠ 59) := by
        rcases takeWhile_split (p := fun c => c ≠ 59) (r := r) (e := [c]) (fun x hx => by
          simp at hx; subst hx
          simp only [blank, decide_eq_true_eq] at hc
          simp; omega) with ⟨h, _⟩ | ⟨h, h'⟩
        · rw [h]
        · rw [h, h', trim_blank hcb]
      rw [this]

/-! ## Adding a section -/

theorem lineEv_written {n : List Int} (hn : GoodName n) : lineEv ([91] ++ n ++ [93]) = some (.sec n) ∧ opens ([91] ++ n ++ [93]) = true := by
  have hd : ([91] ++ n ++ [93] : List Int).dropWhile plain = 91 :: (n ++ [93]) := by simp [List.dropWhile, plain]
  have hw : (n ++ [93]).takeWhile (fun c : Int => c ≠ 59 ∧ c ≠ 93) = n := by
    rw [List.takeWhile_append_of_pos]
    · simp
    · intro c hc
      have := hn.pos c hc
      simp [this.2.1, this.2.2.1]
  have ho : opens ([91] ++ n ++ [93]) = true := by rw [opens, hd]; rfl
  have hb : bracketed ([91] ++ n ++ [93]) = n := by rw [bracketed, hd]; exact hw
  refine ⟨?_, ho⟩
  rw [lineEv_opens ho, header_eq, if_pos, hb]
  · simp [hn.trim]
  · rw [hb, hd]
    refine ⟨ho, hn.ne, ?_⟩
    simp

theorem events_strip {N K : List Int → Prop} (hN : Names N) : ∀ (e s : List Int), (∀ c ∈ e, c = 32 ∨ c = 10 ∨ c = 13) → Good N K (s ++ e) → events (s ++ e) = events s ∧ Good N K s := by
  intro e
  induction e with
  | nil => intro s _ h; rw [List.append_nil] at h ⊢; exact ⟨rfl, h⟩
  | cons c e ih =>
    intro s he hg
    have hse : s ++ c :: e = (s ++ [c]) ++ e := by simp
    rw [hse] at hg ⊢
    obtain ⟨h1, h2⟩ := ih (s ++ [c]) (fun d hd => he d (List.mem_cons_of_mem _ hd)) hg
    rw [h1]
    obtain ⟨L, m, hL⟩ := lines_last s
    have hno : (10 : Int) ∉ m := lines_no_break s m (by rw [hL]; simp)
    have hx := lines_extend hL [c]
    by_cases hc10 : c = 10
    · subst hc10
      rw [lines_break (l := m) hno, show lines [] = [[]] from rfl] at hx
      constructor
      · unfold events
        rw [hx, hL]
        simp only [List.filterMap_append, List.filterMap_cons, List.filterMap_nil]
        rw [show lineEv [] = none by decide]
      · intro l hl
        apply h2
        rw [hx]
        rw [hL] at hl
        simp only [List.mem_append, List.mem_cons, List.not_mem_nil, or_false] at hl ⊢
        rcases hl with h | h
        · exact .inl h
        · exact .inr (.inl h)
    · have hb : blank c = true := by
        rcases he c List.mem_cons_self with h | h | h
        · subst h; decide
        · exact absurd h hc10
        · subst h; decide
      rw [lines_single (l := m ++ [c]) (by simp only [List.mem_append, List.mem_singleton, not_or]; exact ⟨hno, fun h => hc10 h.symm⟩)] at hx
      have hgl := h2 (m ++ [c]) (by rw [hx]; simp)
      obtain ⟨e1, e2⟩ := lineEv_blank_suffix hN hb hgl
      constructor
      · unfold events
        rw [hx, hL]
        simp only [List.filterMap_append, List.filterMap_cons, List.filterMap_nil, e1]
      · intro l hl
        rw [hL] at hl
        rcases List.mem_append.1 hl with h | h
        · exact h2 l (by rw [hx]; simp [h])
        · simp only [List.mem_singleton] at h
          subst h
          exact hgl.of_eq (fun d hd => hgl.pos d (by simp [hd])) e2.symm e1.symm

theorem stripEnd_split (t : List Int) : ∃ e, t = stripEnd t ++ e ∧ ∀ c ∈ e, c = 32 ∨ c = 10 ∨ c = 13 := by
  refine ⟨(t.reverse.takeWhile fun c => decide (c = 32 ∨ c = 10 ∨ c = 13)).reverse, ?_, ?_⟩
  · rw [stripEnd, ← List.reverse_append, List.takeWhile_append_dropWhile, List.reverse_reverse]
  · intro c hc
    rw [List.mem_reverse] at hc
    have := mem_takeWhile' hc
    simpa using this

theorem events_addSection {N K : List Int → Prop} (hN : Names N) {t n : List Int} (hg : Good N K t) (hn : GoodName n) (hNn : N (fold n)) :
    events (addSectionText t n) = events t ++ [.sec n] ∧ Good N K (addSectionText t n) := by
  obtain ⟨hw, hwo⟩ := lineEv_written hn
  have hno : (10 : Int) ∉ ([91] ++ n ++ [93] : List Int) := by
    simp only [List.mem_append, List.mem_singleton, not_or]
    exact ⟨⟨by decide, fun h => (hn.pos 10 h).2.2.2 rfl⟩, by decide⟩
  have hpos : ∀ c ∈ ([91] ++ n ++ [93] : List Int), 0 < c := by
    intro c hc
    simp only [List.mem_append, List.mem_singleton] at hc
    rcases hc with (rfl | h) | rfl
    · decide
    · exact (hn.pos c h).1
    · decide
  have hgw : GoodLine N K ([91] ++ n ++ [93]) := ⟨hpos, fun _ => ⟨n, hw⟩, by rw [hw]; intro e he; cases he; exact hNn⟩
  obtain ⟨e, hte, he⟩ := stripEnd_split t
  have hg' := hg
  rw [hte] at hg'
  obtain ⟨h1, h2⟩ := events_strip hN e _ he hg'
  rw [← hte] at h1
  unfold addSectionText
  dsimp only
  by_cases hs : stripEnd t = []
  · rw [if_neg (by simp [hs])]
    obtain ⟨L, m, hL⟩ := lines_last t
    have hnm : (10 : Int) ∉ m := lines_no_break t m (by rw [hL]; simp)
    have hbl : ∀ x ∈ m, blank x = true := by
      intro x hx
      have hxt : x ∈ t := by
        rw [← join_lines t, hL, join_append (by simp)]
        simp [join, hx]
      rw [hte, hs, List.nil_append] at hxt
      rcases he x hxt with h | h | h <;> subst h <;> decide
    have hpl : ∀ x ∈ m, plain x = true := fun x hx => blank_plain (hbl x hx)
    have hx := lines_extend hL ([91] ++ n ++ [93])
    rw [lines_single (l := m ++ ([91] ++ n ++ [93])) (by rw [List.mem_append, not_or]; exact ⟨hnm, hno⟩)] at hx
    have hass : t ++ [91] ++ n ++ [93] = t ++ ([91] ++ n ++ [93]) := by simp
    rw [hass]
    constructor
    · unfold events
      rw [hx, hL]
      simp only [List.filterMap_append, List.filterMap_cons, List.filterMap_nil, lineEv_blank_prefix hbl, hw, (lineEv_plain hpl).1, List.append_nil]
    · intro l hl
      rw [hx] at hl
      rcases List.mem_append.1 hl with h | h
      · exact hg l (by rw [hL]; simp [h])
      · simp only [List.mem_singleton] at h
        subst h
        refine hgw.of_eq ?_ (opens_prefix hpl) (lineEv_blank_prefix hbl)
        intro c hc
        rcases List.mem_append.1 hc with h | h
        · exact (hg m (by rw [hL]; simp)).pos c h
        · exact hpos c h
  · rw [if_pos hs]
    obtain ⟨L, m, hL⟩ := lines_last (stripEnd t)
    have hnm : (10 : Int) ∉ m := lines_no_break _ m (by rw [hL]; simp)
    have hass : stripEnd t ++ [10, 10] ++ [91] ++ n ++ [93] = stripEnd t ++ (10 :: ([] ++ 10 :: ([91] ++ n ++ [93]))) := by simp
    have hx := lines_extend hL (10 :: ([] ++ 10 :: ([91] ++ n ++ [93])))
    rw [lines_break (l := m) hnm, lines_break (l := []) (by simp), lines_single hno] at hx
    rw [hass, h1]
    constructor
    · unfold events
      rw [hx, hL]
      simp only [List.filterMap_append, List.filterMap_cons, List.filterMap_nil, hw, show lineEv [] = none by decide]
      cases lineEv m <;> simp
    · intro l hl
      rw [hx] at hl
      simp only [List.mem_append, List.mem_cons, List.not_mem_nil, or_false] at hl
      rcases hl with h | h | h | h
      · exact h2 l (by rw [hL]; simp [h])
      · exact h2 l (by rw [hL]; simp [h])
      · subst h; exact GoodLine.of_plain (by simp) (by simp)
      · have : l = [91] ++ n ++ [93] := by simpa using h
        subst this; exact hgw

end Verif.IniDoc
