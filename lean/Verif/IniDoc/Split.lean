import Verif.IniDoc.Text

/-!
# Where the edits find sections and entries, and what is left of the text
-/

namespace Verif.IniDoc

open Verif.Ini.Spec (lines blank trim plain opens header isEntry fold sections entries sectionEnd Item same nth Plain)
open Verif.IniDoc.Spec
open Verif.Ini (join lines_ne_nil join_lines lines_no_break findSection findEntry trimR ch)

/-- The number of sections of a name. -/
def secCount (n : List Int) (evs : List Ev) : Nat := (evs.filter fun
  | .sec w => fold w == n
  | .ent _ _ => false).length

/-- The number of entries of a key. -/
def keyCount (k : List Int) (evs : List Ev) : Nat := (evs.filter fun
  | .sec _ => false
  | .ent x _ => fold x == k).length

theorem secCount_cons (n : List Int) (l : List Int) (ls : List (List Int)) : secCount n ((l :: ls).filterMap lineEv) =
    (match header l with | some w => if fold (trim w) == n then 1 else 0 | none => 0) + secCount n (ls.filterMap lineEv) := by
  rw [List.filterMap_cons]
  cases hh : header l with
  | none =>
    cases he : lineEv l with
    | none => simp
    | some e =>
      cases e with
      | sec w =>
        obtain ⟨w', h, _⟩ := lineEv_sec he
        rw [hh] at h; cases h
      | ent k v => simp [secCount]
  | some w =>
    have : lineEv l = some (.sec (trim w)) := by unfold lineEv; rw [hh]
    rw [this]
    simp only [secCount, List.filter_cons]
    split <;> simp_all <;> omega

theorem nth_append (a b : List Item) (name : List Int) (n : Nat) : nth (a ++ b) name n = if n < (a.filter (same name)).length then nth a name n else nth b name (n - (a.filter (same name)).length) := by
  unfold nth
  rw [List.filter_append, List.getElem?_append]
  split <;> rfl

theorem sectionEnd_split : ∀ (ls : List (List Int)) (off : Nat), 0 < off → ∃ B C, ls = B ++ C ∧ (∀ l ∈ B, opens l = false) ∧ (∀ c ∈ C.head?, opens c = true) ∧ sectionEnd off ls + 1 = off + (cat B).length := by
  intro ls
  induction ls with
  | nil => intro off h; exact ⟨[], [], rfl, by simp, by simp, by simp [sectionEnd, cat]; omega⟩
  | cons l ls ih =>
    intro off h
    by_cases ho : opens l = true
    · exact ⟨[], l :: ls, rfl, by simp, by simp [ho], by simp [sectionEnd, cat, ho]; omega⟩
    · obtain ⟨B, C, rfl, h1, h2, h3⟩ := ih (off + l.length + 1) (by omega)
      refine ⟨l :: B, C, rfl, ?_, h2, ?_⟩
      · intro m hm
        rcases List.mem_cons.1 hm with rfl | hm
        · simpa using ho
        · exact h1 m hm
      · rw [sectionEnd, if_neg ho, h3, cat_cons]
        simp only [List.length_append, List.length_cons]
        omega

/-- Where the `n`-th section of a name is. -/
structure SecAt (ls : List (List Int)) (off : Nat) (name : List Int) (n s e : Nat) (A : List (List Int)) (h : List Int) (B C : List (List Int)) (w : List Int) : Prop where
  eq : ls = A ++ h :: (B ++ C)
  hdr : header h = some w
  nm : fold (trim w) = fold name
  cnt : secCount (fold name) (A.filterMap lineEv) = n
  body : ∀ l ∈ B, opens l = false
  next : ∀ c ∈ C.head?, opens c = true
  s : s = off + (cat A).length + (h.takeWhile plain).length
  e : e + 1 = off + (cat A).length + (cat (h :: B)).length

theorem sections_split (name : List Int) : ∀ (ls : List (List Int)) (off n s e : Nat), nth (sections off ls) name n = some (s, e) → ∃ A h B C w, SecAt ls off name n s e A h B C w := by
  intro ls
  induction ls with
  | nil => intro off n s e h; simp [sections, nth] at h
  | cons l ls ih =>
    intro off n s e h
    rw [sections, nth_append] at h
    have step : ∀ n', nth (sections (off + l.length + 1) ls) name n' = some (s, e) → secCount (fold name) ([l].filterMap lineEv) + n' = n → ∃ A h B C w, SecAt (l :: ls) off name n s e A h B C w := by
      intro n' h hn
      obtain ⟨A, h, B, C, w, hs⟩ := ih _ _ _ _ h
      refine ⟨l :: A, h, B, C, w, by rw [hs.eq]; rfl, hs.hdr, hs.nm, ?_, hs.body, hs.next, ?_, ?_⟩
      · rw [← hn, ← hs.cnt, secCount_cons, secCount_cons]
        simp [secCount]
      · rw [hs.s, cat_cons]; simp only [List.length_append, List.length_cons]; omega
      · rw [hs.e, cat_cons l]; simp only [List.length_append, List.length_cons]; omega
    cases hh : header l with
    | none =>
      rw [hh] at h
      simp only [List.filter_nil, List.length_nil, Nat.not_lt_zero, if_false, Nat.sub_zero] at h
      exact step n h (by rw [secCount_cons, hh]; simp [secCount])
    | some w =>
      rw [hh] at h
      simp only at h
      by_cases hsame : same name ⟨w, off + (l.takeWhile plain).length, sectionEnd (off + l.length + 1) ls⟩ = true
      · have hw : fold (trim w) = fold name := by simpa [same] using hsame
        rw [List.filter_cons, if_pos hsame, List.filter_nil, List.length_singleton] at h
        by_cases hn : n < 1
        · rw [if_pos hn] at h
          obtain rfl : n = 0 := by omega
          simp only [nth, List.filter_cons, if_pos hsame, List.filter_nil, List.getElem?_cons_zero, Option.map_some, Option.some.injEq, Prod.mk.injEq] at h
          obtain ⟨rfl, rfl⟩ := h
          obtain ⟨B, C, rfl, h1, h2, h3⟩ := sectionEnd_split ls (off + l.length + 1) (by omega)
          refine ⟨[], l, B, C, w, rfl, hh, hw, rfl, h1, h2, by simp [cat], ?_⟩
          rw [h3, cat_cons]
          simp [cat]
          omega
        · rw [if_neg hn] at h
          exact step _ h (by rw [secCount_cons, hh]; simp [secCount, hw]; omega)
      · have hw : ¬fold (trim w) = fold name := by simpa [same] using hsame
        rw [List.filter_cons, if_neg hsame, List.filter_nil, List.length_nil, if_neg (by omega)] at h
        exact step _ h (by rw [secCount_cons, hh]; simp [secCount, hw])

theorem sections_none (name : List Int) : ∀ (ls : List (List Int)) (off n : Nat), nth (sections off ls) name n = none → secCount (fold name) (ls.filterMap lineEv) ≤ n := by
  have hlen : ∀ (ls : List (List Int)) (off : Nat), ((sections off ls).filter (same name)).length = secCount (fold name) (ls.filterMap lineEv) := by
    intro ls
    induction ls with
    | nil => intro off; rfl
    | cons l ls ih =>
      intro off
      rw [sections, List.filter_append, List.length_append, ih, secCount_cons]
      congr 1
      cases header l with
      | none => rfl
      | some w =>
        by_cases hc : (fold (trim w) == fold name) = true
        · simp [List.filter_cons, same, hc]
        · simp [List.filter_cons, same, hc]
  intro ls off n h
  rw [nth, Option.map_eq_none_iff, List.getElem?_eq_none_iff, hlen] at h
  exact h

theorem keyCount_cons (n : List Int) (l : List Int) (ls : List (List Int)) (ho : opens l = false) : keyCount n ((l :: ls).filterMap lineEv) =
    (if isEntry l = true ∧ fold (trim (l.takeWhile plain)) = n then 1 else 0) + keyCount n (ls.filterMap lineEv) := by
  rw [List.filterMap_cons]
  have hh : header l = none := by simp [header_eq, ho]
  by_cases hi : isEntry l = true
  · have : lineEv l = some (.ent (trim (l.takeWhile plain)) (trim ((l.dropWhile plain).tail.takeWhile fun c => c ≠ 59))) := by unfold lineEv; rw [hh]; simp only [if_pos hi]
    rw [this]
    simp only [keyCount, List.filter_cons]
    split <;> simp_all <;> omega
  · have : lineEv l = none := by unfold lineEv; rw [hh]; simp only [if_neg hi]
    rw [this]
    simp [hi]

/-- Where the `m`-th entry of a key is. -/
structure EntAt (B : List (List Int)) (off : Nat) (key : List Int) (m s e : Nat) (B1 : List (List Int)) (l : List Int) (B2 : List (List Int)) : Prop where
  eq : B = B1 ++ l :: B2
  ent : isEntry l = true
  nm : fold (trim (l.takeWhile plain)) = fold key
  cnt : keyCount (fold key) (B1.filterMap lineEv) = m
  s : s = off + (cat B1).length + ((l.takeWhile plain).takeWhile blank).length
  e : e = off + (cat B1).length + (l.takeWhile plain).length + 1 + ((l.drop ((l.takeWhile plain).length + 1)).takeWhile fun c => c ≠ 59).length

theorem entries_split (key : List Int) : ∀ (ls : List (List Int)) (off m s e : Nat), (∀ l ∈ ls, opens l = false) → nth (entries off ls) key m = some (s, e) → ∃ B1 l B2, EntAt ls off key m s e B1 l B2 := by
  intro ls
  induction ls with
  | nil => intro off n s e _ h; simp [entries, nth] at h
  | cons l ls ih =>
    intro off n s e ho h
    rw [entries] at h
    have hol := ho l List.mem_cons_self
    have step : ∀ n', nth (entries (off + l.length + 1) ls) key n' = some (s, e) → keyCount (fold key) ([l].filterMap lineEv) + n' = n → ∃ B1 x B2, EntAt (l :: ls) off key n s e B1 x B2 := by
      intro n' h hn
      obtain ⟨B1, x, B2, hs⟩ := ih _ _ _ _ (fun m hm => ho m (List.mem_cons_of_mem _ hm)) h
      refine ⟨l :: B1, x, B2, by rw [hs.eq]; rfl, hs.ent, hs.nm, ?_, ?_, ?_⟩
      · rw [← hn, ← hs.cnt, keyCount_cons _ _ _ hol, keyCount_cons _ _ _ hol]
        simp [keyCount]
      · rw [hs.s, cat_cons]; simp only [List.length_append, List.length_cons]; omega
      · rw [hs.e, cat_cons l]; simp only [List.length_append, List.length_cons]; omega
    by_cases hi : isEntry l = true
    · rw [if_pos hi] at h
      obtain ⟨it, hit⟩ : ∃ it : Item, (⟨l.takeWhile plain, off + ((l.takeWhile plain).takeWhile blank).length, off + (l.takeWhile plain).length + 1 + ((l.drop ((l.takeWhile plain).length + 1)).takeWhile fun c => c ≠ 59).length⟩ : Item) = it := ⟨_, rfl⟩
      replace h : nth ([it] ++ entries (off + l.length + 1) ls) key n = some (s, e) := by rw [← hit]; exact h
      rw [nth_append] at h
      by_cases hsame : same key it = true
      · have hw : fold (trim (l.takeWhile plain)) = fold key := by rw [← hit] at hsame; simpa [same] using hsame
        rw [List.filter_cons, if_pos hsame, List.filter_nil, List.length_singleton] at h
        by_cases hn : n < 1
        · rw [if_pos hn] at h
          obtain rfl : n = 0 := by omega
          simp only [nth, List.filter_cons, if_pos hsame, List.filter_nil, List.getElem?_cons_zero, Option.map_some, Option.some.injEq, Prod.mk.injEq] at h
          obtain ⟨rfl, rfl⟩ := h
          subst hit
          exact ⟨[], l, ls, rfl, hi, hw, rfl, by simp [cat], by simp [cat]⟩
        · rw [if_neg hn] at h
          exact step _ h (by rw [keyCount_cons _ _ _ hol, if_pos ⟨hi, hw⟩]; simp [keyCount]; omega)
      · have hw : ¬fold (trim (l.takeWhile plain)) = fold key := by rw [← hit] at hsame; simpa [same] using hsame
        rw [List.filter_cons, if_neg hsame, List.filter_nil, List.length_nil, if_neg (by omega)] at h
        exact step _ h (by rw [keyCount_cons _ _ _ hol, if_neg (by simp [hw])]; simp [keyCount])
    · rw [if_neg hi, List.nil_append] at h
      exact step _ h (by rw [keyCount_cons _ _ _ hol, if_neg (by simp [hi])]; simp [keyCount])

theorem entries_none (key : List Int) (ls : List (List Int)) (off m : Nat) (ho : ∀ l ∈ ls, opens l = false) (h : nth (entries off ls) key m = none) : keyCount (fold key) (ls.filterMap lineEv) ≤ m := by
  have hlen : ∀ (ls : List (List Int)) (off : Nat), (∀ l ∈ ls, opens l = false) → ((entries off ls).filter (same key)).length = keyCount (fold key) (ls.filterMap lineEv) := by
    intro ls
    induction ls with
    | nil => intro off _; rfl
    | cons l ls ih =>
      intro off ho
      rw [entries, List.filter_append, List.length_append, ih _ fun m hm => ho m (List.mem_cons_of_mem _ hm), keyCount_cons _ _ _ (ho l List.mem_cons_self)]
      congr 1
      by_cases hi : isEntry l = true
      · rw [if_pos hi]
        simp only [List.filter_cons, same, List.filter_nil, beq_iff_eq, hi, true_and]
        split <;> rfl
      · rw [if_neg hi, if_neg (by simp [hi])]
        rfl
  rw [nth, Option.map_eq_none_iff, List.getElem?_eq_none_iff, hlen _ _ ho] at h
  exact h

/-! ## Names in a good text are found -/

theorem sections_header : ∀ (ls : List (List Int)) (off : Nat), ∀ i ∈ sections off ls, ∃ l ∈ ls, header l = some i.text := by
  intro ls
  induction ls with
  | nil => intro off i hi; simp [sections] at hi
  | cons l ls ih =>
    intro off i hi
    rw [sections, List.mem_append] at hi
    rcases hi with hi | hi
    · cases hh : header l with
      | none => rw [hh] at hi; simp at hi
      | some w => rw [hh] at hi; simp at hi; subst hi; exact ⟨l, List.mem_cons_self, hh⟩
    · obtain ⟨m, hm, h⟩ := ih _ i hi
      exact ⟨m, List.mem_cons_of_mem _ hm, h⟩

theorem entries_key : ∀ (ls : List (List Int)) (off : Nat), ∀ i ∈ entries off ls, ∃ l ∈ ls, isEntry l = true ∧ l.takeWhile plain = i.text := by
  intro ls
  induction ls with
  | nil => intro off i hi; simp [entries] at hi
  | cons l ls ih =>
    intro off i hi
    rw [entries, List.mem_append] at hi
    rcases hi with hi | hi
    · by_cases hi' : isEntry l = true
      · rw [if_pos hi'] at hi; simp at hi; subst hi; exact ⟨l, List.mem_cons_self, hi', rfl⟩
      · rw [if_neg hi'] at hi; simp at hi
    · obtain ⟨m, hm, h⟩ := ih _ i hi
      exact ⟨m, List.mem_cons_of_mem _ hm, h⟩

theorem Spec.GoodLine.names {N K : List Int → Prop} (hN : Names N) {l w name : List Int} (hg : GoodLine N K l) (hh : header l = some w) (hn : N (fold name)) {i : Item} (hi : i.text = w) : Plain name i := by
  have he : lineEv l = some (.sec (trim w)) := by unfold lineEv; rw [hh]
  have hw := hg.ok _ he
  simp only [EvGood] at hw
  refine ⟨?_, ?_, ?_⟩
  · rw [hi, ← (header_opens hh).2.1]
    intro c hc
    apply hg.pos
    exact (List.dropWhile_suffix _).subset (List.mem_of_mem_tail ((List.takeWhile_prefix _).subset hc))
  · rw [hi]
    intro h0
    exact hN.ne _ hw (by rw [h0]; rfl)
  · rw [hi]
    rintro (h | h)
    · exact hN.pre _ _ hw hn h
    · exact (hN.pre _ _ hn hw h).symm

theorem findSection_good {N K : List Int → Prop} (hN : Names N) {t name : List Int} (hg : Good N K t) (hn : N (fold name)) (n : Nat) :
    findSection t name n = nth (sections 0 (lines t)) name n ∧ ∀ i ∈ sections 0 (lines t), Plain name i := by
  have : ∀ i ∈ sections 0 (lines t), Plain name i := by
    intro i hi
    obtain ⟨l, hl, hh⟩ := sections_header _ _ i hi
    exact (hg l hl).names hN hh hn rfl
  exact ⟨Verif.Ini.C70_section_partial t name n this, this⟩

end Verif.IniDoc
