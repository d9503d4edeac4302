import Verif.IniDoc.Split

/-!
# What is left of the text after each edit
-/

namespace Verif.IniDoc

open Verif.Ini.Spec (lines blank trim plain opens header isEntry fold sections entries sectionEnd Item same nth Plain)
open Verif.IniDoc.Spec
open Verif.Ini (join lines_ne_nil join_lines lines_no_break findSection findEntry trimR ch)

theorem cat_length {X : List (List Int)} (h : X ≠ []) : (join X).length + 1 = (cat X).length := by
  obtain ⟨L, m, rfl⟩ : ∃ L m, X = L ++ [m] := by
    rcases List.eq_nil_or_concat X with rfl | ⟨L, m, h'⟩
    · exact absurd rfl h
    · exact ⟨L, m, by rw [h', List.concat_eq_append]⟩
  rw [join_append (by simp), cat_append]
  simp [cat, join]
  omega

theorem join_cons_prefix (p c : List Int) (C : List (List Int)) : join ((p ++ c) :: C) = p ++ join (c :: C) := by
  cases C with
  | nil => rfl
  | cons d C => simp [join]

/-- What follows after some of the lines. -/
theorem join_rest {X : List (List Int)} (h : X ≠ []) (C : List (List Int)) : ∃ R, join (X ++ C) = join X ++ R ∧ ((R = [] ∧ C = []) ∨ (R = 10 :: join C ∧ C ≠ [])) := by
  cases C with
  | nil => exact ⟨[], by simp, .inl ⟨rfl, rfl⟩⟩
  | cons c C =>
    refine ⟨10 :: join (c :: C), ?_, .inr ⟨rfl, by simp⟩⟩
    obtain ⟨L, m, rfl⟩ : ∃ L m, X = L ++ [m] := by
      rcases List.eq_nil_or_concat X with h' | ⟨L, m, h'⟩
      · exact absurd h' h
      · exact ⟨L, m, by rw [h', List.concat_eq_append]⟩
    rw [join_append (by simp), join_append (by simp), cat_append]
    simp [cat, join]

/-- The `n`-th section of a name among what the lines say. -/
structure SecEv (evs : List Ev) (name : List Int) (n : Nat) (a : List Ev) (w : List Int) (b c : List Ev) : Prop where
  eq : evs = a ++ .sec w :: (b ++ c)
  nm : fold w = fold name
  cnt : secCount (fold name) a = n
  body : ∀ e ∈ b, ∃ k v, e = .ent k v
  next : ∀ e ∈ c.head?, ∃ w, e = .sec w

theorem lineEv_not_opens {l : List Int} (h : opens l = false) {e : Ev} (he : lineEv l = some e) : ∃ k v, e = .ent k v := by
  cases e with
  | sec w =>
    obtain ⟨w', hh, _⟩ := lineEv_sec he
    rw [(header_opens hh).1] at h
    cases h
  | ent k v => exact ⟨k, v, rfl⟩

theorem SecAt.ev {N K : List Int → Prop} {ls : List (List Int)} (hg : ∀ l ∈ ls, GoodLine N K l) {off n s e : Nat} {name h w : List Int} {A B C : List (List Int)} (hs : SecAt ls off name n s e A h B C w) :
    SecEv (ls.filterMap lineEv) name n (A.filterMap lineEv) (trim w) (B.filterMap lineEv) (C.filterMap lineEv) := by
  refine ⟨?_, hs.nm, hs.cnt, ?_, ?_⟩
  · have : lineEv h = some (.sec (trim w)) := by unfold lineEv; rw [hs.hdr]
    rw [hs.eq]
    simp [this]
  · intro e he
    obtain ⟨l, hl, h⟩ := List.mem_filterMap.1 he
    exact lineEv_not_opens (hs.body l hl) h
  · intro e he
    cases C with
    | nil => simp at he
    | cons c C =>
      obtain ⟨w, hw⟩ := (hg c (by rw [hs.eq]; simp)).hdr (hs.next c rfl)
      rw [List.filterMap_cons, hw] at he
      simp at he
      exact ⟨w, he.symm⟩

/-! ## Removing a section -/

theorem text_remove {N K : List Int → Prop} {t : List Int} (hg : Good N K t) {n s e : Nat} {name h w : List Int} {A B C : List (List Int)} (hs : SecAt (lines t) 0 name n s e A h B C w) :
    events (eraseText t s (e + 1)) = A.filterMap lineEv ++ C.filterMap lineEv ∧ Good N K (eraseText t s (e + 1)) := by
  have hno := lines_no_break t
  rw [hs.eq] at hno
  have hgA : ∀ l ∈ A, GoodLine N K l := fun l hl => hg l (by rw [hs.eq]; simp [hl])
  have hgh := hg h (by rw [hs.eq]; simp)
  have hgC : ∀ l ∈ C, GoodLine N K l := fun l hl => hg l (by rw [hs.eq]; simp [hl])
  have hp : ∀ x ∈ h.takeWhile plain, plain x = true := fun x hx => mem_takeWhile' hx
  have hpp : ∀ x ∈ h.takeWhile plain, 0 < x := fun x hx => hgh.pos x ((List.takeWhile_prefix _).subset hx)
  have hpn : (10 : Int) ∉ h.takeWhile plain := fun hx => hno h (by simp) ((List.takeWhile_prefix _).subset hx)
  have ht : t = join (A ++ h :: (B ++ C)) := by rw [← hs.eq, join_lines]
  have htake : t.take s = cat A ++ h.takeWhile plain := by
    rw [ht, join_append (by simp), hs.s, Nat.zero_add]
    have : join (h :: (B ++ C)) = h.takeWhile plain ++ join (h.dropWhile plain :: (B ++ C)) := by
      rw [← join_cons_prefix, List.takeWhile_append_dropWhile]
    rw [this, ← List.append_assoc, List.take_left' (by simp)]
  unfold eraseText
  rw [htake, hs.e, Nat.zero_add]
  cases C with
  | nil =>
    have hd : t.drop ((cat A).length + (cat (h :: B)).length) = [] := by
      rw [List.drop_eq_nil_iff, ht, List.append_nil, ← List.length_append, ← cat_append, ← cat_length (by simp)]
      omega
    rw [hd, List.append_nil]
    have hl : lines (cat A ++ h.takeWhile plain) = A ++ [h.takeWhile plain] := by
      rw [lines_cat (fun l hl => hno l (by simp [hl])), lines_single hpn]
    constructor
    · unfold events
      rw [hl]
      simp [(lineEv_plain hp).1]
    · intro l hl'
      rw [hl, List.mem_append, List.mem_singleton] at hl'
      rcases hl' with h' | rfl
      · exact hgA l h'
      · exact GoodLine.of_plain hpp hp
  | cons c C =>
    have hd : t.drop ((cat A).length + (cat (h :: B)).length) = join (c :: C) := by
      rw [ht, show A ++ h :: (B ++ c :: C) = (A ++ h :: B) ++ (c :: C) by simp, join_append (by simp), cat_append, List.drop_left' (by simp)]
    rw [hd, List.append_assoc, ← join_cons_prefix]
    have hl : lines (cat A ++ join ((h.takeWhile plain ++ c) :: C)) = A ++ (h.takeWhile plain ++ c) :: C := by
      rw [lines_cat (fun l hl => hno l (by simp [hl])), lines_join (by simp)]
      intro l hl
      rcases List.mem_cons.1 hl with rfl | hl
      · rw [List.mem_append, not_or]
        exact ⟨hpn, hno c (by simp)⟩
      · exact hno l (by simp [hl])
    have hc := hs.next c rfl
    constructor
    · unfold events
      rw [hl]
      simp [lineEv_prefix hp hc, List.filterMap_cons]
    · intro l hl'
      rw [hl, List.mem_append, List.mem_cons] at hl'
      rcases hl' with h' | rfl | h'
      · exact hgA l h'
      · refine (hgC c (by simp)).of_eq ?_ (opens_prefix hp) (lineEv_prefix hp hc)
        intro x hx
        rcases List.mem_append.1 hx with hx | hx
        · exact hpp x hx
        · exact (hgC c (by simp)).pos x hx
      · exact hgC l (by simp [h'])

/-! ## Inserting an entry -/

theorem goodKey_visible {k : List Int} (h : GoodKey k) : (k.any fun c => decide (33 ≤ c)) = true := by
  by_contra hn
  have hb : ∀ x ∈ k, blank x = true := by
    intro x hx
    rw [Bool.not_eq_true, List.any_eq_false] at hn
    have := hn x hx
    simp [blank] at this ⊢
    omega
  have : Verif.Ini.Spec.trim (k ++ []) = Verif.Ini.Spec.trim [] := trim_blank_left hb
  rw [List.append_nil, h.trim] at this
  exact h.ne this

/-- The line of an entry: what comes after the value may be blank or a comment. -/
theorem lineEv_entry {k v z r : List Int} (hk : ∀ c ∈ k, plain c = true) (hvis : (k.any fun c => decide (33 ≤ c)) = true) (hv : GoodValue v) (hz : ∀ c ∈ z, blank c = true) (hr : ∀ c ∈ r.head?, c = 59) :
    lineEv (k ++ 61 :: (v ++ z ++ r)) = some (.ent (trim k) v) ∧ opens (k ++ 61 :: (v ++ z ++ r)) = false := by
  have hd : (k ++ 61 :: (v ++ z ++ r)).dropWhile plain = 61 :: (v ++ z ++ r) := by rw [dropWhile_plain hk]; simp [plain]
  have htk : (k ++ 61 :: (v ++ z ++ r)).takeWhile plain = k := by rw [takeWhile_plain hk]; simp [plain]
  have ho : opens (k ++ 61 :: (v ++ z ++ r)) = false := by rw [opens, hd]; rfl
  have hi : isEntry (k ++ 61 :: (v ++ z ++ r)) = true := by rw [isEntry, hd, htk, hvis]; rfl
  refine ⟨?_, ho⟩
  have hh : header (k ++ 61 :: (v ++ z ++ r)) = none := by rw [header_eq, if_neg (by rw [ho]; simp)]
  unfold lineEv
  rw [hh]
  simp only [if_pos hi]
  rw [htk, hd, List.tail_cons]
  have : (v ++ z ++ r).takeWhile (fun c : Int => c ≠ 59) = v ++ z := by
    rw [List.takeWhile_append_of_pos]
    · cases r with
      | nil => simp
      | cons x r => simp [hr x rfl]
    · intro c hc
      rcases List.mem_append.1 hc with hc | hc
      · simpa using (hv.pos c hc).2.1
      · have := hz c hc
        simp [blank] at this ⊢
        omega
  rw [this, trim_blank hz, hv.trim]

theorem strBreak_none {l : List Int} (h : (10 : Int) ∉ l) (p : Nat) : strBreak l p = none := by
  induction l generalizing p with
  | nil => rfl
  | cons c l ih =>
    rw [strBreak, if_neg (fun he : c = 10 => h (he ▸ List.mem_cons_self)), ih fun he => h (List.mem_cons_of_mem _ he)]

theorem strBreak_some {l r : List Int} (h : (10 : Int) ∉ l) (p : Nat) : strBreak (l ++ 10 :: r) p = some (p + l.length) := by
  induction l generalizing p with
  | nil => simp [strBreak]
  | cons c l ih =>
    rw [List.cons_append, strBreak, if_neg (fun he : c = 10 => h (he ▸ List.mem_cons_self)), ih fun he => h (List.mem_cons_of_mem _ he), List.length_cons]
    congr 1
    omega

theorem text_insert {N K : List Int → Prop} {t : List Int} (hg : Good N K t) {n s e : Nat} {name h w k v : List Int} {A B C : List (List Int)} (hs : SecAt (lines t) 0 name n s e A h B C w)
    (hk : GoodKey k) (hKk : K (fold k)) (hv : GoodValue v) :
    events (insertText t e k v) = A.filterMap lineEv ++ .sec (trim w) :: (B.filterMap lineEv ++ [.ent k v] ++ C.filterMap lineEv) ∧ Good N K (insertText t e k v) := by
  have hno := lines_no_break t
  rw [hs.eq] at hno
  have ht : t = join (A ++ h :: (B ++ C)) := by rw [← hs.eq, join_lines]
  have hev : lineEv h = some (.sec (trim w)) := by unfold lineEv; rw [hs.hdr]
  obtain ⟨hkv, hkvo⟩ := lineEv_entry (z := []) (r := []) (fun c hc => (hk.pos c hc).2.1) (goodKey_visible hk) hv (by simp) (by simp)
  simp only [List.append_nil, hk.trim] at hkv hkvo
  have hkvn : (10 : Int) ∉ k ++ 61 :: v := by
    simp only [List.mem_append, List.mem_cons, not_or]
    exact ⟨fun h => (hk.pos 10 h).2.2 rfl, by decide, fun h => (hv.pos 10 h).2.2 rfl⟩
  have hkvg : GoodLine N K (k ++ 61 :: v) := by
    refine ⟨?_, (by rw [hkvo]; intro h; cases h), (by rw [hkv]; intro e he; cases he; exact hKk)⟩
    intro c hc
    simp only [List.mem_append, List.mem_cons] at hc
    rcases hc with h | rfl | h
    · exact (hk.pos c h).1
    · decide
    · exact (hv.pos c h).1
  have hh0 : h ≠ [] := by
    intro h0
    have := (header_opens hs.hdr).1
    rw [h0] at this
    cases this
  -- the rest of the text
  obtain ⟨R, hR, hRl⟩ := join_rest (X := h :: B) (by simp) C
  replace hR : t = cat A ++ join (h :: B) ++ R := by rw [ht, join_append (by simp), ← List.cons_append, hR, List.append_assoc]
  have he : e = (cat A ++ join (h :: B)).length := by
    have := hs.e
    have h2 := cat_length (X := h :: B) (by simp)
    rw [List.length_append]
    omega
  -- the lines after the insertion suffice
  have fin : ∀ X Z, h :: B = X ++ Z → (∀ z ∈ Z, z = []) → lines (insertText t e k v) = A ++ X ++ (k ++ 61 :: v) :: (Z ++ C) →
      events (insertText t e k v) = A.filterMap lineEv ++ .sec (trim w) :: (B.filterMap lineEv ++ [.ent k v] ++ C.filterMap lineEv) ∧ Good N K (insertText t e k v) := by
    intro X Z hXZ hZ hl
    have hZf : Z.filterMap lineEv = [] := by
      rw [List.filterMap_eq_nil_iff]
      intro z hz
      rw [hZ z hz]
      decide
    have hXf : X.filterMap lineEv = .sec (trim w) :: B.filterMap lineEv := by
      have := congrArg (List.filterMap lineEv) hXZ
      rw [List.filterMap_append, hZf, List.append_nil, List.filterMap_cons, hev] at this
      exact this.symm
    constructor
    · unfold events
      rw [hl]
      simp [hXf, hZf, hkv, List.filterMap_cons]
    · intro l hl'
      rw [hl] at hl'
      have hmem : l ∈ A ∨ l ∈ h :: B ∨ l = k ++ 61 :: v ∨ l ∈ C := by
        rw [hXZ]
        simp only [List.mem_append, List.mem_cons] at hl' ⊢
        tauto
      rcases hmem with h' | h' | rfl | h'
      · exact hg l (by rw [hs.eq]; simp [h'])
      · exact hg l (by rw [hs.eq, show A ++ h :: (B ++ C) = A ++ (h :: B) ++ C by simp]; simp only [List.mem_append]; exact .inl (.inr h'))
      · exact hkvg
      · exact hg l (by rw [hs.eq]; simp [h'])
  have hnA : ∀ l ∈ A, (10 : Int) ∉ l := fun l hl => hno l (by simp [hl])
  have hnB : ∀ l ∈ h :: B, (10 : Int) ∉ l := by
    intro l hl
    apply hno
    rw [show A ++ h :: (B ++ C) = A ++ (h :: B) ++ C by simp]
    simp only [List.mem_append]
    exact .inl (.inr hl)
  have hnC : ∀ l ∈ C, (10 : Int) ∉ l := fun l hl => hno l (by simp [hl])
  obtain ⟨L, m, hL⟩ : ∃ L m, h :: B = L ++ [m] := by
    rcases List.eq_nil_or_concat (h :: B) with h' | ⟨L, m, h'⟩
    · cases h'
    · exact ⟨L, m, by rw [h', List.concat_eq_append]⟩
  have hX : ∀ (X : List (List Int)) (y : List Int), X ≠ [] → (∀ l ∈ X, (10 : Int) ∉ l) → lines (cat A ++ join X ++ 10 :: y) = A ++ X ++ lines y := by
    intro X y hXne hXn
    obtain ⟨L, m, rfl⟩ : ∃ L m, X = L ++ [m] := by
      rcases List.eq_nil_or_concat X with h' | ⟨L, m, h'⟩
      · exact absurd h' hXne
      · exact ⟨L, m, by rw [h', List.concat_eq_append]⟩
    have : cat A ++ join (L ++ [m]) ++ 10 :: y = cat (A ++ (L ++ [m])) ++ y := by
      rw [join_append (by simp), cat_append, cat_append]
      simp [cat, join]
    rw [this, lines_cat]
    intro l hl
    rcases List.mem_append.1 hl with h' | h'
    · exact hnA l h'
    · exact hXn l h'
  have hkR : lines (k ++ 61 :: v ++ R) = (k ++ 61 :: v) :: C := by
    rcases hRl with ⟨rfl, rfl⟩ | ⟨rfl, hC⟩
    · rw [List.append_nil, lines_single hkvn]
    · rw [lines_break hkvn, lines_join hC hnC]
  have hkR' : lines (k ++ 61 :: v ++ 10 :: R) = (k ++ 61 :: v) :: ([] :: C) := by
    rw [lines_break hkvn]
    rcases hRl with ⟨rfl, rfl⟩ | ⟨rfl, hC⟩
    · rfl
    · rw [show (10 : Int) :: join C = [] ++ 10 :: join C from rfl, lines_break (by simp), lines_join hC hnC]
  rcases List.eq_nil_or_concat m with hm | ⟨m', y, hm⟩
  · -- the section ends with an empty line
    subst hm
    have hLne : L ≠ [] := by
      intro h0
      rw [h0] at hL
      simp at hL
      exact hh0 hL.1
    have hj : join (h :: B) = join L ++ [10] := by
      obtain ⟨L', m', rfl⟩ : ∃ L' m', L = L' ++ [m'] := by
        rcases List.eq_nil_or_concat L with h' | ⟨L', m', h'⟩
        · exact absurd h' hLne
        · exact ⟨L', m', by rw [h', List.concat_eq_append]⟩
      rw [hL, join_append (by simp), join_append (by simp), cat_append]
      simp [cat, join]
    have he1 : e - 1 = (cat A ++ join L).length := by
      rw [he, hj]
      simp only [List.length_append, List.length_singleton]
      omega
    have htd : t = (cat A ++ join L) ++ (10 :: R) := by rw [hR, hj]; simp
    refine fin L [[]] hL (by simp) ?_
    unfold insertText
    dsimp only
    rw [he1]
    have hdrop : t.drop (cat A ++ join L).length = [] ++ 10 :: R := by rw [htd, List.drop_left]; rfl
    rw [hdrop, strBreak_some (by simp)]
    simp only [List.length_nil, Nat.add_zero]
    rw [hdrop, htd, List.take_left]
    have : (cat A ++ join L) ++ ([10] ++ k ++ [61] ++ v) ++ ([] ++ 10 :: R) = cat A ++ join L ++ 10 :: (k ++ 61 :: v ++ 10 :: R) := by simp
    rw [this, hX L _ hLne (fun l hl => hnB l (by rw [hL]; simp [hl])), hkR']
    rfl
  · rw [List.concat_eq_append] at hm
    subst hm
    have hy : y ≠ 10 := by
      intro h'
      exact hnB (m' ++ [y]) (by rw [hL]; simp) (by simp [h'])
    have hj : cat A ++ join (h :: B) = (cat A ++ cat L ++ m') ++ [y] := by
      rw [hL, join_append (by simp)]
      simp [join]
    have he1 : e - 1 = (cat A ++ cat L ++ m').length := by
      rw [he, hj, List.length_append]
      simp
    have hdrop : t.drop (e - 1) = [y] ++ R := by
      rw [hR, hj, he1, List.append_assoc (cat A ++ cat L ++ m'), List.drop_left]
    refine fin (h :: B) [] (by simp) (by simp) ?_
    have hres : insertText t e k v = cat A ++ join (h :: B) ++ 10 :: (k ++ 61 :: v ++ R) := by
      unfold insertText
      dsimp only
      rw [hdrop]
      rcases hRl with ⟨rfl, rfl⟩ | ⟨rfl, hC⟩
      · rw [List.append_nil, strBreak_none (by simpa using fun h => hy h.symm)]
        dsimp only
        rw [hR]
        simp
      · rw [strBreak_some (by simpa using fun h => hy h.symm)]
        dsimp only
        have hi : e - 1 + [y].length = (cat A ++ join (h :: B)).length := by
          rw [he1, hj]; simp; omega
        rw [hi, hR, List.take_left, List.drop_left]
        simp
    rw [hres, hX _ _ (by simp) hnB, hkR]
    rfl

end Verif.IniDoc
