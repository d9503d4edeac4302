import Verif.IniDoc.TextOps

/-!
# What is left of the text after an entry is changed or removed
-/

namespace Verif.IniDoc

open Verif.Ini.Spec (lines blank trim plain opens header isEntry fold sections entries sectionEnd Item same nth Plain)
open Verif.IniDoc.Spec
open Verif.Ini (join lines_ne_nil join_lines lines_no_break findSection findEntry trimR ch)

/-- The line of an entry. -/
theorem entry_shape {l : List Int} (h : isEntry l = true) : ∃ val r, l = l.takeWhile plain ++ 61 :: (val ++ r) ∧ (l.drop ((l.takeWhile plain).length + 1)).takeWhile (fun c => c ≠ 59) = val ∧
    (∀ c ∈ val, c ≠ 59) ∧ (∀ c ∈ r.head?, c = 59) ∧ ((l.takeWhile plain).any fun c => decide (33 ≤ c)) = true ∧ lineEv l = some (.ent (trim (l.takeWhile plain)) (trim val)) ∧ opens l = false := by
  have h' := h
  unfold isEntry at h
  rw [Bool.and_eq_true, beq_iff_eq] at h
  obtain ⟨h1, h2⟩ := h
  have hs := List.takeWhile_append_dropWhile (p := plain) (l := l)
  cases hd : l.dropWhile plain with
  | nil => rw [hd] at h1; cases h1
  | cons a x =>
    rw [hd] at h1 hs
    simp only [List.head?_cons, Option.some.injEq] at h1
    subst h1
    have ho : opens l = false := by rw [opens, hd]; rfl
    refine ⟨x.takeWhile (fun c => c ≠ 59), x.dropWhile (fun c => c ≠ 59), ?_, ?_, ?_, ?_, h2, ?_, ho⟩
    · rw [List.takeWhile_append_dropWhile, hs]
    · have : l.drop ((l.takeWhile plain).length + 1) = x := by
        conv => lhs; arg 2; rw [← hs]
        rw [← List.drop_drop, List.drop_left]
        rfl
      rw [this]
    · intro c hc
      simpa using mem_takeWhile' hc
    · intro c hc
      cases hx : x.dropWhile (fun c => c ≠ 59) with
      | nil => rw [hx] at hc; simp at hc
      | cons a y =>
        rw [hx] at hc
        simp only [List.head?_cons, Option.mem_def, Option.some.injEq] at hc
        have := dropWhile_head hx
        simpa [hc] using this
    · unfold lineEv
      rw [header_eq, if_neg (by rw [ho]; simp)]
      simp only [if_pos h', hd, List.tail_cons]

theorem trimR_spec (t : List Int) (b n : Nat) : ∃ j, j ≤ n ∧ trimR t b n = b + j ∧ ∀ i, j < i → i ≤ n → ch t (b + i) < 33 := by
  induction n with
  | zero => exact ⟨0, Nat.le_refl _, rfl, fun i h1 h2 => by omega⟩
  | succ n ih =>
    rw [trimR]
    by_cases hc : ch t (b + (n + 1)) < 33
    · rw [if_pos hc]
      obtain ⟨j, h1, h2, h3⟩ := ih
      refine ⟨j, by omega, h2, fun i hi hi' => ?_⟩
      by_cases he : i = n + 1
      · rw [he]; exact hc
      · exact h3 i hi (by omega)
    · rw [if_neg hc]
      exact ⟨n + 1, Nat.le_refl _, rfl, fun i h1 h2 => by omega⟩

theorem strEquals_some {l r : List Int} (h : ∀ c ∈ l, c ≠ 61) (p : Nat) : strEquals (l ++ 61 :: r) p = some (p + l.length) := by
  induction l generalizing p with
  | nil => simp [strEquals]
  | cons c l ih =>
    rw [List.cons_append, strEquals, if_neg (h c List.mem_cons_self), ih fun d hd => h d (List.mem_cons_of_mem _ hd), List.length_cons]
    congr 1
    omega

/-- An entry of a section, in the text. -/
structure EntText (t : List Int) (A : List (List Int)) (h : List Int) (B1 : List (List Int)) (l : List Int) (X : List (List Int)) (es ee : Nat) (q k' val r R : List Int) : Prop where
  text : t = cat (A ++ h :: B1) ++ (q ++ k' ++ 61 :: (val ++ r)) ++ R
  line : l = q ++ k' ++ 61 :: (val ++ r)
  key : l.takeWhile plain = q ++ k'
  hq : ∀ c ∈ q, blank c = true
  pl : ∀ c ∈ q ++ k', plain c = true
  vis : ((q ++ k').any fun c => decide (33 ≤ c)) = true
  hval : ∀ c ∈ val, c ≠ 59
  hr : ∀ c ∈ r.head?, c = 59
  ev : lineEv l = some (.ent (trim (q ++ k')) (trim val))
  rest : (R = [] ∧ X = []) ∨ (R = 10 :: join X ∧ X ≠ [])
  hes : es = (cat (A ++ h :: B1)).length + q.length
  hee : ee = (cat (A ++ h :: B1)).length + (q ++ k').length + 1 + val.length

theorem EntAt.text {t : List Int} {n s e m es ee : Nat} {name h w key l : List Int} {A B C B1 B2 : List (List Int)} (hs : SecAt (lines t) 0 name n s e A h B C w)
    (he : EntAt B ((cat A).length + h.length + 1) key m es ee B1 l B2) : ∃ q k' val r R, EntText t A h B1 l (B2 ++ C) es ee q k' val r R := by
  obtain ⟨val, r, h1, h2, h3, h4, h5, h6, _⟩ := entry_shape he.ent
  have hsp := List.takeWhile_append_dropWhile (p := blank) (l := l.takeWhile plain)
  obtain ⟨R, hR, hRl⟩ := join_rest (X := [l]) (by simp) (B2 ++ C)
  have hD : (cat (A ++ h :: B1)).length = (cat A).length + h.length + 1 + (cat B1).length := by
    rw [cat_append, cat_cons]
    simp only [List.length_append, List.length_cons]
    omega
  refine ⟨(l.takeWhile plain).takeWhile blank, (l.takeWhile plain).dropWhile blank, val, r, R, ?_, ?_, hsp.symm, fun c hc => mem_takeWhile' hc, ?_, ?_, h3, h4, ?_, hRl, ?_, ?_⟩
  · rw [hsp, ← h1]
    conv => lhs; rw [← join_lines t, hs.eq, he.eq]
    rw [show A ++ h :: (B1 ++ l :: B2 ++ C) = (A ++ h :: B1) ++ ([l] ++ (B2 ++ C)) by simp, join_append (by simp), hR, List.append_assoc]
    rfl
  · rw [hsp, ← h1]
  · rw [hsp]; exact fun c hc => mem_takeWhile' hc
  · rw [hsp]; exact h5
  · rw [hsp]; exact h6
  · rw [he.s, hD]
  · rw [he.e, hD, hsp, h2]

theorem EntAt.ev {t : List Int} {n s e m es ee : Nat} {name h w key l q k' val r R : List Int} {A B C B1 B2 : List (List Int)} (_ : SecAt (lines t) 0 name n s e A h B C w)
    (he : EntAt B ((cat A).length + h.length + 1) key m es ee B1 l B2) (ht : EntText t A h B1 l (B2 ++ C) es ee q k' val r R) :
    B.filterMap lineEv = B1.filterMap lineEv ++ .ent (trim (q ++ k')) (trim val) :: B2.filterMap lineEv ∧ fold (trim (q ++ k')) = fold key ∧ keyCount (fold key) (B1.filterMap lineEv) = m := by
  refine ⟨?_, ?_, he.cnt⟩
  · rw [he.eq]; simp [ht.ev, List.filterMap_cons]
  · rw [← ht.key]; exact he.nm

theorem text_change {N K : List Int → Prop} {t : List Int} (hg : Good N K t) {n s e m es ee : Nat} {name h w key l q k' val r R v : List Int} {A B C B1 B2 : List (List Int)}
    (hs : SecAt (lines t) 0 name n s e A h B C w) (he : EntAt B ((cat A).length + h.length + 1) key m es ee B1 l B2) (ht : EntText t A h B1 l (B2 ++ C) es ee q k' val r R) (hv : GoodValue v) :
    ∃ t', changeText t es ee v = some t' ∧ events t' = A.filterMap lineEv ++ .sec (trim w) :: ((B1.filterMap lineEv ++ .ent (trim (q ++ k')) v :: B2.filterMap lineEv) ++ C.filterMap lineEv) ∧ Good N K t' := by
  have hno := lines_no_break t
  have hls : lines t = (A ++ h :: B1) ++ l :: (B2 ++ C) := by rw [hs.eq, he.eq]; simp
  rw [hls] at hno
  rw [show Good N K t = ∀ l ∈ lines t, GoodLine N K l from rfl, hls] at hg
  have hgl := hg l (by simp)
  have hnl := hno l (by simp)
  have hev : lineEv h = some (.sec (trim w)) := by unfold lineEv; rw [hs.hdr]
  generalize hD : cat (A ++ h :: B1) = D at *
  -- what remains of the old value is blank
  obtain ⟨z, hz, hzv, hch⟩ : ∃ z, (∀ c ∈ z, blank c = true) ∧ (∀ c ∈ z, c ∈ val) ∧ changeText t es ee v = some (D ++ (q ++ k') ++ 61 :: (v ++ z ++ r) ++ R) := by
    have hstart : t = (D ++ (q ++ k') ++ [61]) ++ (val ++ (r ++ R)) := by rw [ht.text, hD]; simp
    have hlen : (D ++ (q ++ k') ++ [61]).length = D.length + (q ++ k').length + 1 := by simp; omega
    have hq : strEquals (t.drop es) es = some (D.length + (q ++ k').length) := by
      have : t.drop es = k' ++ 61 :: (val ++ r ++ R) := by
        rw [ht.hes, ht.text, hD, show D ++ (q ++ k' ++ 61 :: (val ++ r)) ++ R = (D ++ q) ++ (k' ++ 61 :: (val ++ r ++ R)) by simp, List.drop_left' (by simp)]
      rw [this, strEquals_some]
      · rw [ht.hes, hD, List.length_append]; congr 1; omega
      · intro c hc
        have := ht.pl c (by simp [hc])
        simp [plain] at this
        exact this.2.1
    have hdr : ∀ j, t.drop (D.length + (q ++ k').length + 1 + j) = (val ++ (r ++ R)).drop j := by
      intro j
      rw [← List.drop_drop, ← hlen]
      conv => lhs; arg 2; arg 2; rw [hstart]
      rw [List.drop_left]
    have htk : t.take (D.length + (q ++ k').length + 1) = D ++ (q ++ k') ++ [61] := by
      rw [← hlen]
      conv => lhs; arg 2; rw [hstart]
      rw [List.take_left]
    unfold changeText
    rw [hq, Option.map_some]
    dsimp only
    rw [htk, ht.hee, hD]
    by_cases hc : D.length + (q ++ k').length + 1 + val.length - 1 > D.length + (q ++ k').length + 1
    · rw [if_pos hc]
      obtain ⟨j, hj, hr, hb⟩ := trimR_spec t (D.length + (q ++ k').length + 1) (D.length + (q ++ k').length + 1 + val.length - 1 - (D.length + (q ++ k').length + 1))
      refine ⟨val.drop (j + 1), ?_, fun c hc => List.drop_subset _ _ hc, ?_⟩
      · intro c hcz
        obtain ⟨i, hi, rfl⟩ := List.getElem_of_mem hcz
        rw [List.length_drop] at hi
        have h33 := hb (j + 1 + i) (by omega) (by omega)
        have hx : ch t (D.length + (q ++ k').length + 1 + (j + 1 + i)) = (val.drop (j + 1))[i]'(by rw [List.length_drop]; exact hi) := by
          have := congrArg List.head? (hdr (j + 1 + i))
          rw [List.head?_drop, List.head?_drop, List.getElem?_append_left (by omega)] at this
          rw [ch, List.getD_eq_getElem?_getD, this, List.getElem?_eq_getElem (by omega), Option.getD_some, List.getElem_drop]
        rw [hx] at h33
        simpa only [blank, decide_eq_true_eq] using h33
      · rw [hr, Nat.add_assoc, hdr, List.drop_append_of_le_length (by omega)]
        simp
    · rw [if_neg hc]
      refine ⟨[], by simp, by simp, ?_⟩
      rw [show D.length + (q ++ k').length + 1 + val.length - 1 + 1 = D.length + (q ++ k').length + 1 + val.length by omega, hdr, List.drop_left]
      simp
  refine ⟨_, hch, ?_⟩
  obtain ⟨he1, ho1⟩ := lineEv_entry ht.pl ht.vis hv hz ht.hr
  have hlpos : ∀ c ∈ q ++ k' ++ 61 :: (v ++ z ++ r), 0 < c ∧ c ≠ 10 := by
    have hl' : ∀ c ∈ q ++ k' ++ 61 :: (val ++ r), 0 < c ∧ c ≠ 10 := by
      rw [← ht.line]
      exact fun c hc => ⟨hgl.pos c hc, fun h' => hnl (h' ▸ hc)⟩
    intro c hc
    simp only [List.mem_append, List.mem_cons] at hc hl'
    rcases hc with hc | rfl | (hc | hc) | hc
    · exact hl' c (.inl hc)
    · decide
    · exact ⟨(hv.pos c hc).1, (hv.pos c hc).2.2⟩
    · exact hl' c (.inr (.inr (.inl (hzv c hc))))
    · exact hl' c (.inr (.inr (.inr hc)))
  have hk := (hgl.ok _ ht.ev)
  have hgl' : GoodLine N K (q ++ k' ++ 61 :: (v ++ z ++ r)) := by
    refine ⟨fun c hc => (hlpos c hc).1, (by rw [ho1]; intro h; cases h), ?_⟩
    rw [he1]
    intro e he
    cases he
    exact hk
  have hlines : lines (D ++ (q ++ k') ++ 61 :: (v ++ z ++ r) ++ R) = (A ++ h :: B1) ++ (q ++ k' ++ 61 :: (v ++ z ++ r)) :: (B2 ++ C) := by
    rw [show D ++ (q ++ k') ++ 61 :: (v ++ z ++ r) ++ R = D ++ ((q ++ k' ++ 61 :: (v ++ z ++ r)) ++ R) by simp, ← hD, lines_cat fun l hl => hno l (by simp only [List.mem_append]; exact .inl (List.mem_append.1 hl))]
    congr 1
    have hn' : (10 : Int) ∉ q ++ k' ++ 61 :: (v ++ z ++ r) := fun h' => (hlpos 10 h').2 rfl
    rcases ht.rest with ⟨rfl, hX⟩ | ⟨rfl, hX⟩
    · rw [List.append_nil, lines_single hn', hX]
    · rw [lines_break hn', lines_join hX]
      exact fun l hl => hno l (by simp only [List.mem_append, List.mem_cons] at hl ⊢; exact .inr (.inr hl))
  constructor
  · unfold events
    rw [hlines]
    rw [List.filterMap_append, List.filterMap_cons, he1]
    simp [hev, List.filterMap_cons]
  · intro x hx
    rw [hlines, List.mem_append, List.mem_cons] at hx
    rcases hx with hx | rfl | hx
    · exact hg x (by simp only [List.mem_append] at hx ⊢; exact .inl hx)
    · exact hgl'
    · exact hg x (by simp only [List.mem_append, List.mem_cons] at hx ⊢; exact .inr (.inr hx))

theorem text_delete {N K : List Int → Prop} {t : List Int} (hg : Good N K t) {n s e m es ee : Nat} {name h w key l q k' val r R : List Int} {A B C B1 B2 : List (List Int)}
    (hs : SecAt (lines t) 0 name n s e A h B C w) (he : EntAt B ((cat A).length + h.length + 1) key m es ee B1 l B2) (ht : EntText t A h B1 l (B2 ++ C) es ee q k' val r R) :
    events (deleteText t es ee) = A.filterMap lineEv ++ .sec (trim w) :: ((B1.filterMap lineEv ++ B2.filterMap lineEv) ++ C.filterMap lineEv) ∧ Good N K (deleteText t es ee) := by
  have hno := lines_no_break t
  have hls : lines t = (A ++ h :: B1) ++ l :: (B2 ++ C) := by rw [hs.eq, he.eq]; simp
  rw [hls] at hno
  rw [show Good N K t = ∀ l ∈ lines t, GoodLine N K l from rfl, hls] at hg
  have hgl := hg l (by simp)
  have hnl := hno l (by simp)
  have hev : lineEv h = some (.sec (trim w)) := by unfold lineEv; rw [hs.hdr]
  have hX : ∀ x ∈ B2 ++ C, x ∈ (A ++ h :: B1) ++ l :: (B2 ++ C) := fun x hx => by rw [List.mem_append, List.mem_cons]; exact .inr (.inr hx)
  generalize hD : cat (A ++ h :: B1) = D at *
  have hnr : (10 : Int) ∉ r := fun h' => hnl (by rw [ht.line]; simp [h'])
  have hqp : ∀ c ∈ q, 0 < c := fun c hc => hgl.pos c (by rw [ht.line]; simp [hc])
  have hqn : (10 : Int) ∉ q := fun h' => hnl (by rw [ht.line]; simp [h'])
  have hqb := ht.hq
  have hqpl : ∀ c ∈ q, plain c = true := fun c hc => ht.pl c (by simp [hc])
  have hdrop : t.drop ee = r ++ R := by
    rw [ht.hee, ht.text, hD, show D ++ (q ++ k' ++ 61 :: (val ++ r)) ++ R = (D ++ (q ++ k') ++ [61] ++ val) ++ (r ++ R) by simp, List.drop_left' (by simp; omega)]
  have htake : t.take es = D ++ q := by
    rw [ht.hes, ht.text, hD, show D ++ (q ++ k' ++ 61 :: (val ++ r)) ++ R = (D ++ q) ++ (k' ++ 61 :: (val ++ r ++ R)) by simp, List.take_left' (by simp)]
  have fin : ∀ x Y, lines (deleteText t es ee) = (A ++ h :: B1) ++ x :: Y → (x :: Y).filterMap lineEv = (B2 ++ C).filterMap lineEv → (∀ y ∈ x :: Y, GoodLine N K y) →
      events (deleteText t es ee) = A.filterMap lineEv ++ .sec (trim w) :: ((B1.filterMap lineEv ++ B2.filterMap lineEv) ++ C.filterMap lineEv) ∧ Good N K (deleteText t es ee) := by
    intro x Y h1 h2 h3
    constructor
    · unfold events
      rw [h1, List.filterMap_append, h2]
      simp [hev, List.filterMap_cons]
    · intro y hy
      rw [h1, List.mem_append] at hy
      rcases hy with hy | hy
      · exact hg y (by rw [List.mem_append]; exact .inl hy)
      · exact h3 y hy
  have hnD : ∀ l ∈ A ++ h :: B1, (10 : Int) ∉ l := fun l hl => hno l (by rw [List.mem_append]; exact .inl hl)
  rcases ht.rest with ⟨rfl, hXe⟩ | ⟨hRe, hXne⟩
  · have hres : deleteText t es ee = D ++ (q ++ r) := by
      unfold deleteText
      rw [hdrop, List.append_nil, strBreak_none hnr]
      dsimp only
      rw [eraseText, htake, hdrop]
      simp
    have hqr : lineEv (q ++ r) = none ∧ opens (q ++ r) = false := by
      rw [lineEv_blank_prefix hqb, opens_prefix hqpl]
      have hr := ht.hr
      cases r with
      | nil => decide
      | cons c r =>
        obtain rfl : c = 59 := hr c rfl
        have hd : (59 :: r).dropWhile plain = 59 :: r := by simp [plain]
        constructor
        · unfold lineEv
          rw [header_eq, if_neg (by rw [opens, hd]; simp)]
          simp only [isEntry, hd]
          simp
        · rw [opens, hd]; rfl
    refine fin (q ++ r) [] ?_ ?_ ?_
    · rw [hres, ← hD, lines_cat hnD, lines_single]
      rw [List.mem_append, not_or]
      exact ⟨hqn, hnr⟩
    · rw [hXe]; simp [hqr.1]
    · intro y hy
      simp only [List.mem_singleton] at hy
      subst hy
      refine ⟨?_, (by rw [hqr.2]; intro h; cases h), (by rw [hqr.1]; intro e h; cases h)⟩
      intro c hc
      rcases List.mem_append.1 hc with hc | hc
      · exact hqp c hc
      · exact hgl.pos c (by rw [ht.line]; simp [hc])
  · subst hRe
    obtain ⟨c, Y, hcY⟩ : ∃ c Y, B2 ++ C = c :: Y := by
      cases hx : B2 ++ C with
      | nil => exact absurd hx hXne
      | cons c Y => exact ⟨c, Y, rfl⟩
    rw [hcY] at hdrop
    replace hX : ∀ x ∈ c :: Y, x ∈ (A ++ h :: B1) ++ l :: (B2 ++ C) := fun x hx => hX x (by rw [hcY]; exact hx)
    have hres : deleteText t es ee = D ++ join ((q ++ c) :: Y) := by
      unfold deleteText
      rw [hdrop, strBreak_some hnr]
      dsimp only
      have : t.drop (ee + r.length + 1) = join (c :: Y) := by
        rw [Nat.add_assoc, ← List.drop_drop, hdrop, show r ++ 10 :: join (c :: Y) = (r ++ [10]) ++ join (c :: Y) by simp, List.drop_left' (by simp)]
      rw [eraseText, htake, this, join_cons_prefix, List.append_assoc]
    have hgc := hg c (hX c (by simp))
    refine fin (q ++ c) Y ?_ ?_ ?_
    · rw [hres, ← hD, lines_cat hnD, lines_join (by simp)]
      intro y hy
      rcases List.mem_cons.1 hy with rfl | hy
      · rw [List.mem_append, not_or]
        exact ⟨hqn, hno c (hX c (by simp))⟩
      · exact hno y (hX y (by simp [hy]))
    · rw [hcY, List.filterMap_cons, List.filterMap_cons, lineEv_blank_prefix hqb]
    · intro y hy
      rcases List.mem_cons.1 hy with rfl | hy
      · refine hgc.of_eq ?_ (opens_prefix hqpl) (lineEv_blank_prefix hqb)
        intro x hx
        rcases List.mem_append.1 hx with hx | hx
        · exact hqp x hx
        · exact hgc.pos x hx
      · exact hg y (hX y (by simp [hy]))

/-! ## Finding the entry -/

theorem findEntry_good {N K : List Int → Prop} (hN : Names N) (hK : Names K) {t name key : List Int} (hg : Good N K t) (hn : N (fold name)) (hk : K (fold key)) {n s e : Nat} {h w : List Int} {A B C : List (List Int)}
    (hs : SecAt (lines t) 0 name n s e A h B C w) (hf : findSection t name n = some (s, e)) (m : Nat) :
    findEntry t (s, e) key m = nth (entries ((cat A).length + h.length + 1) B) key m := by
  have hno := lines_no_break t
  rw [hs.eq] at hno
  have hsp := List.takeWhile_append_dropWhile (p := plain) (l := h)
  obtain ⟨R, hR, _⟩ := join_rest (X := h :: B) (by simp) C
  have ht : t = (cat A ++ h.takeWhile plain) ++ join (h.dropWhile plain :: B) ++ R := by
    conv => lhs; rw [← join_lines t, hs.eq, join_append (by simp), ← List.cons_append, hR]
    rw [List.append_assoc (cat A), ← join_cons_prefix, hsp]
    simp
  have hsl : s = (cat A ++ h.takeWhile plain).length := by rw [hs.s]; simp
  have hel : e = (cat A ++ h.takeWhile plain ++ join (h.dropWhile plain :: B)).length := by
    have h1 := hs.e
    have h2 := cat_length (X := h :: B) (by simp)
    have h3 : join (h :: B) = h.takeWhile plain ++ join (h.dropWhile plain :: B) := by rw [← join_cons_prefix, hsp]
    rw [h3] at h2
    simp only [List.length_append] at h2 ⊢
    omega
  have hch : (t.take e).drop s = join (h.dropWhile plain :: B) := by
    rw [hel]
    conv => lhs; arg 2; rw [ht, List.take_left]
    rw [hsl, List.drop_left]
  have hl : lines ((t.take e).drop s) = h.dropWhile plain :: B := by
    rw [hch, lines_join (by simp)]
    intro l hl
    rcases List.mem_cons.1 hl with rfl | hl
    · exact fun h' => hno h (by simp) ((List.dropWhile_suffix _).subset h')
    · exact hno l (by simp [hl])
  have hdd : (h.dropWhile plain).dropWhile plain = h.dropWhile plain := by
    cases hx : h.dropWhile plain with
    | nil => rfl
    | cons a x =>
      have := dropWhile_head hx
      simp [List.dropWhile, this]
  have hne : isEntry (h.dropWhile plain) = false := by
    apply isEntry_opens
    rw [opens, hdd]
    exact (header_opens hs.hdr).1
  have hent : entries s (lines ((t.take e).drop s)) = entries ((cat A).length + h.length + 1) B := by
    rw [hl, entries, hne]
    simp only [Bool.false_eq_true, if_false, List.nil_append]
    congr 1
    have := congrArg List.length hsp
    rw [List.length_append] at this
    rw [hsl, List.length_append]
    omega
  obtain ⟨_, h2⟩ := findSection_good hN hg hn n
  rw [← hent]
  refine Verif.Ini.C70_entry_partial t name key n m h2 s e hf ?_
  rw [hent]
  intro i hi
  obtain ⟨l, hl, h1, h3⟩ := entries_key _ _ i hi
  have hgl := hg l (by rw [hs.eq]; simp [hl])
  obtain ⟨val, r, _, _, _, _, _, h6, _⟩ := entry_shape h1
  have hw := hgl.ok _ h6
  rw [h3] at hw
  simp only [EvGood] at hw
  refine ⟨?_, ?_, ?_⟩
  · rw [← h3]
    exact fun c hc => hgl.pos c ((List.takeWhile_prefix _).subset hc)
  · intro h0
    exact hK.ne _ hw (by rw [h0]; rfl)
  · rintro (h | h)
    · exact hK.pre _ _ hw hk h
    · exact (hK.pre _ _ hk hw h).symm

end Verif.IniDoc
