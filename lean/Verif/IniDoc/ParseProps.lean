import Mathlib.Data.List.Induction
import Mathlib.Tactic.ByContra
import Verif.IniDoc.Parse

/-!
# Theorems about the INI reader
-/

namespace Verif.IniDoc

open Verif.Ini.Spec (lines blank trim plain opens header isEntry fold)
open Verif.IniDoc.Spec
open Verif.Ini (Key join lines_ne_nil join_lines lines_no_break snextkeychar svalidatesection snext_eq svalid_eq svalue_eq validatekey_eq rtrim)

/-! ## Trimming -/

theorem rtrim_blank {w e : List Int} (he : ∀ c ∈ e, blank c = true) : rtrim (w ++ e) = rtrim w := by
  induction e using List.reverseRecOn with
  | nil => simp
  | append_singleton e c ih =>
    rw [← List.append_assoc, Ini.rtrim_append_blank (he c (by simp)), ih fun d hd => he d (by simp [hd])]

theorem dropWhile_all {p : Int → Bool} {l : List Int} (h : ∀ c ∈ l, p c = true) : l.dropWhile p = [] := by
  induction l with
  | nil => rfl
  | cons a l ih => rw [List.dropWhile_cons_of_pos (h a List.mem_cons_self), ih fun c hc => h c (List.mem_cons_of_mem _ hc)]

theorem takeWhile_all {p : Int → Bool} {l : List Int} (h : ∀ c ∈ l, p c = true) : l.takeWhile p = l := by
  induction l with
  | nil => rfl
  | cons a l ih => rw [List.takeWhile_cons_of_pos (h a List.mem_cons_self), ih fun c hc => h c (List.mem_cons_of_mem _ hc)]

theorem dropWhile_append' {p : Int → Bool} {l e : List Int} (h : l.dropWhile p ≠ []) : (l ++ e).dropWhile p = l.dropWhile p ++ e := by
  induction l with
  | nil => simp at h
  | cons a l ih =>
    by_cases ha : p a = true
    · rw [List.cons_append, List.dropWhile_cons_of_pos ha, List.dropWhile_cons_of_pos ha]
      rw [List.dropWhile_cons_of_pos ha] at h
      exact ih h
    · rw [List.cons_append, List.dropWhile_cons_of_neg ha, List.dropWhile_cons_of_neg ha, List.cons_append]

theorem takeWhile_append' {p : Int → Bool} {l e : List Int} (h : l.dropWhile p ≠ []) : (l ++ e).takeWhile p = l.takeWhile p := by
  induction l with
  | nil => simp at h
  | cons a l ih =>
    by_cases ha : p a = true
    · rw [List.cons_append, List.takeWhile_cons_of_pos ha, List.takeWhile_cons_of_pos ha]
      rw [List.dropWhile_cons_of_pos ha] at h
      rw [ih h]
    · rw [List.cons_append, List.takeWhile_cons_of_neg ha, List.takeWhile_cons_of_neg ha]

theorem all_of_dropWhile {p : Int → Bool} {l : List Int} (h : l.dropWhile p = []) : ∀ c ∈ l, p c = true := by
  induction l with
  | nil => simp
  | cons a l ih =>
    by_cases ha : p a = true
    · rw [List.dropWhile_cons_of_pos ha] at h
      intro c hc
      rcases List.mem_cons.1 hc with rfl | hc
      · exact ha
      · exact ih h c hc
    · rw [List.dropWhile_cons_of_neg ha] at h
      cases h

theorem mem_takeWhile' {p : Int → Bool} {l : List Int} {c : Int} (h : c ∈ l.takeWhile p) : p c = true := by
  induction l with
  | nil => simp at h
  | cons a l ih =>
    by_cases ha : p a = true
    · rw [List.takeWhile_cons_of_pos ha] at h
      rcases List.mem_cons.1 h with rfl | h
      · exact ha
      · exact ih h
    · rw [List.takeWhile_cons_of_neg ha] at h
      cases h

theorem trim_eq_rtrim (w : List Int) : trim w = rtrim (w.dropWhile blank) := rfl

theorem trim_blank {w e : List Int} (he : ∀ c ∈ e, blank c = true) : trim (w ++ e) = trim w := by
  rw [trim_eq_rtrim, trim_eq_rtrim]
  by_cases h : w.dropWhile blank = []
  · have hw := all_of_dropWhile h
    rw [dropWhile_all (l := w ++ e) (by
      intro c hc
      rcases List.mem_append.1 hc with h | h
      · exact hw c h
      · exact he c h), h]
  · rw [dropWhile_append' h, rtrim_blank he]

theorem dropWhile_head {p : Int → Bool} {l : List Int} {c : Int} {r : List Int} (h : l.dropWhile p = c :: r) : p c = false := by
  induction l with
  | nil => simp at h
  | cons a l ih =>
    by_cases ha : p a = true
    · rw [List.dropWhile_cons_of_pos ha] at h; exact ih h
    · rw [List.dropWhile_cons_of_neg ha] at h
      cases h
      simpa using ha

theorem trimlstr_eq {w : List Int} (hpos : ∀ c ∈ w, 0 < c) : trimlstr w = w.dropWhile blank := by
  unfold trimlstr
  induction w with
  | nil => rfl
  | cons c w ih =>
    have hc := hpos c List.mem_cons_self
    by_cases h : c < 33
    · rw [List.dropWhile_cons_of_pos (by simp [hc, h]), List.dropWhile_cons_of_pos (by simp [blank, h]), ih fun d hd => hpos d (List.mem_cons_of_mem _ hd)]
    · rw [List.dropWhile_cons_of_neg (by simp [h]), List.dropWhile_cons_of_neg (by simp [blank]; omega)]

theorem scanR_eq {u : List Int} (h0 : ∀ x : Int, u.head? = some x → ¬x < 33) (hne : u ≠ []) :
    ∀ n, n < u.length → scanR u n + 1 = (rtrim (u.take (n + 1))).length := by
  intro n
  induction n with
  | zero =>
    intro _
    cases u with
    | nil => exact absurd rfl hne
    | cons a u =>
      have := h0 a rfl
      simp [scanR, rtrim, blank, List.dropWhile, this]
  | succ n ih =>
    intro hn
    rw [scanR, List.take_succ_eq_append_getElem hn]
    have hg : u.getD (n + 1) 0 = u[n + 1] := by simp [List.getD_eq_getElem?_getD, List.getElem?_eq_getElem hn]
    rw [hg]
    by_cases hc : u[n + 1] < 33
    · rw [if_pos hc, Ini.rtrim_append_blank (by simp [blank, hc]), ih (by omega)]
    · rw [if_neg hc, Ini.rtrim_append_visible (by simp [blank]; omega)]
      simp
      omega

theorem savestr_eq {orig : Buf} {str : List Int} (hpos : ∀ c ∈ str, 0 < c) (hb : orig.str.length < orig.cap) (h : trim str ≠ [] ∨ 2 ≤ orig.cap) :
    ∃ cap, savestr orig str = some ⟨trim str, cap⟩ ∧ 2 ≤ cap ∧ (trim str).length < cap := by
  unfold savestr trimrstr
  rw [trimlstr_eq hpos]
  dsimp only
  by_cases hu : str.dropWhile blank = []
  · have ht : trim str = [] := by rw [trim_eq_rtrim, hu]; rfl
    rcases h with h | h
    · exact absurd ht h
    · rw [hu, ht]
      refine ⟨orig.cap, ?_, h, by simp; omega⟩
      simp [scanR]
      omega
  · have h0 : ∀ x : Int, (str.dropWhile blank).head? = some x → ¬x < 33 := by
      intro x hx hlt
      cases hd : str.dropWhile blank with
      | nil => exact hu hd
      | cons c r =>
        rw [hd] at hx
        cases hx
        have := dropWhile_head hd
        simp [blank] at this
        omega
    have hlen : 0 < (str.dropWhile blank).length := List.length_pos_iff.2 hu
    have hs : scanR (str.dropWhile blank) (str.dropWhile blank).length + 1 = (trim str).length := by
      obtain ⟨n, hn⟩ : ∃ n, (str.dropWhile blank).length = n + 1 := ⟨_, (Nat.sub_add_cancel hlen).symm⟩
      rw [hn, scanR, if_pos (by rw [List.getD_eq_getElem?_getD, List.getElem?_eq_none (by omega)]; simp), scanR_eq h0 hu n (by omega), ← hn, List.take_length, trim_eq_rtrim]
    have hp : trim str <+: str.dropWhile blank := Ini.rtrim_prefix _
    have hle := hp.length_le
    have hpos' : 1 ≤ (trim str).length := by omega
    rw [hs]
    refine ⟨if orig.str.length < (str.dropWhile blank).length then (str.dropWhile blank).length + 1 else orig.cap, ?_, ?_, ?_⟩
    · rw [if_pos]
      · rw [← List.prefix_iff_eq_take.1 hp]
      · split <;> omega
    · split <;> omega
    · split <;> omega

/-! ## One line -/

theorem nextkeychar_eq (l : List Int) (p : Nat) : nextkeychar l p = snextkeychar l p := by
  induction l generalizing p with
  | nil => rfl
  | cons c l ih => rw [nextkeychar, snextkeychar, ih]

theorem validatesection_eq (l : List Int) (p : Nat) (v : Bool) : validatesection l p v = svalidatesection l p v := by
  induction l generalizing p v with
  | nil => rfl
  | cons c l ih => rw [validatesection, svalidatesection, ih]

theorem validatekey_eq' (l : List Int) : validatekey l = l.any fun c => decide (33 ≤ c) := by
  rw [← Ini.validatekey_eq]
  induction l with
  | nil => rfl
  | cons c l ih => rw [validatekey, Ini.validatekey, ih]

theorem validatevalue_eq (l : List Int) (p : Nat) : validatevalue l p = p + (l.takeWhile fun c => c ≠ 59).length := by
  rw [← svalue_eq]
  induction l generalizing p with
  | nil => rfl
  | cons c l ih => rw [validatevalue, Ini.svalidatevalue, ih]

/-- The allocations of a state are large enough for their strings. -/
structure WF (s : St) : Prop where
  key : s.curkey.str.length < s.curkey.cap
  value : s.curvalue.str.length < s.curvalue.cap
  section_ : s.cursection.str.length < s.cursection.cap

theorem split_pos {l : List Int} {c : Int} {r : List Int} (h : l.dropWhile plain = c :: r) : l = l.takeWhile plain ++ c :: r := by
  rw [← h, List.takeWhile_append_dropWhile]

theorem trim_ne_of_any {w : List Int} (h : (w.any fun c => decide (33 ≤ c)) = true) : trim w ≠ [] := by
  intro ht
  obtain ⟨c, hc, hv⟩ := List.any_eq_true.1 h
  have h2 : w.dropWhile blank = [] := by
    by_contra hne
    rw [trim_eq_rtrim] at ht
    cases hd : w.dropWhile blank with
    | nil => exact hne hd
    | cons a r =>
      have ha := dropWhile_head hd
      rw [hd] at ht
      have : (a :: r).reverse.dropWhile blank = [] := by simpa [rtrim] using ht
      have := all_of_dropWhile this a (by simp)
      rw [ha] at this
      cases this
  have := all_of_dropWhile h2 c hc
  simp [blank] at this hv
  omega

/-- Nothing is returned for this buffer. -/
def Quiet (b : List Int) : Prop := ∀ s : St, s.buf = some b → parseBuf s = some (none, s)

theorem quiet_plain {b : List Int} (h : b.dropWhile plain = []) : Quiet b := by
  intro s hs
  unfold parseBuf
  rw [hs]
  dsimp only
  rw [nextkeychar_eq, snext_eq, h]
  simp

theorem plain_break : ∀ e : List Int, (e = [] ∨ e = [10]) → ∀ c ∈ e, plain c = true ∧ blank c = true ∧ (0 : Int) < c ∧ c ≠ 59 ∧ c ≠ 93 := by
  intro e he c hc
  rcases he with rfl | rfl
  · simp at hc
  · simp at hc
    subst hc
    decide

theorem takeWhile_plain_all (l : List Int) : ∀ c ∈ l.takeWhile plain, plain c = true := by
  intro c hc
  exact (mem_takeWhile' hc)

theorem takeWhile_split {p : Int → Bool} {r e : List Int} (he : ∀ c ∈ e, p c = true) :
    ((r ++ e).takeWhile p = r.takeWhile p ∧ r.dropWhile p ≠ []) ∨ ((r ++ e).takeWhile p = r ++ e ∧ r.takeWhile p = r) := by
  by_cases h : r.dropWhile p = []
  · right
    have hr := all_of_dropWhile h
    refine ⟨takeWhile_all ?_, takeWhile_all hr⟩
    intro c hc
    rcases List.mem_append.1 hc with h | h
    · exact hr c h
    · exact he c h
  · exact .inl ⟨takeWhile_append' h, h⟩

theorem parseBuf_line {s : St} {l e : List Int} (hb : s.buf = some (l ++ e)) (he : e = [] ∨ e = [10]) (hpos : ∀ c ∈ l, 0 < c)
    (hs : opens l = true → trim (bracketed l) ≠ []) (hw : WF s) (hv : ∀ k v, lineEv l = some (.ent k v) → v ≠ [] ∨ 2 ≤ s.curvalue.cap) :
    ∃ s' b, parseBuf s = some (lineEv l, s') ∧ s'.rest = s.rest ∧ s'.eof = s.eof ∧ WF s' ∧ s'.buf = some b ∧
      (2 ≤ s.curvalue.cap ∨ (∃ k v, lineEv l = some (.ent k v)) → 2 ≤ s'.curvalue.cap) ∧ (header l = none → Quiet b) ∧
      (∀ w, header l = some w → (∀ c ∈ b, 0 < c) ∧ ∃ w', header b = some w' ∧ trim w' = trim w ∧ bracketed b = w') := by
  have hpe := plain_break e he
  have hposle : ∀ c ∈ l ++ e, 0 < c := by
    intro c hc
    rcases List.mem_append.1 hc with h | h
    · exact hpos c h
    · exact (hpe c h).2.2.1
  cases hd : l.dropWhile plain with
  | nil =>
    have hall : ∀ c ∈ l ++ e, plain c = true := by
      intro c hc
      rcases List.mem_append.1 hc with h | h
      · exact all_of_dropWhile hd c h
      · exact (hpe c h).1
    have hq := quiet_plain (dropWhile_all hall)
    have hh : header l = none := by simp [header, opens, hd]
    have hl : lineEv l = none := by simp [lineEv, hh, isEntry, hd]
    refine ⟨s, l ++ e, ?_, rfl, rfl, hw, hb, ?_, fun _ => hq, ?_⟩
    · rw [hl]; exact hq s hb
    · rintro (h | ⟨k, v, h⟩)
      · exact h
      · rw [hl] at h; cases h
    · intro w h; rw [hh] at h; cases h
  | cons c r =>
    have hdb : (l ++ e).dropWhile plain = c :: (r ++ e) := by rw [dropWhile_append' (by rw [hd]; simp), hd, List.cons_append]
    have htb : (l ++ e).takeWhile plain = l.takeWhile plain := takeWhile_append' (by rw [hd]; simp)
    have hlb : l ++ e = l.takeWhile plain ++ c :: (r ++ e) := by rw [← hdb, ← htb, List.takeWhile_append_dropWhile]
    have hcp := dropWhile_head hd
    generalize hk : l.takeWhile plain = k at *
    have hkl : ∀ c ∈ k, plain c = true := by rw [← hk]; exact takeWhile_plain_all l
    have hposk : ∀ x ∈ k, 0 < x := fun x hx => hposle x (by rw [hlb]; simp [hx])
    have hposr : ∀ x ∈ r ++ e, 0 < x := fun x hx => hposle x (by rw [hlb]; simp only [List.mem_append, List.mem_cons] at hx ⊢; exact .inr (.inr hx))
    have htk : (l ++ e).take k.length = k := by rw [hlb, List.take_left]
    have hdk : (l ++ e).drop k.length = c :: (r ++ e) := by rw [hlb, List.drop_left]
    have hdk1 : (l ++ e).drop (k.length + 1) = r ++ e := by rw [← List.drop_drop, hdk]; rfl
    have hnk : nextkeychar (l ++ e) 0 = if c = 91 then .bracket k.length else if c = 61 then .equals k.length else .garbage := by
      rw [nextkeychar_eq, snext_eq, hdb, htb]
      simp
    by_cases hc61 : c = 61
    · -- an entry
      subst hc61
      have hh : header l = none := by simp [header, opens, hd]
      have hnk' : nextkeychar (l ++ e) 0 = .equals k.length := by rw [hnk]; rfl
      by_cases hvk : validatekey k = true
      · have hany := hvk
        rw [validatekey_eq'] at hany
        have hie : isEntry l = true := by simp only [isEntry, hd, hk]; simpa using hany
        have hl : lineEv l = some (.ent (trim k) (trim (r.takeWhile fun c => c ≠ 59))) := by
          rw [lineEv, hh]
          dsimp only
          rw [if_pos hie, hk, hd]
          rfl
        have hval : ((l ++ e).take (validatevalue ((l ++ e).drop (k.length + 1)) (k.length + 1))).drop (k.length + 1) = (r ++ e).takeWhile fun c => c ≠ 59 := by
          rw [validatevalue_eq, hdk1, List.drop_take, hdk1, Nat.add_sub_cancel_left]
          exact (List.prefix_iff_eq_take.1 (List.takeWhile_prefix _)).symm
        have htv : trim ((r ++ e).takeWhile fun c => c ≠ 59) = trim (r.takeWhile fun c => c ≠ 59) := by
          rcases takeWhile_split (p := fun c => c ≠ 59) (r := r) (e := e) (fun c hc => by simpa using (hpe c hc).2.2.2.1) with ⟨h, _⟩ | ⟨h, h2⟩
          · rw [h]
          · rw [h, h2, trim_blank fun c hc => (hpe c hc).2.1]
        obtain ⟨ck, hck, hck2, hck3⟩ := savestr_eq (orig := s.curkey) hposk hw.key (.inl (trim_ne_of_any hany))
        obtain ⟨cv, hcv, hcv2, hcv3⟩ := savestr_eq (orig := s.curvalue) (str := (r ++ e).takeWhile fun c => c ≠ 59)
          (fun x hx => hposr x (List.takeWhile_subset _ hx)) hw.value (by rw [htv]; exact hv _ _ hl)
        rw [htv] at hcv hcv3
        refine ⟨{ s with buf := some k, curkey := ⟨trim k, ck⟩, curvalue := ⟨trim (r.takeWhile fun c => c ≠ 59), cv⟩ }, k, ?_, rfl, rfl, ⟨hck3, hcv3, hw.section_⟩, rfl,
          fun _ => hcv2, fun _ => quiet_plain (dropWhile_all hkl), ?_⟩
        · unfold parseBuf
          rw [hb]
          dsimp only
          rw [hnk']
          dsimp only
          rw [htk, if_pos hvk, hval, hck, hcv, hl]
        · intro w h; rw [hh] at h; cases h
      · have hany := hvk
        rw [validatekey_eq'] at hany
        have hie : ¬isEntry l = true := by simp only [isEntry, hd, hk]; simpa using hany
        have hl : lineEv l = none := by simp [lineEv, hh, hie]
        have hq : Quiet (l ++ e) := by
          intro s' hs'
          unfold parseBuf
          rw [hs']
          dsimp only
          rw [hnk']
          dsimp only
          rw [htk, if_neg hvk]
        refine ⟨s, l ++ e, ?_, rfl, rfl, hw, hb, ?_, fun _ => hq, ?_⟩
        · rw [hl]; exact hq s hb
        · rintro (h | ⟨k, v, h⟩)
          · exact h
          · rw [hl] at h; cases h
        · intro w h; rw [hh] at h; cases h
    · by_cases hc91 : c = 91
      · -- a header
        subst hc91
        have hop : opens l = true := by simp [opens, hd]
        have hnk' : nextkeychar (l ++ e) 0 = .bracket k.length := by rw [hnk]; rfl
        have hbr : bracketed l = r.takeWhile fun c => c ≠ 59 ∧ c ≠ 93 := by simp [bracketed, hd]
        have hne := hs hop
        have hvs : validatesection ((l ++ e).drop k.length) k.length false =
            if ((r ++ e).drop ((r ++ e).takeWhile fun c => c ≠ 59 ∧ c ≠ 93).length).head? = some 59 then none
            else some (k.length + 1 + ((r ++ e).takeWhile fun c => c ≠ 59 ∧ c ≠ 93).length) := by
          rw [hdk, validatesection_eq, svalidatesection, if_neg (by decide), if_neg (by decide), ← svalid_eq]
          rfl
        have hhead : ((r ++ e).drop ((r ++ e).takeWhile fun c => c ≠ 59 ∧ c ≠ 93).length).head? = some 59 ↔
            (r.drop (r.takeWhile fun c => c ≠ 59 ∧ c ≠ 93).length).head? = some 59 := by
          have hsplit : ∀ x : List Int, x.drop (x.takeWhile fun c => c ≠ 59 ∧ c ≠ 93).length = x.dropWhile fun c => c ≠ 59 ∧ c ≠ 93 := by
            intro x
            have := List.takeWhile_append_dropWhile (p := fun c : Int => c ≠ 59 ∧ c ≠ 93) (l := x)
            conv => lhs; arg 2; rw [← this]
            rw [List.drop_left]
          rw [hsplit, hsplit]
          by_cases hr : r.dropWhile (fun c => c ≠ 59 ∧ c ≠ 93) = []
          · rw [hr, dropWhile_all]
            intro c hc
            rcases List.mem_append.1 hc with h | h
            · exact all_of_dropWhile hr c h
            · have := (hpe c h).2.2.2
              simpa using this
          · rw [dropWhile_append' hr]
            cases hx : r.dropWhile (fun c => c ≠ 59 ∧ c ≠ 93) with
            | nil => exact absurd hx hr
            | cons a b => simp
        have htw : trim ((r ++ e).takeWhile fun c => c ≠ 59 ∧ c ≠ 93) = trim (bracketed l) := by
          rw [hbr]
          rcases takeWhile_split (p := fun c => c ≠ 59 ∧ c ≠ 93) (r := r) (e := e) (fun c hc => by simpa using (hpe c hc).2.2.2) with ⟨h, _⟩ | ⟨h, h2⟩
          · rw [h]
          · rw [h, h2, trim_blank fun c hc => (hpe c hc).2.1]
        by_cases h59 : (r.drop (r.takeWhile fun c => c ≠ 59 ∧ c ≠ 93).length).head? = some 59
        · have hh : header l = none := by
            rw [header]
            rw [if_neg]
            rw [hd]
            exact fun h => h.2.2 h59
          have hl : lineEv l = none := by simp [lineEv, hh, isEntry, hd]
          have hq : Quiet (l ++ e) := by
            intro s' hs'
            unfold parseBuf
            rw [hs']
            dsimp only
            rw [hnk']
            dsimp only
            rw [hvs, if_pos (hhead.2 h59)]
          refine ⟨s, l ++ e, ?_, rfl, rfl, hw, hb, ?_, fun _ => hq, ?_⟩
          · rw [hl]; exact hq s hb
          · rintro (h | ⟨k, v, h⟩)
            · exact h
            · rw [hl] at h; cases h
          · intro w h; rw [hh] at h; cases h
        · have hh : header l = some (bracketed l) := by
            rw [header]
            rw [if_pos]
            · rfl
            · rw [hd]
              refine ⟨hop, ?_, h59⟩
              intro h0
              rw [hbr] at hne
              simp only [List.tail_cons] at h0
              rw [h0] at hne
              exact hne rfl
          have hl : lineEv l = some (.sec (trim (bracketed l))) := by rw [lineEv, hh]
          generalize hW : ((r ++ e).takeWhile fun c => c ≠ 59 ∧ c ≠ 93) = W at *
          have hWne : W ≠ [] := by
            rintro rfl
            exact hne htw.symm
          have hWp : W <+: r ++ e := by rw [← hW]; exact List.takeWhile_prefix _
          have hWall : ∀ c ∈ W, (decide (c ≠ 59 ∧ c ≠ 93)) = true := by rw [← hW]; intro c hc; exact mem_takeWhile' hc
          have htake : (l ++ e).take (k.length + 1 + W.length) = k ++ 91 :: W := by
            rw [hlb, List.take_append, List.take_of_length_le (by omega), show k.length + 1 + W.length - k.length = W.length + 1 by omega, List.take_succ_cons,
              ← List.prefix_iff_eq_take.1 hWp]
          have hname : ((l ++ e).take (k.length + 1 + W.length)).drop (k.length + 1) = W := by
            rw [htake, ← List.drop_drop, List.drop_left]
            rfl
          obtain ⟨cs, hcs, hcs2, hcs3⟩ := savestr_eq (orig := s.cursection) (str := W) (fun x hx => hposr x (hWp.subset hx)) hw.section_ (.inl (by rw [htw]; exact hne))
          rw [htw] at hcs hcs3
          refine ⟨{ s with buf := some (k ++ 91 :: W), cursection := ⟨trim (bracketed l), cs⟩ }, k ++ 91 :: W, ?_, rfl, rfl, ⟨hw.key, hw.value, hcs3⟩, rfl, ?_, ?_, ?_⟩
          · unfold parseBuf
            rw [hb]
            dsimp only
            rw [hnk']
            dsimp only
            rw [hvs, if_neg (fun h => h59 (hhead.1 h))]
            dsimp only
            rw [if_pos (by have := List.length_pos_iff.2 hWne; omega), hname, hcs, htake, hl]
          · rintro (h | ⟨k, v, h⟩)
            · exact h
            · rw [hl] at h; cases h
          · intro h; rw [hh] at h; cases h
          · intro w h
            rw [hh] at h
            cases h
            have hd' : (k ++ 91 :: W).dropWhile plain = 91 :: W := by
              rw [List.dropWhile_append_of_pos hkl]
              rfl
            refine ⟨?_, W, ?_, htw, ?_⟩
            · intro c hc
              rcases List.mem_append.1 hc with h | h
              · exact hposk c h
              · rcases List.mem_cons.1 h with rfl | h
                · decide
                · exact hposr c (hWp.subset h)
            · rw [header]
              rw [hd', List.tail_cons, takeWhile_all hWall, if_pos]
              refine ⟨by simp [opens, hd'], hWne, ?_⟩
              rw [List.drop_length]
              simp
            · rw [bracketed, hd', List.tail_cons, takeWhile_all hWall]
      · have hnk' : nextkeychar (l ++ e) 0 = .garbage := by rw [hnk, if_neg hc91, if_neg hc61]
        have hh : header l = none := by
          have : ¬opens l = true := by simp [opens, hd, hc91]
          simp [header, this]
        have hl : lineEv l = none := by simp [lineEv, hh, isEntry, hd, hc61]
        have hq : Quiet (l ++ e) := by
          intro s' hs'
          unfold parseBuf
          rw [hs']
          dsimp only
          rw [hnk']
        refine ⟨s, l ++ e, ?_, rfl, rfl, hw, hb, ?_, fun _ => hq, ?_⟩
        · rw [hl]; exact hq s hb
        · rintro (h | ⟨k, v, h⟩)
          · exact h
          · rw [hl] at h; cases h
        · intro w h; rw [hh] at h; cases h

/-! ## The loop -/

/-- The reader returns these lines and then stops. -/
inductive Run : St → List Ev → Prop where
  | done {s : St} : s.eof = true → Run s []
  | step {s s' : St} {o : Option Ev} {evs : List Ev} : s.eof = false → parseBuf (fgets s) = some (o, s') → Run s' evs → Run s (o.toList ++ evs)

/-- The number of further rounds is at most this. -/
def todo (s : St) : Nat := if s.eof = true then 0 else s.rest.length + 1

theorem parseBuf_frame {s s' : St} {o : Option Ev} (h : parseBuf s = some (o, s')) : s'.rest = s.rest ∧ s'.eof = s.eof := by
  unfold parseBuf at h
  split at h
  · cases h
  · split at h
    · cases h; exact ⟨rfl, rfl⟩
    · split at h
      · dsimp only at h
        split at h
        · cases h; exact ⟨rfl, rfl⟩
        · cases h
      · cases h; exact ⟨rfl, rfl⟩
    · split at h
      · cases h; exact ⟨rfl, rfl⟩
      · split at h
        · split at h
          · cases h; exact ⟨rfl, rfl⟩
          · cases h
        · cases h; exact ⟨rfl, rfl⟩

theorem takeLine_length (n : Nat) (l : List Int) : (takeLine n l).length ≤ l.length := by
  induction n generalizing l with
  | zero => simp [takeLine]
  | succ n ih =>
    cases l with
    | nil => simp [takeLine]
    | cons c l =>
      rw [takeLine]
      split
      · simp
      · have := ih l
        simp only [List.length_cons]
        omega

theorem todo_step {s s' : St} {o : Option Ev} (he : s.eof = false) (h : parseBuf (fgets s) = some (o, s')) : todo s' < todo s := by
  obtain ⟨h1, h2⟩ := parseBuf_frame h
  unfold todo
  rw [h1, h2, he]
  unfold fgets
  dsimp only
  by_cases hl : takeLine maxLine s.rest = []
  · rw [if_pos hl]; simp
  · rw [if_neg hl]
    have := takeLine_length maxLine s.rest
    have := List.length_pos_iff.2 hl
    simp only [List.length_drop]
    split <;> simp <;> omega

theorem Run.parseLine {s : St} {evs : List Ev} (h : Run s evs) : ∀ n, todo s < n →
    (evs = [] ∧ ∃ s', IniDoc.parseLine n s = some (none, s')) ∨ (∃ e evs' s', evs = e :: evs' ∧ IniDoc.parseLine n s = some (some e, s') ∧ Run s' evs' ∧ todo s' < todo s) := by
  induction h with
  | @done s he =>
    intro n hn
    left
    obtain ⟨m, rfl⟩ : ∃ m, n = m + 1 := ⟨n - 1, by omega⟩
    exact ⟨rfl, s, by rw [IniDoc.parseLine, if_pos he]⟩
  | @step s s' o evs he hp hr ih =>
    intro n hn
    obtain ⟨m, rfl⟩ : ∃ m, n = m + 1 := ⟨n - 1, by omega⟩
    have ht := todo_step he hp
    rw [IniDoc.parseLine, if_neg (by simp [he]), hp]
    cases o with
    | some e => exact .inr ⟨e, evs, s', rfl, rfl, hr, ht⟩
    | none =>
      rcases ih m (by omega) with ⟨h1, s2, h2⟩ | ⟨e, evs', s2, h1, h2, h3, h4⟩
      · exact .inl ⟨h1, s2, h2⟩
      · exact .inr ⟨e, evs', s2, h1, h2, h3, by omega⟩

theorem Run.parseAll {s : St} {evs : List Ev} (h : Run s evs) : ∀ n, todo s < n → IniDoc.parseAll n s = some evs := by
  intro n
  induction n generalizing s evs with
  | zero => intro hn; omega
  | succ n ih =>
    intro hn
    rw [IniDoc.parseAll]
    rcases h.parseLine (s.rest.length + 2) (by unfold todo; split <;> omega) with ⟨rfl, s2, h2⟩ | ⟨e, evs', s2, rfl, h2, h3, h4⟩
    · rw [h2]
    · rw [h2]
      dsimp only
      rw [ih h3 (by omega)]
      rfl

theorem takeLine_break {l r : List Int} (hl : (10 : Int) ∉ l) : ∀ n, l.length < n → takeLine n (l ++ 10 :: r) = l ++ [10] := by
  induction l with
  | nil => intro n hn; obtain ⟨m, rfl⟩ : ∃ m, n = m + 1 := ⟨n - 1, by simp at hn; omega⟩; simp [takeLine]
  | cons c l ih =>
    intro n hn
    obtain ⟨m, rfl⟩ : ∃ m, n = m + 1 := ⟨n - 1, by omega⟩
    have hc : c ≠ 10 := fun h => hl (h ▸ List.mem_cons_self)
    rw [List.cons_append, takeLine, if_neg hc, ih (fun h => hl (List.mem_cons_of_mem _ h)) m (by simp at hn; omega), List.cons_append]

theorem takeLine_end {l : List Int} (hl : (10 : Int) ∉ l) : ∀ n, l.length < n → takeLine n l = l := by
  induction l with
  | nil => intro n hn; cases n <;> rfl
  | cons c l ih =>
    intro n hn
    obtain ⟨m, rfl⟩ : ∃ m, n = m + 1 := ⟨n - 1, by omega⟩
    have hc : c ≠ 10 := fun h => hl (h ▸ List.mem_cons_self)
    rw [takeLine, if_neg hc, ih (fun h => hl (List.mem_cons_of_mem _ h)) m (by simp at hn; omega)]

theorem fgets_break {s : St} {l r : List Int} (h : s.rest = l ++ 10 :: r) (hl : (10 : Int) ∉ l) (hlen : l.length < maxLine) :
    fgets s = { s with rest := r, buf := some (l ++ [10]), eof := false } := by
  unfold fgets
  dsimp only
  rw [h, takeLine_break hl maxLine hlen, if_neg (by simp)]
  congr 1
  · simp
  · simp

theorem fgets_end {s : St} {l : List Int} (h : s.rest = l) (hne : l ≠ []) (hl : (10 : Int) ∉ l) (hlen : l.length < maxLine) :
    fgets s = { s with rest := [], buf := some (l ++ []), eof := true } := by
  unfold fgets
  dsimp only
  rw [h, takeLine_end hl maxLine hlen, if_neg hne]
  have h10 : l.getLast? ≠ some 10 := fun h => hl (List.mem_of_getLast? h)
  simp [hlen, h10]

theorem fgets_eof {s : St} (h : s.rest = []) : fgets s = { s with eof := true } := by
  unfold fgets
  rw [h]
  rfl

/-- Lines the reader gets right: not too long, of ASCII characters, and with a visible name if the line opens a section. -/
structure Line (l : List Int) : Prop where
  brk : (10 : Int) ∉ l
  len : l.length < maxLine
  pos : ∀ c ∈ l, 0 < c
  name : opens l = true → trim (bracketed l) ≠ []

theorem firstValue_cons {l : List Int} {ls : List (List Int)} (h : firstValue ((l :: ls).filterMap lineEv) ≠ some []) :
    (∀ k v, lineEv l = some (.ent k v) → v ≠ []) ∧ ((∃ k v, lineEv l = some (.ent k v)) ∨ firstValue (ls.filterMap lineEv) ≠ some []) := by
  cases hl : lineEv l with
  | none => rw [List.filterMap_cons_none hl] at h; exact ⟨by simp, .inr h⟩
  | some e =>
    rw [List.filterMap_cons_some hl] at h
    cases e with
    | sec n => exact ⟨by simp, .inr (by simpa [firstValue] using h)⟩
    | ent k v =>
      refine ⟨?_, .inl ⟨k, v, rfl⟩⟩
      intro k' v' h' hv
      cases h'
      subst hv
      simp [firstValue] at h

theorem run_lines : ∀ (ls : List (List Int)) (s : St), ls ≠ [] → s.rest = join ls → s.eof = false → (∀ l ∈ ls, Line l) → WF s →
    (2 ≤ s.curvalue.cap ∨ firstValue (ls.filterMap lineEv) ≠ some []) → (ls = [[]] → ∃ b, s.buf = some b ∧ Quiet b) →
    Run s (ls.filterMap lineEv ++ ((lastHeader ls).map fun w => Ev.sec (trim w)).toList) := by
  intro ls
  induction ls with
  | nil => intro s h; exact absurd rfl h
  | cons l ls ih =>
    intro s _ hrest heof hline hw hv hq
    have hl := hline l List.mem_cons_self
    have hval : ∀ k v, lineEv l = some (.ent k v) → v ≠ [] ∨ 2 ≤ s.curvalue.cap := by
      intro k v h
      rcases hv with hv | hv
      · exact .inr hv
      · exact .inl ((firstValue_cons hv).1 k v h)
    have hcons : ∀ x : List Ev, (l :: ls).filterMap lineEv ++ x = (lineEv l).toList ++ (ls.filterMap lineEv ++ x) := by
      intro x
      cases h : lineEv l with
      | none => rw [List.filterMap_cons_none h]; rfl
      | some e => rw [List.filterMap_cons_some h]; rfl
    cases ls with
    | nil =>
      rw [show lastHeader [l] = none by simp [lastHeader]]
      rw [hcons]
      by_cases hl0 : l = []
      · subst hl0
        obtain ⟨b, hb, hqb⟩ := hq rfl
        have hf : fgets s = { s with eof := true } := fgets_eof (by rw [hrest]; rfl)
        have : lineEv [] = none := by decide
        rw [this]
        refine Run.step heof (s' := { s with eof := true }) ?_ (.done rfl)
        rw [hf]
        exact hqb _ hb
      · have hf := fgets_end (s := s) (l := l) (by rw [hrest]; rfl) hl0 hl.brk hl.len
        obtain ⟨s', b, hp, hr, he, -⟩ := parseBuf_line (s := { s with rest := [], buf := some (l ++ []), eof := true }) (l := l) (e := []) rfl (.inl rfl) hl.pos hl.name
          ⟨hw.key, hw.value, hw.section_⟩ hval
        refine Run.step heof (s' := s') ?_ (.done he)
        rw [hf, hp]
    | cons m ls =>
      have hf := fgets_break (s := s) (l := l) (r := join (m :: ls)) (by rw [hrest]; rfl) hl.brk hl.len
      obtain ⟨s', b, hp, hr, he, hw', hb, hcap, hquiet, hecho⟩ := parseBuf_line (s := { s with rest := join (m :: ls), buf := some (l ++ [10]), eof := false }) (l := l) (e := [10]) rfl (.inr rfl)
        hl.pos hl.name ⟨hw.key, hw.value, hw.section_⟩ hval
      have hv' : 2 ≤ s'.curvalue.cap ∨ firstValue ((m :: ls).filterMap lineEv) ≠ some [] := by
        rcases hv with hv | hv
        · exact .inl (hcap (.inl hv))
        · rcases (firstValue_cons hv).2 with h | h
          · exact .inl (hcap (.inr h))
          · exact .inr h
      rw [hcons]
      refine Run.step heof (s' := s') (by rw [hf, hp]) ?_
      by_cases hm : m :: ls = [[]]
      · cases hm
        rw [show lastHeader [l, []] = header l by simp [lastHeader]]
        cases hh : header l with
        | none =>
          have := ih s' (by simp) hr he (fun l hl => hline l (List.mem_cons_of_mem _ hl)) hw' hv' (fun _ => ⟨b, hb, hquiet hh⟩)
          simpa [lastHeader] using this
        | some w =>
          obtain ⟨hbpos, w', hw1, hw2, hw3⟩ := hecho w hh
          have hop : opens l = true := by
            by_contra h
            simp [header, h] at hh
          have hbr : bracketed l = w := by
            rw [header] at hh
            split at hh
            · cases hh; rfl
            · cases hh
          have hle : lineEv b = some (.sec (trim w)) := by rw [lineEv, hw1]; simp only []; rw [hw2]
          have hf' : fgets s' = { s' with eof := true } := fgets_eof (by rw [hr]; rfl)
          obtain ⟨s'', b'', hp'', hr'', he'', -⟩ := parseBuf_line (s := { s' with eof := true }) (l := b) (e := []) (by rw [List.append_nil]; exact hb) (.inl rfl) hbpos
            (fun _ => by rw [hw3, hw2, ← hbr]; exact hl.name hop) ⟨hw'.key, hw'.value, hw'.section_⟩ (by rw [hle]; simp)
          have hn : lineEv [] = none := by decide
          rw [List.filterMap_cons_none hn, List.filterMap_nil, List.nil_append]
          have := Run.step (s := s') (s' := s'') he (by rw [hf', hp'']) (.done he'')
          rw [hle] at this
          simpa using this
      · have hlh : lastHeader (l :: m :: ls) = lastHeader (m :: ls) := by
          cases ls with
          | nil =>
            cases m with
            | nil => exact absurd rfl hm
            | cons a m => simp [lastHeader]
          | cons x xs => simp [lastHeader]
        rw [hlh]
        exact ih s' (by simp) hr he (fun l hl => hline l (List.mem_cons_of_mem _ hl)) hw' hv' (fun h => absurd h hm)

/-! ## Theorems -/

/-- **C104** with the exact behaviour at the end of the file: a file of lines the reader gets right (`Line`), whose first value is not empty, is read as what its lines say, and a
section header in the last line is read twice if the line ends with a line break. -/
theorem C104_read_partial (t : List Int) (h0 : t ≠ []) (hl : ∀ l ∈ lines t, Line l) (hv : firstValue (events t) ≠ some []) :
    parse t = some (events t ++ ((lastHeader (lines t)).map fun w => Ev.sec (trim w)).toList) := by
  refine (run_lines (lines t) (initINI t) (lines_ne_nil t) (by rw [join_lines]; rfl) rfl hl ⟨Nat.zero_lt_one, Nat.zero_lt_one, Nat.zero_lt_one⟩ (.inr hv) ?_).parseAll _ ?_
  · intro h
    exfalso
    apply h0
    rw [← join_lines t, h]
    rfl
  · simp [todo, initINI]

/-- **C104**: a file of lines the reader gets right, whose first value is not empty and whose last line is not a section header with a line break after it, is read as exactly what
its lines say. Missing: the files of the counterexamples. -/
theorem C104_lines_partial (t : List Int) (h0 : t ≠ []) (hl : ∀ l ∈ lines t, Line l) (hv : firstValue (events t) ≠ some []) (he : lastHeader (lines t) = none) :
    parse t = some (events t) := by
  rw [C104_read_partial t h0 hl hv, he]
  simp

/-- A file with comments, blank lines, white space, an unterminated header and an empty value. -/
example : ∃ t : List Int, t = chars "x = 1 ; c\r\n\n ;[no]\n [ A b ]\n k=\n=3\ny==2\n[c" ∧ t ≠ [] ∧ (∀ l ∈ lines t, Line l) ∧ firstValue (events t) ≠ some [] ∧ lastHeader (lines t) = none ∧
    parse t = some [.ent (chars "x") (chars "1"), .sec (chars "A b"), .ent (chars "k") [], .ent (chars "y") (chars "=2"), .sec (chars "c")] := by
  refine ⟨_, rfl, by decide, ?_, by decide +kernel, by decide +kernel, by decide +kernel⟩
  intro l h
  have : ∀ l ∈ lines (chars "x = 1 ; c\r\n\n ;[no]\n [ A b ]\n k=\n=3\ny==2\n[c"), (10 : Int) ∉ l ∧ l.length < maxLine ∧ (∀ c ∈ l, 0 < c) ∧ (opens l = true → trim (bracketed l) ≠ []) := by
    decide +kernel
  obtain ⟨h1, h2, h3, h4⟩ := this l h
  exact ⟨h1, h2, h3, h4⟩

/-- A file whose last line is a section header is read as ending with this section twice. -/
theorem C104_echo_counterexample : parse (chars "[a]\nx=1\n[b]\n") = some [.sec (chars "a"), .ent (chars "x") (chars "1"), .sec (chars "b"), .sec (chars "b")] := by
  decide +kernel

/-- An empty value is written past the end of its allocation, unless a longer one came before. -/
theorem C104_overflow_counterexample : parse (chars "[a]\nx=\n") = none ∧ parse (chars "[a]\ny=1\nx=\n") = some [.sec (chars "a"), .ent (chars "y") (chars "1"), .ent (chars "x") []] := by
  decide +kernel

/-- An empty file is read as whatever the uninitialized buffer holds. -/
theorem C104_empty_counterexample : parse [] = none := by
  decide +kernel

/-- Characters at the end of a value that are not ASCII are lost: of `né` in UTF-8, `n` is left. -/
theorem C104_utf8_counterexample : parse ([120, 61, 110, -61, -87]) = some [.ent [120] [110]] := by
  decide +kernel

/-- A long line is read as several lines: the end of a long comment becomes an entry. -/
theorem C104_long_counterexample : parse (59 :: List.replicate 1022 97 ++ chars "x=1") = some [.ent (chars "x") (chars "1")] ∧
    events (59 :: List.replicate 1022 97 ++ chars "x=1") = [] := by
  decide +kernel

end Verif.IniDoc
