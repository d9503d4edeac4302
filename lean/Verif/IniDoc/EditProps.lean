import Verif.IniDoc.EntryText
import Verif.IniDoc.MemView

/-!
# Theorems about editing an INI storage
-/

namespace Verif.IniDoc

open Verif.Ini.Spec (lines blank trim plain opens header isEntry fold sections entries sectionEnd Item same nth Plain)
open Verif.IniDoc.Spec
open Verif.Ini (join lines_ne_nil join_lines lines_no_break findSection findEntry)

theorem put_eq {B : Type} (f : List Int → B) (k : List Int) (x : B) : put f k x = upd f k x := rfl

/-- What `EditEntry`, `AddSection` and `RemoveSection` return (`AddSection` returns the section, written here as 0), and the storage. -/
def Ini.edit (st : Ini) : Edit → Option (Int × Ini)
  | .addSection n => (addSection st n).map fun r => (0, r.1)
  | .removeSection n i => (removeSection st n i).map fun r => (if r.1 = true then 1 else 0, r.2)
  | .entry sec key value ki si => editEntry st sec key value ki si
  | .addEntry sec key value ki si => editAddEntry st sec key value ki si

/-- The text and the memory of a storage agree. -/
structure Cons (N K : List Int → Prop) (st : Ini) (v : View) : Prop where
  mem : MemView st.secs v
  text : view (doc (events st.text)) = v
  good : Good N K st.text

variable {N K : List Int → Prop}

theorem sec_found (hN : Names N) {t name : List Int} (hg : Good N K t) (hn : N (fold name)) (i : Nat) :
    (¬i < (view (doc (events t)) (fold name)).length ∧ findSection t name i = none) ∨
    ∃ s e A h B C w, findSection t name i = some (s, e) ∧ SecAt (lines t) 0 name i s e A h B C w := by
  obtain ⟨h1, _⟩ := findSection_good hN hg hn i
  rw [h1]
  cases hf : nth (sections 0 (lines t)) name i with
  | none =>
    refine .inl ⟨?_, rfl⟩
    have := sections_none name _ _ _ hf
    rw [secCount_view (hN.ne _ hn)]
    exact Nat.not_lt.2 this
  | some x =>
    obtain ⟨s, e⟩ := x
    obtain ⟨A, h, B, C, w, hs⟩ := sections_split name _ _ _ _ _ hf
    exact .inr ⟨s, e, A, h, B, C, w, rfl, hs⟩

theorem Cons.addSection (hN : Names N) {st : Ini} {v : View} (h : Cons N K st v) {n : List Int} (hn : GoodName n) (hNn : N (fold n)) :
    ∃ st', addSection st n = some (st', st.secs.fresh) ∧ Cons N K st' (addSec v n) ∧ st'.secs.getNode n (v (fold n)).length = some (some st.secs.fresh) ∧
      ∃ m, st'.secs.mem st.secs.fresh = some m ∧ m.idx = (v (fold n)).length := by
  obtain ⟨g', h1, h2, h3, h4⟩ := h.mem.add n
  obtain ⟨h5, h6⟩ := events_addSection hN h.good hn hNn
  refine ⟨⟨g', addSectionText st.text n⟩, by rw [IniDoc.addSection, h1]; rfl, ⟨h2, ?_, h6⟩, h3, h4⟩
  dsimp only
  rw [h5]
  have := doc_sec (events st.text) n (b := []) (c := []) (by simp) (by simp)
  rw [List.append_nil] at this
  rw [this]
  funext m
  rw [view_append, view_append, h.text, view_single]
  unfold addSec
  rw [put_eq]
  by_cases hm : m = fold n
  · subst hm; rw [upd_self, if_pos rfl]; simp [doc, view, ents]; rfl
  · rw [upd_ne _ _ hm, if_neg (Ne.symm hm)]; simp [doc, view]

theorem Cons.removeSection (hN : Names N) {st : Ini} {v : View} (h : Cons N K st v) {n : List Int} (i : Nat) (hNn : N (fold n)) (hl : n.length ≤ 15) :
    ∃ st', removeSection st n i = some (decide (i < (v (fold n)).length), st') ∧ Cons N K st' (if i < (v (fold n)).length then put v (fold n) ((v (fold n)).eraseIdx i) else v) := by
  unfold IniDoc.removeSection
  have hfound := sec_found hN h.good hNn i
  rw [h.text] at hfound
  rcases h.mem.find n with ⟨h1, h2⟩ | ⟨r, h1, h2⟩
  · rw [h1]
    have hi : ¬i < (v (fold n)).length := by rw [h2]; simp
    rw [if_neg hi]
    exact ⟨st, by simp [hi], h⟩
  · rw [h1]
    rcases hfound with ⟨hi, hf⟩ | ⟨s, e, A, hd, B, C, w, hf, hs⟩
    · rw [hf, if_neg hi]
      exact ⟨st, by simp [hi], h⟩
    · rw [hf]
      obtain ⟨x, y, hx, hv, hrem, _⟩ := (hs.ev h.good).looked (hN.ne _ hNn)
      have hi : i < (v (fold n)).length := by rw [← h.text]; unfold events; rw [hv, ← hx]; simp
      obtain ⟨g', h3, h4⟩ := (h.mem.remove n i hl).2 hi
      obtain ⟨h5, h6⟩ := text_remove h.good hs
      simp only [h3, if_pos hi]
      refine ⟨⟨g', eraseText st.text s (e + 1)⟩, by simp [hi], h4, ?_, h6⟩
      dsimp only
      rw [h5, hrem]
      change upd (view (doc (events st.text))) _ _ = _
      rw [h.text, put_eq]
      congr 1
      have hv' : v (fold n) = x ++ vals (ents (B.filterMap lineEv)) :: y := by rw [← h.text]; exact hv
      rw [hv', List.eraseIdx_append_of_length_le (by omega), hx, Nat.sub_self]
      rfl

theorem set_mid {A : Type} {x y : List A} {a b : A} {n : Nat} (h : x.length = n) : (x ++ a :: y).set n b = x ++ b :: y := by
  rw [List.set_append_right _ _ (by omega), h, Nat.sub_self]
  rfl

theorem erase_mid' {A : Type} {x y : List A} {a : A} {n : Nat} (h : x.length = n) : (x ++ a :: y).eraseIdx n = x ++ y := by
  rw [List.eraseIdx_append_of_length_le (by omega), h, Nat.sub_self]
  rfl

theorem body_append {a b : List Ev} (ha : ∀ e ∈ a, ∃ k v, e = Ev.ent k v) (hb : ∀ e ∈ b, ∃ k v, e = Ev.ent k v) : ∀ e ∈ a ++ b, ∃ k v, e = Ev.ent k v := by
  intro e he
  rcases List.mem_append.1 he with h | h
  · exact ha e h
  · exact hb e h

theorem Cons.editAt (hN : Names N) (hK : Names K) {st : Ini} {v : View} (h : Cons N K st v) {sec key : List Int} {value : Option (List Int)} {ki : Option Nat} {si : Nat} (hNn : N (fold sec))
    (hk : GoodKey key) (hKk : K (fold key)) (hkl : key.length ≤ 15) (hval : ∀ x ∈ value, GoodValue x) :
    ∃ st', editEntry st sec key value ki (some si) = some ((Spec.editAt v sec key value ki si).1, st') ∧ Cons N K st' (Spec.editAt v sec key value ki si).2 := by
  unfold editEntry Spec.editAt
  dsimp only
  have hfound := sec_found hN h.good hNn si
  rw [h.text] at hfound
  rcases h.mem.find sec with ⟨h1, h2⟩ | ⟨r, h1, h2⟩
  · rw [h1, if_pos (by rw [h2]; rfl)]
    exact ⟨st, rfl, h⟩
  · rw [h1, if_neg (fun h0 => h2 (List.eq_nil_of_length_eq_zero h0))]
    dsimp only
    rcases h.mem.getNode sec si with ⟨h3, h4⟩ | ⟨p, n, s, h3, h4, _, h5, h6, h7⟩
    · rw [h4, List.getElem?_eq_none (by omega)]
      exact ⟨st, rfl, h⟩
    · rw [h3, h5]
      dsimp only
      rw [h4]
      dsimp only
      have hlt : si < (v (fold sec)).length := by
        by_contra hc
        rw [List.getElem?_eq_none (by omega)] at h5
        cases h5
      rcases hfound with ⟨hi, _⟩ | ⟨ss, se, A, hd, B, C, w, hf, hs⟩
      · exact absurd hlt hi
      rw [hf]
      dsimp only
      have hev := hs.ev h.good
      obtain ⟨x, y, hx, hv, _, hrep⟩ := hev.looked (hN.ne _ hNn)
      change view (doc (events st.text)) _ = _ at hv
      change ∀ b', _ → _ = upd (view (doc (events st.text))) _ _ at hrep
      rw [h.text] at hv hrep
      have hsv : s = vals (ents (B.filterMap lineEv)) := by
        rw [hv, List.getElem?_append_right (by omega), hx, Nat.sub_self] at h5
        simpa using h5.symm
      have hsame : put v (fold sec) ((v (fold sec)).set si s) = v := by
        rw [put_eq, hv, set_mid hx, hsv, ← hv, upd_same rfl]
      have hset : ∀ s', (v (fold sec)).set si s' = x ++ s' :: y := fun s' => by rw [hv, set_mid hx]
      unfold editIn
      cases ki with
      | none =>
        dsimp only [Spec.editKey]
        have hval' : GoodValue (value.getD []) := by
          cases value with
          | none => exact ⟨by simp, rfl⟩
          | some x => exact hval x rfl
        obtain ⟨g', a1, a2, _, _⟩ := h6.add key (value.getD [])
        rw [a1]
        obtain ⟨secs, b1, b2, _⟩ := h7 _ _ a2
        dsimp only
        rw [b1]
        obtain ⟨c1, c2⟩ := text_insert h.good hs hk hKk hval'
        refine ⟨_, rfl, b2, ?_, c2⟩
        dsimp only
        rw [c1, hrep _ (body_append hev.body (by simp)), vals_add, ← hsv, hset, put_eq, put_eq]
      | some j =>
        dsimp only [Spec.editKey]
        rcases h6.find key with ⟨a1, a2⟩ | ⟨r', a1, a2⟩
        · rw [a1, if_pos a2]
          dsimp only
          rw [hsame]
          exact ⟨st, rfl, h⟩
        · rw [a1, if_neg a2]
          dsimp only
          rcases h6.getNode key j with ⟨b1, b2⟩ | ⟨q, m, b1, b2, b3, _⟩
          · rw [b2, if_neg b1]
            dsimp only
            rw [hsame]
            exact ⟨st, rfl, h⟩
          · have hj : j < (s (fold key)).length := by
              by_contra hc
              rw [List.getElem?_eq_none (by omega)] at b3
              cases b3
            rw [b1, if_pos hj]
            dsimp only
            rw [findEntry_good hN hK h.good hNn hKk hs hf j]
            cases he : nth (entries ((cat A).length + hd.length + 1) B) key j with
            | none =>
              exfalso
              have := entries_none key _ _ _ hs.body he
              rw [← keyCount_vals, ← hsv] at this
              omega
            | some ee =>
              obtain ⟨es, ee⟩ := ee
              obtain ⟨B1, l, B2, hent⟩ := entries_split key _ _ _ _ _ hs.body he
              obtain ⟨q', k', val, r, R, ht⟩ := hent.text hs
              obtain ⟨d1, d2, d3⟩ := hent.ev hs ht
              obtain ⟨x', y', e1, e2, e3, e4⟩ := vals_change (b1 := B1.filterMap lineEv) (b2 := B2.filterMap lineEv) (v0 := trim val) d2
              rw [← d1, ← hsv] at e2 e3 e4
              rw [d3] at e1
              have hb1 : ∀ e ∈ B1.filterMap lineEv, ∃ k v, e = Ev.ent k v := fun e he => hev.body e (by rw [d1]; simp [he])
              have hb2 : ∀ e ∈ B2.filterMap lineEv, ∃ k v, e = Ev.ent k v := fun e he => hev.body e (by rw [d1]; simp [he])
              dsimp only
              cases value with
              | none =>
                dsimp only
                obtain ⟨g', f1, f2⟩ := (h6.remove key j hkl).2 hj
                rw [f1]
                obtain ⟨secs, g1, g2, _⟩ := h7 _ _ f2
                dsimp only
                rw [g1]
                obtain ⟨c1, c2⟩ := text_delete h.good hs hent ht
                refine ⟨_, rfl, g2, ?_, c2⟩
                dsimp only
                rw [c1, hrep _ (body_append hb1 hb2), e4, hset, put_eq, put_eq, e2, erase_mid' e1]
              | some value =>
                dsimp only
                obtain ⟨g', f1, f2⟩ := h6.set b1 value
                rw [f1]
                obtain ⟨secs, g1, g2, _⟩ := h7 _ _ f2
                dsimp only
                rw [g1]
                obtain ⟨t', c0, c1, c2⟩ := text_change h.good hs hent ht (hval value rfl)
                rw [c0]
                refine ⟨_, rfl, g2, ?_, c2⟩
                dsimp only
                rw [c1, hrep _ (body_append hb1 fun e he => by
                  rcases List.mem_cons.1 he with rfl | he
                  · exact ⟨_, _, rfl⟩
                  · exact hb2 e he), e3, hset, put_eq, put_eq, e2, set_mid e1]

theorem Cons.editNew (hN : Names N) (hK : Names K) {st : Ini} {v : View} (h : Cons N K st v) {sec key : List Int} {value : Option (List Int)} {ki : Option Nat} (hn : GoodName sec) (hNn : N (fold sec))
    (hk : GoodKey key) (hKk : K (fold key)) (hkl : key.length ≤ 15) (hval : ∀ x ∈ value, GoodValue x) :
    ∃ st', editEntry st sec key value ki none = some ((Spec.editAt (addSec v sec) sec key value ki (v (fold sec)).length).1, st') ∧
      Cons N K st' (Spec.editAt (addSec v sec) sec key value ki (v (fold sec)).length).2 := by
  obtain ⟨st1, h1, h2, h3, m, h4, h5⟩ := h.addSection hN hn hNn
  obtain ⟨st2, h6, h7⟩ := h2.editAt hN hK (value := value) (ki := ki) (si := (v (fold sec)).length) hNn hk hKk hkl hval
  refine ⟨st2, ?_, h7⟩
  rw [← h6]
  unfold editEntry
  simp only [h1, h4, Option.map_some, h5]

/-- One edit. -/
theorem Cons.step (hN : Names N) (hK : Names K) {st : Ini} {v : View} (h : Cons N K st v) (e : Edit) (he : e.Allowed N K) :
    ∃ st', st.edit e = some ((Spec.edit v e).1, st') ∧ Cons N K st' (Spec.edit v e).2 := by
  cases e with
  | addSection n =>
    obtain ⟨st', h1, h2, _⟩ := h.addSection hN he.1 he.2
    exact ⟨st', by rw [Ini.edit, h1]; rfl, h2⟩
  | removeSection n i =>
    obtain ⟨st', h1, h2⟩ := h.removeSection hN i he.1 he.2
    refine ⟨st', ?_, ?_⟩
    · rw [Ini.edit, h1, Spec.edit]
      by_cases hi : i < (v (fold n)).length <;> simp [hi]
    · rw [Spec.edit]
      by_cases hi : i < (v (fold n)).length
      · rw [if_pos hi] at h2 ⊢; exact h2
      · rw [if_neg hi] at h2 ⊢; exact h2
  | entry sec key value ki si =>
    obtain ⟨h1, h2, h3, h4, h5, h6⟩ := he
    cases si with
    | none => exact h.editNew hN hK h1 h2 h3 h4 h5 h6
    | some si => exact h.editAt hN hK h2 h3 h4 h5 h6
  | addEntry sec key value ki si =>
    obtain ⟨h1, h2, h3, h4, h5, h6⟩ := he
    have hget : st.secs.get sec si = some none ∧ (v (fold sec))[si]? = none ∨ ∃ g s, st.secs.get sec si = some (some g) ∧ (v (fold sec))[si]? = some s ∧ Ok g s := by
      unfold Grp.get
      rcases h.mem.getNode sec si with ⟨a, b⟩ | ⟨p, n, s, a, b, _, c, d, _⟩
      · exact .inl ⟨by rw [b], List.getElem?_eq_none (by omega)⟩
      · exact .inr ⟨n.val, s, by rw [a]; dsimp only; rw [b]; rfl, c, d⟩
    unfold Ini.edit editAddEntry Spec.edit
    dsimp only
    rcases hget with ⟨a, b⟩ | ⟨g, s, a, b, c⟩
    · rw [a, b]
      exact h.editNew hN hK h1 h2 h3 h4 h5 h6
    · rw [a, b]
      dsimp only
      rw [c.get]
      by_cases hk : ki < (s (fold key)).length
      · rw [if_pos hk, List.getElem?_eq_getElem hk]
        exact h.editAt hN hK h2 h3 h4 h5 h6
      · rw [if_neg hk, List.getElem?_eq_none (by omega)]
        exact h.editAt hN hK h2 h3 h4 h5 h6

/-- A history of edits: the values returned, and the storage. -/
def Ini.edits (st : Ini) : List Edit → Option (List Int × Ini)
  | [] => some ([], st)
  | e :: es => match st.edit e with
    | none => none
    | some (c, st) => (st.edits es).map fun r => (c :: r.1, r.2)

/-- A history of edits, as a change of what can be looked up. -/
def Spec.edits (v : View) : List Edit → List Int × View
  | [] => ([], v)
  | e :: es => let r := Spec.edits (Spec.edit v e).2 es; ((Spec.edit v e).1 :: r.1, r.2)

theorem Cons.run (hN : Names N) (hK : Names K) : ∀ (es : List Edit) {st : Ini} {v : View}, Cons N K st v → (∀ e ∈ es, e.Allowed N K) →
    ∃ st', st.edits es = some ((Spec.edits v es).1, st') ∧ Cons N K st' (Spec.edits v es).2 := by
  intro es
  induction es with
  | nil => intro st v h _; exact ⟨st, rfl, h⟩
  | cons e es ih =>
    intro st v h he
    obtain ⟨st1, h1, h2⟩ := h.step hN hK e (he e List.mem_cons_self)
    obtain ⟨st2, h3, h4⟩ := ih h2 fun e' he' => he e' (List.mem_cons_of_mem _ he')
    exact ⟨st2, by rw [Ini.edits, h1]; dsimp only; rw [h3]; rfl, h4⟩

/-! ## Theorems -/

/-- Files that are read line by line, see C104: not empty, of lines of at most 1022 characters, the first value not empty, and the last line not a section header with a line break
after it. -/
def Readable (t : List Int) : Prop := t ≠ [] ∧ (∀ l ∈ lines t, l.length < maxLine) ∧ firstValue (events t) ≠ some [] ∧ lastHeader (lines t) = none

theorem load_good (hN : Names N) {t : List Int} (hg : Good N K t) (hr : Readable t) : ∃ st, load t = some st ∧ Cons N K st (view (doc (events t))) := by
  have hl : ∀ l ∈ lines t, Line l := by
    intro l hl
    refine ⟨lines_no_break t l hl, hr.2.1 l hl, (hg l hl).pos, fun ho => ?_⟩
    obtain ⟨w, hw⟩ := (hg l hl).hdr ho
    have hNw := (hg l hl).ok _ hw
    obtain ⟨w', hh, rfl⟩ := lineEv_sec hw
    rw [(header_opens hh).2.1]
    intro h0
    exact hN.ne _ hNw (by rw [h0]; rfl)
  obtain ⟨g, h1, h2⟩ := load_view (events t)
  exact ⟨⟨g, t⟩, by rw [load, C104_lines_partial t hr.1 hl hr.2.2.1 hr.2.2.2]; dsimp only; rw [h1]; rfl, h2, rfl, hg⟩

theorem MemView.count {secs : Grp Sec} {w : View} (h : MemView secs w) (name : List Int) : secs.count name = some (w (fold name)).length := by
  obtain ⟨v, ⟨⟨gs, h1⟩, hok⟩, h2⟩ := h
  rw [h1.count name (hok _), Forall₂.len (h2 (fold name))]

/-- **C107**: a storage read from a file and edited by any history of edits returns what the edits call for (`Spec.edit`), a look-up in memory finds what the edits call for, and the
text, which is written back to the file, says the same. For section names of which none begins with another, keys likewise (`Names`), of at most 15 characters where they are removed,
and files and values that can be read back (`Good`, `Readable`, `GoodName`, `GoodKey`, `GoodValue`). Missing: the other names and files, see the counterexamples and C70, C104, C105. -/
theorem C107_history_partial (hN : Names N) (hK : Names K) (t : List Int) (hg : Good N K t) (hr : Readable t) (es : List Edit) (he : ∀ e ∈ es, e.Allowed N K) :
    ∃ st0 st, load t = some st0 ∧ st0.edits es = some ((Spec.edits (view (doc (events t))) es).1, st) ∧
      (∀ name i key j, lookup st.secs name i key j = some (((Spec.edits (view (doc (events t))) es).2 (fold name))[i]?.bind fun s => (s (fold key))[j]?)) ∧
      (∀ name, st.secs.count name = some ((Spec.edits (view (doc (events t))) es).2 (fold name)).length) ∧
      view (doc (events st.text)) = (Spec.edits (view (doc (events t))) es).2 := by
  obtain ⟨st0, h1, h2⟩ := load_good hN hg hr
  obtain ⟨st, h3, h4⟩ := h2.run hN hK es he
  exact ⟨st0, st, h1, h3, fun name i key j => h4.mem.lookup name i key j, h4.mem.count, h4.text⟩

/-- **C107**, reading back: if the file written after such a history can be read (`Readable`), a storage read from it finds the same as the edited one. -/
theorem C107_reload_partial (hN : Names N) (hK : Names K) (t : List Int) (hg : Good N K t) (hr : Readable t) (es : List Edit) (he : ∀ e ∈ es, e.Allowed N K) (st0 st : Ini) (codes : List Int)
    (h0 : load t = some st0) (h1 : st0.edits es = some (codes, st)) (hr' : Readable st.text) :
    ∃ st', load st.text = some st' ∧ st'.text = st.text ∧ (∀ name i key j, lookup st'.secs name i key j = lookup st.secs name i key j) ∧ ∀ name, st'.secs.count name = st.secs.count name := by
  obtain ⟨st0', a, b⟩ := load_good hN hg hr
  rw [a] at h0
  cases h0
  obtain ⟨st1, c, d⟩ := b.run hN hK es he
  rw [c] at h1
  cases h1
  obtain ⟨st', e, f⟩ := load_good hN d.good hr'
  have ht : st'.text = st.text := by
    unfold load at e
    split at e
    · cases e
    · rw [Option.map_eq_some_iff] at e
      obtain ⟨_, _, rfl⟩ := e
      rfl
  refine ⟨st', e, ht, ?_, ?_⟩
  · intro name i key j
    rw [f.mem.lookup, d.mem.lookup, d.text]
  · intro name
    rw [f.mem.count, d.mem.count, d.text]

theorem names_of_list (l : List (List Int)) (h : ∀ a ∈ l, a ≠ [] ∧ ∀ b ∈ l, a <+: b → a = b) : Names fun x => x ∈ l :=
  ⟨fun a b ha hb hp => (h a ha).2 b hb hp, fun a ha => (h a ha).1⟩

/-- A file with two sections of one name, comments and indentation: a section is added, the second entry of a key changed, an entry deleted, another inserted and a section removed;
the text that is left. -/
example : ∃ (N K : List Int → Prop) (t : List Int) (es : List Edit), Names N ∧ Names K ∧ Good N K t ∧ Readable t ∧ (∀ e ∈ es, e.Allowed N K) ∧
    (∃ st0 st, load t = some st0 ∧ st0.edits es = some ([0, 0, 0, 0, 0, 1, -4], st) ∧
      st.text = chars "top=1 ; c\n[One]\nk=1\nk =9 ; c\n  ; d\nx=7\n\n[two]\nk=5" ∧ Readable st.text) := by
  refine ⟨fun x => x ∈ [chars "one", chars "two"], fun x => x ∈ [chars "top", chars "k", chars "x"], chars "top=1 ; c\n[One]\nk=1\nk = 2 ; c\n  ; d\n\n[ONE]\n k=3\n",
    [.addSection (chars "two"), .entry (chars "one") (chars "k") (some (chars "9")) (some 1) (some 0), .entry (chars "ONE") (chars "k") none (some 0) (some 1),
      .entry (chars "one") (chars "x") (some (chars "7")) none (some 0), .addEntry (chars "two") (chars "k") (some (chars "5")) 0 0, .removeSection (chars "One") 1,
      .entry (chars "two") (chars "x") none (some 0) (some 0)], ?_, ?_, ?_, ?_, ?_, ?_⟩
  · exact names_of_list _ (by decide +kernel)
  · exact names_of_list _ (by decide +kernel)
  · have h : ∀ l ∈ lines (chars "top=1 ; c\n[One]\nk=1\nk = 2 ; c\n  ; d\n\n[ONE]\n k=3\n"), (∀ c ∈ l, 0 < c) ∧ (opens l = true → (header l).isSome = true) ∧
        (match lineEv l with
          | some (.sec w) => decide (fold w ∈ [chars "one", chars "two"])
          | some (.ent k _) => decide (fold k ∈ [chars "top", chars "k", chars "x"])
          | none => true) = true := by decide +kernel
    intro l hl
    obtain ⟨h1, h2, h3⟩ := h l hl
    refine ⟨h1, fun ho => ?_, fun e he => ?_⟩
    · obtain ⟨w, hw⟩ := Option.isSome_iff_exists.1 (h2 ho)
      exact ⟨trim w, by unfold lineEv; rw [hw]⟩
    · rw [he] at h3
      cases e <;> simpa only [EvGood, decide_eq_true_eq] using h3
  · exact ⟨by decide +kernel, by decide +kernel, by decide +kernel, by decide +kernel⟩
  · have hname : ∀ n : List Int, (∀ c ∈ n, 0 < c ∧ c ≠ 59 ∧ c ≠ 93 ∧ c ≠ 10) ∧ trim n = n ∧ n ≠ [] → GoodName n := fun n h => ⟨h.1, h.2.1, h.2.2⟩
    have hkey : ∀ n : List Int, (∀ c ∈ n, 0 < c ∧ plain c = true ∧ c ≠ 10) ∧ trim n = n ∧ n ≠ [] → GoodKey n := fun n h => ⟨h.1, h.2.1, h.2.2⟩
    have hvalue : ∀ n : List Int, (∀ c ∈ n, 0 < c ∧ c ≠ 59 ∧ c ≠ 10) ∧ trim n = n → GoodValue n := fun n h => ⟨h.1, h.2⟩
    intro e he
    simp only [List.mem_cons, List.not_mem_nil, or_false] at he
    rcases he with rfl | rfl | rfl | rfl | rfl | rfl | rfl
    · exact ⟨hname _ (by decide +kernel), by decide +kernel⟩
    · exact ⟨hname _ (by decide +kernel), by decide +kernel, hkey _ (by decide +kernel), by decide +kernel, by decide +kernel, fun x hx => by cases hx; exact hvalue _ (by decide +kernel)⟩
    · exact ⟨hname _ (by decide +kernel), by decide +kernel, hkey _ (by decide +kernel), by decide +kernel, by decide +kernel, fun x hx => by cases hx⟩
    · exact ⟨hname _ (by decide +kernel), by decide +kernel, hkey _ (by decide +kernel), by decide +kernel, by decide +kernel, fun x hx => by cases hx; exact hvalue _ (by decide +kernel)⟩
    · exact ⟨hname _ (by decide +kernel), by decide +kernel, hkey _ (by decide +kernel), by decide +kernel, by decide +kernel, fun x hx => by cases hx; exact hvalue _ (by decide +kernel)⟩
    · exact ⟨by decide +kernel, by decide +kernel⟩
    · exact ⟨hname _ (by decide +kernel), by decide +kernel, hkey _ (by decide +kernel), by decide +kernel, by decide +kernel, fun x hx => by cases hx⟩
  · have h : ((load (chars "top=1 ; c\n[One]\nk=1\nk = 2 ; c\n  ; d\n\n[ONE]\n k=3\n")).bind fun st => (st.edits [.addSection (chars "two"),
        .entry (chars "one") (chars "k") (some (chars "9")) (some 1) (some 0), .entry (chars "ONE") (chars "k") none (some 0) (some 1),
        .entry (chars "one") (chars "x") (some (chars "7")) none (some 0), .addEntry (chars "two") (chars "k") (some (chars "5")) 0 0, .removeSection (chars "One") 1,
        .entry (chars "two") (chars "x") none (some 0) (some 0)]).map fun r => (r.1, r.2.text)) =
        some ([0, 0, 0, 0, 0, 1, -4], chars "top=1 ; c\n[One]\nk=1\nk =9 ; c\n  ; d\nx=7\n\n[two]\nk=5") := by decide +kernel
    rw [Option.bind_eq_some_iff] at h
    obtain ⟨st0, h1, h2⟩ := h
    rw [Option.map_eq_some_iff] at h2
    obtain ⟨⟨c, st⟩, h2, h3⟩ := h2
    simp only [Prod.mk.injEq] at h3
    obtain ⟨rfl, h4⟩ := h3
    refine ⟨st0, st, h1, h2, h4, ?_⟩
    rw [h4]
    exact ⟨by decide +kernel, by decide +kernel, by decide +kernel, by decide +kernel⟩

/-- With two section names of which one begins with the other, the storage changes one section and the text another. -/
theorem C107_prefix_counterexample : ((load (chars "[ab]\nk=1\n[a]\nk=2")).bind fun st => (st.edits [.entry (chars "a") (chars "k") (some (chars "3")) (some 0) (some 0)]).map fun r =>
    (r.1, r.2.text, lookup r.2.secs (chars "a") 0 (chars "k") 0, lookup r.2.secs (chars "ab") 0 (chars "k") 0)) =
    some ([0], chars "[ab]\nk=3\n[a]\nk=2", some (some (chars "3")), some (some (chars "1"))) := by
  decide +kernel

/-- Removing the section without a name removes it from the storage and another section from the text. -/
theorem C107_nameless_counterexample : ((load (chars "x=1\n[a]\ny=2")).bind fun st => (st.edits [.removeSection [] 0]).map fun r =>
    (r.1, r.2.text, lookup r.2.secs (chars "a") 0 (chars "y") 0, lookup r.2.secs [] 0 (chars "x") 0)) =
    some ([1], chars "x=1\n", some (some (chars "2")), some none) := by
  decide +kernel

/-- Removing the only entry of the last section leaves a file from which the section is read twice. -/
theorem C107_reload_counterexample : ((load (chars "[a]\nk=1")).bind fun st => (st.edits [.entry (chars "a") (chars "k") none (some 0) (some 0)]).map fun r =>
    (r.2.text, r.2.secs.count (chars "a"), (load r.2.text).map fun st => st.secs.count (chars "a"))) = some (chars "[a]\n", some 1, some (some 2)) := by
  decide +kernel

end Verif.IniDoc
