import Verif.Toml.Values
/-!
# Reading a document
-/

namespace Verif.Toml
open Verif.Json (isSpace isDigit decNum splitSign cstr)

variable {D : Type}

/-- The state in which the rest of a header is read. -/
def stOf (elem : Bool) : State := bif elem then .inline else .table

theorem dots_head {ks : List Key} {d : List Char} (h : Dots ks d) (elem : Bool) (s : List Char) : ∃ e r, d ++ (closing elem ++ s) = e :: r ∧ (e = '.' ∨ e = ']') ∧ (ks ≠ [] → e = '.') := by
  cases h with
  | nil => cases elem <;> exact ⟨_, _, rfl, Or.inr rfl, fun h => (h rfl).elim⟩
  | cons => exact ⟨_, _, rfl, Or.inl rfl, fun _ => rfl⟩

theorem header_key {k : Key} {kt : List Char} (hk : KeyText k kt) {e : Char} (he : e = '.' ∨ e = ']') (r : List Char) :
    parseString false '.' ']' (kt ++ e :: r) = (k, e :: r) ∧ parseString false ']' '.' (kt ++ e :: r) = (k, e :: r) := by
  have a1 : ¬BareChar '.' ∧ ¬Blank '.' := ⟨by unfold BareChar; decide, by unfold Blank; decide⟩
  have a2 : ¬BareChar ']' ∧ ¬Blank ']' := ⟨by unfold BareChar; decide, by unfold Blank; decide⟩
  have he' : e ≠ '"' ∧ e ≠ '\'' := by rcases he with rfl | rfl <;> decide
  have hb : ¬Blank e := by
    rcases he with rfl | rfl
    · exact a1.2
    · exact a2.2
  constructor
  · obtain ⟨b, -, hb, h⟩ := parseString_key (b := []) (r := r) a1 a2 hk (fun c hc => (List.not_mem_nil hc).elim) he he' hb
    rw [hb rfl] at h
    exact h
  · obtain ⟨b, -, hb, h⟩ := parseString_key (b := []) (r := r) a2 a1 hk (fun c hc => (List.not_mem_nil hc).elim) he.symm he' hb
    rw [hb rfl] at h
    exact h

theorem section_ok {fp : FP D} {fs : Fields} {eof : Bool} {v v' : fs.Val D} {x : List Char} (h : Body (fun k v v' z => FieldText fp fs NL k v v' z) eof v v' x) {r : List Char}
    (hr : SecEnd eof r) : pairs (fun k v s => find fp fs .normal k v s) v (x ++ r) = .ok (v', r) :=
  body_ok (field_ok fp fs NL fun _ h => Or.inl h) h _ r hr (Nat.lt_succ_self _)

theorem many_dot {V : Type} {f : State → Key → V → List Char → R (V × List Char)} (elem : Bool) (v : V) (s : List Char) :
    parseMany f (stOf elem) v ('.' :: s) = f (stOf elem) (cstr (parseString false '.' ']' s).1) v (parseString false '.' ']' s).2 := by
  cases elem <;> (rw [parseMany.eq_def]; exact if_pos rfl)

theorem many_close {V : Type} {f : State → Key → V → List Char → R (V × List Char)} (elem : Bool) (v : V) (s : List Char) :
    parseMany f (stOf elem) v (closing elem ++ s) = pairs (f .normal) v s := by
  cases elem
  · rw [parseMany.eq_def]; exact (if_neg (by decide)).trans (if_pos rfl)
  · rw [parseMany.eq_def]; exact (if_neg (by decide)).trans ((if_pos rfl).trans (by rw [show List.append [']'] s = ']' :: s from rfl, eat1_eq]))

theorem parse_obj {fp : FP D} {fs : Fields} {elem : Bool} {v : fs.Val D} {k : Key} {kt : List Char} (hk : KeyText k kt) {e : Char} (he : e = '.' ∨ e = ']') (r : List Char) :
    parse fp (.obj fs) (stOf elem) v ('.' :: (kt ++ e :: r)) = find fp fs (stOf elem) k v (e :: r) := by
  exact (many_dot (f := fun st k v s => find fp fs st k v s) elem v _).trans (by rw [(header_key hk he r).1, key_cstr hk])

theorem parse_last {fp : FP D} {t : Ty} {elem : Bool} (l : List (t.Val D)) {y y' : t.Val D} {s r : List Char} (h : parse fp t (stOf elem) y ('.' :: s) = .ok (y', r)) :
    parse fp (.arr t) (stOf elem) (l ++ [y]) ('.' :: s) = .ok (l ++ [y'], r) := by
  change parseArray _ _ _ _ _ = _
  rw [parseArray, if_pos ⟨by cases elem <;> decide, rfl⟩, List.getLast?_concat]
  dsimp only
  rw [h]
  dsimp only
  rw [List.dropLast_concat]
  rfl

theorem parse_new {fp : FP D} {t : Ty} (l : List (t.Val D)) {y : t.Val D} {s r : List Char} (h : parse fp t .inline (dflt fp t) (']' :: s) = .ok (y, r)) :
    parse fp (.arr t) .inline l (']' :: s) = .ok (l ++ [y], r) := by
  change parseArray _ _ _ _ _ = _
  rw [parseArray, if_neg (fun h => by cases h.2), if_pos rfl, h]
  rfl

mutual
theorem at_ok (fp : FP D) (eof elem : Bool) : ∀ (t : Ty) (path : List Key) (old new : t.Val D) (x : List Char), AtTy fp eof elem t path old new x →
    ∀ (d r : List Char), Dots path d → SecEnd eof r → parse fp t (stOf elem) old (d ++ (closing elem ++ (x ++ r))) = .ok (new, r)
  | .obj fs, [], old, new, x, h, d, r, hd, hr => by
    obtain ⟨rfl, h⟩ := h
    cases hd
    refine (many_close false (show fs.Val D from old) (x ++ r)).trans ?_
    exact section_ok h hr
  | .obj fs, k :: ks, old, new, x, h, d, r, hd, hr => by
    have h : AtField fp eof elem fs k ks old new x := h
    cases hd with
    | @cons _ _ kt d hk hd =>
      have ih := at_field_ok fp eof elem fs k ks old new x h d r hd hr
      obtain ⟨e, s, hs, he, -⟩ := dots_head hd elem (x ++ r)
      rw [List.cons_append, List.append_assoc]
      rw [hs] at ih ⊢
      exact (parse_obj hk he s).trans ih
  | .arr t, k :: ks, old, new, x, h, d, r, hd, hr => by
    have h : ∃ l y y', old = List.append l [y] ∧ AtTy fp eof elem t (k :: ks) y y' x ∧ new = List.append l [y'] := by
      cases t <;> exact h
    obtain ⟨l, y, y', rfl, h', rfl⟩ := h
    have ih := at_ok fp eof elem t (k :: ks) y y' x h' d r hd hr
    obtain ⟨e, s, hs, -, he⟩ := dots_head hd elem (x ++ r)
    rw [hs, he (by simp)] at ih ⊢
    exact parse_last l ih
  | .arr (.obj fs), [], old, new, x, h, d, r, hd, hr => by
    obtain ⟨rfl, y, h, rfl⟩ := h
    cases hd
    refine parse_new old (s := ']' :: (x ++ r)) ?_
    refine (many_close true (dfltF fp fs) (x ++ r)).trans ?_
    exact section_ok h hr
  | .arr (.arr t), [], old, new, x, h, d, r, hd, hr => h.elim
  | .arr .str, [], old, new, x, h, d, r, hd, hr => h.elim
  | .arr .int, [], old, new, x, h, d, r, hd, hr => h.elim
  | .arr .dbl, [], old, new, x, h, d, r, hd, hr => h.elim
  | .arr .bool, [], old, new, x, h, d, r, hd, hr => h.elim
  | .str, _, old, new, x, h, d, r, hd, hr => h.elim
  | .int, _, old, new, x, h, d, r, hd, hr => h.elim
  | .dbl, _, old, new, x, h, d, r, hd, hr => h.elim
  | .bool, _, old, new, x, h, d, r, hd, hr => h.elim

theorem at_field_ok (fp : FP D) (eof elem : Bool) : ∀ (fs : Fields) (k : Key) (path : List Key) (old new : fs.Val D) (x : List Char), AtField fp eof elem fs k path old new x →
    ∀ (d r : List Char), Dots path d → SecEnd eof r → find fp fs (stOf elem) k old (d ++ (closing elem ++ (x ++ r))) = .ok (new, r)
  | .nil, _, _, _, _, _, h, _, _, _, _ => h.elim
  | .cons k t fs, key, path, old, new, x, h, d, r, hd, hr => by
    rcases h with ⟨rfl, h1, h2⟩ | ⟨hne, h1, h2⟩
    · rw [find, if_pos rfl, at_ok fp eof elem t path old.1 new.1 x h1 d r hd hr]
      dsimp only
      rw [← h2]
      rfl
    · rw [find, if_neg hne, at_field_ok fp eof elem fs key path old.2 new.2 x h2 d r hd hr]
      dsimp only
      rw [← h1]
      rfl
end

theorem header_ok {fp : FP D} {fs : Fields} {eof elem : Bool} {k : Key} {ks : List Key} {kt d x r : List Char} {v v' : fs.Val D} (hk : KeyText k kt) (hd : Dots ks d)
    (h : AtField fp eof elem fs k ks v v' x) (hr : SecEnd eof r) : header fp fs (stOf elem) v (kt ++ (d ++ (closing elem ++ (x ++ r)))) = .ok (v', r) := by
  have h1 := at_field_ok fp eof elem fs k ks v v' x h d r hd hr
  obtain ⟨e, s, hs, he, -⟩ := dots_head hd elem (x ++ r)
  rw [hs] at h1 ⊢
  rw [header, (header_key hk he s).2]
  dsimp only
  rw [eatWs_cons (by rcases he with rfl | rfl <;> (unfold Blank; decide))]
  dsimp only
  rw [if_pos he.symm, key_cstr hk]
  exact h1

theorem root_step {fp : FP D} {fs : Fields} {eof elem : Bool} {k : Key} {ks : List Key} {kt d x r : List Char} {v v' : fs.Val D} (hk : KeyText k kt) (hd : Dots ks d)
    (h : AtField fp eof elem fs k ks v v' x) (hr : SecEnd eof r) (n : Nat) :
    rootLoop fp fs (n + 1) v (opening elem ++ (kt ++ (d ++ (closing elem ++ (x ++ r))))) = rootLoop fp fs n v' r := by
  have h1 := header_ok hk hd h hr
  have e1 : eatAll (eatLines r) = r := by
    rcases hr with rfl | ⟨-, q, rfl⟩
    · rw [eatLines, eatAll_nil]
    · rw [eatLines, if_pos rfl, eatAll_cons (by decide) (by decide)]
  cases elem
  · obtain ⟨c, y, hc, hq⟩ := key_head hk
    have hne := (keyHead_facts hq).2.2.2.1
    change rootLoop fp fs (n + 1) v ('[' :: (kt ++ (d ++ (closing false ++ (x ++ r))))) = _
    rw [rootLoop, if_neg (fun h => h rfl), if_neg (by rw [hc]; exact fun h => hne (Option.some.inj h))]
    change (match header fp fs (stOf false) v (kt ++ (d ++ (closing false ++ (x ++ r)))) with
      | .error e => Except.error e
      | .ok (v, s) => rootLoop fp fs n v (eatAll (eatLines s))) = _
    rw [h1]
    dsimp only
    rw [e1]
  · change rootLoop fp fs (n + 1) v ('[' :: '[' :: (kt ++ (d ++ (closing true ++ (x ++ r))))) = _
    rw [rootLoop, if_neg (fun h => h rfl), if_pos (show List.head? ('[' :: _) = some '[' from rfl)]
    change (match header fp fs (stOf true) v (kt ++ (d ++ (closing true ++ (x ++ r)))) with
      | .error e => Except.error e
      | .ok (v, s) => rootLoop fp fs n v (eatAll (eatLines s))) = _
    rw [h1]
    dsimp only
    rw [e1]

theorem sections_head {fp : FP D} {fs : Fields} {v v' : fs.Val D} {s : List Char} (h : Sections fp fs v v' s) : SecEnd false s := by
  cases h with
  | nil => exact Or.inl rfl
  | @cons _ _ _ elem => cases elem <;> exact Or.inr ⟨rfl, _, rfl⟩
  | @last _ _ elem => cases elem <;> exact Or.inr ⟨rfl, _, rfl⟩

theorem root_ok {fp : FP D} {fs : Fields} {v v' : fs.Val D} {s : List Char} (h : Sections fp fs v v' s) : ∀ n, s.length < n → rootLoop fp fs n v s = .ok (v', []) := by
  induction h with
  | nil =>
    intro n hn
    obtain ⟨n, rfl⟩ : ∃ m, n = m + 1 := ⟨n - 1, by omega⟩
    rw [rootLoop]
  | @cons v v' v'' elem k ks kt t x s hk hd h hs ih =>
    intro n hn
    simp only [List.length_append] at hn
    obtain ⟨n, rfl⟩ : ∃ m, n = m + 1 := ⟨n - 1, by omega⟩
    have hl : 1 ≤ (opening elem).length := by cases elem <;> decide
    rw [root_step hk hd h (sections_head hs), ih n (by omega)]
  | @last v v' elem k ks kt t x hk hd h =>
    intro n hn
    simp only [List.length_append] at hn
    have hl : 1 ≤ (opening elem).length := by cases elem <;> decide
    obtain ⟨n, rfl⟩ : ∃ m, n = m + 2 := ⟨n - 2, by omega⟩
    have := root_step (r := []) hk hd h (Or.inl rfl) (n + 1)
    rw [List.append_nil] at this
    rw [this, rootLoop]

theorem document_ok {fp : FP D} {fs : Fields} {v v' : fs.Val D} {x : List Char} (h : Document fp fs v v' x) : parseTOML fp fs v x = .ok (v', []) := by
  cases h with
  | sections hb hs =>
    rw [parseTOML, section_ok hb (sections_head hs)]
    exact root_ok hs _ (Nat.lt_succ_self _)
  | lines hb =>
    have := section_ok hb (r := []) (Or.inl rfl)
    rw [List.append_nil] at this
    rw [parseTOML, this]
    dsimp only
    rw [rootLoop]

end Verif.Toml
