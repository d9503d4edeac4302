import Verif.Xml.Spec

/-!
# The XML parser ends (C90)
-/

namespace Verif.Xml

open Verif.Json (isSpace dropWhile_length)

theorem lit_ok {p s r : List Char} (h : lit p s = .ok r) : s = p ++ r := by
  induction p generalizing s with
  | nil => rw [lit] at h; cases h; rfl
  | cons a p ih =>
    cases s with
    | nil => rw [lit] at h; cases h
    | cons c s =>
      rw [lit] at h
      split at h
      · rename_i e
        rw [ih h, e]; rfl
      · cases h

theorem scan_append (post : List Char) : ∀ (s cur : List Char), (scan post cur s).2.1 ++ (scan post cur s).2.2 = s
  | [], [] => rfl
  | [], _ :: _ => rfl
  | _ :: _, [] => rfl
  | c :: s, p :: ps => by
    rw [scan]
    dsimp only
    rw [List.cons_append, scan_append post s]

theorem scan_done {post : List Char} {s : List Char} {p : Char} {ps : List Char} (h : (scan post (p :: ps) s).1 = []) : (scan post (p :: ps) s).2.1 ≠ [] := by
  cases s with
  | nil => rw [scan] at h; cases h
  | cons c s => rw [scan]; simp

theorem matchP_rest (pat s : List Char) : (matchP pat s).rest.length ≤ s.length := by
  have h := dropWhile_length isSpace s
  rw [matchP]
  dsimp only
  split
  · exact Nat.zero_le _
  · exact h
  · rename_i r e
    have e1 := congrArg List.length (lit_ok e)
    rw [List.length_append] at e1
    split
    · dsimp only; omega
    · rename_i post _
      split
      · exact Nat.zero_le _
      · have e2 := congrArg List.length (scan_append post r post)
        rw [List.length_append] at e2
        split
        · dsimp only; omega
        · exact h

/-- A match reads something. -/
theorem matchP_ok {pat s : List Char} (h : (matchP pat s).ok = true) (hp : pat ≠ [] ∧ pat ≠ ['*']) : (matchP pat s).rest.length < s.length := by
  have hd := dropWhile_length isSpace s
  rw [matchP] at h ⊢
  dsimp only at h ⊢
  split at h
  · cases h
  · cases h
  · rename_i r e
    have e1 := congrArg List.length (lit_ok e)
    rw [List.length_append] at e1
    split at h
    · rename_i ed
      dsimp only
      have e3 : pat.takeWhile (· != '*') = pat := by
        have := List.takeWhile_append_dropWhile (p := (· != '*')) (l := pat)
        rw [ed, List.append_nil] at this
        exact this
      rw [e3] at e1
      have := List.length_pos_iff.2 hp.1
      omega
    · rename_i x post ed
      split at h
      · cases h
      · rename_i hr
        rw [if_neg hr]
        split at h
        · rename_i hs
          rw [if_pos hs]
          dsimp only
          have e2 := congrArg List.length (scan_append post r post)
          rw [List.length_append] at e2
          cases post with
          | cons p ps =>
            have := List.length_pos_iff.2 (scan_done hs)
            omega
          | nil =>
            have hx : x = '*' := by
              have : (pat.dropWhile (· != '*')).head? = some x := by rw [ed]; rfl
              have h2 := List.head?_dropWhile_not (· != '*') pat
              rw [this] at h2
              simpa using h2
            have h4 : pat.takeWhile (· != '*') ≠ [] := by
              intro h5
              have := List.takeWhile_append_dropWhile (p := (· != '*')) (l := pat)
              rw [ed, h5, hx] at this
              exact hp.2 this.symm
            have := List.length_pos_iff.2 h4
            omega
        · cases h

theorem matchP_bad {pat s : List Char} (h : (matchP pat s).ok = false) : (matchP pat s).rest = [] ∨ (matchP pat s).rest = s.dropWhile isSpace := by
  rw [matchP] at h ⊢
  dsimp only at h ⊢
  split
  · exact .inl rfl
  · exact .inr rfl
  · rename_i r e
    rw [e] at h
    dsimp only at h
    split
    · rename_i ed; rw [ed] at h; cases h
    · rename_i ed
      rw [ed] at h
      dsimp only at h
      split
      · exact .inl rfl
      · rename_i hr
        rw [if_neg hr] at h
        split
        · rename_i hs; rw [if_pos hs] at h; cases h
        · exact .inr rfl

/-- The inside of a closing tag and the rest. -/
theorem matchP_close {s : List Char} (h : (matchP "</*>".toList s).ok = true) : (matchP "</*>".toList s).out.length + (matchP "</*>".toList s).rest.length + 3 ≤ s.length := by
  have hd := dropWhile_length isSpace s
  rw [matchP] at h ⊢
  dsimp only at h ⊢
  split at h
  · cases h
  · cases h
  · rename_i r e
    have e1 := congrArg List.length (lit_ok e)
    rw [List.length_append] at e1
    have ed : "</*>".toList.dropWhile (· != '*') = ['*', '>'] := rfl
    have et : ("</*>".toList.takeWhile (· != '*')).length = 2 := rfl
    rw [ed] at h ⊢
    rw [et] at e1
    dsimp only at h ⊢
    split at h
    · cases h
    · rename_i hr
      rw [if_neg hr]
      split at h
      · rename_i hs
        rw [if_pos hs]
        dsimp only
        have e2 := congrArg List.length (scan_append ['>'] r ['>'])
        rw [List.length_append] at e2
        have := List.length_pos_iff.2 (scan_done hs)
        rw [hs, List.length_take]
        simp only [List.length_cons, List.length_nil]
        omega
      · cases h

theorem dropWhile_drop {p : Char → Bool} {s : List Char} (h : ∀ c q, s = c :: q → p c = true) : s = [] ∨ (s.dropWhile p).length < s.length := by
  cases s with
  | nil => exact .inl rfl
  | cons c s =>
    right
    rw [List.dropWhile_cons, if_pos (h c s rfl)]
    have := dropWhile_length p s
    rw [List.length_cons]; omega

theorem head_dropWhile {p : Char → Bool} {s : List Char} {c : Char} {q : List Char} (h : s.dropWhile p = c :: q) : p c = false := by
  have := List.head?_dropWhile_not p s
  rw [h] at this
  simpa using this

theorem attrLoop_ends : ∀ (n : Nat) (l : List (List Char × List Char)) (s : List Char), s.length < n → ∃ l', attrLoop n l s = some l'
  | 0, _, _, h => by omega
  | n + 1, l, [], _ => ⟨l, rfl⟩
  | n + 1, l, c :: s, h => by
    rw [attrLoop]
    dsimp only
    by_cases ho : (matchP "*=".toList (c :: s)).ok = true
    · rw [if_pos ho]
      have h1 := matchP_ok ho (by decide)
      have h2 := matchP_rest "\"*\"".toList (matchP "*=".toList (c :: s)).rest
      split
      · exact attrLoop_ends n _ _ (by omega)
      · have h3 := dropWhile_length (fun c => !isSpace c) (matchP "\"*\"".toList (matchP "*=".toList (c :: s)).rest).rest
        exact attrLoop_ends n _ _ (by omega)
    · rw [if_neg ho]
      apply attrLoop_ends n
      rcases matchP_bad (Bool.eq_false_iff.2 ho) with e | e
      · rw [e]
        simp only [List.length_cons] at h
        simp only [List.dropWhile_nil, List.length_nil]
        omega
      · rw [e]
        have h4 := dropWhile_length isSpace (c :: s)
        rcases dropWhile_drop (p := fun c => !isSpace c) (s := (c :: s).dropWhile isSpace) (fun a q ha => by rw [head_dropWhile ha]; rfl) with e2 | h5
        · rw [e2]
          simp only [List.length_cons] at h
          simp only [List.dropWhile_nil, List.length_nil]
          omega
        · omega

theorem parseAttribute_ends (l : List (List Char × List Char)) (buf : List Char) : ∃ a, parseAttribute l buf = some a := by
  rw [parseAttribute]
  obtain ⟨l', e⟩ := attrLoop_ends ((((trim buf).dropWhile (!isSpace ·)).dropWhile isSpace).length + 1) l _ (Nat.lt_succ_self _)
  rw [e]
  exact ⟨_, rfl⟩

theorem skipComments_ends : ∀ (n : Nat) (s : List Char), s.length < n → ∃ r, skipComments n s = some r ∧ r.length ≤ s.length
  | 0, _, h => by omega
  | n + 1, s, h => by
    rw [skipComments]
    have h0 := matchP_rest "<!--*-->".toList s
    split
    · rename_i ho
      have h1 := matchP_ok ho (by decide)
      obtain ⟨r, e, h2⟩ := skipComments_ends n _ (show (matchP "<!--*-->".toList s).rest.length < n by omega)
      exact ⟨r, e, by omega⟩
    · exact ⟨_, rfl, h0⟩

theorem firstMatch_lt (k : Nat) : ∀ (l : List (List Char × (List Char → List Char))) (s : List Char), (∀ p ∈ l, p.1 ≠ [] ∧ p.1 ≠ ['*']) → s.length ≤ k + 1 →
    (firstMatch l s).2.length ≤ k
  | [], s, _, h => by rw [firstMatch, List.length_drop]; omega
  | (p, f) :: l, s, hl, h => by
    rw [firstMatch]
    split
    · rename_i ho
      have := matchP_ok ho (hl (p, f) (List.mem_cons_self ..))
      dsimp only
      omega
    · have := matchP_rest p s
      exact firstMatch_lt k l _ (fun q hq => hl q (List.mem_cons_of_mem _ hq)) (by omega)

/-- Every reference is replaced by reading at least a character. -/
theorem entity_lt (c : Char) (s : List Char) : (entity (c :: s)).2.length < (c :: s).length := by
  have := firstMatch_lt s.length entityTable (c :: s) (by simp [entityTable]) (Nat.le_refl _)
  rw [entity, List.length_cons]
  omega

mutual
theorem parse_ends : ∀ (n : Nat) (s : List Char), 2 * s.length + 1 ≤ n → ∃ o r, parse n s = some (o, r) ∧ r.length ≤ s.length ∧ (o.isSome = true → r.length < s.length)
  | 0, s, h => by omega
  | n + 1, s, h => by
    rw [parse]
    obtain ⟨s', e, hl⟩ := skipComments_ends (s.length + 1) s (Nat.lt_succ_self _)
    rw [e]
    dsimp only
    have h0 := matchP_rest "<*>".toList s'
    split
    · exact ⟨_, _, rfl, by omega, fun h => by cases h⟩
    · rename_i ho
      have h1 := matchP_ok (by simpa using ho) (show "<*>".toList ≠ [] ∧ "<*>".toList ≠ ['*'] by decide)
      split
      · obtain ⟨a, ea⟩ := parseAttribute_ends [] (matchP "<*>".toList s').out.dropLast
        rw [ea]
        exact ⟨_, _, rfl, by omega, fun _ => by omega⟩
      · obtain ⟨a, ea⟩ := parseAttribute_ends [] (matchP "<*>".toList s').out
        obtain ⟨text, kids, tag, r, ei, h2, h3⟩ := inner_ends n (matchP "<*>".toList s').rest (by omega)
        rw [ea, ei]
        dsimp only
        split
        · exact ⟨_, _, rfl, Nat.zero_le _, fun _ => by rw [List.length_nil]; omega⟩
        · rename_i hr
          have h4 := h3 hr
          split
          · exact ⟨_, _, rfl, by simp only [List.length_cons, List.length_append]; omega, fun _ => by simp only [List.length_cons, List.length_append]; omega⟩
          · exact ⟨_, _, rfl, by omega, fun _ => by omega⟩

theorem inner_ends : ∀ (n : Nat) (s : List Char), 2 * s.length + 2 ≤ n → ∃ text kids tag r, inner n s = some (text, kids, tag, r) ∧ r.length ≤ s.length ∧
      (r ≠ [] → tag.length + r.length + 3 ≤ s.length)
  | 0, s, h => by omega
  | n + 1, [], h => ⟨[], [], [], [], by rw [inner], Nat.le_refl _, fun h => absurd rfl h⟩
  | n + 1, c :: s, h => by
    rw [inner]
    split
    · dsimp only
      have h1 := entity_lt c s
      obtain ⟨text, kids, tag, r, ei, h2, h3⟩ := inner_ends n (entity (c :: s)).2 (by omega)
      rw [ei]
      exact ⟨_, _, _, _, rfl, by omega, fun hr => by have := h3 hr; omega⟩
    · split
      · dsimp only
        by_cases ho : (matchP "</*>".toList (c :: s)).ok = true
        · rw [if_pos ho]
          have h1 := matchP_close ho
          exact ⟨_, _, _, _, rfl, by omega, fun _ => h1⟩
        · rw [if_neg ho]
          have h1 := matchP_rest "</*>".toList (c :: s)
          have h1' := matchP_rest "<!--*-->".toList (matchP "</*>".toList (c :: s)).rest
          split
          · rename_i ho2
            have h2 := matchP_ok ho2 (by decide)
            obtain ⟨text, kids, tag, r, ei, h4, h3⟩ := inner_ends n (matchP "<!--*-->".toList (matchP "</*>".toList (c :: s)).rest).rest (by omega)
            exact ⟨_, _, _, _, ei, by omega, fun hr => by have := h3 hr; omega⟩
          · obtain ⟨o, r, ep, h4, h5⟩ := parse_ends n (matchP "<!--*-->".toList (matchP "</*>".toList (c :: s)).rest).rest (by omega)
            rw [ep]
            cases o with
            | none =>
              dsimp only
              obtain ⟨text, kids, tag, r', ei, h6, h7⟩ := inner_ends n (r.drop 1) (by rw [List.length_drop]; rw [List.length_cons] at *; omega)
              rw [ei]
              rw [List.length_drop] at h6 h7
              exact ⟨_, _, _, _, rfl, by omega, fun hr => by have := h7 hr; omega⟩
            | some k =>
              dsimp only
              have h8 := h5 rfl
              obtain ⟨text, kids, tag, r', ei, h6, h7⟩ := inner_ends n r (by omega)
              rw [ei]
              exact ⟨_, _, _, _, rfl, by omega, fun hr => by have := h7 hr; omega⟩
      · rw [List.length_cons] at h ⊢
        obtain ⟨text, kids, tag, r, ei, h2, h3⟩ := inner_ends n s (by omega)
        rw [ei]
        exact ⟨_, _, _, _, rfl, by omega, fun hr => by have := h3 hr; omega⟩
end

/-- **C90**: reading ends for every text, well-formed or not. -/
theorem C90_terminates (s : List Char) : ∃ f, readFile s = some f := by
  rw [readFile]
  have h0 := matchP_rest "<?*?>".toList s
  obtain ⟨text, kids, tag, r, ei, -⟩ := inner_ends (2 * s.length + 2) (matchP "<?*?>".toList s).rest (by omega)
  rw [ei]
  split
  · exact ⟨_, rfl⟩
  · rename_i hn
    exfalso
    split at hn
    · obtain ⟨a, ea⟩ := parseAttribute_ends [] (matchP "<?*?>".toList s).out
      rw [ea] at hn
      exact hn _ _ _ _ _ rfl rfl
    · exact hn _ _ _ _ _ rfl rfl

end Verif.Xml
