import Verif.Xml.Parse

/-!
# XML written and read back (C89), examples
-/

namespace Verif.Xml

open Verif.Json (isSpace AllWs cstr cstr_eq nil_ws)

/-! ## Specification -/

/-- A text that the writer keeps: no zero byte, and empty or with a visible ASCII character. -/
def TextOk (s : List Char) : Prop := '\x00' ∉ s ∧ (s = [] ∨ ∃ c ∈ s, '!' ≤ c ∧ c.toNat < 128)

/-- Attributes that the grammar can express, of different names. -/
def AttrsOk (strict : Bool) (attrs : List (List Char × List Char)) : Prop := (∀ a ∈ attrs, NameOk a.1 ∧ AttrOk strict a.2) ∧ (attrs.map (·.1)).Nodup

mutual
/-- A node that the grammar can express. -/
def Node.Ok (strict : Bool) : Node → Prop
  | .mk name attrs text kids => NameOk name ∧ AttrsOk strict attrs ∧ TextOk text ∧ OkL strict kids

def OkL (strict : Bool) : List Node → Prop
  | [] => True
  | k :: l => k.Ok strict ∧ OkL strict l
end

mutual
/-- Two nodes that differ at most in blank space at the end of the texts of nodes with children. -/
def Node.Same : Node → Node → Prop
  | .mk name attrs text kids, .mk name' attrs' text' kids' => name = name' ∧ attrs = attrs' ∧ (∃ w, AllWs w ∧ (kids = [] → w = []) ∧ text' = text ++ w) ∧ SameL kids kids'

def SameL : List Node → List Node → Prop
  | [], l => l = []
  | k :: l, [] => False
  | k :: l, k' :: l' => k.Same k' ∧ SameL l l'
end

/-! ## Writing -/

theorem line_ws (pretty : Bool) (depth : Nat) : AllWs (line pretty depth) := by
  rw [line]
  split
  · intro c hc
    rcases List.mem_cons.1 hc with rfl | hc
    · simp
    · rw [(List.mem_replicate.1 hc).2]; simp
  · exact nil_ws

theorem content_chars {strict : Bool} {w s t : List Char} {kids : List Node} (hw : AllWs w) (h : Content strict s kids t) : Content strict (w ++ s) kids (w ++ t) := by
  induction w with
  | nil => exact h
  | cons c w ih =>
    have hc : c ≠ '<' ∧ c ≠ '&' := by rcases hw c (List.mem_cons_self ..) with rfl | rfl | rfl | rfl <;> decide
    exact .char hc.1 hc.2 (ih fun a ha => hw a (List.mem_cons_of_mem _ ha))

theorem content_text {strict : Bool} {x s t : List Char} {kids : List Node} (h : Content strict s kids t) : Content strict (x ++ s) kids (writeString false x ++ t) := by
  induction x with
  | nil => exact h
  | cons c x ih =>
    rw [writeString, if_pos rfl, List.append_assoc]
    split
    · rename_i e; subst e; exact .entity (by decide) ih
    split
    · rename_i e; subst e; exact .entity (by decide) ih
    split
    · rename_i e; subst e; exact .entity (by decide) ih
    split
    · rename_i e; subst e; exact .entity (by decide) ih
    split
    · rename_i e; subst e; exact .entity (by decide) ih
    · rename_i h1 _ h2 _ _
      exact .char h1 h2 ih

theorem writeString_attr {strict : Bool} {v : List Char} (h : AttrOk strict v) : writeString true (cstr v) = v := by
  rw [cstr_eq fun hm => (h _ hm).2.2.1 rfl]
  induction v with
  | nil => rfl
  | cons c v ih => rw [writeString, if_neg (by decide), if_neg (h c (List.mem_cons_self ..)).1, ih fun a ha => h a (List.mem_cons_of_mem _ ha)]; rfl

theorem writeAttrs_ok {strict : Bool} {l : List (List Char × List Char)} (h : ∀ a ∈ l, NameOk a.1 ∧ AttrOk strict a.2) : Attrs strict l (writeAttrs l) := by
  induction l with
  | nil => exact .nil
  | cons a l ih =>
    obtain ⟨n, v⟩ := a
    have ha := h (n, v) (List.mem_cons_self ..)
    rw [writeAttrs, writeString_attr ha.2]
    exact Attrs.cons (w1 := [' ']) (w2 := []) (w3 := []) (fun c hc => .inl (List.mem_singleton.1 hc)) (by decide) ha.1 nil_ws nil_ws ha.2 (ih fun b hb => h b (List.mem_cons_of_mem _ hb))

theorem mem_dropWhile {p : Char → Bool} {s : List Char} {c : Char} (hc : c ∈ s) (hp : p c = false) : c ∈ s.dropWhile p := by
  induction s with
  | nil => cases hc
  | cons a s ih =>
    rw [List.dropWhile_cons]
    split
    · rename_i ha
      rcases List.mem_cons.1 hc with rfl | hc
      · rw [hp] at ha; cases ha
      · exact ih hc
    · exact hc

theorem dropWhile_sub {p : Char → Bool} {s : List Char} {c : Char} (hc : c ∈ s.dropWhile p) : c ∈ s := by
  induction s with
  | nil => cases hc
  | cons a s ih =>
    rw [List.dropWhile_cons] at hc
    split at hc
    · exact List.mem_cons_of_mem _ (ih hc)
    · exact hc

/-- A visible character survives trimming. -/
theorem trim_visible {s : List Char} (hz : '\x00' ∉ s) {c : Char} (hc : c ∈ s) (h1 : '!' ≤ c) (h2 : c.toNat < 128) : trim s ≠ [] := by
  have hn : 33 ≤ c.toNat := char_le_nat.1 h1
  have hlow : low c = false := by
    rw [low, Bool.or_eq_false_iff]
    exact ⟨decide_eq_false (by omega), decide_eq_false (by omega)⟩
  have hr : c ∈ rtrim s ∧ '\x00' ∉ rtrim s := by
    cases s with
    | nil => cases hc
    | cons a s =>
      rw [rtrim]
      constructor
      · rcases List.mem_cons.1 hc with rfl | hc
        · exact List.mem_cons_self ..
        · exact List.mem_cons_of_mem _ (List.mem_reverse.2 (mem_dropWhile (List.mem_reverse.2 hc) hlow))
      · intro hm
        rcases List.mem_cons.1 hm with e | hm
        · exact hz (by rw [e]; exact List.mem_cons_self ..)
        · exact hz (List.mem_cons_of_mem _ (List.mem_reverse.1 (dropWhile_sub (List.mem_reverse.1 hm))))
  rw [trim, cstr_eq fun hm => hr.2 (dropWhile_sub hm)]
  intro e
  have := mem_dropWhile (p := fun c => decide (0 < c.toNat) && decide (c.toNat < 33)) hr.1 (by simp; omega)
  rw [e] at this
  cases this

theorem text_trim {s : List Char} (h : TextOk s) : trim s = [] ↔ s = [] := by
  rcases h with ⟨hz, rfl | ⟨c, hc, h1, h2⟩⟩
  · exact ⟨fun _ => rfl, fun _ => rfl⟩
  · exact ⟨fun e => absurd e (trim_visible hz hc h1 h2), fun e => by rw [e] at hc; cases hc⟩

mutual
theorem write_elem {strict : Bool} (pretty : Bool) : ∀ (k : Node) (depth : Nat), k.Ok strict → ∃ k' t, Elem strict k' t ∧ k.Same k' ∧ (pretty = false → k' = k) ∧
    write pretty depth k = line pretty depth ++ t
  | .mk name attrs text kids, depth, h => by
    obtain ⟨hn, ha, ht, hk⟩ := h
    have hat := writeAttrs_ok ha.1
    rw [write]
    by_cases hempty : text = [] ∧ kids = []
    · obtain ⟨rfl, rfl⟩ := hempty
      refine ⟨.mk name attrs [] [], _, .empty hn hat ha.2 nil_ws, ⟨rfl, rfl, ⟨[], nil_ws, fun _ => rfl, rfl⟩, rfl⟩, fun _ => rfl, ?_⟩
      rw [if_pos ⟨rfl, rfl⟩]
      rfl
    · have hne : ¬(trim text = [] ∧ kids.isEmpty = true) := by
        rw [text_trim ht, List.isEmpty_iff]
        exact hempty
      rw [if_neg hne]
      have hline : AllWs (if kids.isEmpty then [] else line pretty depth) := by
        split
        · exact nil_ws
        · exact line_ws _ _
      have hend : Content strict (if kids.isEmpty then [] else line pretty depth) [] (if kids.isEmpty then [] else line pretty depth) := by
        have := content_chars hline (Content.nil (strict := strict))
        simpa using this
      obtain ⟨w, kids', hw, hc, hs, hcomp, hw0⟩ := writeKids_content (strict := strict) pretty kids (depth + 1) hk _ _ hend
      have htext : (if trim text = [] then [] else writeString false (cstr text)) = writeString false text := by
        split
        · rename_i e
          rw [(text_trim ht).1 e]; rfl
        · rw [cstr_eq ht.1]
      have hall := content_text (x := text) hc
      refine ⟨.mk name attrs (text ++ (w ++ if kids.isEmpty then [] else line pretty depth)) kids', _, .full hn hat ha.2 nil_ws hall nil_ws, ?_, ?_, ?_⟩
      · refine ⟨rfl, rfl, ⟨_, ?_, ?_, rfl⟩, hs⟩
        · intro c hm
          rcases List.mem_append.1 hm with hm | hm
          · exact hw c hm
          · exact hline c hm
        · intro e
          rw [hw0 e, e]; rfl
      · intro hp
        obtain ⟨rfl, rfl⟩ := hcomp hp
        subst hp
        simp [line]
      · rw [htext]
        simp [List.append_assoc]

theorem writeKids_content {strict : Bool} (pretty : Bool) : ∀ (l : List Node) (depth : Nat), OkL strict l → ∀ s t, Content strict s [] t → ∃ w l', AllWs w ∧
    Content strict (w ++ s) l' (writeKids pretty depth l ++ t) ∧ SameL l l' ∧ (pretty = false → w = [] ∧ l' = l) ∧ (l = [] → w = [])
  | [], depth, _, s, t, h => ⟨[], [], nil_ws, h, rfl, fun _ => ⟨rfl, rfl⟩, fun _ => rfl⟩
  | k :: l, depth, ⟨hk, hl⟩, s, t, h => by
    obtain ⟨k', e, he, hs, hc, hw⟩ := write_elem (strict := strict) pretty k depth hk
    obtain ⟨w, l', hww, hcl, hsl, hcc, -⟩ := writeKids_content (strict := strict) pretty l depth hl s t h
    refine ⟨line pretty depth ++ w, k' :: l', ?_, ?_, ⟨hs, hsl⟩, ?_, fun h => by cases h⟩
    · intro c hm
      rcases List.mem_append.1 hm with hm | hm
      · exact line_ws _ _ c hm
      · exact hww c hm
    · rw [writeKids, hw, List.append_assoc, List.append_assoc, List.append_assoc]
      exact content_chars (line_ws _ _) (.elem he hcl)
    · intro hp
      obtain ⟨rfl, rfl⟩ := hcc hp
      rw [hc hp, hp]
      exact ⟨rfl, rfl⟩
end

/-- A file that the grammar can express; without a declaration it has the name `xml`. -/
def FileOk (strict : Bool) (name : List Char) (attrs : List (List Char × List Char)) (kids : List Node) : Prop :=
  NameOk name ∧ AttrsOk strict attrs ∧ (attrs = [] → name = "xml".toList) ∧ OkL strict kids

/-- **C89**: what `Write` puts out is a document, and it denotes the tree, apart from blank space in the texts of nodes with children. -/
theorem C89_grammar_partial {strict : Bool} {name text : List Char} {attrs : List (List Char × List Char)} {kids : List Node} (pretty : Bool) (h : FileOk strict name attrs kids) :
    ∃ text' kids', Doc strict (.mk name attrs text' kids') (writeFile pretty (.mk name attrs text kids)) ∧ AllWs text' ∧ SameL kids kids' ∧ (pretty = false → text' = [] ∧ kids' = kids) := by
  obtain ⟨hn, ha, hx, hk⟩ := h
  rw [writeFile]
  cases attrs with
  | nil =>
    rw [hx rfl]
    rw [if_pos (show ([] : List (List Char × List Char)).isEmpty = true from rfl), List.nil_append]
    cases kids with
    | nil => exact ⟨[], [], .plain (w := []) nil_ws .nil (fun c hc => by cases hc), nil_ws, rfl, fun _ => ⟨rfl, rfl⟩⟩
    | cons k l =>
      obtain ⟨hk, hl⟩ := hk
      obtain ⟨k', e, he, hs, hc, hw⟩ := write_elem (strict := strict) pretty k 0 hk
      obtain ⟨w, l', hww, hcl, hsl, hcc, -⟩ := writeKids_content (strict := strict) pretty l 0 hl [] [] .nil
      rw [List.append_nil, List.append_nil] at hcl
      refine ⟨w, k' :: l', ?_, hww, ⟨hs, hsl⟩, fun hp => ?_⟩
      · rw [writeKids, hw, List.append_assoc]
        refine .plain (line_ws _ _) (.elem he hcl) ?_
        obtain ⟨c, q, rfl, -⟩ := elem_head he
        intro a hm
        rw [List.cons_append, List.head?_cons] at hm
        rw [← Option.some.inj hm]
        decide
      · obtain ⟨rfl, rfl⟩ := hcc hp
        rw [hc hp]
        exact ⟨rfl, rfl⟩
  | cons a attrs =>
    obtain ⟨w, l', hww, hcl, hsl, hcc, -⟩ := writeKids_content (strict := strict) pretty kids 0 hk [] [] .nil
    rw [List.append_nil, List.append_nil] at hcl
    refine ⟨w, l', ?_, hww, hsl, hcc⟩
    have := Doc.decl (w := []) (w2 := []) nil_ws hn (writeAttrs_ok ha.1) ha.2 nil_ws hcl
    rw [if_neg (by simp)]
    simpa [List.append_assoc] using this

/-- **C89**: the compact form is read back as the same tree. -/
theorem C89_roundtrip_partial {name text : List Char} {attrs : List (List Char × List Char)} {kids : List Node} (h : FileOk false name attrs kids) :
    readFile (writeFile false (.mk name attrs text kids)) = some (.mk name attrs [] kids) := by
  obtain ⟨text', kids', hd, -, -, hp⟩ := C89_grammar_partial (text := text) false h
  obtain ⟨rfl, rfl⟩ := hp rfl
  exact C90_parse_partial hd

/-- **C89**: the pretty form is read back as the same tree, apart from blank space at the end of the texts of nodes with children. -/
theorem C89_pretty_partial {name text : List Char} {attrs : List (List Char × List Char)} {kids : List Node} (h : FileOk false name attrs kids) :
    ∃ text' kids', readFile (writeFile true (.mk name attrs text kids)) = some (.mk name attrs text' kids') ∧ AllWs text' ∧ SameL kids kids' := by
  obtain ⟨text', kids', hd, hw, hs, -⟩ := C89_grammar_partial (text := text) true h
  exact ⟨text', kids', C90_parse_partial hd, hw, hs⟩

/-! ## Examples and counterexamples -/

mutual
/-- Equality of nodes can be decided. -/
def decNode : (a b : Node) → Decidable (a = b)
  | .mk n a t k, .mk n' a' t' k' =>
    if h : n = n' ∧ a = a' ∧ t = t' then
      match decNodes k k' with
      | isTrue hk => isTrue (by rw [h.1, h.2.1, h.2.2, hk])
      | isFalse hk => isFalse fun e => hk (by injection e)
    else isFalse fun e => h (by injection e with h1 h2 h3 h4; exact ⟨h1, h2, h3⟩)

def decNodes : (a b : List Node) → Decidable (a = b)
  | [], [] => isTrue rfl
  | [], _ :: _ => isFalse fun e => by cases e
  | _ :: _, [] => isFalse fun e => by cases e
  | a :: l, b :: m =>
    match decNode a b, decNodes l m with
    | isTrue h, isTrue h2 => isTrue (by rw [h, h2])
    | isFalse h, _ => isFalse fun e => h (by injection e)
    | _, isFalse h => isFalse fun e => h (by injection e)
end

instance : DecidableEq Node := decNode

/-- A file with a declaration and an element with an attribute, text and children. -/
def sampleKids : List Node := [.mk "a".toList [("k".toList, "x & y".toList)] "1 < 2".toList [.mk "b".toList [] [] [], .mk "b".toList [] "t".toList []]]

theorem nameOk_of {n : List Char} (h : (n.all fun c => decide ('!' ≤ c) && !special.contains c && decide (c.toNat < 128)) = true) (hn : n ≠ []) : NameOk n := by
  rw [List.all_eq_true] at h
  refine ⟨fun c hc => ?_, ?_⟩
  · have := h c hc
    simp only [Bool.and_eq_true, decide_eq_true_eq, Bool.not_eq_true', List.contains_eq_mem, decide_eq_false_iff_not] at this
    exact ⟨this.1.1, this.1.2⟩
  · have hc := List.getLast?_eq_some_getLast hn
    have := h _ (List.mem_of_getLast? hc)
    simp only [Bool.and_eq_true, decide_eq_true_eq] at this
    exact ⟨_, hc, this.2⟩

example : FileOk false "xml".toList [("version".toList, "1.0".toList)] sampleKids := by
  refine ⟨nameOk_of (by decide) (by decide), ⟨?_, by decide⟩, fun h => absurd h (by decide), ?_⟩
  · intro a ha
    rw [List.mem_singleton.1 ha]
    exact ⟨nameOk_of (by decide) (by decide), by unfold AttrOk; decide⟩
  · refine ⟨⟨nameOk_of (by decide) (by decide), ⟨?_, by decide⟩, ⟨by decide, .inr ⟨'1', by decide⟩⟩, ?_⟩, trivial⟩
    · intro a ha
      rw [List.mem_singleton.1 ha]
      exact ⟨nameOk_of (by decide) (by decide), by unfold AttrOk; decide⟩
    · refine ⟨⟨nameOk_of (by decide) (by decide), ⟨(fun a ha => by cases ha), by decide⟩, ⟨by decide, .inl rfl⟩, trivial⟩,
        ⟨nameOk_of (by decide) (by decide), ⟨(fun a ha => by cases ha), by decide⟩, ⟨by decide, .inr ⟨'t', by decide⟩⟩, trivial⟩, trivial⟩

example : writeFile false (.mk "xml".toList [("version".toList, "1.0".toList)] [] sampleKids) =
    "<?xml version=\"1.0\"?><a k=\"x & y\">1 &lt; 2<b/><b>t</b></a>".toList := by decide +kernel

/-- The same file in the pretty form. -/
example : writeFile true (.mk "xml".toList [("version".toList, "1.0".toList)] [] sampleKids) =
    "<?xml version=\"1.0\"?>\n<a k=\"x & y\">1 &lt; 2\n\t<b/>\n\t<b>t</b>\n</a>".toList := by decide +kernel

/-- A document with comments, single and self-closing tags, entities and character references. -/
example : Doc true (.mk "xml".toList [] [] [.mk "a".toList [("k".toList, "v".toList)] ['1', '<', 'Ã', '©'] [.mk "b".toList [] [] []]])
    "<a k = \"v\" >1&lt;<!-- c --><b/>&#x00E9;</a >".toList := by
  have h0 : Content true [] [] [] := .nil
  have h1 := Content.hex (ds := [('0', 0), ('0', 0), ('E', 14), ('9', 9)]) (by decide) (by decide) (by unfold CodeOk; decide) h0
  have h2 := Content.elem (.empty (name := "b".toList) (ta := []) (w := []) (nameOk_of (by decide) (by decide)) .nil (by decide) nil_ws) h1
  have h3 := Content.comment (b := " c ".toList) (.char (by decide) (.char (by decide) (.char (by decide) .nil))) h2
  have h4 := Content.entity (e := "&lt;".toList) (c := '<') (by decide) h3
  have h5 := Content.char (c := '1') (by decide) (by decide) h4
  have h6 := Elem.full (name := "a".toList) (w := [' ']) (w2 := [' ']) (nameOk_of (by decide) (by decide))
    (Attrs.cons (n := "k".toList) (v := "v".toList) (w1 := [' ']) (w2 := [' ']) (w3 := [' ']) (fun c hc => .inl (List.mem_singleton.1 hc)) (by decide) (nameOk_of (by decide) (by decide))
      (fun c hc => .inl (List.mem_singleton.1 hc)) (fun c hc => .inl (List.mem_singleton.1 hc)) (by unfold AttrOk; decide) .nil) (by decide)
    (fun c hc => .inl (List.mem_singleton.1 hc)) h5 (fun c hc => .inl (List.mem_singleton.1 hc))
  exact Doc.plain (w := []) nil_ws (.elem h6 .nil) (by decide)

/-- A quotation mark in an attribute is written as an entity, which is not decoded when the attribute is read. -/
theorem C89_quote_counterexample : readFile (writeFile false (.mk "xml".toList [] [] [.mk "a".toList [("k".toList, "\"".toList)] [] []])) =
    some (.mk "xml".toList [] [] [.mk "a".toList [("k".toList, "&quot;".toList)] [] []]) := by decide +kernel

/-- A `>` in an attribute is written as it is and ends the tag when it is read. -/
theorem C89_greater_counterexample : readFile (writeFile false (.mk "xml".toList [] [] [.mk "a".toList [("k".toList, "x>y".toList)] [] []])) ≠
    some (.mk "xml".toList [] [] [.mk "a".toList [("k".toList, "x>y".toList)] [] []]) := by decide +kernel

/-- A text of blanks is not written. -/
theorem C89_blank_counterexample : readFile (writeFile false (.mk "xml".toList [] [] [.mk "a".toList [] "  ".toList []])) =
    some (.mk "xml".toList [] [] [.mk "a".toList [] [] []]) := by decide +kernel

/-- A text of a blank and a character outside ASCII is not written either. -/
theorem C89_nonascii_text_counterexample : readFile (writeFile false (.mk "xml".toList [] [] [.mk "a".toList [] [' ', 'Ã', '©'] []])) =
    some (.mk "xml".toList [] [] [.mk "a".toList [] [] []]) := by decide +kernel

/-- The last characters of a name outside ASCII are lost. -/
theorem C89_nonascii_name_counterexample : readFile (writeFile false (.mk "xml".toList [] [] [.mk ['a', 'Ã', '©'] [] [] []])) =
    some (.mk "xml".toList [] [] [.mk "a".toList [] [] []]) := by decide +kernel

/-- The text of the file itself is not written. -/
theorem C89_file_text_counterexample : readFile (writeFile false (.mk "xml".toList [] "t".toList [])) = some (.mk "xml".toList [] [] []) := by decide +kernel

/-- The pretty form changes the text of a node that has children. -/
theorem C89_pretty_counterexample : readFile (writeFile true (.mk "xml".toList [] [] [.mk "a".toList [] "t".toList [.mk "b".toList [] [] []]])) =
    some (.mk "xml".toList [] [] [.mk "a".toList [] "t\n\t\n".toList [.mk "b".toList [] [] []]]) := by decide +kernel

/-- A document type declaration is read as an element, which is never closed and takes in the rest of the document. -/
theorem C90_doctype_counterexample : readFile "<!DOCTYPE a><a/>".toList =
    some (.mk "xml".toList [] [] [.mk "!DOCTYPE".toList [("aa".toList, [])] [] [.mk "a".toList [] [] []]]) := by decide +kernel

/-- Attributes between apostrophes are not understood. -/
theorem C90_apostrophe_counterexample : readFile "<a b='c d'/>".toList = some (.mk "xml".toList [] [] [.mk "a".toList [("b".toList, "'c".toList), ("d'd'".toList, [])] [] []]) := by decide +kernel

/-- Entities in attributes are not decoded. -/
theorem C90_attribute_entity_counterexample : readFile "<a b=\"&lt;\"/>".toList = some (.mk "xml".toList [] [] [.mk "a".toList [("b".toList, "&lt;".toList)] [] []]) := by decide +kernel

/-- An attribute without a value gets its name twice. -/
theorem C90_no_value_counterexample : readFile "<a b/>".toList = some (.mk "xml".toList [] [] [.mk "a".toList [("bb".toList, [])] [] []]) := by decide +kernel

/-- The largest code point is dropped. -/
theorem C90_max_code_counterexample : readFile "<a>x&#x10FFFF;y</a>".toList = some (.mk "xml".toList [] [] [.mk "a".toList [] "xy".toList []]) := by decide +kernel

/-- A comment that ends in three dashes does not end. -/
theorem C90_comment_counterexample : readFile "<a><!-- c ---><b/></a>".toList ≠ readFile "<a><!-- c --><b/></a>".toList := by decide +kernel

end Verif.Xml
