import Verif.Toml.Read
/-!
# What is written is a document
-/

namespace Verif.Toml
open Verif.Json (decimal decimal_text IntText)

variable {D : Type}

theorem escape_text : ∀ s : List Char, StrText s (escape s)
  | [] => .nil
  | c :: s => by
    have ih := escape_text s
    rw [escape]
    by_cases h1 : c = '"'
    · rw [if_pos h1, h1]; exact .esc (.char (e := '"') (by decide)) ih
    rw [if_neg h1]
    by_cases h2 : c = '\\'
    · rw [if_pos h2, h2]; exact .esc (.char (e := '\\') (by decide)) ih
    rw [if_neg h2]
    by_cases h3 : c = '\x08'
    · rw [if_pos h3, h3]; exact .esc (.char (e := 'b') (by decide)) ih
    rw [if_neg h3]
    by_cases h4 : c = '\x0c'
    · rw [if_pos h4, h4]; exact .esc (.char (e := 'f') (by decide)) ih
    rw [if_neg h4]
    by_cases h5 : c = '\n'
    · rw [if_pos h5, h5]; exact .esc (.char (e := 'n') (by decide)) ih
    rw [if_neg h5]
    by_cases h6 : c = '\r'
    · rw [if_pos h6, h6]; exact .esc (.char (e := 'r') (by decide)) ih
    rw [if_neg h6]
    by_cases h7 : c = '\t'
    · rw [if_pos h7, h7]; exact .esc (.char (e := 't') (by decide)) ih
    rw [if_neg h7]
    exact .char h1 h2 (fun h => h.elim h5 h6) ih

theorem decimal_form (i : Int) : IntForm i (decimal i) := by
  have h := decimal_text i
  generalize decimal i = x at h
  cases h with
  | pos h => exact .pos h.1 h.2.1
  | neg h => exact .neg h.1 h.2.1

mutual
theorem fresh_dflt (fp : FP D) : ∀ t : Ty, Fresh t (dflt fp t)
  | .str => trivial
  | .int => trivial
  | .dbl => trivial
  | .bool => trivial
  | .arr _ => rfl
  | .obj fs => fresh_dfltF fp fs

theorem fresh_dfltF (fp : FP D) : ∀ fs : Fields, FreshF fs (dfltF fp fs)
  | .nil => trivial
  | .cons _ t fs => ⟨fresh_dflt fp t, fresh_dfltF fp fs⟩
end

theorem pairs_map {V W : Type} {F : Key → V → V → List Char → Prop} {G : Key → W → W → List Char → Prop} (e : V → W) (h : ∀ k v v' x, F k v v' x → G k (e v) (e v') x) {v v' : V}
    {b : List Char} (hp : Pairs F v v' b) : Pairs G (e v) (e v') b := by
  induction hp with
  | nil => exact .nil
  | last h1 h2 h3 h4 h5 => exact .last h1 h2 h3 (h _ _ _ _ h4) h5
  | cons h1 h2 h3 h4 h5 h6 _ ih => exact .cons h1 h2 h3 (h _ _ _ _ h4) h5 h6 ih

theorem body_map {V W : Type} {F : Key → V → V → List Char → Prop} {G : Key → W → W → List Char → Prop} (e : V → W) (h : ∀ k v v' x, F k v v' x → G k (e v) (e v') x) {eof : Bool}
    {v v' : V} {b : List Char} (hp : Body F eof v v' b) : Body G eof (e v) (e v') b := by
  induction hp with
  | gap hg => exact .gap hg
  | line h1 h2 h3 h4 h5 h6 h7 h8 _ ih => exact .line h1 h2 h3 h4 (h _ _ _ _ h5) h6 h7 h8 ih
  | last h0 h1 h2 h3 h4 h5 h6 h7 => exact .last h0 h1 h2 h3 h4 (h _ _ _ _ h5) h6 h7

theorem gap_app {g g' : List Char} (h : Gap g) (h' : Gap g') : Gap (g ++ g') := by
  induction h with
  | nil => exact h'
  | ws hc _ ih => exact .ws hc ih
  | @comment x c g hx hc _ ih =>
    have : '#' :: (x ++ c :: g) ++ g' = '#' :: (x ++ c :: (g ++ g')) := by simp
    rw [this]
    exact .comment hx hc ih

theorem body_gap {V : Type} {F : Key → V → V → List Char → Prop} {eof : Bool} {v v' : V} {g b : List Char} (hg : Gap g) (h : Body F eof v v' b) : Body F eof v v' (g ++ b) := by
  cases h with
  | gap hg' => exact .gap (gap_app hg hg')
  | line h1 h2 h3 h4 h5 h6 h7 h8 h9 => rw [← List.append_assoc]; exact .line (gap_app hg h1) h2 h3 h4 h5 h6 h7 h8 h9
  | last h0 h1 h2 h3 h4 h5 h6 h7 => rw [← List.append_assoc]; exact .last h0 (gap_app hg h1) h2 h3 h4 h5 h6 h7

theorem blanks_nil : Blanks [] := fun _ hc => (List.not_mem_nil hc).elim

theorem blanks_sp : Blanks [' '] := fun c hc => Or.inl (List.mem_singleton.1 hc)

/-- The text of a field whose name is one of the fields. -/
def Own (fp : FP D) (fs : Fields) (stop : Char → Prop) (k : Key) (v v' : fs.Val D) (x : List Char) : Prop := k ∈ fs.keys ∧ FieldText fp fs stop k v v' x

theorem own_tail {fp : FP D} {k : Key} {t : Ty} {fs : Fields} (hk : k ∉ fs.keys) {stop : Char → Prop} (a : t.Val D) (k' : Key) (v v' : fs.Val D) (x : List Char)
    (h : Own fp fs stop k' v v' x) : Own fp (.cons k t fs) stop k' (a, v) (a, v') x :=
  ⟨List.mem_cons_of_mem _ h.1, Or.inr ⟨fun e => hk (e ▸ h.1), rfl, h.2⟩⟩

theorem own_head {fp : FP D} {k : Key} {t : Ty} {fs : Fields} {stop : Char → Prop} {a a' : t.Val D} (v : fs.Val D) {x : List Char} (h : ValText fp t a a' x) :
    Own fp (.cons k t fs) stop k (a, v) (a', v) x :=
  ⟨List.mem_cons_self .., Or.inl ⟨rfl, h, rfl⟩⟩

theorem elems_flag {α : Type} {w : Bool → α → List Char × Bool} {x : α → List Char} (hw : ∀ b a, w b a = (writeId b none ++ x a, false)) (a : α) (l : List α) :
    writeElems w false (a :: l) = ',' :: ' ' :: writeElems w true (a :: l) := by
  simp [writeElems, hw, writeId]

theorem elems_items {α : Type} {P : α → List Char → Prop} {w : Bool → α → List Char × Bool} {x : α → List Char} (hw : ∀ b a, w b a = (writeId b none ++ x a, false)) :
    ∀ l : List α, (∀ a ∈ l, P a (x a)) → Items P l (writeElems w true l ++ [']'])
  | [], _ => .nil
  | [a], h => by
    have : writeElems w true [a] ++ [']'] = x a ++ ([] ++ [']']) := by simp [writeElems, hw, writeId]
    rw [this]
    exact .last (h a (List.mem_cons_self ..)) fun _ hc => (List.not_mem_nil hc).elim
  | a :: b :: l, h => by
    have ih := elems_items hw (b :: l) fun c hc => h c (List.mem_cons_of_mem _ hc)
    have : writeElems w true (a :: b :: l) ++ [']'] = x a ++ ([] ++ ',' :: ([' '] ++ (writeElems w true (b :: l) ++ [']']))) := by
      rw [writeElems, hw]
      dsimp only
      rw [elems_flag hw]
      simp [writeId]
    rw [this]
    exact .cons (h a (List.mem_cons_self ..)) (fun _ hc => (List.not_mem_nil hc).elim) (.ws (Or.inl (Or.inl rfl)) .nil) ih

theorem elems_nested {α : Type} {P : α → List Char → Prop} {w : Bool → α → List Char × Bool} {x : α → List Char} (hw : ∀ b a, w b a = (writeId b none ++ x a, false)) (l : List α)
    (h : ∀ a ∈ l, P a (x a)) (hl : l.length ≤ 1) : Nested P l (writeElems w true l ++ [']']) := by
  rcases l with _ | ⟨a, _ | ⟨b, l⟩⟩
  · exact .nil
  · have : writeElems w true [a] ++ [']'] = x a ++ ([] ++ [']']) := by simp [writeElems, hw, writeId]
    rw [this]
    exact .one (h a (List.mem_cons_self ..)) blanks_nil
  · exact absurd hl (by simp)

/-- The text that is written for a value without its name. -/
def bareText (fp : FP D) (t : Ty) (v : t.Val D) : List Char := (writeInline fp t none true v).1

mutual
theorem inline_flag (fp : FP D) : ∀ (t : Ty), t.Wf → ∀ (v : t.Val D) (id : Option Key) (first : Bool), writeInline fp t id first v = (writeId first id ++ bareText fp t v, false)
  | .str, _, v, id, first => rfl
  | .int, _, v, id, first => rfl
  | .dbl, _, v, id, first => rfl
  | .bool, _, v, id, first => rfl
  | .arr t, _, v, id, first => rfl
  | .obj fs, h, v, id, first => by
    have := fields_flag fp fs h.2 h.1 v true
    change (_, (writeFields fp fs true v).2) = (_, false)
    rw [this]
    rfl

theorem fields_flag (fp : FP D) : ∀ (fs : Fields), fs.Wf → fs.keys ≠ [] → ∀ (v : fs.Val D) (first : Bool), (writeFields fp fs first v).2 = false
  | .nil, _, h, _, _ => absurd rfl h
  | .cons k t .nil, h, _, v, first => by
    rw [writeFields]
    dsimp only
    rw [writeFields, inline_flag fp t h.2.2.1]
  | .cons k t (.cons k2 t2 fs), h, _, v, first => by
    rw [writeFields]
    dsimp only
    exact fields_flag fp (.cons k2 t2 fs) h.2.2.2 (by simp [Fields.keys]) v.2 _
end

theorem fields_comma (fp : FP D) (fs : Fields) (h : fs.Wf) (hk : fs.keys ≠ []) (v : fs.Val D) : (writeFields fp fs false v).1 = ',' :: ' ' :: (writeFields fp fs true v).1 := by
  cases fs with
  | nil => exact absurd rfl hk
  | cons k t fs =>
    simp only [writeFields, inline_flag fp t h.2.2.1]
    simp [writeId]

mutual
theorem write_val (fp : FP D) : ∀ (t : Ty), t.Wf → ∀ (v old : t.Val D), Good fp t v → Fresh t old → ValText fp t old v (bareText fp t v)
  | .str, _, v, old, _, _ => .basic (escape_text v)
  | .int, _, v, old, h, _ => ⟨decimal_form v, h⟩
  | .dbl, _, v, old, h, _ => h
  | .bool, _, v, old, _, _ => rfl
  | .arr t, hw, v, old, h, ho => by
    have ho : old = ([] : List (t.Val D)) := ho
    subst ho
    have hx : ∀ x, List.Mem x (show List (t.Val D) from v) → ValText fp t (dflt fp t) x (bareText fp t x) := fun x hx => write_val fp t hw x _ (h.1 x hx) (fresh_dflt fp t)
    have hf : ∀ b a, writeInline fp t none b a = (writeId b none ++ bareText fp t a, false) := fun b a => inline_flag fp t hw a none b
    refine ⟨v, [], writeElems (fun b x => writeInline fp t none b x) true v ++ [']'], rfl, .nil, rfl, ?_⟩
    cases ht : t.isArr
    · exact elems_items (P := fun y z => ValText fp t (dflt fp t) y z) hf v hx
    · exact elems_nested (P := fun y z => ValText fp t (dflt fp t) y z) hf v hx (h.2 ht)
  | .obj fs, hw, v, old, h, ho => by
    refine ⟨[' '], (writeFields fp fs true v).1 ++ [' ', '}'], .ws (Or.inl (Or.inl rfl)) .nil, rfl, ?_⟩
    exact pairs_map id (fun k v v' x h => h.2) (write_fields fp fs hw.2 hw.1 v old h ho)

theorem write_fields (fp : FP D) : ∀ (fs : Fields), fs.Wf → fs.keys ≠ [] → ∀ (v old : fs.Val D), GoodF fp fs v → FreshF fs old →
    Pairs (Own fp fs InlineStop) old v ((writeFields fp fs true v).1 ++ [' ', '}'])
  | .nil, _, h, _, _, _, _ => absurd rfl h
  | .cons k t .nil, hw, _, v, old, h, ho => by
    have h1 := write_val fp t hw.2.2.1 v.1 old.1 h.1 ho.1
    have e : (writeFields fp (.cons k t .nil) true v).1 ++ [' ', '}'] = k ++ ([' '] ++ '=' :: ([' '] ++ (bareText fp t v.1 ++ ([' '] ++ ['}'])))) := by
      simp only [writeFields, inline_flag fp t hw.2.2.1]
      simp [writeId]
    rw [e]
    exact .last (.bare hw.1) blanks_sp blanks_sp (own_head (fs := .nil) v.2 h1) blanks_sp
  | .cons k t (.cons k2 t2 fs), hw, _, v, old, h, ho => by
    have h1 := write_val fp t hw.2.2.1 v.1 old.1 h.1 ho.1
    have h2 := write_fields fp (.cons k2 t2 fs) hw.2.2.2 (by simp [Fields.keys]) v.2 old.2 h.2 ho.2
    have e : (writeFields fp (.cons k t (.cons k2 t2 fs)) true v).1 ++ [' ', '}'] =
        k ++ ([' '] ++ '=' :: ([' '] ++ (bareText fp t v.1 ++ ([] ++ ',' :: ([' '] ++ ((writeFields fp (.cons k2 t2 fs) true v.2).1 ++ [' ', '}'])))))) := by
      rw [writeFields]
      dsimp only
      rw [inline_flag fp t hw.2.2.1]
      dsimp only
      rw [fields_comma fp (.cons k2 t2 fs) hw.2.2.2 (by simp [Fields.keys])]
      simp [writeId]
    rw [e]
    exact .cons (.bare hw.1) blanks_sp blanks_sp (own_head (fs := .cons k2 t2 fs) old.2 h1) blanks_nil blanks_sp
      (pairs_map (fun o : Fields.Val D (.cons k2 t2 fs) => ((v.1, o) : Fields.Val D (.cons k t (.cons k2 t2 fs)))) (own_tail hw.2.1 v.1) h2)
end

/-- The fields that have lines of their own from `v`, the objects from `old`. -/
def merge : (fs : Fields) → fs.Val D → fs.Val D → fs.Val D
  | .nil, _, old => old
  | .cons _ t fs, v, old => (if t.isObj then old.1 else v.1, merge fs v.2 old.2)

theorem write_lines (fp : FP D) : ∀ (fs : Fields), fs.Wf → ∀ (v old : fs.Val D), GoodF fp fs v → FreshF fs old →
    Body (Own fp fs NL) false old (merge fs v old) (writePairs fp fs v ++ ['\n'])
  | .nil, _, _, _, _, _ => .gap (.ws (Or.inr (Or.inl rfl)) .nil)
  | .cons k t fs, hw, v, old, h, ho => by
    have h2 := write_lines fp fs hw.2.2.2 v.2 old.2 h.2 ho.2
    rw [writePairs, merge]
    cases ht : t.isObj
    · have h1 := write_val fp t hw.2.2.1 v.1 old.1 h.1 ho.1
      have e : (if false = true then [] else k ++ ' ' :: '=' :: ' ' :: ((writeInline fp t none true v.1).1 ++ ['\n'])) ++ writePairs fp fs v.2 ++ ['\n'] =
          [] ++ (k ++ ([' '] ++ '=' :: ([' '] ++ (bareText fp t v.1 ++ ([] ++ '\n' :: (writePairs fp fs v.2 ++ ['\n'])))))) := by
        simp [bareText]
      rw [e, if_neg (by decide)]
      refine .line .nil (.bare hw.1) blanks_sp blanks_sp (own_head (fs := fs) old.2 h1) (fun c hc => by cases hc) (fun _ hc => (List.not_mem_nil hc).elim) (Or.inl rfl) ?_
      exact body_map (fun o : fs.Val D => ((v.1, o) : Fields.Val D (.cons k t fs))) (own_tail hw.2.1 v.1) h2
    · rw [if_pos rfl, if_pos rfl, List.nil_append]
      exact body_map (fun o : fs.Val D => ((old.1, o) : Fields.Val D (.cons k t fs))) (own_tail hw.2.1 old.1) h2

/-- The names of a path with dots between them. -/
def dotted : List Key → List Char
  | [] => []
  | k :: ks => '.' :: (k ++ dotted ks)

def pathText : List Key → List Char
  | [] => []
  | k :: ks => k ++ dotted ks

theorem dotted_dots : ∀ ks : List Key, (∀ k ∈ ks, BareKey k) → Dots ks (dotted ks)
  | [], _ => .nil
  | k :: ks, h => .cons (.bare (h k (List.mem_cons_self ..))) (dotted_dots ks fun k hk => h k (List.mem_cons_of_mem _ hk))

theorem dotted_append (ks : List Key) (k : Key) : dotted (ks ++ [k]) = dotted ks ++ '.' :: k := by
  induction ks with
  | nil => simp [dotted]
  | cons a ks ih => simp [dotted, ih]

theorem joinId_path {p : List Key} (hp : ∀ k ∈ p, BareKey k) (k : Key) : joinId (pathText p) k = pathText (p ++ [k]) := by
  cases p with
  | nil => simp [joinId, pathText, dotted]
  | cons a p =>
    have : a ≠ [] := (hp a (List.mem_cons_self ..)).1
    rw [joinId, if_neg (by simp [pathText, this]), List.cons_append, pathText, pathText, dotted_append, List.append_assoc]

mutual
/-- The sections of the fields `fs` of the object at `p`; `E` puts their values into the whole object. -/
theorem write_tables (fp : FP D) (root : Fields) : ∀ (fs : Fields), fs.Wf → ∀ (p : List Key), (∀ k ∈ p, BareKey k) → ∀ (E : fs.Val D → root.Val D),
    (∀ k ks o n x, k ∈ fs.keys → AtField fp false false fs k ks o n x → AtTy fp false false (.obj root) (p ++ k :: ks) (E o) (E n) x) →
    ∀ (v old : fs.Val D), GoodF fp fs v → FreshF fs old → ∀ (w : root.Val D) (s : List Char), Sections fp root (E v) w s →
    Sections fp root (E (merge fs v old)) w (writeTables fp fs (pathText p) v ++ s)
  | .nil, _, _, _, _, _, _, _, _, _, _, _, hs => hs
  | .cons k t fs, hw, p, hp, E, hE, v, old, h, ho, w, s, hs => by
    have hp' : ∀ k' ∈ p ++ [k], BareKey k' := by
      intro k' hk'
      rcases List.mem_append.1 hk' with hk' | hk'
      · exact hp k' hk'
      · rw [List.mem_singleton.1 hk']; exact hw.1
    rw [writeTables, joinId_path hp, List.append_assoc]
    have h2 := write_tables fp root fs hw.2.2.2 p hp (fun o => E (v.1, o))
      (fun k' ks o n x hk' hat => hE k' ks (v.1, o) (v.1, n) x (List.mem_cons_of_mem _ hk') (Or.inr ⟨fun e => hw.2.1 (e ▸ hk'), rfl, hat⟩)) v.2 old.2 h.2 ho.2 w s hs
    refine write_section fp root t hw.2.2.1 (p ++ [k]) hp' (by simp) (fun o => E (o, merge fs v.2 old.2)) ?_ v.1 old.1 h.1 ho.1 w _ h2
    intro ks o n x hat
    have := hE k ks (o, merge fs v.2 old.2) (n, merge fs v.2 old.2) x (List.mem_cons_self ..) (Or.inl ⟨rfl, hat, rfl⟩)
    rw [List.append_assoc]
    exact this

theorem write_section (fp : FP D) (root : Fields) : ∀ (t : Ty), t.Wf → ∀ (p : List Key), (∀ k ∈ p, BareKey k) → p ≠ [] → ∀ (E : t.Val D → root.Val D),
    (∀ ks o n x, AtTy fp false false t ks o n x → AtTy fp false false (.obj root) (p ++ ks) (E o) (E n) x) →
    ∀ (v old : t.Val D), Good fp t v → Fresh t old → ∀ (w : root.Val D) (s : List Char), Sections fp root (E v) w s →
    Sections fp root (E (if t.isObj then old else v)) w (writeSection fp t (pathText p) v ++ s)
  | .str, _, _, _, _, _, _, _, _, _, _, _, _, hs => hs
  | .int, _, _, _, _, _, _, _, _, _, _, _, _, hs => hs
  | .dbl, _, _, _, _, _, _, _, _, _, _, _, _, hs => hs
  | .bool, _, _, _, _, _, _, _, _, _, _, _, _, hs => hs
  | .arr _, _, _, _, _, _, _, _, _, _, _, _, _, hs => hs
  | .obj gs, hw, p, hp, hne, E, hE, v, old, h, ho, w, s, hs => by
    have h1 := write_tables fp root gs hw.2 p hp E (fun k ks o n x _ hat => hE (k :: ks) o n x hat) v old h ho w s hs
    have h2 := body_gap (g := ['\n']) (.ws (Or.inr (Or.inl rfl)) .nil) (write_lines fp gs hw.2 v old h ho)
    have h3 := hE [] old (merge gs v old) _ ⟨rfl, body_map id (fun k v v' x h => h.2) h2⟩
    rw [List.append_nil] at h3
    cases p with
    | nil => exact absurd rfl hne
    | cons k ks =>
      have := Sections.cons (.bare (hp k (List.mem_cons_self ..))) (dotted_dots ks fun k hk => hp k (List.mem_cons_of_mem _ hk)) h3 h1
      have e : writeSection fp (.obj gs) (pathText (k :: ks)) v ++ s =
          opening false ++ (k ++ (dotted ks ++ (closing false ++ ((['\n'] ++ (writePairs fp gs v ++ ['\n'])) ++ (writeTables fp gs (pathText (k :: ks)) v ++ s))))) := by
        simp [writeSection, pathText, opening, closing]
      rw [e]
      exact this
end

theorem write_document (fp : FP D) (fs : Fields) (hw : fs.Wf) (v old : fs.Val D) (h : GoodF fp fs v) (ho : FreshF fs old) : Document fp fs old v (writeTOML fp fs v) := by
  have h1 := body_map id (fun k v v' x h => h.2) (write_lines fp fs hw v old h ho)
  have h2 := write_tables fp fs fs hw [] (fun _ hk => (List.not_mem_nil hk).elim) id (fun k ks o n x _ hat => hat) v old h ho v [] .nil
  have e : writeTOML fp fs v = (writePairs fp fs v ++ ['\n']) ++ (writeTables fp fs (pathText []) v ++ []) := by
    simp [writeTOML, pathText]
  rw [e]
  exact .sections h1 h2

theorem write_read (fp : FP D) (fs : Fields) (hw : fs.Wf) (v old : fs.Val D) (h : GoodF fp fs v) (ho : FreshF fs old) : parseTOML fp fs old (writeTOML fp fs v) = .ok (v, []) :=
  document_ok (write_document fp fs hw v old h ho)

end Verif.Toml
