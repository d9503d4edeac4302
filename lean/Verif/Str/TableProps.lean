import Verif.Str.Table

/-!
# String tables (C71)
-/

namespace Verif.StrTable

/-! ## Specification -/

/-- How a table is made. -/
inductive Expr where
  | build (ss : List (List Nat))
  | stream (bs : List Nat)
  | append (e : Expr) (s : List Nat)
  | concat (e f : Expr)

/-- The strings of a sequence of terminated strings, the last of which is cut off to be terminated. -/
def pieces : List Nat → List (List Nat)
  | [] => []
  | [_] => [[]]
  | c :: d :: l => if c = 0 then [] :: pieces (d :: l) else match pieces (d :: l) with
    | [] => []
    | x :: xs => (c :: x) :: xs

/-- The strings the table should hold. -/
def Expr.strings : Expr → List (List Nat)
  | .build ss => ss
  | .stream bs => pieces bs
  | .append e s => e.strings ++ [s]
  | .concat e f => e.strings ++ f.strings

/-- Strings hold no terminator; a stream does not begin with an empty string; strings are appended to nonempty tables. -/
def Expr.Legal : Expr → Prop
  | .build ss => ∀ s ∈ ss, 0 ∉ s
  | .stream bs => ∃ c d l, bs = c :: d :: l ∧ c ≠ 0
  | .append e s => e.Legal ∧ 0 ∉ s ∧ e.strings ≠ []
  | .concat e f => e.Legal ∧ f.Legal

/-- The table the code makes. -/
def Expr.run : Expr → Option Table
  | .build ss => construct ss
  | .stream bs => ofStream bs
  | .append e s => e.run.bind fun t => t.appendString s
  | .concat e f => e.run.bind fun t => f.run.bind fun u => t.append u

/-! ## Proof -/

/-- The strings one after the other. -/
def flat (ss : List (List Nat)) : List Nat := (ss.map (· ++ [0])).flatten

/-- Where they begin. -/
def offs : Nat → List (List Nat) → List Nat
  | _, [] => []
  | p, s :: ss => p :: offs (p + (s.length + 1)) ss

theorem flat_cons (s : List Nat) (ss : List (List Nat)) : flat (s :: ss) = s ++ [0] ++ flat ss := by simp [flat]

theorem flat_append (a b : List (List Nat)) : flat (a ++ b) = flat a ++ flat b := by simp [flat]

theorem offs_length (p : Nat) (ss : List (List Nat)) : (offs p ss).length = ss.length := by
  induction ss generalizing p with
  | nil => rfl
  | cons s ss ih => simp [offs, ih]

theorem offs_append (p : Nat) (a b : List (List Nat)) : offs p (a ++ b) = offs p a ++ offs (p + (flat a).length) b := by
  induction a generalizing p with
  | nil => simp [offs, flat]
  | cons s a ih =>
    rw [List.cons_append, offs, offs, ih, flat_cons, List.cons_append]
    simp only [List.length_append, List.length_singleton, Nat.add_assoc]

theorem offs_add (p q : Nat) (ss : List (List Nat)) : (offs p ss).map (· + q) = offs (p + q) ss := by
  induction ss generalizing p with
  | nil => rfl
  | cons s ss ih => simp only [offs, List.map_cons, ih]; congr 2; omega

theorem cstr_append {s : List Nat} (h : 0 ∉ s) (l : List Nat) : cstr (s ++ 0 :: l) = some s := by
  induction s with
  | nil => rfl
  | cons c s ih =>
    rw [List.cons_append, cstr, if_neg (fun (e : c = 0) => h (e ▸ List.mem_cons_self)), ih (fun hm => h (List.mem_cons_of_mem _ hm))]
    rfl

/-- The table holds exactly these strings. -/
def Rep (t : Table) (ss : List (List Nat)) : Prop := t = ⟨flat ss, offs 0 ss⟩ ∧ ∀ s ∈ ss, 0 ∉ s

theorem offs_get {ss : List (List Nat)} {p i : Nat} {s : List Nat} (h : ss[i]? = some s) : (offs p ss)[i]? = some (p + (flat (ss.take i)).length) ∧
    (flat ss).drop (flat (ss.take i)).length = s ++ 0 :: flat (ss.drop (i + 1)) := by
  induction ss generalizing p i with
  | nil => simp at h
  | cons x ss ih =>
    cases i with
    | zero =>
      simp only [List.getElem?_cons_zero, Option.some.injEq] at h
      subst h
      simp [offs, flat]
    | succ i =>
      rw [List.getElem?_cons_succ] at h
      obtain ⟨h1, h2⟩ := ih (p := p + (x.length + 1)) h
      rw [offs, List.getElem?_cons_succ, h1, List.take_succ_cons, flat_cons, flat_cons]
      simp only [List.length_append, List.length_singleton, List.drop_succ_cons]
      refine ⟨by congr 1; omega, ?_⟩
      rw [← List.drop_drop, show x.length + 1 = (x ++ [0]).length by simp, List.drop_left, h2]

theorem Rep.getString {t : Table} {ss : List (List Nat)} (h : Rep t ss) {i : Nat} {s : List Nat} (hi : ss[i]? = some s) : t.getString i = some s := by
  obtain ⟨rfl, hz⟩ := h
  obtain ⟨h1, h2⟩ := offs_get (p := 0) hi
  rw [Table.getString]
  simp only [rd, h1, Option.bind_some, Nat.zero_add, h2]
  exact cstr_append (hz s (List.mem_of_getElem? hi)) _

theorem wr_len {α : Type} (a : List α) (x y : α) (b : List α) : wr (a ++ x :: b) a.length y = some (a ++ y :: b) := by
  rw [wr_of_lt (by simp), List.set_append_right _ _ (Nat.le_refl _)]
  simp

theorem lengths_spec (ss : List (List Nat)) : ∀ (pre junk : List Nat) (sz : Nat), junk.length = ss.length →
    lengths ss pre.length (pre ++ junk) sz = some (pre ++ ss.map (·.length + 1), sz + (flat ss).length) := by
  induction ss with
  | nil => intro pre junk sz h; simp [List.length_eq_zero_iff.1 h, lengths, flat]
  | cons s ss ih =>
    intro pre junk sz h
    cases junk with
    | nil => simp at h
    | cons j junk =>
      rw [lengths, wr_len, Option.bind_some]
      have := ih (pre ++ [s.length + 1]) junk (sz + (s.length + 1)) (by simpa using h)
      simp only [List.length_append, List.length_singleton, List.append_assoc, List.singleton_append] at this
      rw [this, flat_cons]
      simp only [List.map_cons, List.length_append, List.length_singleton, Nat.add_assoc]

theorem copyAt_eq {pre junk src : List Nat} (h : src.length ≤ junk.length) : copyAt (pre ++ junk) pre.length src = some (pre ++ src ++ junk.drop src.length) := by
  rw [copyAt, if_pos (by simpa using h), List.take_left, ← List.drop_drop, List.drop_left]

theorem copies_spec (ss : List (List Nat)) : ∀ (done : List (List Nat)) (junk : List Nat), junk.length = (flat ss).length →
    copies ss done.length (flat done).length ⟨flat done ++ junk, offs 0 done ++ ss.map (·.length + 1)⟩ = some ⟨flat (done ++ ss), offs 0 (done ++ ss)⟩ := by
  induction ss with
  | nil => intro done junk h; have : junk = [] := List.length_eq_zero_iff.1 h; simp [copies, this]
  | cons s ss ih =>
    intro done junk h
    rw [flat_cons] at h
    simp only [List.length_append, List.length_singleton] at h
    have hlen := offs_length 0 done
    rw [copies]
    simp only [List.map_cons]
    have hr : rd (offs 0 done ++ (s.length + 1) :: ss.map (·.length + 1)) done.length = some (s.length + 1) := by
      rw [← hlen, rd, List.getElem?_append_right (Nat.le_refl _)]
      simp
    have hw : wr (offs 0 done ++ (s.length + 1) :: ss.map (·.length + 1)) done.length (flat done).length =
        some (offs 0 done ++ (flat done).length :: ss.map (·.length + 1)) := by rw [← hlen]; exact wr_len _ _ _ _
    rw [hr, Option.bind_some, hw, Option.bind_some, List.take_of_length_le (by simp), copyAt_eq (by simp; omega), Option.bind_some]
    have e := ih (done ++ [s]) (junk.drop (s ++ [0]).length) (by rw [List.length_drop, h]; simp)
    rw [List.length_append, List.length_singleton, flat_append, offs_append, List.append_assoc done] at e
    simp only [Nat.zero_add, offs, List.append_assoc, List.singleton_append, List.length_append, flat_cons] at e
    simp only [flat, List.map_nil, List.flatten_nil, List.append_nil, List.length_append, List.length_singleton, List.append_assoc] at e ⊢
    exact e

theorem construct_rep {ss : List (List Nat)} (h : ∀ s ∈ ss, 0 ∉ s) : ∃ t, construct ss = some t ∧ Rep t ss := by
  rw [construct]
  by_cases h0 : ss.length = 0
  · rw [if_pos h0]
    have := List.length_eq_zero_iff.1 h0
    subst this
    exact ⟨_, rfl, rfl, h⟩
  · rw [if_neg h0]
    have e := lengths_spec ss [] (setCapacity [] ss.length) 0 (by simp [setCapacity])
    simp only [List.length_nil, List.nil_append, Nat.zero_add] at e
    rw [e, Option.bind_some]
    have e2 := copies_spec ss [] (setCapacity [] (flat ss).length) (by simp [setCapacity])
    simp only [flat, List.map_nil, List.flatten_nil, List.length_nil, List.nil_append, offs] at e2
    exact ⟨_, e2, rfl, h⟩

theorem append_string_rep {t : Table} {ss : List (List Nat)} (h : Rep t ss) (hne : ss ≠ []) {s : List Nat} (hs : 0 ∉ s) : ∃ u, t.appendString s = some u ∧ Rep u (ss ++ [s]) := by
  have hg := h
  obtain ⟨rfl, hz⟩ := h
  have hlen := offs_length 0 ss
  have hpos := List.length_pos_iff.2 hne
  have hlast : ss[ss.length - 1]? = some (ss[ss.length - 1]'(by omega)) := List.getElem?_eq_getElem _
  generalize (ss[ss.length - 1]'(by omega)) = x at hlast
  obtain ⟨h1, h2⟩ := offs_get (p := 0) hlast
  rw [Nat.zero_add] at h1
  have h3 : (flat (ss.take (ss.length - 1))).length + (x.length + 1) = (flat ss).length := by
    have := congrArg List.length h2
    rw [List.length_drop, show ss.length - 1 + 1 = ss.length by omega, List.drop_length] at this
    simp only [flat, List.map_nil, List.flatten_nil, List.length_append, List.length_cons, List.length_nil] at this ⊢
    omega
  rw [Table.appendString]
  simp only
  rw [if_neg (by omega), hlen, rd, h1, Option.bind_some, h2, cstr_append (hz x (List.mem_of_getElem? hlast)), Option.bind_some]
  have hsc : ∀ (a : List Nat) (n : Nat), setCapacity a (a.length + n) = a ++ List.replicate n 7 := by
    intro a n
    rw [setCapacity, List.take_of_length_le (by omega)]
    congr 2
    omega
  rw [← hlen, hsc, hsc]
  have hw := wr_len (offs 0 ss) 7 (x.length + 1 + (flat (ss.take ((offs 0 ss).length - 1))).length) []
  have hl1 : (offs 0 ss ++ [(7 : Nat)]).length - 1 = (offs 0 ss).length := by simp
  rw [show List.replicate 1 7 = [7] from rfl, hl1, hw, Option.bind_some,
    copyAt_eq (by simp), Option.map_some]
  refine ⟨_, rfl, ?_, ?_⟩
  · rw [flat_append, offs_append, show x.length + 1 + (flat (ss.take ((offs 0 ss).length - 1))).length = (flat ss).length by rw [hlen]; omega]
    simp [offs, flat]
  · intro y hy
    rcases List.mem_append.1 hy with h | h
    · exact hz y h
    · rw [List.mem_singleton.1 h]; exact hs

theorem shift_spec (add : Nat) (b : List Nat) : ∀ a : List Nat, shift add b.length a.length (a ++ b) = some (a ++ b.map (· + add)) := by
  induction b with
  | nil => intro a; simp [shift]
  | cons x b ih =>
    intro a
    have hr : rd (a ++ x :: b) a.length = some x := by rw [rd, List.getElem?_append_right (Nat.le_refl _)]; simp
    rw [List.length_cons, shift, hr, Option.bind_some, wr_len, Option.bind_some]
    have := ih (a ++ [x + add])
    simpa using this

theorem append_rep {t u : Table} {ss us : List (List Nat)} (h : Rep t ss) (h' : Rep u us) : ∃ v, t.append u = some v ∧ Rep v (ss ++ us) := by
  obtain ⟨rfl, hz⟩ := h
  obtain ⟨rfl, hz'⟩ := h'
  rw [Table.append]
  simp only
  rw [shift_spec, Option.map_some]
  refine ⟨_, rfl, ?_, ?_⟩
  · rw [flat_append, offs_append, offs_add]
  · intro y hy
    rcases List.mem_append.1 hy with h | h
    · exact hz y h
    · exact hz' y h

/-- The stream with its last character made a terminator is its pieces one after the other. -/
theorem flat_pieces : ∀ bs : List Nat, bs ≠ [] → flat (pieces bs) = bs.set (bs.length - 1) 0 ∧ pieces bs ≠ [] ∧ ∀ s ∈ pieces bs, 0 ∉ s
  | [], h => absurd rfl h
  | [_], _ => by simp [pieces, flat]
  | c :: d :: l, _ => by
    obtain ⟨h1, h2, h3⟩ := flat_pieces (d :: l) (by simp)
    rw [pieces]
    have hset : (c :: d :: l).set ((c :: d :: l).length - 1) 0 = c :: (d :: l).set ((d :: l).length - 1) 0 := by simp
    by_cases hc : c = 0
    · rw [if_pos hc, flat_cons, h1, hset, hc]
      refine ⟨rfl, by simp, fun s hs => ?_⟩
      rcases List.mem_cons.1 hs with rfl | h
      · simp
      · exact h3 s h
    · rw [if_neg hc]
      cases hp : pieces (d :: l) with
      | nil => exact absurd hp h2
      | cons x xs =>
        rw [hp] at h1 h3
        simp only
        rw [flat_cons] at h1 ⊢
        rw [hset, ← h1]
        refine ⟨rfl, by simp, fun s hs => ?_⟩
        rcases List.mem_cons.1 hs with rfl | h
        · intro hm
          rcases List.mem_cons.1 hm with e | h
          · exact hc e.symm
          · exact h3 x List.mem_cons_self h
        · exact h3 s (List.mem_cons_of_mem _ h)

theorem scan_word : ∀ (s l : List Nat) (a : List Nat) (v : Nat) (b : List Nat), 0 ∉ s → scan (s ++ l) a.length (a ++ v :: b) = scan l a.length (a ++ (v + s.length) :: b) := by
  intro s
  induction s with
  | nil => intro l a v b _; rfl
  | cons c s ih =>
    intro l a v b h
    have hr : rd (a ++ v :: b) a.length = some v := by rw [rd, List.getElem?_append_right (Nat.le_refl _)]; simp
    rw [List.cons_append, scan, if_pos (by simp), hr, Option.bind_some, wr_len, Option.bind_some, if_neg (fun (e : c = 0) => h (e ▸ List.mem_cons_self)),
      ih l a (v + 1) b (fun hm => h (List.mem_cons_of_mem _ hm)), List.length_cons, show v + 1 + s.length = v + (s.length + 1) by omega]

theorem scan_spec : ∀ (ss : List (List Nat)) (s a rest : List Nat) (v : Nat), rest.length = ss.length → (∀ x ∈ s :: ss, 0 ∉ x) → (∀ x : Nat, rest.head? = some x → x = v) →
    scan (flat (s :: ss)) a.length (a ++ rest) = some (a ++ offs (v + (s.length + 1)) ss) := by
  intro ss
  induction ss with
  | nil =>
    intro s a rest v hl hz hv
    have : rest = [] := List.length_eq_zero_iff.1 hl
    subst this
    rw [List.append_nil, offs, List.append_nil, flat_cons]
    cases s with
    | nil => rw [List.nil_append, List.singleton_append, scan, if_neg (Nat.lt_irrefl _)]
    | cons c s => rw [List.cons_append, List.cons_append, scan, if_neg (Nat.lt_irrefl _)]
  | cons s2 ss ih =>
    intro s a rest v hl hz hv
    cases rest with
    | nil => simp at hl
    | cons w rest =>
      have := hv w rfl
      subst this
      have hr : rd (a ++ (w + s.length) :: rest) a.length = some (w + s.length) := by rw [rd, List.getElem?_append_right (Nat.le_refl _)]; simp
      have hr2 : rd (a ++ (w + s.length + 1) :: rest) a.length = some (w + s.length + 1) := by rw [rd, List.getElem?_append_right (Nat.le_refl _)]; simp
      rw [flat_cons, List.append_assoc, scan_word _ _ _ _ _ (hz s List.mem_cons_self), List.singleton_append, scan, if_pos (by simp), hr, Option.bind_some, wr_len,
        Option.bind_some, if_pos rfl]
      have hz' : ∀ x ∈ s2 :: ss, 0 ∉ x := fun x hx => hz x (List.mem_cons_of_mem _ hx)
      cases rest with
      | nil =>
        rw [if_neg (by simp)]
        have e := ih s2 (a ++ [w + s.length + 1]) [] (w + s.length + 1) (by simp only [List.length_cons, List.length_nil] at hl ⊢; omega) hz' (by simp)
        simp only [List.length_append, List.length_singleton, List.append_nil, List.append_assoc, List.singleton_append] at e
        rw [e]
        simp only [offs, Nat.add_assoc]
      | cons w2 rest =>
        rw [if_pos (by simp), hr2, Option.bind_some]
        have hw := wr_len (a ++ [w + s.length + 1]) w2 (w + s.length + 1) rest
        simp only [List.length_append, List.length_singleton, List.append_assoc, List.singleton_append] at hw
        rw [hw, Option.bind_some]
        have e := ih s2 (a ++ [w + s.length + 1]) ((w + s.length + 1) :: rest) (w + s.length + 1) (by simpa using hl) hz' (by simp)
        simp only [List.length_append, List.length_singleton, List.append_assoc, List.singleton_append] at e
        rw [e]
        simp only [offs, Nat.add_assoc]

theorem count_flat {ss : List (List Nat)} (h : ∀ s ∈ ss, 0 ∉ s) : (flat ss).count 0 = ss.length := by
  induction ss with
  | nil => rfl
  | cons s ss ih =>
    rw [flat_cons, List.count_append, List.count_append, ih fun s hs => h s (List.mem_cons_of_mem _ hs), List.count_eq_zero.2 (h s List.mem_cons_self)]
    simp [Nat.add_comm]

theorem of_stream_rep {c d : Nat} {l : List Nat} (hc : c ≠ 0) : ∃ t, ofStream (c :: d :: l) = some t ∧ Rep t (pieces (c :: d :: l)) := by
  obtain ⟨h1, h2, h3⟩ := flat_pieces (c :: d :: l) (by simp)
  rw [ofStream, if_neg (by simp), wr_of_lt (by simp), Option.bind_some, ← h1]
  have hcount : strccount (flat (pieces (c :: d :: l))) 0 = (pieces (c :: d :: l)).length := by
    rw [strccount, if_neg, count_flat h3]
    rw [h1]
    simpa using hc
  rw [hcount]
  cases hp : pieces (c :: d :: l) with
  | nil => exact absurd hp h2
  | cons s ss =>
    rw [hp] at h3
    have e := scan_spec ss s [0] (List.replicate ss.length 0) 0 (by simp) h3 (by
      intro x hx
      cases ss with
      | nil => simp at hx
      | cons y ys => simp [List.replicate_succ] at hx; exact hx.symm)
    rw [List.length_cons, List.replicate_succ]
    simp only [List.length_singleton, List.singleton_append] at e
    rw [e, Option.map_some]
    exact ⟨_, rfl, rfl, h3⟩

theorem run_rep : ∀ e : Expr, e.Legal → ∃ t, e.run = some t ∧ Rep t e.strings
  | .build ss, h => construct_rep h
  | .stream bs, h => by
    obtain ⟨c, d, l, rfl, hc⟩ := h
    exact of_stream_rep hc
  | .append e s, h => by
    obtain ⟨h1, h2, h3⟩ := h
    obtain ⟨t, ht, hr⟩ := run_rep e h1
    obtain ⟨u, hu, hru⟩ := append_string_rep hr h3 h2
    exact ⟨u, by rw [Expr.run, ht, Option.bind_some, hu], hru⟩
  | .concat e f, h => by
    obtain ⟨t, ht, hr⟩ := run_rep e h.1
    obtain ⟨u, hu, hru⟩ := run_rep f h.2
    obtain ⟨v, hv, hrv⟩ := append_rep hr hru
    exact ⟨v, by rw [Expr.run, ht, Option.bind_some, hu, Option.bind_some, hv], hrv⟩

/-- **C71**: a table built from a list of strings, read from a stream of terminated strings, or made by appending strings and tables, holds exactly the strings in order:
`Length` is their number, and `GetString(i)` is the `i`-th. In particular, appending changes no earlier string. -/
theorem C71_table (e : Expr) (h : e.Legal) : ∃ t, e.run = some t ∧ t.indices.length = e.strings.length ∧ ∀ i s, e.strings[i]? = some s → t.getString i = some s := by
  obtain ⟨t, ht, hr⟩ := run_rep e h
  refine ⟨t, ht, ?_, fun i s hi => hr.getString hi⟩
  rw [hr.1, offs_length]

/-- Two strings, one of them empty, then a string appended, and a stream of two strings. -/
example : (Expr.concat (.append (.build [[5, 6], []]) [7]) (.stream [1, 0, 2, 3])).Legal ∧
    (Expr.concat (.append (.build [[5, 6], []]) [7]) (.stream [1, 0, 2, 3])).strings = [[5, 6], [], [7], [1], [2]] ∧
    (Expr.concat (.append (.build [[5, 6], []]) [7]) (.stream [1, 0, 2, 3])).run = some ⟨[5, 6, 0, 0, 7, 0, 1, 0, 2, 0], [0, 3, 4, 6, 8]⟩ := by
  refine ⟨⟨⟨by simp [Expr.Legal], by decide, by simp [Expr.strings]⟩, 1, 0, [2, 3], rfl, by decide⟩, by decide, by decide⟩

/-- A string cannot be appended to an empty table: the code reads an index before the beginning of the array. -/
theorem C71_empty_counterexample : (Expr.append (.build []) [7]).run = none := by decide

/-- A stream that begins with an empty string gives a table of length 0. -/
theorem C71_stream_counterexample : (Expr.stream [0, 1, 0]).run = some ⟨[0, 1, 0], []⟩ := by decide

end Verif.StrTable
