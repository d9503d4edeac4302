import Verif.Xml.Props

/-!
# Editing and looking up nodes (C91), numbers (C92)
-/

namespace Verif.Xml

open Verif.Json (isSpace isDigit AllWs hexDigits decVal cstr cstr_eq hexNum decNum hexVal splitSign dropHexPrefix hex_facts digit_facts decNum_foldl nil_ws digits digits_spec decimal)

/-! ## Children -/

/-- A child: its identity (address), name, and the list links `next` and `prev`, `LLBase.h:13-18`. -/
structure Kid where
  id : Nat
  name : List Char
  next : Option Nat := none
  prev : Option Nat := none
  deriving DecidableEq, Repr

/-- `_nodes` and `_nodehash`, `XML.h:109-110`. The hash table is a function from names to indices (C01). `fresh` is the next unused address. -/
structure Kids where
  list : List Kid := []
  hash : List Char → Option Nat := fun _ => none
  fresh : Nat := 0

/-- Assigns to the `prev` of the node at an address. -/
def setPrev (l : List Kid) (id : Nat) (p : Option Nat) : List Kid := l.map fun k => if k.id = id then { k with prev := p } else k

/-- Assigns to the `next` of the node at an address, if it is not null. -/
def setNext (l : List Kid) (id : Option Nat) (p : Option Nat) : List Kid := l.map fun k => if some k.id = id then { k with next := p } else k

/-- Assigns to an entry of the hash table. -/
def setHash (h : List Char → Option Nat) (n : List Char) (v : Option Nat) : List Char → Option Nat := fun m => if m = n then v else h m

/-- `AddNode(const char*)`, `XML.cpp:98`, `_addNode`, `XML.cpp:145-159`, with `LLInsert`, `LLBase.h:32-39`. An index in the hash table that is out of range is undefined behaviour (`none`). -/
def addNode (s : Kids) (n : List Char) : Option Kids :=
  match s.hash n with
  | none => some { list := s.list ++ [{ id := s.fresh, name := n }], hash := setHash s.hash n (some s.list.length), fresh := s.fresh + 1 }
  | some i =>
    match s.list[i]? with
    | none => none
    | some t =>
      let l := setNext s.list t.prev (some s.fresh)
      let l := setPrev l t.id (some s.fresh)
      some { list := l ++ [{ id := s.fresh, name := n, next := some t.id, prev := t.prev }], hash := setHash s.hash n (some s.list.length), fresh := s.fresh + 1 }

/-- The loop of `RemoveNode`, `XML.cpp:108-116`: the last index of the node at an address, starting from `i`. -/
def findKid (id : Nat) (i : Nat) : List Kid → Option Nat
  | [] => none
  | k :: l => match findKid id (i + 1) l with
    | some j => some j
    | none => if k.id = id then some i else none

/-- `RemoveNode(size_t)`, `XML.cpp:101-123`. -/
def removeNode (s : Kids) (i : Nat) : Kids :=
  match s.list[i]? with
  | none => s
  | some k =>
    match k.next with
    | some nx =>
      let h := match findKid nx 0 s.list, s.hash k.name with
        | some j, some _ => setHash s.hash k.name (some j)
        | _, _ => s.hash
      { s with list := (setPrev s.list nx none).eraseIdx i, hash := h }
    | none => { s with list := s.list.eraseIdx i, hash := setHash s.hash k.name none }

/-- `GetNode(size_t)`, `XML.h:52`. -/
def getNode (s : Kids) (i : Nat) : Option Kid := s.list[i]?

/-- `GetNode(const char*)`, `XML.h:54`; the hash table gives the largest index for an unknown name, `Hash.h:228-237`. -/
def getNodeByName (s : Kids) (n : List Char) : Option Kid :=
  match s.hash n with
  | none => none
  | some i => getNode s i

/-- `RemoveNode(const char*)`, `XML.cpp:124`. -/
def removeByName (s : Kids) (n : List Char) : Kids :=
  match s.hash n with
  | none => s
  | some i => removeNode s i

/-! ## Specification -/

/-- The children of a name, in the order of addition. -/
def named (l : List Kid) (n : List Char) : List Kid := l.filter fun k => decide (k.name = n)

/-- What a client may rely on: `order` are the addresses and names of the children in the order of addition. The name leads to the newest child of the name; from each child,
`next` leads to the next older child of the same name and `prev` to the next newer one. -/
def Represents (s : Kids) (order : List (Nat × List Char)) : Prop :=
  s.list.map (fun k => (k.id, k.name)) = order ∧ (∀ n, getNodeByName s n = (named s.list n).getLast?) ∧
  ∀ n i k, (named s.list n)[i]? = some k → k.prev = ((named s.list n)[i + 1]?).map (·.id) ∧ k.next = if i = 0 then none else ((named s.list n)[i - 1]?).map (·.id)

/-- An operation: add a child, or remove the newest one. -/
inductive Op where
  | add (n : List Char)
  | removeLast
  deriving Repr

/-- A history of operations. `RemoveNode(GetNodes() - 1)` without children does nothing, since the index is the largest one. -/
def run : Kids → List Op → Option Kids
  | s, [] => some s
  | s, .add n :: l => match addNode s n with
    | none => none
    | some s => run s l
  | s, .removeLast :: l => if s.list = [] then run s l else run (removeNode s (s.list.length - 1)) l

/-- What the history means; the second component is the next address. -/
def meaning : List (Nat × List Char) × Nat → List Op → List (Nat × List Char) × Nat
  | p, [] => p
  | (o, f), .add n :: l => meaning (o ++ [(f, n)], f + 1) l
  | (o, f), .removeLast :: l => meaning (o.dropLast, f) l

/-! ## Proofs -/

/-- The invariant. -/
structure Inv (s : Kids) : Prop where
  fresh : ∀ k ∈ s.list, k.id < s.fresh
  nodup : (s.list.map (·.id)).Nodup
  hash : ∀ n, (s.hash n = none ∧ named s.list n = []) ∨ ∃ i k, s.hash n = some i ∧ s.list[i]? = some k ∧ (named s.list n).getLast? = some k
  links : ∀ n i k, (named s.list n)[i]? = some k → k.prev = ((named s.list n)[i + 1]?).map (·.id) ∧ k.next = if i = 0 then none else ((named s.list n)[i - 1]?).map (·.id)

theorem named_mem {l : List Kid} {n : List Char} {k : Kid} : k ∈ named l n ↔ k ∈ l ∧ k.name = n := by simp [named]

theorem named_append (l m : List Kid) (n : List Char) : named (l ++ m) n = named l n ++ named m n := by simp [named]

theorem named_setPrev (l : List Kid) (id : Nat) (p : Option Nat) (n : List Char) : named (setPrev l id p) n = setPrev (named l n) id p := by
  induction l with
  | nil => rfl
  | cons k l ih =>
    have e : setPrev (k :: l) id p = (if k.id = id then { k with prev := p } else k) :: setPrev l id p := rfl
    have hn : (if k.id = id then { k with prev := p } else k).name = k.name := by split <;> rfl
    rw [e, named, List.filter_cons, named, List.filter_cons, hn]
    split
    · rw [← named, ih]; rfl
    · rw [← named, ih]; rfl

theorem setPrev_ids (l : List Kid) (id : Nat) (p : Option Nat) : (setPrev l id p).map (fun k => (k.id, k.name)) = l.map fun k => (k.id, k.name) := by
  rw [setPrev, List.map_map]
  congr 1
  funext k
  simp only [Function.comp]
  split <;> rfl

theorem setPrev_id (l : List Kid) (id : Nat) (p : Option Nat) : (setPrev l id p).map (·.id) = l.map (·.id) := by
  rw [setPrev, List.map_map]
  congr 1
  funext k
  simp only [Function.comp]
  split <;> rfl

theorem setPrev_get (l : List Kid) (id : Nat) (p : Option Nat) (i : Nat) : (setPrev l id p)[i]? = (l[i]?).map fun k => if k.id = id then { k with prev := p } else k := by
  rw [setPrev, List.getElem?_map]

theorem setPrev_getId (l : List Kid) (id : Nat) (p : Option Nat) (i : Nat) : ((setPrev l id p)[i]?).map (·.id) = (l[i]?).map (·.id) := by
  rw [← List.getElem?_map, setPrev_id, List.getElem?_map]

theorem setNext_none (l : List Kid) (p : Option Nat) : setNext l none p = l := by simp [setNext]

theorem named_nodup {l : List Kid} (h : (l.map (·.id)).Nodup) (n : List Char) : ((named l n).map (·.id)).Nodup :=
  List.Nodup.sublist (List.Sublist.map _ List.filter_sublist) h

theorem same_id {l : List Kid} (h : (l.map (·.id)).Nodup) {i j : Nat} {a b : Kid} (ha : l[i]? = some a) (hb : l[j]? = some b) (e : a.id = b.id) : i = j := by
  have h1 : (l.map (·.id))[i]? = some a.id := by rw [List.getElem?_map, ha]; rfl
  have h2 : (l.map (·.id))[j]? = some a.id := by rw [List.getElem?_map, hb, e]; rfl
  obtain ⟨li, hi⟩ := List.getElem?_eq_some_iff.1 h1
  obtain ⟨lj, hj⟩ := List.getElem?_eq_some_iff.1 h2
  exact (List.getElem_inj h).1 (hi.trans hj.symm)

theorem inv_empty : Inv {} := ⟨fun _ hk => (List.not_mem_nil hk).elim, List.nodup_nil, fun _ => .inl ⟨rfl, rfl⟩, fun n i k h => by cases h⟩

theorem getLast_index {l : List Kid} {k : Kid} (h : l.getLast? = some k) : l[l.length - 1]? = some k := by rw [← h, List.getLast?_eq_getElem?]

theorem last_ne {l : List Kid} {k : Kid} (h : l.getLast? = some k) : l ≠ [] := by rintro rfl; cases h

theorem inv_represents {s : Kids} (h : Inv s) : Represents s (s.list.map fun k => (k.id, k.name)) := by
  refine ⟨rfl, fun n => ?_, h.links⟩
  rcases h.hash n with ⟨h1, h2⟩ | ⟨i, k, h1, h2, h3⟩
  · rw [getNodeByName, h1, h2]; rfl
  · rw [getNodeByName, h1, h3]; exact h2

theorem inv_add {s : Kids} (h : Inv s) (n : List Char) : ∃ s', addNode s n = some s' ∧ Inv s' ∧
    s'.list.map (fun k => (k.id, k.name)) = s.list.map (fun k => (k.id, k.name)) ++ [(s.fresh, n)] ∧ s'.fresh = s.fresh + 1 := by
  have hnone : ∀ (k : Kid) (m : List Char), k.name = n → m ≠ n → named [k] m = [] := by
    intro k m hk hm
    rw [named, List.filter_cons, if_neg (by simpa [hk] using fun e => hm e.symm)]; rfl
  have hone : ∀ (k : Kid), k.name = n → named [k] n = [k] := by
    intro k hk
    rw [named, List.filter_cons, if_pos (by simpa using hk)]; rfl
  rcases h.hash n with ⟨h1, h2⟩ | ⟨i, t, h1, h2, h3⟩
  · refine ⟨_, by rw [addNode, h1], ⟨?_, ?_, ?_, ?_⟩, by simp, rfl⟩
    · intro k hk
      rcases List.mem_append.1 hk with hk | hk
      · exact Nat.lt_succ_of_lt (h.fresh k hk)
      · rw [List.mem_singleton.1 hk]; exact Nat.lt_succ_self _
    · dsimp only
      rw [List.map_append, List.nodup_append]
      refine ⟨h.nodup, by simp, ?_⟩
      intro a ha b hb e
      obtain ⟨k, hk, rfl⟩ := List.mem_map.1 ha
      have := h.fresh k hk
      rw [e, List.mem_singleton.1 hb] at this
      exact absurd this (Nat.lt_irrefl _)
    · intro m
      dsimp only
      rw [named_append, setHash]
      by_cases hm : m = n
      · subst hm
        rw [if_pos rfl, h2, hone _ rfl]
        exact .inr ⟨_, _, rfl, by rw [List.getElem?_append_right (Nat.le_refl _), Nat.sub_self]; rfl, rfl⟩
      · rw [if_neg hm, hnone _ _ rfl hm, List.append_nil]
        rcases h.hash m with h | ⟨j, k, a, b, c⟩
        · exact .inl h
        · exact .inr ⟨j, k, a, by rw [List.getElem?_append_left (List.getElem?_eq_some_iff.1 b).1, b], c⟩
    · intro m j k
      dsimp only
      rw [named_append]
      by_cases hm : m = n
      · subst hm
        rw [h2, hone _ rfl, List.nil_append]
        intro hj
        cases j with
        | zero =>
          cases hj
          exact ⟨rfl, rfl⟩
        | succ j => cases hj
      · rw [hnone _ _ rfl hm, List.append_nil]
        exact h.links m j k
  · have ht := h.links n _ t (getLast_index h3)
    have hne := last_ne h3
    have hlen : 0 < (named s.list n).length := List.length_pos_iff.2 hne
    have hprev : t.prev = none := by
      rw [ht.1, List.getElem?_eq_none (by omega)]; rfl
    have htm : t ∈ named s.list n := List.mem_of_getLast? h3
    have htn : t.name = n := (named_mem.1 htm).2
    refine ⟨_, by rw [addNode, h1]; dsimp only; rw [h2], ⟨?_, ?_, ?_, ?_⟩, ?_, rfl⟩
    · dsimp only
      rw [hprev, setNext_none]
      intro k hk
      rcases List.mem_append.1 hk with hk | hk
      · have : k.id ∈ (setPrev s.list t.id (some s.fresh)).map (·.id) := List.mem_map.2 ⟨k, hk, rfl⟩
        rw [setPrev_id] at this
        obtain ⟨k', hk', e⟩ := List.mem_map.1 this
        rw [← e]
        exact Nat.lt_succ_of_lt (h.fresh k' hk')
      · rw [List.mem_singleton.1 hk]; exact Nat.lt_succ_self _
    · dsimp only
      rw [hprev, setNext_none, List.map_append, setPrev_id, List.nodup_append]
      refine ⟨h.nodup, by simp, ?_⟩
      intro a ha b hb e
      obtain ⟨k, hk, rfl⟩ := List.mem_map.1 ha
      have := h.fresh k hk
      rw [e, List.mem_singleton.1 hb] at this
      exact absurd this (Nat.lt_irrefl _)
    · intro m
      dsimp only
      rw [hprev, setNext_none, named_append, setHash, named_setPrev]
      by_cases hm : m = n
      · subst hm
        rw [if_pos rfl, hone _ rfl]
        exact .inr ⟨_, _, rfl, by rw [List.getElem?_append_right (by simp [setPrev])]; simp [setPrev]; rfl, by rw [List.getLast?_append]; rfl⟩
      · rw [if_neg hm, hnone _ _ rfl hm, List.append_nil]
        rcases h.hash m with ⟨a, b⟩ | ⟨j, k, a, b, c⟩
        · exact .inl ⟨a, by rw [b]; rfl⟩
        · have hkt : k.id ≠ t.id := by
            intro e
            have := same_id h.nodup b h2 e
            rw [this, h2] at b
            rw [Option.some.inj b] at htn
            exact hm ((named_mem.1 (List.mem_of_getLast? c)).2.symm.trans htn)
          refine .inr ⟨j, k, a, ?_, ?_⟩
          · rw [List.getElem?_append_left (by rw [setPrev, List.length_map]; exact (List.getElem?_eq_some_iff.1 b).1), setPrev_get, b, Option.map_some, if_neg hkt]
          · rw [setPrev, List.getLast?_map, c, Option.map_some, if_neg hkt]
    · intro m j k
      dsimp only
      rw [hprev, setNext_none, named_append, named_setPrev]
      by_cases hm : m = n
      · subst hm
        rw [hone _ rfl]
        intro hj
        have hl : (setPrev (named s.list m) t.id (some s.fresh)).length = (named s.list m).length := by rw [setPrev, List.length_map]
        by_cases hjl : j < (named s.list m).length
        · rw [List.getElem?_append_left (by omega), setPrev_get] at hj
          obtain ⟨k', hk', rfl⟩ := Option.map_eq_some_iff.1 hj
          have hlk := h.links m j k' hk'
          have hnext : (if k'.id = t.id then { k' with prev := some s.fresh } else k').next = k'.next := by split <;> rfl
          rw [hnext, hlk.2]
          constructor
          · by_cases hlast : j + 1 < (named s.list m).length
            · have hne' : k'.id ≠ t.id := by
                intro e
                have := same_id (named_nodup h.nodup m) hk' (getLast_index h3) e
                omega
              rw [if_neg hne', hlk.1, List.getElem?_append_left (by omega), setPrev_getId]
            · have hjj : j = (named s.list m).length - 1 := by omega
              have : k' = t := by
                have e := getLast_index h3
                rw [← hjj, hk'] at e
                exact Option.some.inj e
              rw [if_pos (by rw [this]), List.getElem?_append_right (by omega), hl]
              have : j + 1 - (named s.list m).length = 0 := by omega
              rw [this]
              rfl
          · split
            · rfl
            · rw [List.getElem?_append_left (by omega), setPrev_getId]
        · rw [List.getElem?_append_right (by omega), hl] at hj
          have h0 : j - (named s.list m).length = 0 := by
            refine Decidable.byContradiction fun hc => ?_
            obtain ⟨d, hd⟩ := Nat.exists_eq_succ_of_ne_zero hc
            rw [hd] at hj
            cases hj
          rw [h0] at hj
          cases hj
          refine ⟨?_, ?_⟩
          · rw [List.getElem?_append_right (by omega), hl]
            have : j + 1 - (named s.list m).length = 1 := by omega
            rw [this]
            rfl
          · have hj : j = (named s.list m).length := by omega
            rw [if_neg (by omega), List.getElem?_append_left (by omega), setPrev_getId, hj, getLast_index h3]
            rfl
      · have hsame : setPrev (named s.list m) t.id (some s.fresh) = named s.list m := by
          rw [setPrev]
          refine (List.map_congr_left fun k hk => ?_).trans (List.map_id _)
          rw [if_neg]
          · rfl
          intro e
          have hk := named_mem.1 hk
          obtain ⟨a, ha⟩ := List.getElem?_of_mem hk.1
          have := same_id h.nodup ha h2 e
          rw [this, h2] at ha
          rw [Option.some.inj ha] at htn
          exact hm (hk.2.symm.trans htn)
        rw [hsame, hnone _ _ rfl hm, List.append_nil]
        exact h.links m j k
    · dsimp only
      rw [hprev, setNext_none, List.map_append, setPrev_ids]
      rfl

theorem findKid_some {id : Nat} {l : List Kid} {i j : Nat} (h : findKid id i l = some j) : i ≤ j ∧ ∃ k, l[j - i]? = some k ∧ k.id = id := by
  induction l generalizing i j with
  | nil => cases h
  | cons a l ih =>
    rw [findKid] at h
    split at h
    · rename_i j' hj'
      obtain ⟨h1, k, h2, h3⟩ := ih hj'
      have e := Option.some.inj h
      subst e
      refine ⟨by omega, k, ?_, h3⟩
      have : j' - i = (j' - (i + 1)) + 1 := by omega
      rw [this]
      exact h2
    · split at h
      · rename_i he
        cases h
        exact ⟨Nat.le_refl _, a, by rw [Nat.sub_self]; rfl, he⟩
      · cases h

theorem findKid_none {id : Nat} {l : List Kid} {i : Nat} (h : findKid id i l = none) : ∀ k ∈ l, k.id ≠ id := by
  induction l generalizing i with
  | nil => intro k hk; cases hk
  | cons a l ih =>
    rw [findKid] at h
    split at h
    · cases h
    · rename_i hn
      split at h
      · cases h
      · rename_i he
        intro k hk
        rcases List.mem_cons.1 hk with rfl | hk
        · exact he
        · exact ih hn k hk

theorem eraseIdx_last (l : List Kid) (k : Kid) : (l ++ [k]).eraseIdx l.length = l := by
  rw [List.eraseIdx_append_of_length_le (Nat.le_refl _), Nat.sub_self]
  simp

theorem inv_remove {s : Kids} (h : Inv s) {l : List Kid} {k : Kid} (hl : s.list = l ++ [k]) : Inv (removeNode s l.length) ∧
    (removeNode s l.length).list.map (fun k => (k.id, k.name)) = l.map (fun k => (k.id, k.name)) ∧ (removeNode s l.length).fresh = s.fresh := by
  have hk : s.list[l.length]? = some k := by rw [hl, List.getElem?_append_right (Nat.le_refl _), Nat.sub_self]; rfl
  have hone : named s.list k.name = named l k.name ++ [k] := by
    rw [hl, named_append]
    congr 1
    rw [named, List.filter_cons, if_pos (by simp)]; rfl
  have hother : ∀ m, m ≠ k.name → named s.list m = named l m := by
    intro m hm
    rw [hl, named_append]
    have : named [k] m = [] := by rw [named, List.filter_cons, if_neg (by simpa using fun e => hm e.symm)]; rfl
    rw [this, List.append_nil]
  have hlast : (named s.list k.name).getLast? = some k := by rw [hone, List.getLast?_append]; rfl
  have hnd : (l.map (·.id)).Nodup := by
    have := h.nodup
    rw [hl, List.map_append, List.nodup_append] at this
    exact this.1
  have hkl : ∀ a ∈ l, a.id ≠ k.id := by
    have := h.nodup
    rw [hl, List.map_append, List.nodup_append] at this
    exact fun a ha => this.2.2 a.id (List.mem_map.2 ⟨a, ha, rfl⟩) k.id (by simp)
  have hmem : ∀ a ∈ l, a ∈ s.list := fun a ha => by rw [hl]; exact List.mem_append_left _ ha
  have hidx : ∀ {m : List Char} {i : Nat} {a : Kid}, s.list[i]? = some a → a ∈ named l m → i < l.length ∧ l[i]? = some a := by
    intro m i a hi ha
    have ha := (named_mem.1 ha).1
    obtain ⟨j, hj⟩ := List.getElem?_of_mem ha
    have hjl := (List.getElem?_eq_some_iff.1 hj).1
    have : i = j := same_id h.nodup hi (by rw [hl, List.getElem?_append_left hjl, hj]) rfl
    rw [this]
    exact ⟨hjl, hj⟩
  have hlink := h.links k.name (named l k.name).length k (by rw [hone, List.getElem?_append_right (Nat.le_refl _), Nat.sub_self]; rfl)
  rcases hcase : (named l k.name).getLast? with _ | t
  · have hnil : named l k.name = [] := List.getLast?_eq_none_iff.1 hcase
    have hnext : k.next = none := by rw [hlink.2, if_pos (by rw [hnil]; rfl)]
    have hr : removeNode s l.length = { s with list := l, hash := setHash s.hash k.name none } := by
      rw [removeNode, hk]
      dsimp only
      rw [hnext]
      dsimp only
      rw [hl, eraseIdx_last]
    rw [hr]
    refine ⟨⟨fun a ha => h.fresh a (hmem a ha), hnd, ?_, ?_⟩, rfl, rfl⟩
    · intro m
      dsimp only
      rw [setHash]
      by_cases hm : m = k.name
      · rw [if_pos hm, hm]; exact .inl ⟨rfl, hnil⟩
      · rw [if_neg hm]
        rcases h.hash m with ⟨a, b⟩ | ⟨i, a, h1, h2, h3⟩
        · exact .inl ⟨a, by rw [← hother m hm]; exact b⟩
        · rw [hother m hm] at h3
          exact .inr ⟨i, a, h1, (hidx h2 (List.mem_of_getLast? h3)).2, h3⟩
    · intro m i a
      dsimp only
      by_cases hm : m = k.name
      · rw [hm, hnil]
        intro hi
        cases hi
      · rw [← hother m hm]
        exact h.links m i a
  · have htm : t ∈ named l k.name := List.mem_of_getLast? hcase
    have hpos : 0 < (named l k.name).length := List.length_pos_iff.2 (last_ne hcase)
    have hnext : k.next = some t.id := by
      rw [hlink.2, if_neg (by omega), hone, List.getElem?_append_left (by omega), getLast_index hcase]; rfl
    have htl : t ∈ s.list := hmem t (named_mem.1 htm).1
    obtain ⟨j, hj⟩ : ∃ j, findKid t.id 0 s.list = some j := by
      rcases hf : findKid t.id 0 s.list with _ | j
      · exact absurd rfl (findKid_none hf t htl)
      · exact ⟨j, rfl⟩
    have hjt : s.list[j]? = some t := by
      obtain ⟨-, a, ha, hid⟩ := findKid_some hj
      obtain ⟨b, hb⟩ := List.getElem?_of_mem htl
      rw [Nat.sub_zero] at ha
      rw [same_id h.nodup ha hb hid]
      exact hb
    obtain ⟨hjl, hjl'⟩ := hidx hjt htm
    have hhash : ∃ i, s.hash k.name = some i := by
      rcases h.hash k.name with ⟨-, b⟩ | ⟨i, a, h1, -⟩
      · rw [b] at hlast; cases hlast
      · exact ⟨i, h1⟩
    obtain ⟨i0, hi0⟩ := hhash
    have herase : (setPrev s.list t.id none).eraseIdx l.length = setPrev l t.id none := by
      rw [hl]
      have e : setPrev (l ++ [k]) t.id none = setPrev l t.id none ++ setPrev [k] t.id none := by rw [setPrev, List.map_append]; rfl
      rw [e, List.eraseIdx_append_of_length_le (by rw [setPrev, List.length_map]; exact Nat.le_refl _)]
      rw [show l.length - (setPrev l t.id none).length = 0 by rw [setPrev, List.length_map, Nat.sub_self]]
      simp [setPrev]
    have hr : removeNode s l.length = { s with list := setPrev l t.id none, hash := setHash s.hash k.name (some j) } := by
      rw [removeNode, hk]
      dsimp only
      rw [hnext]
      dsimp only
      rw [hj, hi0, herase]
    rw [hr]
    have hsame : ∀ m, m ≠ k.name → setPrev (named l m) t.id none = named l m := by
      intro m hm
      rw [setPrev]
      refine (List.map_congr_left fun a ha => ?_).trans (List.map_id _)
      rw [if_neg]
      · rfl
      intro e
      have ha' := named_mem.1 ha
      obtain ⟨b, hb⟩ := List.getElem?_of_mem ha'.1
      have := same_id hnd hb hjl' e
      rw [this, hjl'] at hb
      have htn := (named_mem.1 htm).2
      rw [Option.some.inj hb] at htn
      exact hm (ha'.2.symm.trans htn)
    refine ⟨⟨?_, by dsimp only; rw [setPrev_id]; exact hnd, ?_, ?_⟩, setPrev_ids .., rfl⟩
    · intro a ha
      have : a.id ∈ (setPrev l t.id none).map (·.id) := List.mem_map.2 ⟨a, ha, rfl⟩
      rw [setPrev_id] at this
      obtain ⟨b, hb, e⟩ := List.mem_map.1 this
      rw [← e]
      exact h.fresh b (hmem b hb)
    · intro m
      dsimp only
      rw [setHash, named_setPrev]
      by_cases hm : m = k.name
      · rw [if_pos hm, hm]
        refine .inr ⟨j, _, rfl, by rw [setPrev_get, hjl', Option.map_some], ?_⟩
        rw [setPrev, List.getLast?_map, hcase, Option.map_some]
      · rw [if_neg hm, hsame m hm]
        rcases h.hash m with ⟨a, b⟩ | ⟨i, a, h1, h2, h3⟩
        · exact .inl ⟨a, by rw [← hother m hm]; exact b⟩
        · rw [hother m hm] at h3
          have ham := List.mem_of_getLast? h3
          refine .inr ⟨i, a, h1, ?_, h3⟩
          rw [setPrev_get, (hidx h2 ham).2, Option.map_some, if_neg]
          intro e
          have := same_id hnd (hidx h2 ham).2 hjl' e
          rw [this, hjt] at h2
          have htn := (named_mem.1 htm).2
          rw [Option.some.inj h2] at htn
          exact hm ((named_mem.1 ham).2.symm.trans htn)
    · intro m i a
      dsimp only
      rw [named_setPrev]
      by_cases hm : m = k.name
      · rw [hm]
        intro hi
        rw [setPrev_get] at hi
        obtain ⟨b, hb, rfl⟩ := Option.map_eq_some_iff.1 hi
        have hil := (List.getElem?_eq_some_iff.1 hb).1
        have hlk := h.links k.name i b (by rw [hone, List.getElem?_append_left hil, hb])
        have hn : (if b.id = t.id then { b with prev := none } else b).next = b.next := by split <;> rfl
        rw [hn, hlk.2, hone]
        constructor
        · by_cases hlast : i + 1 < (named l k.name).length
          · have hne' : b.id ≠ t.id := by
              intro e
              have := same_id (named_nodup hnd k.name) hb (getLast_index hcase) e
              omega
            rw [if_neg hne', hlk.1, hone, List.getElem?_append_left hlast, setPrev_getId]
          · have hii : i = (named l k.name).length - 1 := by omega
            have : b = t := by
              have e := getLast_index hcase
              rw [← hii, hb] at e
              exact Option.some.inj e
            rw [if_pos (by rw [this]), setPrev_getId, List.getElem?_eq_none (l := named l k.name) (i := i + 1) (by omega)]
            rfl
        · split
          · rfl
          · rw [List.getElem?_append_left (by omega), setPrev_getId]
      · rw [hsame m hm, ← hother m hm]
        exact h.links m i a

theorem run_inv {s : Kids} (h : Inv s) (ops : List Op) : ∃ s', run s ops = some s' ∧ Inv s' ∧
    (s'.list.map (fun k => (k.id, k.name)), s'.fresh) = meaning (s.list.map (fun k => (k.id, k.name)), s.fresh) ops := by
  induction ops generalizing s with
  | nil => exact ⟨s, rfl, h, rfl⟩
  | cons op ops ih =>
    cases op with
    | add n =>
      obtain ⟨s', h1, h2, h3, h4⟩ := inv_add h n
      obtain ⟨t, g1, g2, g3⟩ := ih h2
      refine ⟨t, by rw [run, h1]; exact g1, g2, ?_⟩
      rw [g3, h3, h4, meaning]
    | removeLast =>
      rcases List.eq_nil_or_concat s.list with hn | ⟨l, k, hl⟩
      · obtain ⟨t, g1, g2, g3⟩ := ih h
        refine ⟨t, by rw [run, if_pos hn]; exact g1, g2, ?_⟩
        rw [g3, meaning, hn]; rfl
      · rw [List.concat_eq_append] at hl
        obtain ⟨h1, h2, h3⟩ := inv_remove h hl
        obtain ⟨t, g1, g2, g3⟩ := ih h1
        refine ⟨t, ?_, g2, ?_⟩
        · rw [run, if_neg (by rw [hl]; simp)]
          rw [hl, List.length_append, List.length_singleton, Nat.add_sub_cancel]
          exact g1
        · rw [g3, meaning, h2, h3, hl, List.map_append, List.map_singleton, List.dropLast_concat]

/-- **C91**: over every history of additions and removals of the newest child, indices, names and the list links agree with the order of addition. -/
theorem C91_children_partial (ops : List Op) : ∃ s, run {} ops = some s ∧ Represents s (meaning ([], 0) ops).1 := by
  obtain ⟨s, h1, h2, h3⟩ := run_inv inv_empty ops
  refine ⟨s, h1, ?_⟩
  have := inv_represents h2
  rw [show (meaning ([], 0) ops) = (s.list.map (fun k => (k.id, k.name)), s.fresh) from h3.symm]
  exact this

/-- Five additions of two names and a removal. -/
example : ((run {} [.add ['a'], .add ['b'], .add ['a'], .add ['a'], .removeLast, .add ['b']]).map fun s => (s.list, getNodeByName s ['a'], getNodeByName s ['c'])) =
    some ([⟨0, ['a'], none, some 2⟩, ⟨1, ['b'], none, some 4⟩, ⟨2, ['a'], some 0, none⟩, ⟨4, ['b'], some 1, none⟩], some ⟨2, ['a'], some 0, none⟩, none) := by decide

/-- After the removal of an earlier child, names lead to wrong children. -/
theorem C91_index_counterexample : ((run {} [.add ['a'], .add ['b'], .add ['c']]).map fun s => (removeNode s 0).list.map (·.name)) = some [['b'], ['c']] ∧
    ((run {} [.add ['a'], .add ['b'], .add ['c']]).map fun s => (getNodeByName (removeNode s 0) ['b']).map (·.name)) = some (some ['c']) ∧
    ((run {} [.add ['a'], .add ['b'], .add ['c']]).map fun s => (getNodeByName (removeNode s 0) ['c']).map (·.name)) = some none := by decide

/-- After the removal of the oldest child of a name, the others of the name are not found any more, and one of them has a link to the child that was freed. -/
theorem C91_oldest_counterexample : ((run {} [.add ['a'], .add ['a']]).map fun s => ((removeNode s 0).list, getNodeByName (removeNode s 0) ['a'])) =
    some ([⟨1, ['a'], some 0, none⟩], none) := by decide

/-- After the removal of a middle child of a name, the name leads to an older child instead of the newest one, and the newest one has a link to the child that was freed. -/
theorem C91_middle_counterexample : ((run {} [.add ['a'], .add ['a'], .add ['a']]).map fun s => ((removeNode s 1).list, getNodeByName (removeNode s 1) ['a'])) =
    some ([⟨0, ['a'], none, none⟩, ⟨2, ['a'], some 1, none⟩], some ⟨0, ['a'], none, none⟩) := by decide

/-! ## Attributes -/

/-- `GetAttribute(const char*)`, `XML.h:59`: the hash table leads to the attribute of the name. -/
def getAttr (l : List (List Char × List Char)) (n : List Char) : Option (List Char) := (l.find? fun a => decide (a.1 = n)).map (·.2)

/-- The names and attributes after `RemoveAttribute(size_t)`, `XML.cpp:125-132`: it removes a child; the first component are the children. -/
def removeAttribute (kids : List Node) (attrs : List (List Char × List Char)) (i : Nat) : Bool × List Node × List (List Char × List Char) :=
  if kids.length ≤ i then (false, kids, attrs) else (true, kids.eraseIdx i, attrs)

/-- Attributes after a list of `AddAttribute`. -/
def addAll (l : List (List Char × List Char)) (vs : List (List Char × List Char)) : List (List Char × List Char) := vs.foldl (fun l a => addAttr l a.1 a.2) l

theorem getAttr_none {l : List (List Char × List Char)} {n : List Char} (h : n ∉ l.map (·.1)) : getAttr l n = none := by
  rw [getAttr, Option.map_eq_none_iff, List.find?_eq_none]
  intro a ha he
  exact h (List.mem_map.2 ⟨a, ha, by simpa using he⟩)

theorem getAttr_map (l : List (List Char × List Char)) (n v m : List Char) :
    getAttr (l.map fun a => if a.1 = n then (n, v) else a) m = if m = n ∧ n ∈ l.map (·.1) then some v else getAttr l m := by
  induction l with
  | nil => simp [getAttr]
  | cons a l ih =>
    rw [getAttr, List.map_cons, List.find?_cons, getAttr, List.find?_cons]
    rw [getAttr, getAttr] at ih
    by_cases ha : a.1 = n
    · rw [if_pos ha]
      by_cases hm : m = n
      · subst hm
        simp [ha]
      · have h1 : ¬n = m := fun e => hm e.symm
        have h2 : ¬a.1 = m := fun e => hm (e.symm.trans ha)
        simp only [h1, h2, decide_false]
        rw [ih, if_neg (fun h => hm h.1), if_neg (fun h => hm h.1)]
    · rw [if_neg ha]
      by_cases hm : a.1 = m
      · have : ¬m = n := fun e => ha (hm.trans e)
        simp [hm, this]
      · simp only [hm, decide_false]
        rw [ih]
        have : n ∈ List.map (fun x => x.1) (a :: l) ↔ n ∈ l.map (·.1) := by
          rw [List.map_cons, List.mem_cons]
          exact ⟨fun h => h.resolve_left fun e => ha e.symm, .inr⟩
        simp only [this]

theorem getAttr_add (l : List (List Char × List Char)) (n v m : List Char) : getAttr (addAttr l n v) m = if m = n then some v else getAttr l m := by
  rw [addAttr]
  split
  · rename_i h
    rw [getAttr_map]
    by_cases hm : m = n
    · rw [if_pos ⟨hm, h⟩, if_pos hm]
    · rw [if_neg (fun h => hm h.1), if_neg hm]
  · rename_i h
    by_cases hm : m = n
    · subst hm
      have hn := getAttr_none h
      rw [getAttr, Option.map_eq_none_iff] at hn
      rw [if_pos rfl, getAttr, List.find?_append, hn]
      simp
    · have : ¬n = m := fun e => hm e.symm
      rw [if_neg hm, getAttr, getAttr, List.find?_append]
      simp [this]

theorem addAttr_names (l : List (List Char × List Char)) (n v : List Char) : (addAttr l n v).map (·.1) = if n ∈ l.map (·.1) then l.map (·.1) else l.map (·.1) ++ [n] := by
  rw [addAttr]
  split
  · rw [List.map_map]
    refine List.map_congr_left fun a _ => ?_
    simp only [Function.comp]
    split
    · rename_i h; exact h.symm
    · rfl
  · rw [List.map_append]; rfl

/-- **C91**: `AddAttribute` sets the value of its name and of no other, and each name is there once. -/
theorem C91_attributes (vs : List (List Char × List Char)) (n v m : List Char) :
    getAttr (addAll [] (vs ++ [(n, v)])) m = (if m = n then some v else getAttr (addAll [] vs) m) ∧ ((addAll [] vs).map (·.1)).Nodup := by
  constructor
  · rw [addAll, List.foldl_append]
    exact getAttr_add _ n v m
  · suffices h : ∀ l : List (List Char × List Char), (l.map (·.1)).Nodup → ((addAll l vs).map (·.1)).Nodup from h [] List.nodup_nil
    induction vs with
    | nil => exact fun l h => h
    | cons a vs ih =>
      intro l h
      refine ih _ ?_
      rw [addAttr_names]
      split
      · exact h
      · rename_i hn
        rw [List.nodup_append]
        exact ⟨h, by simp, fun x hx y hy e => hn (by rw [List.mem_singleton.1 hy] at e; rw [← e]; exact hx)⟩

example : addAll [] [(['a'], ['1']), (['b'], ['2']), (['a'], ['3'])] = [(['a'], ['3']), (['b'], ['2'])] := by decide

/-- `RemoveAttribute` removes a child instead of the attribute. -/
theorem C91_remove_attribute_counterexample : removeAttribute [.mk ['a'] [] [] []] [(['k'], ['v'])] 0 = (true, [], [(['k'], ['v'])]) := by decide

/-- `RemoveAttribute` on a node without children has no effect. -/
theorem C91_remove_attribute_leaf_counterexample : removeAttribute [] [(['k'], ['v'])] 0 = (false, [], [(['k'], ['v'])]) := by decide

/-! ## Numbers -/

/-- The number of 64 bits with a sign that has the same bits as `n`. -/
def signed (n : Nat) : Int := if n < 2 ^ 63 then n else (n : Int) - 2 ^ 64

theorem ull_small {n : Nat} (h : n < 2 ^ 64) : ull false n = signed n := by
  rw [ull, signed, if_neg (by omega), if_neg (by decide)]
  split <;> omega

theorem eval_digits {ds : List Char} (hne : ds ≠ []) (h : ∀ c ∈ ds, '0' ≤ c ∧ c ≤ '9') : evalInteger ds = some (ull false (decVal ds)) := by
  cases ds with
  | nil => exact absurd rfl hne
  | cons c r =>
    have f := digit_facts (h c (List.mem_cons_self ..))
    have hz : '\x00' ∉ c :: r := fun hm => (digit_facts (h _ hm)).2.2.2.1 rfl
    have hr : ∀ x, ¬('0' ≤ x ∧ x ≤ '9') → ¬r.head? = some x := by
      intro x hx e
      cases r with
      | nil => cases e
      | cons a r => exact hx (by rw [← Option.some.inj e]; exact h a (by simp))
    rw [evalInteger, if_neg f.2.2.2.2.2.2.2.2.1, if_neg (fun e => hr 'x' (by decide) e.2), if_neg (fun e => hr 'b' (by decide) e.2), cstr_eq hz, List.dropWhile_cons,
      if_neg (by simp [f.2.2.1]), splitSign, if_neg f.2.2.2.2.2.2.2.2.1, if_neg f.2.2.2.2.2.2.2.2.2.1]
    dsimp only
    have e := decNum_foldl (c :: r) h nil_ws 0
    rw [List.append_nil] at e
    rw [e]
    rfl

/-- **C92**: an integer set with `SetValue` has a text that evaluates to it. -/
theorem C92_setvalue {i : Int} (h1 : -2 ^ 63 ≤ i) (h2 : i < 2 ^ 63) : evalInteger (decimal i) = some i := by
  rw [decimal]
  split
  · rename_i hneg
    obtain ⟨⟨hne, hd⟩, hv, -⟩ := digits_spec i.natAbs
    rw [evalInteger, if_pos rfl, strtol10]
    have hz : '\x00' ∉ '-' :: digits i.natAbs := by
      intro hm
      rcases List.mem_cons.1 hm with e | hm
      · exact absurd e (by decide)
      · exact (digit_facts (hd _ hm)).2.2.2.1 rfl
    rw [cstr_eq hz, List.dropWhile_cons, if_neg (by decide), splitSign, if_pos rfl]
    dsimp only
    have e := decNum_foldl (digits i.natAbs) hd nil_ws 0
    rw [List.append_nil] at e
    rw [e, clamp, if_pos rfl]
    change some (max _ (min (-((decVal (digits i.natAbs) : Nat) : Int)) _)) = _
    rw [hv]
    congr 1
    omega
  · obtain ⟨⟨hne, hd⟩, hv, -⟩ := digits_spec i.natAbs
    rw [eval_digits hne hd, hv, ull_small (by omega), signed, if_pos (by omega)]
    congr 1
    omega

/-- **C92**: digits evaluate to their number, with the bits of an unsigned number if it is large. -/
theorem C92_unsigned {n : Nat} (h : n < 2 ^ 64) : evalInteger (digits n) = some (signed n) := by
  obtain ⟨⟨hne, hd⟩, hv, -⟩ := digits_spec n
  rw [eval_digits hne hd, hv, ull_small h]

/-- **C92**: hexadecimal digits after `0x` evaluate to the number with these bits. -/
theorem C92_hex {ds : List (Char × Nat)} (hne : ds ≠ []) (h : ∀ p ∈ ds, p ∈ hexDigits) (hv : hexNumVal ds < 2 ^ 64) : evalInteger ('0' :: 'x' :: ds.map (·.1)) = some (signed (hexNumVal ds)) := by
  have hz : '\x00' ∉ '0' :: 'x' :: ds.map (·.1) := by
    intro hm
    rcases List.mem_cons.1 hm with e | hm
    · exact absurd e (by decide)
    rcases List.mem_cons.1 hm with e | hm
    · exact absurd e (by decide)
    obtain ⟨p, hp, e⟩ := List.mem_map.1 hm
    have := (hex_facts p (h p hp)).1
    rw [e] at this
    cases this
  rw [evalInteger, if_neg (by decide), if_pos ⟨rfl, rfl⟩, cstr_eq hz]
  cases ds with
  | nil => exact absurd rfl hne
  | cons p ds =>
    rw [List.map_cons, dropHexPrefix, if_pos ⟨rfl, .inl rfl, by rw [(hex_facts p (h p (List.mem_cons_self ..))).1]; rfl⟩, show p.1 :: ds.map (·.1) = (p :: ds).map (·.1) from rfl, hexNum_val _ h]
    rw [← ull_small hv]
    rfl

example : evalInteger "-9223372036854775808".toList = some (-9223372036854775808) ∧ evalInteger "18446744073709551615".toList = some (-1) ∧ evalInteger "0xfF".toList = some 255 ∧
    evalInteger "".toList = some 0 := by decide +kernel

/-- A number with a plus sign and a number after blanks are read, but a hexadecimal number after a minus sign is not. -/
theorem C92_negative_hex_counterexample : evalInteger "-0x10".toList = some 0 := by decide +kernel

end Verif.Xml
