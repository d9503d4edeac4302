import Verif.Linked.Lemmas

/-!
# Properties of the intrusive list functions (C18)

`Rep h l` (`Lemmas.lean`, from `Chain.lean`): the memory `h` holds the doubly linked list whose nodes are `l`, in order.
-/

namespace Verif.Linked
variable {α : Type}

/-- **C18**: `LLInsert(node, target, root)` links the fresh node just before `target`, sets `root` to the head of the
list, and writes only to the node, the target and the target's predecessor. -/
theorem C18_insert (h : Mem α) (A B : List Nat) (t n : Nat) (hr : Rep h (A ++ t :: B)) (hn : n ∉ A ++ t :: B)
    (hs : (h n).isSome) :
    ∃ h', llInsert h n t (A ++ t :: B).head? = some (h', (A ++ n :: t :: B).head?) ∧ Rep h' (A ++ n :: t :: B) ∧
      Frame h h' (fun m => m = n ∨ m = t ∨ A.getLast? = some m) := by
  have ht : (h t).isSome := hr.some (by simp)
  have hnt : n ≠ t := by rintro rfl; simp at hn
  have hpt : pv h t = A.getLast? := hr.prev
  simp only [llInsert, Option.bind_eq_bind, Option.bind_some, rdPrev_eq ht, wrPrev_eq hs, hpt]
  rw [wrNext_eq (by rwa [isSome_setP])]
  simp only [Option.bind_some]
  rw [rdPrev_eq (by rwa [isSome_setN, isSome_setP]), pv_setN, pv_setP hs, if_neg hnt.symm, hpt]
  simp only [Option.bind_some]
  cases hA : A.getLast? with
  | none =>
    rw [List.getLast?_eq_none_iff] at hA
    subst hA
    simp only
    rw [wrPrev_eq (by rwa [isSome_setN, isSome_setP])]
    refine ⟨_, rfl, ?_, ?_, ?_, ?_⟩
    · apply Rep.insert (A := []) (B := t :: B) hr hn
      · intro m; simp [isSome_setN, isSome_setP]
      · exact hs
      · simp [nx_setP, nx_setN, isSome_setP, hs]
      · simp [pv_setN, pv_setP, isSome_setN, isSome_setP, hs, ht, hnt]
      · simp
      · simp [pv_setP, isSome_setN, isSome_setP, ht]
      · intro m hm _; simp [nx_setP, nx_setN, isSome_setP, hs, hm]
      · intro m hm hb
        have hb' : m ≠ t := fun e => hb (by simp [e])
        simp [pv_setN, pv_setP, isSome_setN, isSome_setP, hs, ht, hm, hb']
    · intro m; simp [item_setN, item_setP]
    · intro m; simp [isSome_setN, isSome_setP]
    · intro m hm
      rw [setP_ne _ (fun e => hm (.inr (.inl e))), setN_ne _ (fun e => hm (.inl e)), setP_ne _ (fun e => hm (.inl e))]
  | some p =>
    have hpA := mem_last hA
    have hp : (h p).isSome := hr.some (by simp [hpA])
    have hpn : p ≠ n := by rintro rfl; simp [hpA] at hn
    have hpt' : p ≠ t := by rintro rfl; exact (nodup_split hr.1.1).1 hpA
    simp only
    rw [wrNext_eq (by rwa [isSome_setN, isSome_setP])]
    simp only [Option.bind_some]
    rw [wrPrev_eq (by rwa [isSome_setN, isSome_setN, isSome_setP])]
    have hhead : (A ++ t :: B).head? = (A ++ n :: t :: B).head? := by
      cases A with
      | nil => simp at hA
      | cons => rfl
    refine ⟨_, by rw [hhead]; rfl, ?_, ?_, ?_, ?_⟩
    · apply Rep.insert (B := t :: B) hr hn
      · intro m; simp [isSome_setN, isSome_setP]
      · exact hs
      · simp [nx_setP, nx_setN, isSome_setN, isSome_setP, hs, hp, hpn.symm]
      · simp [pv_setN, pv_setP, isSome_setN, isSome_setP, hs, ht, hnt, hA]
      · intro a ha
        rw [hA] at ha
        cases ha
        simp [nx_setP, nx_setN, isSome_setN, isSome_setP, hp]
      · simp [pv_setP, isSome_setN, isSome_setP, ht]
      · intro m hm ha
        have ha' : m ≠ p := fun e => ha (by rw [hA, e])
        simp [nx_setP, nx_setN, isSome_setN, isSome_setP, hs, hp, hm, ha']
      · intro m hm hb
        have hb' : m ≠ t := fun e => hb (by simp [e])
        simp [pv_setN, pv_setP, isSome_setN, isSome_setP, hs, ht, hm, hb']
    · intro m; simp [item_setN, item_setP]
    · intro m; simp [isSome_setN, isSome_setP]
    · intro m hm
      rw [setP_ne _ (fun e => hm (.inr (.inl e))), setN_ne _ (fun e => hm (.inr (.inr (by rw [e])))),
        setN_ne _ (fun e => hm (.inl e)), setP_ne _ (fun e => hm (.inl e))]

/-- **C18**: the version of `LLInsert` without `root` makes the same memory updates, for any node. -/
theorem C18_insertNoRoot (h : Mem α) (n t : Nat) (root : Option Nat) :
    llInsertNoRoot h n t = (llInsert h n t root).map (·.1) := by
  simp only [llInsertNoRoot, llInsert, Option.bind_eq_bind]
  cases rdPrev h t with
  | none => rfl
  | some x =>
    simp only [Option.bind_some]
    cases wrPrev h n x with
    | none => rfl
    | some h1 =>
      simp only [Option.bind_some]
      cases wrNext h1 n (some t) with
      | none => rfl
      | some h2 =>
        simp only [Option.bind_some]
        cases rdPrev h2 t with
        | none => rfl
        | some tp =>
          cases tp with
          | none => simp only [Option.bind_some]; cases wrPrev h2 t (some n) <;> rfl
          | some p =>
            simp only [Option.bind_some]
            cases wrNext h2 p (some n) with
            | none => rfl
            | some h3 => simp only [Option.bind_some]; cases wrPrev h3 t (some n) <;> rfl

/-- **C18**: `LLInsertAfter(node, target, last)` links the fresh node just after `target`, sets `last` to the last node
of the list, and writes only to the node, the target and the target's successor. -/
theorem C18_insertAfter (h : Mem α) (A B : List Nat) (t n : Nat) (hr : Rep h (A ++ t :: B)) (hn : n ∉ A ++ t :: B)
    (hs : (h n).isSome) :
    ∃ h', llInsertAfter h n t (A ++ t :: B).getLast? = some (h', (A ++ t :: n :: B).getLast?) ∧
      Rep h' (A ++ t :: n :: B) ∧ Frame h h' (fun m => m = n ∨ m = t ∨ B.head? = some m) := by
  have ht : (h t).isSome := hr.some (by simp)
  have hnt : n ≠ t := by rintro rfl; simp at hn
  have hpt : nx h t = B.head? := hr.next
  have hr' : Rep h ((A ++ [t]) ++ B) := by simpa using hr
  have hn' : n ∉ (A ++ [t]) ++ B := by simpa using hn
  have goal' : ∀ h' : Mem α, Rep h' ((A ++ [t]) ++ n :: B) → Rep h' (A ++ t :: n :: B) := fun h' H => by simpa using H
  simp only [llInsertAfter, Option.bind_eq_bind, Option.bind_some, rdNext_eq ht, wrNext_eq hs, hpt]
  rw [wrPrev_eq (by rwa [isSome_setN])]
  simp only [Option.bind_some]
  rw [rdNext_eq (by rwa [isSome_setP, isSome_setN]), nx_setP, nx_setN hs, if_neg hnt.symm, hpt]
  simp only [Option.bind_some]
  cases hB : B.head? with
  | none =>
    rw [List.head?_eq_none_iff] at hB
    subst hB
    simp only
    rw [wrNext_eq (by rwa [isSome_setP, isSome_setN])]
    refine ⟨_, by simp only [Option.bind_some, getLast?_mid]; rfl, ?_, ?_, ?_, ?_⟩
    · apply goal'
      apply Rep.insert hr' hn'
      · intro m; simp [isSome_setN, isSome_setP]
      · exact hs
      · simp [nx_setP, nx_setN, isSome_setN, isSome_setP, hs, ht, hnt]
      · simp [pv_setN, pv_setP, isSome_setN, hs]
      · simp [nx_setN, isSome_setN, isSome_setP, ht]
      · simp
      · intro m hm ha
        have ha' : m ≠ t := fun e => ha (by simp [e])
        simp [nx_setP, nx_setN, isSome_setN, isSome_setP, hs, ht, hm, ha']
      · intro m hm hb
        simp [pv_setN, pv_setP, isSome_setN, hs, hm]
    · intro m; simp [item_setN, item_setP]
    · intro m; simp [isSome_setN, isSome_setP]
    · intro m hm
      rw [setN_ne _ (fun e => hm (.inr (.inl e))), setP_ne _ (fun e => hm (.inl e)), setN_ne _ (fun e => hm (.inl e))]
  | some p =>
    have hpB := mem_head hB
    have hp : (h p).isSome := hr.some (by simp [hpB])
    have hpn : p ≠ n := by rintro rfl; simp [hpB] at hn
    have hpt' : p ≠ t := by rintro rfl; exact (nodup_split hr.1.1).2.1 hpB
    simp only
    rw [wrPrev_eq (by rwa [isSome_setP, isSome_setN])]
    simp only [Option.bind_some]
    rw [wrNext_eq (by rwa [isSome_setP, isSome_setP, isSome_setN])]
    have hlast : (A ++ t :: B).getLast? = (A ++ t :: n :: B).getLast? := by
      rw [show A ++ t :: n :: B = (A ++ [t]) ++ n :: B by simp, getLast?_mid, getLast?_mid]
      cases B with
      | nil => simp at hB
      | cons b B => simp [List.getLast?_cons]
    refine ⟨_, by rw [hlast]; rfl, ?_, ?_, ?_, ?_⟩
    · apply goal'
      apply Rep.insert hr' hn'
      · intro m; simp [isSome_setN, isSome_setP]
      · exact hs
      · simp [nx_setP, nx_setN, isSome_setN, isSome_setP, hs, ht, hnt, hB]
      · simp [pv_setN, pv_setP, isSome_setN, isSome_setP, hs, hp, hpn.symm]
      · simp [nx_setN, isSome_setN, isSome_setP, ht]
      · intro b hb
        rw [hB] at hb
        cases hb
        simp [pv_setN, pv_setP, isSome_setN, isSome_setP, hp]
      · intro m hm ha
        have ha' : m ≠ t := fun e => ha (by simp [e])
        simp [nx_setP, nx_setN, isSome_setN, isSome_setP, hs, ht, hm, ha']
      · intro m hm hb
        have hb' : m ≠ p := fun e => hb (by rw [hB, e])
        simp [pv_setN, pv_setP, isSome_setN, isSome_setP, hs, hp, hm, hb']
    · intro m; simp [item_setN, item_setP]
    · intro m; simp [isSome_setN, isSome_setP]
    · intro m hm
      rw [setN_ne _ (fun e => hm (.inr (.inl e))), setP_ne _ (fun e => hm (.inr (.inr (by rw [e])))),
        setP_ne _ (fun e => hm (.inl e)), setN_ne _ (fun e => hm (.inl e))]

/-- **C18**: the version of `LLInsertAfter` without `last` makes the same memory updates. -/
theorem C18_insertAfterNoLast (h : Mem α) (n t : Nat) (last : Option Nat) :
    llInsertAfterNoLast h n t = (llInsertAfter h n t last).map (·.1) := by
  simp only [llInsertAfterNoLast, llInsertAfter, Option.bind_eq_bind]
  cases rdNext h t with
  | none => rfl
  | some x =>
    simp only [Option.bind_some]
    cases wrNext h n x with
    | none => rfl
    | some h1 =>
      simp only [Option.bind_some]
      cases wrPrev h1 n (some t) with
      | none => rfl
      | some h2 =>
        simp only [Option.bind_some]
        cases rdNext h2 t with
        | none => rfl
        | some tp =>
          cases tp with
          | none => simp only [Option.bind_some]; cases wrNext h2 t (some n) <;> rfl
          | some p =>
            simp only [Option.bind_some]
            cases wrPrev h2 p (some n) with
            | none => rfl
            | some h3 => simp only [Option.bind_some]; cases wrNext h3 t (some n) <;> rfl

/-- **C18**: `LLAdd(node, root, last)` links the fresh node at the front of the list, empty or not. -/
theorem C18_addLast (h : Mem α) (l : List Nat) (n : Nat) (hr : Rep h l) (hn : n ∉ l) (hs : (h n).isSome) :
    ∃ h', llAddLast h n l.head? l.getLast? = some (h', (n :: l).head?, (n :: l).getLast?) ∧ Rep h' (n :: l) ∧
      Frame h h' (fun m => m = n ∨ l.head? = some m) := by
  simp only [llAddLast, Option.bind_eq_bind, wrPrev_eq hs, Option.bind_some]
  rw [wrNext_eq (by rwa [isSome_setP])]
  simp only [Option.bind_some]
  cases l with
  | nil =>
    refine ⟨_, rfl, ?_, ?_, ?_, ?_⟩
    · apply Rep.insert (A := []) (B := []) hr hn
      · intro m; simp [isSome_setN, isSome_setP]
      · exact hs
      · simp [nx_setN, isSome_setP, hs]
      · simp [pv_setN, pv_setP, hs]
      · simp
      · simp
      · intro m hm _; simp [nx_setP, nx_setN, isSome_setP, hs, hm]
      · intro m hm _; simp [pv_setN, pv_setP, hs, hm]
    · intro m; simp [item_setN, item_setP]
    · intro m; simp [isSome_setN, isSome_setP]
    · intro m hm
      rw [setN_ne _ (fun e => hm (.inl e)), setP_ne _ (fun e => hm (.inl e))]
  | cons r l =>
    have hrs : (h r).isSome := hr.some (by simp)
    have hrn : r ≠ n := by rintro rfl; simp at hn
    simp only [List.head?_cons]
    rw [wrPrev_eq (by rwa [isSome_setN, isSome_setP])]
    refine ⟨_, by simp only [Option.bind_some, List.getLast?_cons_cons]; rfl, ?_, ?_, ?_, ?_⟩
    · apply Rep.insert (A := []) (B := r :: l) hr hn
      · intro m; simp [isSome_setN, isSome_setP]
      · exact hs
      · simp [nx_setP, nx_setN, isSome_setP, hs]
      · simp [pv_setN, pv_setP, isSome_setN, isSome_setP, hs, hrs, hrn.symm]
      · simp
      · simp [pv_setP, isSome_setN, isSome_setP, hrs]
      · intro m hm _; simp [nx_setP, nx_setN, isSome_setP, hs, hm]
      · intro m hm hb
        have hb' : m ≠ r := fun e => hb (by simp [e])
        simp [pv_setN, pv_setP, isSome_setN, isSome_setP, hs, hrs, hm, hb']
    · intro m; simp [item_setN, item_setP]
    · intro m; simp [isSome_setN, isSome_setP]
    · intro m hm
      rw [setP_ne _ (fun e => hm (.inr (by rw [e]))), setN_ne _ (fun e => hm (.inl e)), setP_ne _ (fun e => hm (.inl e))]

/-- The version of `LLAdd` without `last` makes the same updates. -/
theorem llAdd_eq (h : Mem α) (n : Nat) (root last : Option Nat) :
    llAdd h n root = (llAddLast h n root last).map fun r => (r.1, r.2.1) := by
  simp only [llAdd, llAddLast, Option.bind_eq_bind]
  cases wrPrev h n none with
  | none => rfl
  | some h1 =>
    simp only [Option.bind_some]
    cases wrNext h1 n root with
    | none => rfl
    | some h2 =>
      cases root with
      | none => rfl
      | some r => simp only [Option.bind_some]; cases wrPrev h2 r (some n) <;> rfl

/-- **C18**: `LLAdd(node, root)` (and `AltLLAdd`) links the fresh node at the front of the list. -/
theorem C18_add (h : Mem α) (l : List Nat) (n : Nat) (hr : Rep h l) (hn : n ∉ l) (hs : (h n).isSome) :
    ∃ h', llAdd h n l.head? = some (h', some n) ∧ Rep h' (n :: l) ∧ Frame h h' (fun m => m = n ∨ l.head? = some m) := by
  obtain ⟨h', e, rest⟩ := C18_addLast h l n hr hn hs
  exact ⟨h', by rw [llAdd_eq h n l.head? l.getLast?, e]; rfl, rest⟩

/-- **C18**: `LLAddAfter(node, root, last)` links the fresh node at the end of the list, empty or not. -/
theorem C18_addAfterRoot (h : Mem α) (l : List Nat) (n : Nat) (hr : Rep h l) (hn : n ∉ l) (hs : (h n).isSome) :
    ∃ h', llAddAfterRoot h n l.head? l.getLast? = some (h', (l ++ [n]).head?, (l ++ [n]).getLast?) ∧ Rep h' (l ++ [n]) ∧
      Frame h h' (fun m => m = n ∨ l.getLast? = some m) := by
  have hr' : Rep h (l ++ []) := by simpa using hr
  have hn' : n ∉ l ++ [] := by simpa using hn
  simp only [llAddAfterRoot, Option.bind_eq_bind, wrNext_eq hs, Option.bind_some]
  rw [wrPrev_eq (by rwa [isSome_setN])]
  simp only [Option.bind_some]
  cases hl : l.getLast? with
  | none =>
    rw [List.getLast?_eq_none_iff] at hl
    subst hl
    refine ⟨_, rfl, ?_, ?_, ?_, ?_⟩
    · apply Rep.insert hr' hn'
      · intro m; simp [isSome_setN, isSome_setP]
      · exact hs
      · simp [nx_setP, nx_setN, hs]
      · simp [pv_setP, isSome_setN, hs]
      · simp
      · simp
      · intro m hm _; simp [nx_setP, nx_setN, hs, hm]
      · intro m hm _; simp [pv_setN, pv_setP, isSome_setN, hs, hm]
    · intro m; simp [item_setN, item_setP]
    · intro m; simp [isSome_setN, isSome_setP]
    · intro m hm
      rw [setP_ne _ (fun e => hm (.inl e)), setN_ne _ (fun e => hm (.inl e))]
  | some p =>
    have hpA := mem_last hl
    have hp : (h p).isSome := hr.some hpA
    have hpn : p ≠ n := by rintro rfl; exact hn hpA
    simp only
    rw [wrNext_eq (by rwa [isSome_setP, isSome_setN])]
    have hhead : l.head? = (l ++ [n]).head? := by
      cases l with
      | nil => simp at hl
      | cons => rfl
    refine ⟨_, by rw [List.getLast?_concat, hhead]; rfl, ?_, ?_, ?_, ?_⟩
    · apply Rep.insert hr' hn'
      · intro m; simp [isSome_setN, isSome_setP]
      · exact hs
      · simp [nx_setP, nx_setN, isSome_setN, isSome_setP, hs, hp, hpn.symm]
      · simp [pv_setN, pv_setP, isSome_setN, hs, hl]
      · intro a ha
        rw [hl] at ha
        cases ha
        simp [nx_setN, isSome_setN, isSome_setP, hp]
      · simp
      · intro m hm ha
        have ha' : m ≠ p := fun e => ha (by rw [hl, e])
        simp [nx_setP, nx_setN, isSome_setN, isSome_setP, hs, hp, hm, ha']
      · intro m hm _; simp [pv_setN, pv_setP, isSome_setN, hs, hm]
    · intro m; simp [item_setN, item_setP]
    · intro m; simp [isSome_setN, isSome_setP]
    · intro m hm
      rw [setN_ne _ (fun e => hm (.inr (by rw [e]))), setP_ne _ (fun e => hm (.inl e)), setN_ne _ (fun e => hm (.inl e))]

/-- **C18**: `last = LLAddAfter(node, last)` on a nonempty list links the fresh node at its end. -/
theorem C18_addAfter (h : Mem α) (A : List Nat) (p n : Nat) (hr : Rep h (A ++ [p])) (hn : n ∉ A ++ [p])
    (hs : (h n).isSome) :
    ∃ h', llAddAfter h n p = some (h', n) ∧ Rep h' (A ++ [p, n]) ∧ Frame h h' (fun m => m = n ∨ m = p) := by
  obtain ⟨h', e, hrep, hf⟩ := C18_addAfterRoot h (A ++ [p]) n hr hn hs
  refine ⟨h', ?_, by simpa using hrep, hf.1, hf.2.1, fun m hm => hf.2.2 m ?_⟩
  · simp only [List.getLast?_concat] at e
    simp only [llAddAfterRoot, Option.bind_eq_bind, Option.bind_eq_some_iff] at e
    obtain ⟨h1, e1, h2, e2, h3, e3, e4⟩ := e
    simp only [llAddAfter, Option.bind_eq_bind, e1, e2, e3, Option.bind_some]
    simp only [Option.some.injEq, Prod.mk.injEq] at e4
    rw [e4.1]
  · simp only [List.getLast?_concat, Option.some.injEq]
    rintro (e | e)
    · exact hm (.inl e)
    · exact hm (.inr e.symm)

/-- **C18**: `LLRemove(node, root, last)` unlinks exactly that node, sets `root` and `last` to the ends of the remaining
list, and writes only to the node's neighbours. -/
theorem C18_removeLast (h : Mem α) (A B : List Nat) (n : Nat) (hr : Rep h (A ++ n :: B)) :
    ∃ h', llRemoveLast h n (A ++ n :: B).head? (A ++ n :: B).getLast? = some (h', (A ++ B).head?, (A ++ B).getLast?) ∧
      Rep h' (A ++ B) ∧ Frame h h' (fun m => A.getLast? = some m ∨ B.head? = some m) := by
  have hs : (h n).isSome := hr.some (by simp)
  have hnn := hr.next
  have hnp := hr.prev
  have hnd := nodup_split hr.1.1
  -- the first half: `node->prev->next = node->next` or `root = node->next`
  have hfst : ∃ h1, newRoot h n (A ++ n :: B).head? = some (A ++ B).head? ∧ unlinkPrev h n = some h1 ∧
      (∀ m, nx h1 m = if A.getLast? = some m then B.head? else nx h m) ∧ (∀ m, pv h1 m = pv h m) ∧
      Frame h h1 (fun m => A.getLast? = some m) := by
    simp only [newRoot, unlinkPrev, Option.bind_eq_bind, rdPrev_eq hs, rdNext_eq hs, Option.bind_some, hnp, hnn]
    cases hA : A.getLast? with
    | none =>
      rw [List.getLast?_eq_none_iff] at hA
      subst hA
      exact ⟨h, by simp, rfl, by simp, by simp, by simp, by simp, by simp⟩
    | some p =>
      have hp : (h p).isSome := hr.some (by simp [mem_last hA])
      refine ⟨setN h p B.head?, ?_, ?_, ?_, ?_, ?_, ?_, ?_⟩
      · cases A with
        | nil => simp at hA
        | cons => simp
      · exact wrNext_eq hp _
      · intro m
        rw [nx_setN hp]
        simp only [Option.some.injEq, eq_comm]
      · exact fun m => pv_setN ..
      · exact fun m => item_setN ..
      · exact fun m => isSome_setN ..
      · intro m hm
        exact setN_ne _ (fun e => hm (by rw [e]))
  obtain ⟨h1, hroot, hun1, hnx1, hpv1, hf1⟩ := hfst
  have hs1 : (h1 n).isSome := by rw [hf1.2.1]; exact hs
  have hnA : A.getLast? ≠ some n := fun e => hnd.1 (mem_last e)
  have hnn1 : nx h1 n = B.head? := by rw [hnx1, if_neg hnA, hnn]
  have hnp1 : pv h1 n = A.getLast? := by rw [hpv1, hnp]
  have hsnd : ∃ h2, newLast h1 n (A ++ n :: B).getLast? = some (A ++ B).getLast? ∧ unlinkNext h1 n = some h2 ∧
      (∀ m, pv h2 m = if B.head? = some m then A.getLast? else pv h1 m) ∧ (∀ m, nx h2 m = nx h1 m) ∧
      Frame h1 h2 (fun m => B.head? = some m) := by
    simp only [newLast, unlinkNext, Option.bind_eq_bind, rdPrev_eq hs1, rdNext_eq hs1, Option.bind_some, hnp1, hnn1]
    cases hB : B.head? with
    | none =>
      rw [List.head?_eq_none_iff] at hB
      subst hB
      exact ⟨h1, by simp, rfl, by simp, by simp, by simp, by simp, by simp⟩
    | some p =>
      have hp : (h1 p).isSome := by rw [hf1.2.1]; exact hr.some (by simp [mem_head hB])
      refine ⟨setP h1 p A.getLast?, ?_, ?_, ?_, ?_, ?_, ?_, ?_⟩
      · cases B with
        | nil => simp at hB
        | cons b B =>
          simp only [Option.some.injEq]
          rw [getLast?_mid, getLast?_mid]
          simp [List.getLast?_cons]
      · exact wrPrev_eq hp _
      · intro m
        rw [pv_setP hp]
        simp only [Option.some.injEq, eq_comm]
      · exact fun m => nx_setP ..
      · exact fun m => item_setP ..
      · exact fun m => isSome_setP ..
      · intro m hm
        exact setP_ne _ (fun e => hm (by rw [e]))
  obtain ⟨h2, hlast, hun2, hpv2, hnx2, hf2⟩ := hsnd
  refine ⟨h2, ?_, ?_, ?_, ?_, ?_⟩
  · simp only [llRemoveLast, Option.bind_eq_bind, hroot, hun1, hlast, hun2, Option.bind_some]
  · apply Rep.remove hr
    · intro m; rw [hf2.2.1, hf1.2.1]
    · intro a ha; rw [hnx2, hnx1, if_pos ha]
    · intro b hb; rw [hpv2, if_pos hb]
    · intro m _ ha; rw [hnx2, hnx1, if_neg ha]
    · intro m _ hb; rw [hpv2, if_neg hb, hpv1]
  · intro m; rw [hf2.1, hf1.1]
  · intro m; rw [hf2.2.1, hf1.2.1]
  · intro m hm
    rw [hf2.2.2 m (fun e => hm (.inr e)), hf1.2.2 m (fun e => hm (.inl e))]

/-- **C18**: `LLRemove(node, root)` (and `AltLLRemove`) unlinks exactly that node and keeps `root` at the head. -/
theorem C18_remove (h : Mem α) (A B : List Nat) (n : Nat) (hr : Rep h (A ++ n :: B)) :
    ∃ h', llRemove h n (A ++ n :: B).head? = some (h', (A ++ B).head?) ∧ Rep h' (A ++ B) ∧
      Frame h h' (fun m => A.getLast? = some m ∨ B.head? = some m) := by
  obtain ⟨h', e, rest⟩ := C18_removeLast h A B n hr
  refine ⟨h', ?_, rest⟩
  simp only [llRemoveLast, Option.bind_eq_bind, Option.bind_eq_some_iff] at e
  obtain ⟨r, e1, h1, e2, l, e3, h2, e4, e5⟩ := e
  cases e5
  simp only [llRemove, Option.bind_eq_bind, e1, e2, e4, Option.bind_some]

/-- **C18**: `LLRemove(node)` unlinks exactly that node. -/
theorem C18_removeNoRoot (h : Mem α) (A B : List Nat) (n : Nat) (hr : Rep h (A ++ n :: B)) :
    ∃ h', llRemoveNoRoot h n = some h' ∧ Rep h' (A ++ B) ∧
      Frame h h' (fun m => A.getLast? = some m ∨ B.head? = some m) := by
  obtain ⟨h', e, rest⟩ := C18_removeLast h A B n hr
  refine ⟨h', ?_, rest⟩
  simp only [llRemoveLast, Option.bind_eq_bind, Option.bind_eq_some_iff] at e
  obtain ⟨r, e1, h1, e2, l, e3, h2, e4, e5⟩ := e
  cases e5
  simp only [llRemoveNoRoot, Option.bind_eq_bind, e2, e4, Option.bind_some]

/-- **C18**: a list in memory is what iterating shows: `for(n = root; n; n = n->next)` visits exactly its nodes in order
and following `prev` from `last` visits them in reverse. -/
theorem C18_traversal (h : Mem α) (l : List Nat) (hr : Rep h l) (n : Nat) (hn : l.length ≤ n) :
    walk (nx h) n l.head? = l ∧ walk (pv h) n l.getLast? = l.reverse :=
  ⟨hr.1.walk_forward n hn, hr.1.walk_backward n hn⟩

/-- The three-node list 5, 7, 9 and a detached node 4. -/
def exMem : Mem Nat := fun q => match q with
  | 5 => some ⟨some 7, none, 50⟩
  | 7 => some ⟨some 9, some 5, 70⟩
  | 9 => some ⟨none, some 7, 90⟩
  | 4 => some ⟨none, none, 40⟩
  | _ => none

theorem exMem_rep : Rep exMem [5, 7, 9] := by
  refine ⟨⟨by decide, fun A x B he => ?_⟩, by decide⟩
  match A, he with
  | [], he => simp at he; obtain ⟨rfl, rfl⟩ := he; decide
  | [a], he => simp at he; obtain ⟨rfl, rfl, rfl⟩ := he; decide
  | [a, b], he => simp at he; obtain ⟨rfl, rfl, rfl, rfl⟩ := he; decide
  | a :: b :: c :: A, he => simp at he

example : ∃ h', llInsert exMem 4 7 (some 5) = some (h', some 5) ∧ Rep h' [5, 4, 7, 9] :=
  have ⟨h', e, r, _⟩ := C18_insert exMem [5] [9] 7 4 exMem_rep (by decide) (by decide)
  ⟨h', e, r⟩

example : ∃ h', llRemoveLast exMem 5 (some 5) (some 9) = some (h', some 7, some 9) ∧ Rep h' [7, 9] :=
  have ⟨h', e, r, _⟩ := C18_removeLast exMem [] [7, 9] 5 exMem_rep
  ⟨h', e, r⟩

end Verif.Linked
