/-!
# File names, moves and missing entries of INI documents (C156, C157, C158), `/repo/bss-util/INIstorage.cpp`, `/repo/bss-util/INIsection.cpp`
-/

namespace Verif.IniEnt

/-! ## File names -/

/-- The text behind the last `c`, all of it if there is none: `strrchr` and the `+ 1` after it, `INIstorage.cpp:328-329` and `330-331`. -/
def behindLast (c : Char) (s : List Char) : List Char := (s.reverse.takeWhile (· != c)).reverse

/-- `INIstorage::_setFilePath`, `INIstorage.cpp:326-338`: the path and the file name. A null pointer is undefined behaviour. -/
def setFilePath : Option (List Char) → Option (List Char × List Char)
  | none => none
  | some file =>
    let hold := behindLast '/' file
    let hold := behindLast '\\' hold
    some (file.take (file.length - hold.length), hold)

/-- The name of the file `EndINIEdit` writes, `INIstorage.cpp:290-291`. -/
def target (p : List Char × List Char) : List Char := p.1 ++ p.2

theorem behind_suffix (c : Char) (s : List Char) : behindLast c s <:+ s := by
  have := List.takeWhile_prefix (l := s.reverse) (· != c)
  unfold behindLast
  rw [← List.reverse_prefix, List.reverse_reverse]
  exact this

theorem behind_notMem (c : Char) (s : List Char) : c ∉ behindLast c s := by
  unfold behindLast
  intro h
  rw [List.mem_reverse] at h
  have := List.all_takeWhile (p := (· != c)) (l := s.reverse)
  rw [List.all_eq_true] at this
  have := this c h
  simp at this

/-- What is in front of the rest ends with the character. -/
theorem behind_front (c : Char) (s : List Char) : behindLast c s = s ∨ ∃ p, s = p ++ c :: behindLast c s := by
  unfold behindLast
  have h := List.takeWhile_append_dropWhile (p := (· != c)) (l := s.reverse)
  rcases hd : s.reverse.dropWhile (· != c) with _ | ⟨x, d⟩
  · left
    rw [hd, List.append_nil] at h
    rw [h, List.reverse_reverse]
  · right
    have hx : x = c := by
      have := List.head_dropWhile_not (· != c) (l := s.reverse) (by rw [hd]; simp)
      simp only [hd, List.head_cons] at this
      simpa using this
    subst hx
    rw [hd] at h
    refine ⟨d.reverse, ?_⟩
    have h2 := congrArg List.reverse h
    rw [List.reverse_reverse, List.reverse_append, List.reverse_cons] at h2
    calc s = _ := h2.symm
      _ = _ := by simp

/-- C156: the directory and the name put together are the file that was given, so that saving writes to it; the name contains no separator, and the directory is empty or ends with one. -/
theorem C156_path (file : List Char) :
    ∃ p, setFilePath (some file) = some p ∧ target p = file ∧ '/' ∉ p.2 ∧ '\\' ∉ p.2 ∧ (p.1 = [] ∨ p.1.getLast? = some '/' ∨ p.1.getLast? = some '\\') := by
  refine ⟨_, rfl, ?_, ?_, ?_, ?_⟩
  · unfold target
    dsimp only
    obtain ⟨u, hu⟩ := (behind_suffix '\\' (behindLast '/' file)).trans (behind_suffix '/' file)
    have hl := congrArg List.length hu
    rw [List.length_append] at hl
    have e : file.length - (behindLast '\\' (behindLast '/' file)).length = u.length := by omega
    rw [e]
    generalize behindLast '\\' (behindLast '/' file) = b at *
    subst hu
    rw [List.take_left']
    rfl
  · dsimp only
    intro h
    obtain ⟨u, hu⟩ := behind_suffix '\\' (behindLast '/' file)
    exact behind_notMem '/' file (by rw [← hu]; exact List.mem_append_right _ h)
  · exact behind_notMem '\\' _
  · dsimp only
    have key : ∀ (p : List Char) (c : Char) (b : List Char), file = p ++ c :: b → (file.take (file.length - b.length)).getLast? = some c := by
      intro p c b hf
      have e : file = (p ++ [c]) ++ b := by rw [hf]; simp
      rw [e]
      have e2 : ((p ++ [c]) ++ b).length - b.length = (p ++ [c]).length := by rw [List.length_append]; omega
      rw [e2, List.take_left' rfl]
      simp
    rcases behind_front '\\' (behindLast '/' file) with h | ⟨p, h⟩
    · rw [h]
      rcases behind_front '/' file with h2 | ⟨p, h2⟩
      · left; rw [h2]; simp
      · right; left; exact key p '/' _ h2
    · right; right
      rcases behind_front '/' file with h2 | ⟨q, h2⟩
      · rw [h2] at h
        rw [h2]
        exact key p '\\' _ h
      · refine key (q ++ '/' :: p) '\\' _ ?_
        calc file = q ++ '/' :: behindLast '/' file := h2
          _ = q ++ '/' :: (p ++ '\\' :: behindLast '\\' (behindLast '/' file)) := congrArg (fun x => q ++ '/' :: x) h
          _ = _ := by simp

/-- C156: a document constructed without a file name reads through a null pointer. -/
theorem C156_default_counterexample : setFilePath none = none := rfl

example : setFilePath (some "C:/data\\x/cfg\\a.ini".toList) = some ("C:/data\\x/cfg\\".toList, "a.ini".toList) := by decide +kernel

/-! ## Copies and moves of documents -/

variable {V : Type}

/-- A node of the section list: its contents, and the document its `_parent` points to (documents are known by their address). -/
structure Sec (V : Type) where
  val : V
  parent : Nat

/-- The allocated nodes. -/
abbrev Mem (V : Type) := Nat → Option (Sec V)

/-- `INIstorage`: the list from `_root`, the table of the first instances, the text being edited. -/
structure Store where
  root : List Nat
  table : List Char → Option Nat
  text : Option (List Char)

/-- `INIstorage::_destroy`, `INIstorage.cpp:339-350`: the nodes of the list are freed. -/
def destroy (mem : Mem V) (root : List Nat) : Mem V := fun p => if p ∈ root then none else mem p

/-- An empty document (a moved-from `Hash` is empty). -/
def Store.empty : Store := ⟨[], fun _ => none, none⟩

/-- The move constructor, `INIstorage.cpp:55-61`: the new document and the old one. -/
def moveCtor (src : Store) : Store × Store := (⟨src.root, src.table, src.text⟩, Store.empty)

/-- The move assignment, `INIstorage.cpp:400-416`: the memory and the two documents. `_root` is overwritten before `_destroy()` frees what it leads to. -/
def moveAssign (mem : Mem V) (_dst src : Store) : Mem V × Store × Store :=
  let root := src.root
  let mem := destroy mem root
  (mem, ⟨[], src.table, src.text⟩, Store.empty)

/-- `GetSection(name)`, `INIstorage.cpp:84-95`: `none` if freed memory is read. -/
def getSec (mem : Mem V) (st : Store) (name : List Char) : Option (Option (Sec V)) :=
  match st.table name with
  | none => some none
  | some p => (mem p).map some

/-- A document whose table and list agree on live nodes. -/
structure Sound (mem : Mem V) (st : Store) : Prop where
  live : ∀ p ∈ st.root, (mem p).isSome
  listed : ∀ name p, st.table name = some p → p ∈ st.root

/-- C157: a document constructed from a moved one answers every question as the old one did, the old one is empty, and destroying the old one does no harm. -/
theorem C157_construct_partial (mem : Mem V) (src : Store) (h : Sound mem src) (name : List Char) :
    getSec mem (moveCtor src).1 name = getSec mem src name ∧ getSec mem src name ≠ none ∧ getSec mem (moveCtor src).2 name = some none ∧
    getSec (destroy mem (moveCtor src).2.root) (moveCtor src).1 name = getSec mem src name ∧ (moveCtor src).1.text = src.text := by
  refine ⟨rfl, ?_, rfl, ?_, rfl⟩
  · unfold getSec
    cases hp : src.table name with
    | none => simp
    | some p =>
      have := h.live p (h.listed name p hp)
      simp only
      intro hc
      cases hm : mem p with
      | none => rw [hm] at this; cases this
      | some s => rw [hm] at hc; cases hc
  · have : destroy mem (moveCtor src).2.root = mem := by funext p; simp [destroy, moveCtor, Store.empty]
    rw [this]; rfl

/-- C157 fails for assignment: every section the source had is freed, so that asking the target for it reads freed memory, and the old sections of the target are never freed. -/
theorem C157_assign_false (mem : Mem V) (dst src : Store) (h : Sound mem src) (hd : Sound mem dst) (hdis : ∀ p ∈ dst.root, p ∉ src.root) :
    (∀ name, getSec mem src name ≠ some none → getSec (moveAssign mem dst src).1 (moveAssign mem dst src).2.1 name = none) ∧
    (∀ p ∈ dst.root, ((moveAssign mem dst src).1 p).isSome ∧ p ∉ (moveAssign mem dst src).2.1.root ∧ p ∉ (moveAssign mem dst src).2.2.root) := by
  constructor
  · intro name hn
    unfold getSec at hn ⊢
    cases hp : src.table name with
    | none => rw [hp] at hn; exact absurd rfl hn
    | some p =>
      have := h.listed name p hp
      simp [moveAssign, destroy, hp, this]
  · intro p hp
    refine ⟨?_, by simp [moveAssign], by simp [moveAssign, Store.empty]⟩
    simp only [moveAssign, destroy, if_neg (hdis p hp)]
    exact hd.live p hp

/-- The copy of the nodes in `_copy`, `INIstorage.cpp:352-385`, as far as `_parent` goes: `INIsection(const INIsection&)` copies the pointer, `INIsection.cpp:13`. -/
def copySec (s : Sec V) : Sec V := ⟨s.val, s.parent⟩

/-- `INIsection::EditEntry`, `INIsection.cpp:152-155`: the document that is edited; -1 without a parent. -/
def editTarget (s : Sec V) : Nat := s.parent

/-- C157 fails for editing through a section: after a copy or a move the section still edits the document it came from. -/
theorem C157_parent_false (mem : Mem V) (src : Store) (self : Nat) (h : Sound mem src) (hpar : ∀ p ∈ src.root, ∀ s, mem p = some s → s.parent = self) (name : List Char) :
    (∀ s, getSec mem (moveCtor src).1 name = some (some s) → editTarget s = self) ∧ (∀ s, getSec mem src name = some (some s) → editTarget (copySec s) = self) := by
  have key : ∀ s, getSec mem src name = some (some s) → s.parent = self := by
    intro s hs
    unfold getSec at hs
    cases hp : src.table name with
    | none => rw [hp] at hs; cases hs
    | some p =>
      rw [hp] at hs
      simp only at hs
      cases hm : mem p with
      | none => rw [hm] at hs; cases hs
      | some s' =>
        rw [hm] at hs
        cases hs
        exact hpar p (h.listed name p hp) _ hm
  exact ⟨fun s hs => key s hs, fun s hs => key s hs⟩

example : Sound (fun p => if p = 3 then some (⟨(), 7⟩ : Sec Unit) else none) ⟨[3], fun n => if n = ['a'] then some 3 else none, none⟩ ∧
    getSec (fun p => if p = 3 then some (⟨(), 7⟩ : Sec Unit) else none) ⟨[3], fun n => if n = ['a'] then some 3 else none, none⟩ ['a'] ≠ some none := by
  refine ⟨⟨?_, ?_⟩, ?_⟩
  · intro p hp; simp at hp; simp [hp]
  · intro name p hp; dsimp only at hp; split at hp <;> simp_all
  · simp [getSec]

/-! ## Missing entries -/

/-- All documents of a program with the one static `_entrysentinel` they share, `INIsection.cpp:10`. An entry is known by its document, section and key. -/
structure World (V : Type) where
  ent : Nat → List Char → List Char → Option V
  sentinel : V

/-- `INIstorage::GetEntry`, `INIstorage.h:52`, `INIsection::GetEntry`, `INIsection.cpp:146-150`: what is read through the reference. -/
def World.get (w : World V) (d : Nat) (sec key : List Char) : V := (w.ent d sec key).getD w.sentinel

/-- An assignment through that reference (`INIentry.h:46-48`). -/
def World.assign (w : World V) (d : Nat) (sec key : List Char) (v : V) : World V :=
  match w.ent d sec key with
  | some _ => { w with ent := fun d' s' k' => if d' = d ∧ s' = sec ∧ k' = key then some v else w.ent d' s' k' }
  | none => { w with sentinel := v }

inductive WOp (V : Type) where
  | assign (d : Nat) (sec key : List Char) (v : V)
  | add (d : Nat) (sec key : List Char) (v : V)
  | remove (d : Nat) (sec key : List Char)

/-- Adding and removing entries is only seen through its effect (C105). -/
def World.step (w : World V) : WOp V → World V
  | .assign d s k v => w.assign d s k v
  | .add d s k v => { w with ent := fun d' s' k' => if d' = d ∧ s' = s ∧ k' = k then some v else w.ent d' s' k' }
  | .remove d s k => { w with ent := fun d' s' k' => if d' = d ∧ s' = s ∧ k' = k then none else w.ent d' s' k' }

/-- Specification: the contents after a history, where assigning to an entry that is not there does nothing. -/
def specStep (f : Nat → List Char → List Char → Option V) : WOp V → Nat → List Char → List Char → Option V
  | .assign d s k v => fun d' s' k' => if d' = d ∧ s' = s ∧ k' = k ∧ (f d s k).isSome then some v else f d' s' k'
  | .add d s k v => fun d' s' k' => if d' = d ∧ s' = s ∧ k' = k then some v else f d' s' k'
  | .remove d s k => fun d' s' k' => if d' = d ∧ s' = s ∧ k' = k then none else f d' s' k'

/-- The assignments of a history all go to entries that are there. -/
def Present : List (WOp V) → (Nat → List Char → List Char → Option V) → Prop
  | [], _ => True
  | op :: ops, f => (match op with | .assign d s k _ => (f d s k).isSome | _ => True) ∧ Present ops (specStep f op)

theorem step_ent (w : World V) (op : WOp V) : (w.step op).ent = specStep w.ent op := by
  funext d s k
  cases op with
  | assign d' s' k' v =>
    simp only [World.step, World.assign, specStep]
    cases h : w.ent d' s' k' <;> simp
  | add d' s' k' v => rfl
  | remove d' s' k' => rfl

theorem run_ent (ops : List (WOp V)) (w : World V) : (ops.foldl World.step w).ent = ops.foldl specStep w.ent := by
  induction ops generalizing w with
  | nil => rfl
  | cons op ops ih => rw [List.foldl_cons, ih, step_ent]; rfl

/-- C158: whatever is done, the entries that are there hold what was last put into them; and as long as only entries that are there are assigned to, a missing entry reads as the empty one. -/
theorem C158_missing_partial (ops : List (WOp V)) (w : World V) :
    (∀ d s k v, ops.foldl specStep w.ent d s k = some v → (ops.foldl World.step w).get d s k = v) ∧
    (Present ops w.ent → ∀ d s k, ops.foldl specStep w.ent d s k = none → (ops.foldl World.step w).get d s k = w.sentinel) := by
  constructor
  · intro d s k v h
    unfold World.get
    rw [run_ent, h]; rfl
  · intro hp d s k h
    unfold World.get
    rw [run_ent, h]
    show (ops.foldl World.step w).sentinel = _
    clear h
    induction ops generalizing w with
    | nil => rfl
    | cons op ops ih =>
      obtain ⟨h1, h2⟩ := hp
      rw [List.foldl_cons, ih (w.step op) (by rw [step_ent]; exact h2)]
      cases op with
      | assign d' s' k' v =>
        simp only at h1
        simp only [World.step, World.assign]
        obtain ⟨x, hx⟩ := Option.isSome_iff_exists.1 h1
        rw [hx]
      | add d' s' k' v => rfl
      | remove d' s' k' => rfl

/-- C158 fails: assigning through a missing entry changes what every missing entry of every document reads as, for good. -/
theorem C158_shared_false (w : World V) (d : Nat) (s k : List Char) (v : V) (h : w.ent d s k = none) (d' : Nat) (s' k' : List Char) (h' : w.ent d' s' k' = none) :
    (w.step (.assign d s k v)).get d' s' k' = v := by
  simp [World.step, World.assign, World.get, h, h']

example : Present [.add 0 ['s'] ['k'] 1, .assign 0 ['s'] ['k'] 2, .remove 0 ['s'] ['k']] (fun _ _ _ => (none : Option Nat)) ∧
    ([.add 0 ['s'] ['k'] 1, .assign 0 ['s'] ['k'] 2].foldl World.step (⟨fun _ _ _ => none, 0⟩ : World Nat)).get 0 ['s'] ['k'] = 2 ∧
    ([.assign 0 ['s'] ['k'] 2].foldl World.step (⟨fun _ _ _ => none, 0⟩ : World Nat)).get 1 ['t'] ['u'] = 2 := by
  refine ⟨?_, rfl, rfl⟩
  simp [Present, specStep]

end Verif.IniEnt
