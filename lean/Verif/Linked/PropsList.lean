import Verif.Linked.PropsLL
import Mathlib.Tactic.Tauto

/-!
# `LinkedList` as a sequence (C19)

A world of list objects sharing one heap.  The specification keeps, for every list object, the sequence of its nodes
(address and item); `SStep` says what each operation must do to those sequences.
-/

namespace Verif.Linked
variable {α : Type}

/-! ## Specification -/

/-- The public operations.  `i`, `j` name list objects, `a` / `as` the addresses the allocator hands out. -/
inductive LOp (α : Type) where
  | add (i a : Nat) (x : α)
  | insertFront (i a : Nat) (x : α)
  | insertBefore (i a : Nat) (x : α) (t : Nat)
  | insertNull (i a : Nat) (x : α)
  | remove (i p : Nat)
  | clear (i : Nat)
  | append (i j : Nat) (as : List Nat)
  | assign (i j : Nat) (as : List Nat)
  | moveAssign (i j : Nat)

/-- The value of every list object: nodes with their items, in order. -/
abbrev Seqs (α : Type) := Nat → List (Nat × α)

/-- Replace the value of list `i`. -/
def put {β : Type} (f : Nat → β) (i : Nat) (v : β) : Nat → β := fun j => if j = i then v else f j

/-- `a` is the address of no node. -/
def FreshIn (s : Seqs α) (a : Nat) : Prop := ∀ i, ∀ e ∈ s i, e.1 ≠ a

/-- The specification.  `add1 l (a, x)` is the sequence `l` after adding `x` at address `a`. -/
inductive SStep (add1 : List (Nat × α) → Nat × α → List (Nat × α)) : LOp α → Seqs α → Seqs α → Prop where
  | add {s i a x} : FreshIn s a → SStep add1 (.add i a x) s (put s i (add1 (s i) (a, x)))
  | insertFront {s i a x} : FreshIn s a → SStep add1 (.insertFront i a x) s (put s i ((a, x) :: s i))
  | insertBefore {s i a x t y A B} : FreshIn s a → s i = A ++ (t, y) :: B →
      SStep add1 (.insertBefore i a x t) s (put s i (A ++ (a, x) :: (t, y) :: B))
  | insertNull {s i a x} : FreshIn s a → SStep add1 (.insertNull i a x) s (put s i (add1 (s i) (a, x)))
  | remove {s i p x A B} : s i = A ++ (p, x) :: B → SStep add1 (.remove i p) s (put s i (A ++ B))
  | clear {s i} : SStep add1 (.clear i) s (put s i [])
  | append {s i j as} : i ≠ j → as.Nodup → as.length = (s j).length → (∀ a ∈ as, FreshIn s a) →
      SStep add1 (.append i j as) s (put s i ((as.zip ((s j).map (·.2))).foldl add1 (s i)))
  | assign {s i j as} : i ≠ j → as.Nodup → as.length = (s j).length → (∀ a ∈ as, FreshIn (put s i []) a) →
      SStep add1 (.assign i j as) s (put s i ((as.zip ((s j).map (·.2))).foldl add1 []))
  | assignSelf {s i as} : SStep add1 (.assign i i as) s s
  | moveAssign {s i j} : i ≠ j → SStep add1 (.moveAssign i j) s (put (put s i (s j)) j [])
  | moveSelf {s i} : SStep add1 (.moveAssign i i) s s

/-- Reflexive-transitive closure of `SStep` along a history. -/
inductive SRun (add1 : List (Nat × α) → Nat × α → List (Nat × α)) : List (LOp α) → Seqs α → Seqs α → Prop where
  | nil {s} : SRun add1 [] s s
  | cons {op ops s s' s''} : SStep add1 op s s' → SRun add1 ops s' s'' → SRun add1 (op :: ops) s s''

/-- What the documentation promises for `Add`: the item goes to the end of the list. -/
def addEnd (l : List (Nat × α)) (e : Nat × α) : List (Nat × α) := l ++ [e]

/-! ## Executing the modelled code -/

/-- A heap and all list objects. -/
structure St (α : Type) where
  mem : Mem α
  lists : Nat → LList

/-- `Add` of the variant selected by `useLast`. -/
def addU (ul : Bool) : Mem α → LList → Nat → α → Option (Mem α × LList) := if ul then add else addNoLast
/-- `Remove` of the variant selected by `useLast`. -/
def removeU (ul : Bool) : Mem α → LList → Nat → Option (Mem α × LList) := if ul then remove else removeNoLast

/-- Run one operation (`LinkedList.h:137-221`).  The loop of `Clear` is
given as many iterations as the list has nodes (needing more would be a failure).  `operator=` checks for
self-assignment (lines 201, 205); the move assignment clears, then steals `_root`, `_last`, `_length` (lines 203-213). -/
def exec (ul : Bool) (op : LOp α) (w : St α) : Option (St α) :=
  match op with
  | .add i a x => (addU ul w.mem (w.lists i) a x).map fun r => ⟨r.1, put w.lists i r.2⟩
  | .insertFront i a x =>
    (insertWith (addU ul) w.mem (w.lists i) a x (w.lists i).root).map fun r => ⟨r.1, put w.lists i r.2⟩
  | .insertBefore i a x t => (insertWith (addU ul) w.mem (w.lists i) a x (some t)).map fun r => ⟨r.1, put w.lists i r.2⟩
  | .insertNull i a x => (insertWith (addU ul) w.mem (w.lists i) a x none).map fun r => ⟨r.1, put w.lists i r.2⟩
  | .remove i p => (removeU ul w.mem (w.lists i) p).map fun r => ⟨r.1, put w.lists i r.2⟩
  | .clear i => (clear (w.lists i).length w.mem (w.lists i)).map fun r => ⟨r.1, put w.lists i r.2⟩
  | .append i j as =>
    (appendLoop (addU ul) as w.mem (w.lists i) (w.lists j).root).map fun r => ⟨r.1, put w.lists i r.2⟩
  | .assign i j as =>
    if i = j then some w
    else (clear (w.lists i).length w.mem (w.lists i)).bind fun r =>
      (appendLoop (addU ul) as r.1 r.2 (w.lists j).root).map fun r => ⟨r.1, put w.lists i r.2⟩
  | .moveAssign i j =>
    if i = j then some w
    else (clear (w.lists i).length w.mem (w.lists i)).map fun r => ⟨r.1, put (put w.lists i (w.lists j)) j ⟨none, none, 0⟩⟩

/-- Run a history. -/
def execAll (ul : Bool) : List (LOp α) → St α → Option (St α)
  | [], w => some w
  | op :: ops, w => (exec ul op w).bind (execAll ul ops)

/-! ## Representation -/

def nodes (s : List (Nat × α)) : List Nat := s.map (·.1)

/-- The heap holds the list `s`. -/
def RepL (h : Mem α) (s : List (Nat × α)) : Prop := Rep h (nodes s) ∧ ∀ e ∈ s, item h e.1 = some e.2

/-- The list object describes `s`: `Front`, `Back` (when tracked) and `Length`. -/
def Obj (ul : Bool) (L : LList) (s : List (Nat × α)) : Prop :=
  L.root = (nodes s).head? ∧ (ul = true → L.last = (nodes s).getLast?) ∧ L.length = s.length

/-- The heap and the list objects hold exactly the sequences `s`: every list is well formed, no node is shared between
lists, and every allocated node belongs to some list (nothing leaks). -/
structure Holds (ul : Bool) (w : St α) (s : Seqs α) : Prop where
  rep : ∀ i, RepL w.mem (s i)
  obj : ∀ i, Obj ul (w.lists i) (s i)
  disj : ∀ i j p, i ≠ j → p ∈ nodes (s i) → p ∉ nodes (s j)
  noleak : ∀ p, (w.mem p).isSome → ∃ i, p ∈ nodes (s i)

/-- How changing list `s` into `s'` affects the heap. -/
def Eff (h h' : Mem α) (s s' : List (Nat × α)) : Prop :=
  RepL h' s' ∧ (∀ m, m ∉ nodes s → m ∉ nodes s' → h' m = h m) ∧ (∀ m, m ∈ nodes s → m ∉ nodes s' → h' m = none)

theorem nodes_append (s t : List (Nat × α)) : nodes (s ++ t) = nodes s ++ nodes t := List.map_append
theorem nodes_cons (e : Nat × α) (s : List (Nat × α)) : nodes (e :: s) = e.1 :: nodes s := rfl
theorem nodes_nil : nodes ([] : List (Nat × α)) = [] := rfl

theorem Rep.congr {h h' : Mem α} {l : List Nat} (hr : Rep h l) (he : ∀ m ∈ l, h' m = h m) : Rep h' l :=
  ⟨hr.1.congr (fun m hm => by simp [nx, he m hm]) (fun m hm => by simp [pv, he m hm]),
    fun x hx => by rw [he x hx]; exact hr.2 x hx⟩

theorem mem_nodes {s : List (Nat × α)} {e : Nat × α} (h : e ∈ s) : e.1 ∈ nodes s := List.mem_map.2 ⟨e, h, rfl⟩

theorem RepL.congr {h h' : Mem α} {s : List (Nat × α)} (hr : RepL h s) (he : ∀ m ∈ nodes s, h' m = h m) : RepL h' s :=
  ⟨hr.1.congr he, fun e hm => by
    have := hr.2 e hm
    unfold item at this ⊢
    rw [he _ (mem_nodes hm)]
    exact this⟩

theorem put_self {β : Type} (f : Nat → β) (i : Nat) (v : β) : put f i v i = v := by simp [put]
theorem put_ne {β : Type} {f : Nat → β} {i j : Nat} (v : β) (h : j ≠ i) : put f i v j = f j := by simp [put, h]

theorem Holds.step {ul : Bool} {w : St α} {s : Seqs α} (hH : Holds ul w s) {i : Nat} {h' : Mem α} {L' : LList}
    {s' : List (Nat × α)} (he : Eff w.mem h' (s i) s') (ho : Obj ul L' s')
    (hf : ∀ p ∈ nodes s', p ∈ nodes (s i) ∨ w.mem p = none) : Holds ul ⟨h', put w.lists i L'⟩ (put s i s') := by
  have key : ∀ j, j ≠ i → ∀ p ∈ nodes (s j), p ∉ nodes (s i) ∧ p ∉ nodes s' := by
    intro j hj p hp
    have h1 := hH.disj j i p hj hp
    refine ⟨h1, fun hc => ?_⟩
    rcases hf p hc with hc | hc
    · exact h1 hc
    · have := (hH.rep j).1.2 p hp
      rw [hc] at this
      cases this
  constructor
  · intro j
    by_cases hj : j = i
    · subst hj; rw [put_self]; exact he.1
    · rw [put_ne _ hj]
      exact (hH.rep j).congr fun m hm => he.2.1 m (key j hj m hm).1 (key j hj m hm).2
  · intro j
    by_cases hj : j = i
    · subst hj; simp only [put_self]; exact ho
    · simp only [put_ne _ hj]; exact hH.obj j
  · intro j k p hjk hp
    by_cases hj : j = i
    · subst hj
      rw [put_self] at hp
      rw [put_ne _ (Ne.symm hjk)]
      exact fun hc => (key k (Ne.symm hjk) p hc).2 hp
    · rw [put_ne _ hj] at hp
      by_cases hk : k = i
      · subst hk; rw [put_self]; exact (key j hj p hp).2
      · rw [put_ne _ hk]; exact hH.disj j k p hjk hp
  · intro p hp
    simp only at hp
    by_cases h1 : p ∈ nodes s'
    · exact ⟨i, by rw [put_self]; exact h1⟩
    · by_cases h2 : p ∈ nodes (s i)
      · rw [he.2.2 p h2 h1] at hp; cases hp
      · rw [he.2.1 p h2 h1] at hp
        obtain ⟨j, hj⟩ := hH.noleak p hp
        have : j ≠ i := by rintro rfl; exact h2 hj
        exact ⟨j, by rw [put_ne _ this]; exact hj⟩

/-- What `Add` of each variant does to the sequence. -/
def addSpec (ul : Bool) (l : List (Nat × α)) (e : Nat × α) : List (Nat × α) := if ul then addEnd l e else e :: l

theorem allocNode_eq {h : Mem α} {a : Nat} (ha : h a = none) (nd : Node α) :
    allocNode h a nd = some fun q => if q = a then some nd else h q := by simp [allocNode, ha]

theorem not_mem_of_none {h : Mem α} {s : List (Nat × α)} (hr : RepL h s) {a : Nat} (ha : h a = none) : a ∉ nodes s := by
  intro hc
  have := hr.1.2 a hc
  rw [ha] at this
  cases this

/-- From the memory part of an insertion to `Eff`. -/
theorem eff_insert {h h0 h' : Mem α} {A B : List (Nat × α)} {a : Nat} {x : α} (hr : RepL h (A ++ B)) (ha : h a = none)
    (h0ne : ∀ q, q ≠ a → h0 q = h q) (h0a : item h0 a = some x)
    (hrep : Rep h' (nodes A ++ a :: nodes B)) (P : Nat → Prop) (hf : Frame h0 h' P)
    (hP : ∀ m, P m → m = a ∨ m ∈ nodes (A ++ B)) : Eff h h' (A ++ B) (A ++ (a, x) :: B) := by
  have hna := not_mem_of_none hr ha
  refine ⟨⟨by simpa [nodes_append, nodes_cons] using hrep, ?_⟩, ?_, ?_⟩
  · intro e he
    rw [hf.1]
    have : e = (a, x) ∨ e ∈ A ++ B := by simp at he ⊢; tauto
    rcases this with rfl | h1
    · exact h0a
    · have hne : e.1 ≠ a := fun hc => hna (hc ▸ mem_nodes h1)
      have := hr.2 e h1
      unfold item at this ⊢
      rw [h0ne _ hne]
      exact this
  · intro m h1 h2
    have hma : m ≠ a := by rintro rfl; simp [nodes_append, nodes_cons] at h2
    rw [hf.2.2 m, h0ne m hma]
    intro hp
    rcases hP m hp with h3 | h3
    · exact hma h3
    · exact h1 h3
  · intro m h1 h2
    exfalso
    apply h2
    simp [nodes_append, nodes_cons] at h1 ⊢
    tauto

theorem repl_alloc {h : Mem α} {s : List (Nat × α)} (hr : RepL h s) {a : Nat} (ha : h a = none) (nd : Node α) :
    Rep (fun q => if q = a then some nd else h q) (nodes s) :=
  hr.1.congr fun m hm => by
    have : m ≠ a := by rintro rfl; exact not_mem_of_none hr ha hm
    simp [this]

theorem add_ok (ul : Bool) {h : Mem α} {L : LList} {s : List (Nat × α)} (hr : RepL h s) (ho : Obj ul L s) {a : Nat}
    (ha : h a = none) (x : α) :
    ∃ h' L', addU ul h L a x = some (h', L') ∧ Eff h h' s (addSpec ul s (a, x)) ∧ Obj ul L' (addSpec ul s (a, x)) := by
  have hna := not_mem_of_none hr ha
  cases ul with
  | false =>
    simp only [addU, addNoLast, allocNode_eq ha, addSpec, Option.bind_eq_bind, Option.bind_some, Bool.false_eq_true, if_false]
    have hr0 := repl_alloc hr ha ⟨none, none, x⟩
    obtain ⟨h', e, hrep, hf⟩ := C18_add _ (nodes s) a hr0 hna (by simp)
    rw [ho.1, e]
    refine ⟨_, _, rfl, ?_, rfl, by simp, by simp [ho.2.2]⟩
    refine eff_insert (A := []) (B := s) hr ha (fun q hq => by simp [hq]) (by simp [item]) hrep _ hf ?_
    rintro m (h1 | h1)
    · exact .inl h1
    · exact .inr (mem_head h1)
  | true =>
    have hlast := ho.2.1 rfl
    have hr0 := repl_alloc hr ha ⟨none, none, x⟩
    obtain ⟨h', e, hrep, hf⟩ := C18_addAfterRoot _ (nodes s) a hr0 hna (by simp)
    have heff : Eff h h' s (addEnd s (a, x)) := by
      have hrs : RepL h (s ++ []) := by simpa using hr
      have := eff_insert (A := s) (B := []) (x := x) hrs ha (fun q hq => by simp [hq]) (by simp [item]) hrep _ hf ?_
      · simpa [addEnd] using this
      · rintro m (h1 | h1)
        · exact .inl h1
        · exact .inr (by simpa using mem_last h1)
    simp only [addU, add, allocNode_eq ha, addSpec, Option.bind_eq_bind, Option.bind_some, if_true]
    cases s with
    | nil =>
      rw [ho.1]
      simp only [nodes_nil, List.head?_nil, List.getLast?_nil, llAddAfterRoot, Option.bind_eq_bind] at e ⊢
      rw [Option.bind_eq_some_iff] at e
      obtain ⟨h1, e1, e⟩ := e
      rw [Option.bind_eq_some_iff] at e
      obtain ⟨h2, e2, e⟩ := e
      simp only [Option.some.injEq, Prod.mk.injEq] at e
      rw [e1]; simp only [Option.bind_some]; rw [e2]; simp only [Option.bind_some, e.1]
      exact ⟨_, _, rfl, heff, rfl, fun _ => rfl, by simp [ho.2.2, addEnd]⟩
    | cons b s =>
      rw [ho.1, hlast]
      obtain ⟨l, hl⟩ : ∃ l, (nodes (b :: s)).getLast? = some l := by
        simp [nodes_cons, List.getLast?_cons]
      rw [hl] at e ⊢
      simp only [nodes_cons, List.head?_cons, Option.bind_some, llAddAfter, llAddAfterRoot, Option.bind_eq_bind] at e ⊢
      rw [Option.bind_eq_some_iff] at e
      obtain ⟨h1, e1, e⟩ := e
      rw [Option.bind_eq_some_iff] at e
      obtain ⟨h2, e2, e⟩ := e
      rw [Option.bind_eq_some_iff] at e
      obtain ⟨h3, e3, e⟩ := e
      simp only [Option.some.injEq, Prod.mk.injEq] at e
      rw [e1]; simp only [Option.bind_some]; rw [e2]; simp only [Option.bind_some, e3, e.1]
      refine ⟨_, _, rfl, heff, rfl, fun _ => ?_, by simp [ho.2.2, addEnd]⟩
      simp [addEnd, nodes_append, nodes_cons, nodes_nil, List.getLast?_cons]

theorem insert_ok (ul : Bool) {h : Mem α} {L : LList} {A B : List (Nat × α)} {t : Nat} {y : α}
    (hr : RepL h (A ++ (t, y) :: B)) (ho : Obj ul L (A ++ (t, y) :: B)) {a : Nat} (ha : h a = none) (x : α) :
    ∃ h' L', insertWith (addU ul) h L a x (some t) = some (h', L') ∧
      Eff h h' (A ++ (t, y) :: B) (A ++ (a, x) :: (t, y) :: B) ∧ Obj ul L' (A ++ (a, x) :: (t, y) :: B) := by
  have hna := not_mem_of_none hr ha
  have htn : t ∈ nodes (A ++ (t, y) :: B) := by simp [nodes_append, nodes_cons]
  have ht : (h t).isSome := hr.1.some htn
  have hta : t ≠ a := by rintro rfl; exact hna htn
  have hpt : pv h t = (nodes A).getLast? := by
    have := hr.1; rw [nodes_append, nodes_cons] at this; exact this.prev
  -- the fresh node already carries its links
  have hr0 : Rep (fun q => if q = a then some ⟨some t, (nodes A).getLast?, x⟩ else h q) (nodes A ++ t :: nodes B) := by
    have := repl_alloc hr ha ⟨some t, (nodes A).getLast?, x⟩
    rwa [nodes_append, nodes_cons] at this
  generalize h0e : (fun q => if q = a then some (⟨some t, (nodes A).getLast?, x⟩ : Node α) else h q) = h0 at hr0
  have h0a : h0 a = some ⟨some t, (nodes A).getLast?, x⟩ := by simp [← h0e]
  have h0ne : ∀ q, q ≠ a → h0 q = h q := fun q hq => by simp [← h0e, hq]
  have hna' : a ∉ nodes A ++ t :: nodes B := by simpa [nodes_append, nodes_cons] using hna
  obtain ⟨h', e, hrep, hf⟩ := C18_insert h0 (nodes A) (nodes B) t a hr0 hna' (by simp [h0a])
  have heff : Eff h h' (A ++ (t, y) :: B) (A ++ (a, x) :: (t, y) :: B) := by
    refine eff_insert hr ha h0ne (by simp [item, h0a]) hrep _ hf ?_
    rintro m (h1 | h1 | h1)
    · exact .inl h1
    · subst h1; exact .inr htn
    · exact .inr (by rw [nodes_append]; exact List.mem_append_left _ (mem_last h1))
  -- writing the same links again changes nothing
  have hw1 : wrPrev h0 a (nodes A).getLast? = some h0 := by
    simp only [wrPrev, h0a, Option.map_some, Option.some.injEq]
    funext q; by_cases hq : q = a
    · simp [hq, h0a]
    · simp [hq]
  have hw2 : wrNext h0 a (some t) = some h0 := by
    simp only [wrNext, h0a, Option.map_some, Option.some.injEq]
    funext q; by_cases hq : q = a
    · simp [hq, h0a]
    · simp [hq]
  have ht0 : (h0 t).isSome := by rw [h0ne t hta]; exact ht
  have hpt0 : pv h0 t = (nodes A).getLast? := hr0.prev
  simp only [llInsert, Option.bind_eq_bind, rdPrev_eq ht0, Option.bind_some, hpt0, hw1, hw2] at e
  simp only [insertWith, Option.bind_eq_bind, rdPrev_eq ht, Option.bind_some, hpt, allocNode_eq ha, h0e,
    rdPrev_eq ht0, hpt0]
  have hlen : (A ++ (a, x) :: (t, y) :: B).length = L.length + 1 := by rw [ho.2.2]; simp; omega
  have hlst : (nodes (A ++ (a, x) :: (t, y) :: B)).getLast? = (nodes (A ++ (t, y) :: B)).getLast? := by
    simp only [nodes_append, nodes_cons]
    rw [getLast?_mid, getLast?_mid]
    simp [List.getLast?_cons]
  cases hA : (nodes A).getLast? with
  | none =>
    rw [hA] at e
    simp only at e
    rw [Option.bind_eq_some_iff] at e
    obtain ⟨h2, e2, e⟩ := e
    simp only [Option.some.injEq, Prod.mk.injEq] at e
    simp only [e2, Option.bind_some, e.1]
    refine ⟨_, _, rfl, heff, ?_, ?_, hlen.symm⟩
    · rw [List.getLast?_eq_none_iff] at hA
      simp [nodes_append, nodes_cons, hA]
    · intro hu; rw [hlst]; exact ho.2.1 hu
  | some p =>
    rw [hA] at e
    simp only at e
    rw [Option.bind_eq_some_iff] at e
    obtain ⟨h2, e2, e⟩ := e
    rw [Option.bind_eq_some_iff] at e
    obtain ⟨h3, e3, e⟩ := e
    simp only [Option.some.injEq, Prod.mk.injEq] at e
    simp only [e2, Option.bind_some, e3, e.1]
    refine ⟨_, _, rfl, heff, ?_, ?_, hlen.symm⟩
    · rw [ho.1]
      cases A with
      | nil => simp [nodes_nil] at hA
      | cons b A => simp [nodes_cons]
    · intro hu; rw [hlst]; exact ho.2.1 hu

theorem freeNode_eq {h : Mem α} {a : Nat} (ha : (h a).isSome) :
    freeNode h a = some fun q => if q = a then none else h q := by
  obtain ⟨nd, e⟩ := Option.isSome_iff_exists.1 ha
  simp [freeNode, e]

theorem remove_ok (ul : Bool) {h : Mem α} {L : LList} {A B : List (Nat × α)} {p : Nat} {x : α}
    (hr : RepL h (A ++ (p, x) :: B)) (ho : Obj ul L (A ++ (p, x) :: B)) :
    ∃ h' L', removeU ul h L p = some (h', L') ∧ Eff h h' (A ++ (p, x) :: B) (A ++ B) ∧ Obj ul L' (A ++ B) := by
  have hr1 : Rep h (nodes A ++ p :: nodes B) := by have := hr.1; rwa [nodes_append, nodes_cons] at this
  have hnd := nodup_split hr1.1.1
  have hnp : p ∉ nodes (A ++ B) := by rw [nodes_append]; simp [hnd.1, hnd.2.1]
  obtain ⟨h1, e1, hrep, hf⟩ := C18_removeLast h (nodes A) (nodes B) p hr1
  have hfree := freeNode_eq (h := h1) (a := p) (by rw [hf.2.1]; exact hr1.some (by simp))
  have heff : Eff h (fun q => if q = p then none else h1 q) (A ++ (p, x) :: B) (A ++ B) := by
    have hne : ∀ m ∈ nodes (A ++ B), m ≠ p := by rintro m hm rfl; exact hnp hm
    refine ⟨⟨?_, ?_⟩, ?_, ?_⟩
    · rw [nodes_append]
      refine hrep.congr fun m hm => ?_
      rw [← nodes_append] at hm
      simp [hne m hm]
    · intro e he
      have h2 := hr.2 e (by simp at he ⊢; tauto)
      rw [← hf.1] at h2
      unfold item at h2 ⊢
      simp only [hne e.1 (mem_nodes he), if_false]
      exact h2
    · intro m h2 h3
      have : m ≠ p := by rintro rfl; simp [nodes_append, nodes_cons] at h2
      simp only [this, if_false]
      apply hf.2.2
      rw [nodes_append] at h3
      simp only [List.mem_append, not_or] at h3
      rintro (h4 | h4)
      · exact h3.1 (mem_last h4)
      · exact h3.2 (mem_head h4)
    · intro m h2 h3
      have : m = p := by
        simp only [nodes_append, nodes_cons, List.mem_append, List.mem_cons] at h2 h3
        tauto
      simp [this]
  have hlen : (A ++ B).length = L.length - 1 := by rw [ho.2.2]; simp
  have hroot := ho.1
  rw [nodes_append, nodes_cons] at hroot
  cases ul with
  | true =>
    have hlast := ho.2.1 rfl
    rw [nodes_append, nodes_cons] at hlast
    simp only [removeU, if_true, remove, Option.bind_eq_bind, hroot, hlast, e1, Option.bind_some, hfree]
    exact ⟨_, _, rfl, heff, by rw [nodes_append], fun _ => by rw [nodes_append], hlen.symm⟩
  | false =>
    have e2 : llRemove h p (nodes A ++ p :: nodes B).head? = some (h1, (nodes A ++ nodes B).head?) := by
      simp only [llRemoveLast, Option.bind_eq_bind, Option.bind_eq_some_iff] at e1
      obtain ⟨r, e1, h1, e2, l, e3, h2, e4, e5⟩ := e1
      cases e5
      simp only [llRemove, Option.bind_eq_bind, e1, e2, e4, Option.bind_some]
    simp only [removeU, Bool.false_eq_true, if_false, removeNoLast, Option.bind_eq_bind, hroot, e2, Option.bind_some, hfree]
    exact ⟨_, _, rfl, heff, by rw [nodes_append], by simp, hlen.symm⟩

/-- The loop of `Clear` only needs the forward links. -/
theorem clearLoop_ok : ∀ (l : List Nat) (n : Nat) (h : Mem α), l.Nodup → (∀ x ∈ l, (h x).isSome) →
    (∀ A x B, l = A ++ x :: B → nx h x = B.head?) → l.length ≤ n →
    ∃ h', clearLoop n h l.head? = some h' ∧ (∀ m ∈ l, h' m = none) ∧ ∀ m, m ∉ l → h' m = h m := by
  intro l
  induction l with
  | nil => intro n h _ _ _ _; cases n <;> exact ⟨h, rfl, by simp, by simp⟩
  | cons a l ih =>
    intro n h hnd hs hnx hn
    cases n with
    | zero => simp at hn
    | succ n =>
      have ha := hs a (by simp)
      have hnx1 := hnx [] a l rfl
      rw [List.nodup_cons] at hnd
      simp only [List.head?_cons, clearLoop, Option.bind_eq_bind, rdNext_eq ha, Option.bind_some, hnx1, freeNode_eq ha]
      have hne : ∀ m ∈ l, m ≠ a := by rintro m hm rfl; exact hnd.1 hm
      obtain ⟨h', e, h1, h2⟩ := ih n (fun q => if q = a then none else h q) hnd.2
        (fun x hx => by simp only [hne x hx, if_false]; exact hs x (by simp [hx]))
        (fun A x B he => by
          have hx : x ∈ l := by rw [he]; simp
          have := hnx (a :: A) x B (by simp [he])
          unfold nx at this ⊢
          simp only [hne x hx, if_false]
          exact this) (by simpa using hn)
      refine ⟨h', e, ?_, ?_⟩
      · intro m hm
        rcases List.mem_cons.1 hm with rfl | hm
        · rw [h2 m hnd.1]; simp
        · exact h1 m hm
      · intro m hm
        simp only [List.mem_cons, not_or] at hm
        rw [h2 m hm.2]; simp [hm.1]

theorem clear_ok (ul : Bool) {h : Mem α} {L : LList} {s : List (Nat × α)} (hr : RepL h s) (ho : Obj ul L s) (n : Nat)
    (hn : s.length ≤ n) :
    ∃ h', clear n h L = some (h', LList.empty) ∧ Eff h h' s [] ∧ Obj ul LList.empty ([] : List (Nat × α)) := by
  obtain ⟨h', e, h1, h2⟩ := clearLoop_ok (nodes s) n h hr.1.1.1 hr.1.2 (fun A x B he => (hr.1.1.2 A x B he).1)
    (by simpa [nodes] using hn)
  refine ⟨h', ?_, ⟨⟨⟨WF.nil _ _, by simp [nodes_nil]⟩, by simp⟩, fun m hm _ => h2 m hm, fun m hm _ => h1 m hm⟩,
    rfl, fun _ => rfl, rfl⟩
  simp only [clear, Option.bind_eq_bind, ho.1, e, Option.bind_some]

theorem foldl_nodes (ul : Bool) : ∀ (as : List (Nat × α)) (s : List (Nat × α)) (p : Nat),
    p ∈ nodes (as.foldl (addSpec ul) s) ↔ p ∈ nodes s ∨ p ∈ nodes as := by
  intro as
  induction as with
  | nil => intro s p; simp [nodes_nil]
  | cons a as ih =>
    intro s p
    rw [List.foldl_cons, ih, nodes_cons]
    have : p ∈ nodes (addSpec ul s a) ↔ p ∈ nodes s ∨ p = a.1 := by
      cases ul
      · simp [addSpec, nodes_cons]; tauto
      · simp [addSpec, addEnd, nodes_append, nodes_cons, nodes_nil]
    rw [this, List.mem_cons]
    tauto

theorem append_ok (ul : Bool) : ∀ (r : List (Nat × α)) (as : List Nat) (h : Mem α) (L : LList) (s : List (Nat × α)),
    RepL h s → Obj ul L s → as.Nodup → as.length = r.length → (∀ a ∈ as, h a = none) →
    (∀ e ∈ r, item h e.1 = some e.2 ∧ e.1 ∉ nodes s) → (∀ A x B, nodes r = A ++ x :: B → nx h x = B.head?) →
    ∃ h' L', appendLoop (addU ul) as h L (nodes r).head? = some (h', L') ∧
      Eff h h' s ((as.zip (r.map (·.2))).foldl (addSpec ul) s) ∧ Obj ul L' ((as.zip (r.map (·.2))).foldl (addSpec ul) s) := by
  intro r
  induction r with
  | nil =>
    intro as h L s hr ho _ hlen _ _ _
    have : as = [] := List.length_eq_zero_iff.1 (by simpa using hlen)
    subst this
    exact ⟨h, L, rfl, ⟨hr, fun m _ _ => rfl, fun m h1 h2 => absurd h1 h2⟩, ho⟩
  | cons b r ih =>
    intro as h L s hr ho hnd hlen hfr hrd hnx
    cases as with
    | nil => simp at hlen
    | cons a as =>
      rw [List.nodup_cons] at hnd
      obtain ⟨hb, hbs⟩ := hrd b (by simp)
      have ha := hfr a (by simp)
      obtain ⟨nd, hnd1, hnd2⟩ := Option.map_eq_some_iff.1 hb
      obtain ⟨h1, L1, e1, eff1, ho1⟩ := add_ok ul hr ho ha b.2
      -- what the additions leave alone
      have hba : ∀ e ∈ b :: r, e.1 ≠ a := by
        intro e he hc
        have := (hrd e he).1
        unfold item at this
        rw [hc, ha] at this
        cases this
      have hspec : ∀ p, p ∈ nodes (addSpec ul s (a, b.2)) ↔ p ∈ nodes s ∨ p = a := by
        intro p
        have := foldl_nodes ul [(a, b.2)] s p
        simpa [nodes_cons, nodes_nil] using this
      have hsame : ∀ e ∈ b :: r, h1 e.1 = h e.1 := by
        intro e he
        apply eff1.2.1 _ (hrd e he).2
        rw [hspec]
        rintro (h2 | h2)
        · exact (hrd e he).2 h2
        · exact hba e he h2
      have hbnx : rdNext h1 b.1 = some (nodes r).head? := by
        rw [rdNext_eq (by rw [hsame b (by simp), hnd1]; rfl)]
        have := hnx [] b.1 (nodes r) rfl
        unfold nx at this ⊢
        rw [hsame b (by simp), this]
      obtain ⟨h2, L2, e2, eff2, ho2⟩ := ih as h1 L1 (addSpec ul s (a, b.2)) eff1.1 ho1 hnd.2 (by simpa using hlen)
        (by
          intro a' ha'
          have hne : a' ≠ a := by rintro rfl; exact hnd.1 ha'
          have hnone := hfr a' (by simp [ha'])
          rw [eff1.2.1 a' (not_mem_of_none hr hnone), hnone]
          rw [hspec]
          rintro (h3 | h3)
          · exact not_mem_of_none hr hnone h3
          · exact hne h3)
        (by
          intro e he
          have h3 := hrd e (by simp [he])
          refine ⟨?_, ?_⟩
          · unfold item at h3 ⊢
            rw [hsame e (by simp [he])]
            exact h3.1
          · rw [hspec]
            rintro (h4 | h4)
            · exact h3.2 h4
            · exact hba e (by simp [he]) h4)
        (by
          intro A x B he
          have h3 := hnx (b.1 :: A) x B (by simp [nodes_cons, he])
          have hx : x ∈ nodes r := by rw [he]; simp
          obtain ⟨e, he1, rfl⟩ := List.mem_map.1 hx
          unfold nx at h3 ⊢
          rw [hsame e (by simp [he1])]
          exact h3)
      refine ⟨h2, L2, ?_, ⟨eff2.1, ?_, ?_⟩, ho2⟩
      · simp only [nodes_cons, List.head?_cons, appendLoop, Option.bind_eq_bind, hnd1, Option.bind_some, hnd2, e1, hbnx, e2]
      · intro m h3 h4
        simp only [List.zip_cons_cons, List.foldl_cons, List.map_cons] at h4
        have h5 : m ∉ nodes (addSpec ul s (a, b.2)) := fun hc => h4 ((foldl_nodes ul _ _ m).2 (.inl hc))
        rw [eff2.2.1 m h5 h4, eff1.2.1 m h3 h5]
      · intro m h3 h4
        simp only [List.zip_cons_cons, List.foldl_cons, List.map_cons] at h4
        exact absurd ((foldl_nodes ul _ _ m).2 (.inl ((hspec m).2 (.inl h3)))) h4

/-! ## One step -/

theorem fresh_none {ul : Bool} {w : St α} {s : Seqs α} (hH : Holds ul w s) {a : Nat} (hf : FreshIn s a) : w.mem a = none := by
  cases hm : w.mem a with
  | none => rfl
  | some nd =>
    obtain ⟨i, hi⟩ := hH.noleak a (by rw [hm]; rfl)
    obtain ⟨e, he, hea⟩ := List.mem_map.1 hi
    exact absurd hea (hf i e he)

theorem put_put {β : Type} (f : Nat → β) (i : Nat) (u v : β) : put (put f i u) i v = put f i v := by
  funext j; simp only [put]; split <;> rfl

theorem nodes_zip {as : List Nat} {r : List α} (h : as.length = r.length) : nodes (as.zip r) = as := by
  unfold nodes; rw [List.map_fst_zip]; omega

theorem step_ok (ul : Bool) (op : LOp α) (w : St α) (s s' : Seqs α) (hH : Holds ul w s)
    (hs : SStep (addSpec ul) op s s') :
    ∃ w', exec ul op w = some w' ∧ Holds ul w' s' := by
  have spec_mem : ∀ (l : List (Nat × α)) (e : Nat × α) p, p ∈ nodes (addSpec ul l e) → p ∈ nodes l ∨ p = e.1 := by
    intro l e p hp
    have := (foldl_nodes ul [e] l p).1 hp
    simpa [nodes_cons, nodes_nil] using this
  cases hs with
  | @add _ i a x hf =>
    have ha := fresh_none hH hf
    obtain ⟨h', L', e, heff, ho⟩ := add_ok ul (hH.rep i) (hH.obj i) ha x
    refine ⟨⟨h', put w.lists i L'⟩, by simp [exec, e], hH.step heff ho fun p hp => ?_⟩
    rcases spec_mem _ _ p hp with h | h
    · exact .inl h
    · exact .inr (by rw [h]; exact ha)
  | @insertFront _ i a x hf =>
    have ha := fresh_none hH hf
    have hcase : ∃ h' L', insertWith (addU ul) w.mem (w.lists i) a x (w.lists i).root = some (h', L') ∧
        Eff w.mem h' (s i) ((a, x) :: s i) ∧ Obj ul L' ((a, x) :: s i) := by
      rw [(hH.obj i).1]
      cases hsi : s i with
      | nil =>
        have hr := hH.rep i; have ho := hH.obj i
        rw [hsi] at hr ho
        obtain ⟨h', L', e, heff, ho'⟩ := add_ok ul hr ho ha x
        have : addSpec ul ([] : List (Nat × α)) (a, x) = [(a, x)] := by cases ul <;> rfl
        rw [this] at heff ho'
        exact ⟨h', L', e, heff, ho'⟩
      | cons b l =>
        have hr := hH.rep i; have ho := hH.obj i
        rw [hsi] at hr ho
        exact insert_ok ul (A := []) (t := b.1) (y := b.2) hr ho ha x
    obtain ⟨h', L', e, heff, ho⟩ := hcase
    refine ⟨⟨h', put w.lists i L'⟩, by simp [exec, e], hH.step heff ho fun p hp => ?_⟩
    rw [nodes_cons] at hp
    rcases List.mem_cons.1 hp with h | h
    · exact .inr (by rw [h]; exact ha)
    · exact .inl h
  | @insertBefore _ i a x t y A B hf hsi =>
    have ha := fresh_none hH hf
    have hr := hH.rep i; have ho := hH.obj i
    rw [hsi] at hr ho
    obtain ⟨h', L', e, heff, ho'⟩ := insert_ok ul hr ho ha x
    refine ⟨⟨h', put w.lists i L'⟩, by simp [exec, e], hH.step (by rw [hsi]; exact heff) ho' fun p hp => ?_⟩
    simp only [nodes_append, nodes_cons, List.mem_append, List.mem_cons, hsi] at hp ⊢
    rcases hp with h | h | h | h
    · exact .inl (.inl h)
    · exact .inr (by rw [h]; exact ha)
    · exact .inl (.inr (.inl h))
    · exact .inl (.inr (.inr h))
  | @insertNull _ i a x hf =>
    have ha := fresh_none hH hf
    obtain ⟨h', L', e, heff, ho⟩ := add_ok ul (hH.rep i) (hH.obj i) ha x
    refine ⟨⟨h', put w.lists i L'⟩, by simp [exec, insertWith, e], hH.step heff ho fun p hp => ?_⟩
    rcases spec_mem _ _ p hp with h | h
    · exact .inl h
    · exact .inr (by rw [h]; exact ha)
  | @remove _ i p x A B hsi =>
    have hr := hH.rep i; have ho := hH.obj i
    rw [hsi] at hr ho
    obtain ⟨h', L', e, heff, ho'⟩ := remove_ok ul hr ho
    refine ⟨⟨h', put w.lists i L'⟩, by simp [exec, e], hH.step (by rw [hsi]; exact heff) ho' fun q hq => ?_⟩
    simp only [nodes_append, nodes_cons, List.mem_append, List.mem_cons, hsi] at hq ⊢
    tauto
  | @clear _ i =>
    obtain ⟨h', e, heff, ho⟩ := clear_ok ul (hH.rep i) (hH.obj i) (w.lists i).length (by rw [(hH.obj i).2.2]; exact Nat.le_refl _)
    exact ⟨⟨h', put w.lists i LList.empty⟩, by simp [exec, e], hH.step heff ho (by simp [nodes_nil])⟩
  | @append _ i j as hij hnd hlen hf =>
    have hr := hH.rep j
    obtain ⟨h', L', e, heff, ho⟩ := append_ok ul (s j) as w.mem (w.lists i) (s i) (hH.rep i) (hH.obj i) hnd hlen
      (fun a ha => fresh_none hH (hf a ha))
      (fun e he => ⟨hr.2 e he, hH.disj j i _ (Ne.symm hij) (mem_nodes he)⟩)
      (fun A x B he => (hr.1.1.2 A x B he).1)
    refine ⟨⟨h', put w.lists i L'⟩, by simp [exec, (hH.obj j).1, e], hH.step heff ho fun p hp => ?_⟩
    rcases (foldl_nodes ul _ _ p).1 hp with h | h
    · exact .inl h
    · rw [nodes_zip (by simpa using hlen)] at h
      exact .inr (fresh_none hH (hf p h))
  | @assign _ i j as hij hnd hlen hf =>
    obtain ⟨h1, e1, heff1, ho1⟩ := clear_ok ul (hH.rep i) (hH.obj i) (w.lists i).length (by rw [(hH.obj i).2.2]; exact Nat.le_refl _)
    have hH1 := hH.step heff1 ho1 (by simp [nodes_nil])
    have hr := hH1.rep j
    simp only [put_ne _ (Ne.symm hij)] at hr
    obtain ⟨h', L', e, heff, ho⟩ := append_ok ul (s j) as h1 LList.empty [] heff1.1 ho1 hnd hlen
      (fun a ha => fresh_none hH1 (hf a ha)) (fun e he => ⟨hr.2 e he, by simp [nodes_nil]⟩)
      (fun A x B he => (hr.1.1.2 A x B he).1)
    have hH2 := hH1.step (i := i) (h' := h') (L' := L') (by rw [put_self]; exact heff) ho (fun p hp => by
      rcases (foldl_nodes ul _ _ p).1 hp with h | h
      · simp [nodes_nil] at h
      · rw [nodes_zip (by simpa using hlen)] at h
        exact .inr (fresh_none hH1 (hf p h)))
    rw [put_put, put_put] at hH2
    exact ⟨⟨h', put w.lists i L'⟩, by simp [exec, hij, e1, (hH.obj j).1, e], hH2⟩
  | @assignSelf _ i as => exact ⟨w, by simp [exec], hH⟩
  | @moveAssign _ i j hij =>
    obtain ⟨h1, e1, heff1, ho1⟩ := clear_ok ul (hH.rep i) (hH.obj i) (w.lists i).length (by rw [(hH.obj i).2.2]; exact Nat.le_refl _)
    have hH1 := hH.step heff1 ho1 (by simp [nodes_nil])
    refine ⟨⟨h1, put (put w.lists i (w.lists j)) j ⟨none, none, 0⟩⟩, by simp [exec, hij, e1], ?_⟩
    have hji : j ≠ i := Ne.symm hij
    have hrj := hH1.rep j
    simp only [put_ne _ hji] at hrj
    constructor
    · intro k
      by_cases hkj : k = j
      · subst hkj; rw [put_self]; exact heff1.1
      · rw [put_ne _ hkj]
        by_cases hki : k = i
        · subst hki; rw [put_self]; exact hrj
        · rw [put_ne _ hki]; have := hH1.rep k; rwa [put_ne _ hki] at this
    · intro k
      by_cases hkj : k = j
      · subst hkj; simp only [put_self]; exact ho1
      · simp only [put_ne _ hkj]
        by_cases hki : k = i
        · subst hki; simp only [put_self]; exact hH.obj j
        · simp only [put_ne _ hki]; exact hH.obj k
    · intro k l p hkl
      by_cases hkj : k = j
      · subst hkj; simp [put_self, nodes_nil]
      · rw [put_ne _ hkj]
        by_cases hlj : l = j
        · subst hlj; simp [put_self, nodes_nil]
        · rw [put_ne _ hlj]
          by_cases hki : k = i
          · subst hki; rw [put_self, put_ne _ (Ne.symm hkl)]; exact hH.disj j l p (Ne.symm hlj)
          · rw [put_ne _ hki]
            by_cases hli : l = i
            · subst hli; rw [put_self]; exact hH.disj k j p hkj
            · rw [put_ne _ hli]; exact hH.disj k l p hkl
    · intro p hp
      obtain ⟨k, hk⟩ := hH1.noleak p hp
      by_cases hki : k = i
      · subst hki; simp [put_self, nodes_nil] at hk
      · rw [put_ne _ hki] at hk
        by_cases hkj : k = j
        · subst hkj; exact ⟨i, by rw [put_ne _ hij, put_self]; exact hk⟩
        · exact ⟨k, by rw [put_ne _ hkj, put_ne _ hki]; exact hk⟩
  | @moveSelf _ i => exact ⟨w, by simp [exec], hH⟩

theorem run_ok (ul : Bool) : ∀ (ops : List (LOp α)) (w : St α) (s s' : Seqs α), Holds ul w s →
    SRun (addSpec ul) ops s s' → ∃ w', execAll ul ops w = some w' ∧ Holds ul w' s' := by
  intro ops
  induction ops with
  | nil => intro w s s' hH hr; cases hr; exact ⟨w, rfl, hH⟩
  | cons op ops ih =>
    intro w s s' hH hr
    cases hr with
    | cons h1 h2 =>
      obtain ⟨w1, e1, hH1⟩ := step_ok ul op w s _ hH h1
      obtain ⟨w', e2, hH2⟩ := ih w1 _ s' hH1 h2
      exact ⟨w', by simp [execAll, e1, e2], hH2⟩

/-- No list has any node and nothing is allocated. -/
def St.init : St α := ⟨fun _ => none, fun _ => LList.empty⟩

theorem init_holds (ul : Bool) : Holds ul (St.init : St α) (fun _ => []) :=
  ⟨fun _ => ⟨⟨WF.nil _ _, by simp [nodes_nil]⟩, by simp⟩, fun _ => ⟨rfl, fun _ => rfl, rfl⟩, by simp [nodes_nil],
    by simp [St.init]⟩

/-- What a user of list `i` observes: `Front`, `Back`, `Length`, and the nodes and items met going forward through `next`
and backward through `prev`. -/
def Observes (w : St α) (i : Nat) (l : List (Nat × α)) : Prop :=
  (w.lists i).root = (l.map (·.1)).head? ∧ (w.lists i).last = (l.map (·.1)).getLast? ∧ (w.lists i).length = l.length ∧
  (∀ n, l.length ≤ n → walk (nx w.mem) n (w.lists i).root = l.map (·.1) ∧
    walk (pv w.mem) n (w.lists i).last = (l.map (·.1)).reverse) ∧
  ∀ e ∈ l, item w.mem e.1 = some e.2

/-- **C19**: for lists that track their last node, every history of operations on any number of lists runs without
undefined behaviour and leaves every list showing exactly the sequence given by the documentation (`Add` appends,
`Insert(x, t)` inserts before `t`, `Remove` deletes exactly that node, `+=` and `=` append the items of the other list in
order); every allocated node is in exactly one list, so nothing is leaked or shared. -/
theorem C19_list_is_sequence (ops : List (LOp α)) (s : Seqs α) (hr : SRun addEnd ops (fun _ => []) s) :
    ∃ w, execAll true ops St.init = some w ∧ (∀ i, Observes w i (s i)) ∧
      (∀ p, (w.mem p).isSome ↔ ∃ i, ∃ e ∈ s i, e.1 = p) := by
  obtain ⟨w, e, hH⟩ := run_ok true ops St.init _ s (init_holds true) hr
  refine ⟨w, e, fun i => ?_, fun p => ⟨fun hp => ?_, ?_⟩⟩
  · have ho := hH.obj i
    have hrp := hH.rep i
    refine ⟨ho.1, ho.2.1 rfl, ho.2.2, fun n hn => ?_, hrp.2⟩
    rw [ho.1, ho.2.1 rfl]
    exact C18_traversal w.mem (nodes (s i)) hrp.1 n (by simpa [nodes] using hn)
  · obtain ⟨i, hi⟩ := hH.noleak p hp
    obtain ⟨e, he, hep⟩ := List.mem_map.1 hi
    exact ⟨i, e, he, hep⟩
  · rintro ⟨i, e, he, rfl⟩
    exact (hH.rep i).1.2 _ (mem_nodes he)

/-- Folding `addEnd` is appending: what `+=` does to the sequence in the specification of `C19_list_is_sequence`. -/
theorem foldl_addEnd (r l : List (Nat × α)) : r.foldl addEnd l = l ++ r := by
  induction r generalizing l with
  | nil => simp
  | cons a r ih => rw [List.foldl_cons, ih]; simp [addEnd]

/-- **C19**: `+=` appends the other list's items in order (and keeps this list's nodes and the other list unchanged). -/
theorem C19_append_in_order (s s' : Seqs α) (i j : Nat) (as : List Nat) (hij : i ≠ j)
    (h : SStep addEnd (.append i j as) s s') :
    (s' i).map (·.2) = (s i).map (·.2) ++ (s j).map (·.2) ∧ s' j = s j := by
  cases h with
  | append _ _ hlen _ =>
    rw [put_self, put_ne _ (Ne.symm hij), foldl_addEnd, List.map_append, List.map_snd_zip (by simp; omega)]
    exact ⟨rfl, rfl⟩

/-- **C19** (partial, lists that do not track the last node): the same holds with `Add` *prepending* the item, so `+=` and
`=` leave the items reversed. The documented behaviour ("appends the item to the end of the list") fails, see
`C19_noLast_add_counterexample`. -/
theorem C19_noLast_partial (ops : List (LOp α)) (s : Seqs α) (hr : SRun (fun l e => e :: l) ops (fun _ => []) s) :
    ∃ w, execAll false ops St.init = some w ∧
      (∀ i, (w.lists i).root = ((s i).map (·.1)).head? ∧ (w.lists i).length = (s i).length ∧
        (∀ n, (s i).length ≤ n → walk (nx w.mem) n (w.lists i).root = (s i).map (·.1)) ∧
        ∀ e ∈ s i, item w.mem e.1 = some e.2) ∧
      (∀ p, (w.mem p).isSome ↔ ∃ i, ∃ e ∈ s i, e.1 = p) := by
  obtain ⟨w, e, hH⟩ := run_ok false ops St.init _ s (init_holds false) hr
  refine ⟨w, e, fun i => ?_, fun p => ⟨fun hp => ?_, ?_⟩⟩
  · have ho := hH.obj i
    have hrp := hH.rep i
    refine ⟨ho.1, ho.2.2, fun n hn => ?_, hrp.2⟩
    rw [ho.1]
    exact (C18_traversal w.mem (nodes (s i)) hrp.1 n (by simpa [nodes] using hn)).1
  · obtain ⟨i, hi⟩ := hH.noleak p hp
    obtain ⟨e, he, hep⟩ := List.mem_map.1 hi
    exact ⟨i, e, he, hep⟩
  · rintro ⟨i, e, he, rfl⟩
    exact (hH.rep i).1.2 _ (mem_nodes he)

/-- The items of list `i` from `Front`, following `next`. -/
def itemsOf (w : St α) (i n : Nat) : List (Option α) := (walk (nx w.mem) n (w.lists i).root).map (item w.mem)

/-- **C19**, counterexample: a default `LinkedList` (not tracking the last node) after `Add(1); Add(2)` reads 2, 1. -/
theorem C19_noLast_add_counterexample :
    (execAll false [.add 0 10 1, .add 0 11 2] (St.init : St Nat)).map (fun w => itemsOf w 0 5) = some [some 2, some 1] ∧
    (execAll true [.add 0 10 1, .add 0 11 2] (St.init : St Nat)).map (fun w => itemsOf w 0 5) = some [some 1, some 2] := by
  decide +kernel

/-- **C19**, counterexample: copying a default `LinkedList` reverses it. -/
theorem C19_noLast_copy_counterexample :
    (execAll false [.add 0 10 1, .add 0 11 2, .assign 1 0 [12, 13]] (St.init : St Nat)).map
      (fun w => (itemsOf w 0 5, itemsOf w 1 5)) = some ([some 2, some 1], [some 1, some 2]) := by
  decide +kernel

/-- **C19**, counterexample: `a += a` on a list tracking its last node never ends: however many nodes the allocator hands
out, the loop asks for another one. -/
theorem C19_self_append_counterexample :
    (add (fun _ => none : Mem Nat) LList.empty 0 5).bind (fun r =>
      appendLoop add [1, 2, 3, 4, 5, 6, 7, 8] r.1 r.2 r.2.root |>.map fun _ => ()) = none := by
  decide +kernel

/-- A history with every kind of operation meets the hypothesis of `C19_list_is_sequence`. -/
example : ∃ s : Seqs Nat, SRun addEnd [.add 0 10 1, .insertFront 0 11 2, .insertBefore 0 12 3 10, .add 1 13 4,
    .append 1 0 [14, 15, 16], .remove 0 11, .clear 0, .moveAssign 0 1] (fun _ => []) s ∧
    s 0 = [(13, 4), (14, 2), (15, 3), (16, 1)] ∧ s 1 = [] := by
  refine ⟨_, .cons (.add (by intro i e h; simp at h)) (.cons (.insertFront ?_) (.cons (.insertBefore (y := 1) (A := [(11, 2)]) (B := []) ?_ ?_)
    (.cons (.add ?_) (.cons (.append ?_ ?_ ?_ ?_) (.cons (.remove (x := 2) (A := []) (B := [(12, 3), (10, 1)]) ?_) (.cons .clear (.cons (.moveAssign ?_) .nil))))))), ?_⟩
  all_goals first
    | decide
    | (intro i e he; simp only [put, addEnd] at he; split at he <;> simp at he <;> rcases he with rfl | rfl | rfl <;> decide)
    | (intro i e he; simp only [put, addEnd] at he; split at he <;> simp at he <;> rcases he with rfl | rfl <;> decide)
    | (intro i e he; simp only [put, addEnd] at he; split at he <;> simp at he <;> rcases he with rfl <;> decide)
    | skip
  intro a ha i e he
  simp at ha
  simp only [put, addEnd] at he
  split at he
  · simp at he; subst he; rcases ha with rfl | rfl | rfl <;> decide
  · split at he
    · simp at he; rcases he with rfl | rfl | rfl <;> rcases ha with rfl | rfl | rfl <;> decide
    · simp at he

end Verif.Linked
