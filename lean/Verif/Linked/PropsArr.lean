import Verif.Linked.PropsList
import Verif.Linked.ArrModel

/-!
# `LinkedArray`: a sequence with stable handles (C17)
-/

namespace Verif.Linked.Arr
open Verif.Linked
variable {α : Type}

/-! ## Specification -/

/-- Public operations. -/
inductive Op (α : Type) where
  | add (x : α)
  | insertAfter (x : α) (i : Option Nat)
  | insertBefore (x : α) (i : Option Nat)
  | remove (i : Nat)
  | set (i : Nat) (x : α)
  | clear
  | setCapacity (n : Nat)

/-- What an operation returns. -/
inductive Ret (α : Type) where
  | handle (i : Nat)
  | value (x : Option α)
  | unit

/-- The value of a linked array: handles with their values, in list order.  `SStep op r s s'`: the operation may return
`r` and must then turn `s` into `s'`.  A handle returned by an insertion must not be in use; everything else is
determined.  Inserting relative to the null index appends. -/
inductive SStep : Op α → Ret α → List (Nat × α) → List (Nat × α) → Prop where
  | add {s x h} : h ∉ s.map (·.1) → SStep (.add x) (.handle h) s (s ++ [(h, x)])
  | afterNull {s x h} : h ∉ s.map (·.1) → SStep (.insertAfter x none) (.handle h) s (s ++ [(h, x)])
  | after {s A B i y x h} : s = A ++ (i, y) :: B → h ∉ s.map (·.1) →
      SStep (.insertAfter x (some i)) (.handle h) s (A ++ (i, y) :: (h, x) :: B)
  | beforeNull {s x h} : h ∉ s.map (·.1) → SStep (.insertBefore x none) (.handle h) s (s ++ [(h, x)])
  | before {s A B i y x h} : s = A ++ (i, y) :: B → h ∉ s.map (·.1) →
      SStep (.insertBefore x (some i)) (.handle h) s (A ++ (h, x) :: (i, y) :: B)
  | remove {s A B i y} : s = A ++ (i, y) :: B → SStep (.remove i) (.value (some y)) s (A ++ B)
  | set {s A B i y x} : s = A ++ (i, y) :: B → SStep (.set i x) .unit s (A ++ (i, x) :: B)
  | clear {s} : SStep .clear .unit s []
  | setCapacity {s n} : SStep (.setCapacity n) .unit s s

/-- The indices used by the operation are live. -/
def Legal (op : Op α) (s : List (Nat × α)) : Prop :=
  match op with
  | .insertAfter _ (some i) | .insertBefore _ (some i) | .remove i | .set i _ => i ∈ s.map (·.1)
  | _ => True

/-- Run an operation of the modelled code. -/
def exec (op : Op α) (w : LArr α) : Option (LArr α × Ret α) :=
  match op with
  | .add x => (add w x).map fun r => (r.1, .handle r.2)
  | .insertAfter x i => (insertAfter w x i).map fun r => (r.1, .handle r.2)
  | .insertBefore x i => (insertBefore w x i).map fun r => (r.1, .handle r.2)
  | .remove i => (remove w i).map fun r => (r.1, .value r.2)
  | .set i x => (setItem w i x).map fun r => (r, .unit)
  | .clear => (clear w).map fun r => (r, .unit)
  | .setCapacity n => (setCapacity w n).map fun r => (r, .unit)

/-- The states reached by histories of legal operations, with the sequence the specification assigns to the history. -/
inductive Reach : LArr α → List (Nat × α) → Prop where
  | init {n w} : mk n = some w → Reach w []
  | step {w s op w' r s'} : Reach w s → Legal op s → exec op w = some (w', r) → SStep op r s s' → Reach w' s'

/-! ## Memory view -/

/-- The array as a memory. -/
def hp (r : List (Cell α)) : Mem (Option α) := fun i => r[i]?

theorem hp_isSome {r : List (Cell α)} {i : Nat} : (hp r i).isSome ↔ i < r.length := by
  simp [hp]

theorem rN_eq {r : List (Cell α)} {i : Nat} (h : i < r.length) : rN r i = some (nx (hp r) i) := by
  simp [rN, nx, hp, h]
theorem rP_eq {r : List (Cell α)} {i : Nat} (h : i < r.length) : rP r i = some (pv (hp r) i) := by
  simp [rP, pv, hp, h]

theorem wN_ok {r : List (Cell α)} {i : Nat} (h : i < r.length) (v : Option Nat) :
    ∃ r', wN r i v = some r' ∧ hp r' = setN (hp r) i v ∧ r'.length = r.length := by
  refine ⟨r.set i { r[i] with next := v }, by simp [wN, h], ?_, by simp⟩
  funext q
  by_cases hq : q = i
  · subst hq; simp [hp, setN, h]
  · simp [hp, setN, hq, List.getElem?_set_ne (Ne.symm hq)]
theorem wP_ok {r : List (Cell α)} {i : Nat} (h : i < r.length) (v : Option Nat) :
    ∃ r', wP r i v = some r' ∧ hp r' = setP (hp r) i v ∧ r'.length = r.length := by
  refine ⟨r.set i { r[i] with prev := v }, by simp [wP, h], ?_, by simp⟩
  funext q
  by_cases hq : q = i
  · subst hq; simp [hp, setP, h]
  · simp [hp, setP, hq, List.getElem?_set_ne (Ne.symm hq)]
theorem wC_ok {r : List (Cell α)} {i : Nat} (h : i < r.length) (c : Cell α) :
    ∃ r', wC r i c = some r' ∧ hp r' = (fun q => if q = i then some c else hp r q) ∧ r'.length = r.length := by
  refine ⟨r.set i c, by simp [wC, h], ?_, by simp⟩
  funext q
  by_cases hq : q = i
  · subst hq; simp [hp, h]
  · simp [hp, hq, List.getElem?_set_ne (Ne.symm hq)]

/-- `f` is the free list: linked through `next` only. -/
def FC (h : Mem (Option α)) (f : List Nat) : Prop := ∀ C x D, f = C ++ x :: D → nx h x = D.head?

theorem FC.congr {h h' : Mem (Option α)} {f : List Nat} (hf : FC h f) (he : ∀ m ∈ f, nx h' m = nx h m) : FC h' f :=
  fun C x D e => by rw [he x (by rw [e]; simp)]; exact hf C x D e

theorem FC.tail {h : Mem (Option α)} {a : Nat} {f : List Nat} (hf : FC h (a :: f)) : FC h f :=
  fun C x D e => hf (a :: C) x D (by simp [e])

/-- The array holds the sequence `q`, and `f` is its free list; other cells may be in neither. -/
structure Part (s : LArr α) (q : List (Nat × α)) (f : List Nat) : Prop where
  rep : Rep (hp s.ref) (nodes q)
  items : ∀ e ∈ q, item (hp s.ref) e.1 = some (some e.2)
  start : s.start = (nodes q).head?
  last : s.last = (nodes q).getLast?
  length : s.length = q.length
  free : s.free = f.head?
  chain : FC (hp s.ref) f
  nodup : (nodes q ++ f).Nodup
  bound : ∀ i ∈ nodes q ++ f, i < s.ref.length

/-- Every cell is live or free. -/
def Inv (s : LArr α) (q : List (Nat × α)) (f : List Nat) : Prop :=
  Part s q f ∧ ∀ i, i < s.ref.length → i ∈ nodes q ++ f

theorem nodup_add {q f : List Nat} {i : Nat} (h : (q ++ f).Nodup) (hi : i ∉ q ++ f) : (q ++ i :: f).Nodup :=
  nodup_insert h hi

theorem addFree_ok {s : LArr α} {q : List (Nat × α)} {f : List Nat} (hP : Part s q f) {i : Nat}
    (hi : i < s.ref.length) (hn : i ∉ nodes q ++ f) :
    ∃ s', addFree s i = some s' ∧ Part s' q (i :: f) ∧ s'.ref.length = s.ref.length ∧
      item (hp s'.ref) i = item (hp s.ref) i := by
  obtain ⟨r, e, hr, hl⟩ := wN_ok hi s.free
  have hs : (hp s.ref i).isSome := hp_isSome.2 hi
  simp only [List.mem_append, not_or] at hn
  refine ⟨{ s with ref := r, free := some i }, by simp [addFree, e], ?_, hl, by simp [hr, item_setN]⟩
  constructor
  · simp only [hr]
    refine hP.rep.congr fun m hm => setN_ne _ ?_
    rintro rfl; exact hn.1 hm
  · intro e he
    simp only [hr, item_setN]
    exact hP.items e he
  · exact hP.start
  · exact hP.last
  · exact hP.length
  · rfl
  · intro C x D he
    simp only [hr, nx_setN hs]
    cases C with
    | nil =>
      simp at he
      rw [if_pos he.1.symm, hP.free, he.2]
    | cons c C =>
      simp at he
      have hx : x ∈ f := by rw [he.2]; simp
      rw [if_neg (by rintro rfl; exact hn.2 hx)]
      exact hP.chain C x D he.2
  · exact nodup_add hP.nodup (by simp [hn])
  · intro j hj
    simp only [hl]
    rcases List.mem_append.1 hj with h | h
    · exact hP.bound j (by simp [h])
    · rcases List.mem_cons.1 h with rfl | h
      · exact hi
      · exact hP.bound j (by simp [h])

theorem setupLoop_ok (start : Nat) : ∀ (n : Nat) (s : LArr α) (q : List (Nat × α)) (f : List Nat), Part s q f →
    (∀ i, start ≤ i → i < start + n → i < s.ref.length ∧ i ∉ nodes q ++ f) →
    ∃ s', setupLoop start n s = some s' ∧ Part s' q (List.range' start n ++ f) ∧ s'.ref.length = s.ref.length := by
  intro n
  induction n with
  | zero => intro s q f hP _; exact ⟨s, rfl, by simpa using hP, rfl⟩
  | succ n ih =>
    intro s q f hP hb
    obtain ⟨hi, hn⟩ := hb (start + n) (by omega) (by omega)
    obtain ⟨s1, e1, hP1, hl1, _⟩ := addFree_ok hP hi hn
    obtain ⟨s2, e2, hP2, hl2⟩ := ih s1 q ((start + n) :: f) hP1 (by
      intro i h1 h2
      obtain ⟨h3, h4⟩ := hb i h1 (by omega)
      refine ⟨by omega, ?_⟩
      simp only [List.mem_append, List.mem_cons, not_or] at h4 ⊢
      exact ⟨h4.1, by omega, h4.2⟩)
    refine ⟨s2, by simp [setupLoop, e1, e2], ?_, by omega⟩
    rw [List.range'_concat]
    simpa using hP2

theorem setCapacity_ok {s : LArr α} {q : List (Nat × α)} {f : List Nat} (hI : Inv s q f) (n : Nat) :
    ∃ s' f', setCapacity s n = some s' ∧ Inv s' q f' ∧ s'.ref.length = max s.ref.length n ∧
      (s.ref.length < n → f' ≠ []) := by
  unfold setCapacity
  split
  · exact ⟨s, f, rfl, hI, by omega, by omega⟩
  · rename_i hn
    have hlen : (s.ref ++ List.replicate (n - s.ref.length) (⟨none, none, none⟩ : Cell α)).length = n := by simp; omega
    have hold : ∀ m, m < s.ref.length →
        hp (s.ref ++ List.replicate (n - s.ref.length) (⟨none, none, none⟩ : Cell α)) m = hp s.ref m := by
      intro m hm; exact List.getElem?_append_left hm
    have hP := hI.1
    have hP1 : Part { s with ref := s.ref ++ List.replicate (n - s.ref.length) ⟨none, none, none⟩ } q f := by
      refine ⟨hP.rep.congr fun m hm => hold m (hP.bound m (by simp [hm])), fun e he => ?_, hP.start, hP.last,
        hP.length, hP.free, hP.chain.congr fun m hm => ?_, hP.nodup, fun i hi => ?_⟩
      · have := hP.items e he
        unfold item at this ⊢
        rw [hold _ (hP.bound _ (by simp [mem_nodes he]))]
        exact this
      · unfold nx; rw [hold _ (hP.bound m (by simp [hm]))]
      · simp only [hlen]; have := hP.bound i hi; omega
    obtain ⟨s2, e2, hP2, hl2⟩ := setupLoop_ok s.ref.length (n - s.ref.length) _ q f hP1 (by
      intro i h1 h2
      refine ⟨by simp only [hlen]; omega, fun hc => ?_⟩
      have := hP.bound i hc
      omega)
    simp only [hlen] at hl2
    refine ⟨s2, List.range' s.ref.length (n - s.ref.length) ++ f, ?_, ⟨hP2, ?_⟩, by omega, ?_⟩
    · simp only [setupChunk, hlen]; exact e2
    · intro i hi
      rw [hl2] at hi
      simp only [List.mem_append, List.mem_range'_1]
      by_cases h : i < s.ref.length
      · have := hI.2 i h
        simp only [List.mem_append] at this
        tauto
      · exact .inr (.inl ⟨by omega, by omega⟩)
    · intro h he
      have := congrArg List.length he
      simp at this
      omega

theorem clear_ok (s : LArr α) : ∃ s', clear s = some s' ∧ ∃ f, Inv s' [] f := by
  have hP : Part (⟨s.ref, 0, none, none, none⟩ : LArr α) [] [] :=
    ⟨⟨WF.nil _ _, by simp [nodes_nil]⟩, by simp, rfl, rfl, rfl, rfl, by intro C x D h; simp at h, by simp [nodes_nil],
      by simp [nodes_nil]⟩
  obtain ⟨s', e, h1, h2⟩ := setupLoop_ok 0 s.ref.length _ [] [] hP (by
    intro i _ h; exact ⟨by simpa using h, by simp [nodes_nil]⟩)
  refine ⟨s', by simpa [clear, setupChunk] using e, _, h1, ?_⟩
  intro i hi
  rw [h2] at hi
  simp [nodes_nil]
  exact hi

theorem mk_ok (n : Nat) : ∃ s : LArr α, mk n = some s ∧ ∃ f, Inv s [] f :=
  clear_ok ⟨List.replicate n ⟨none, none, none⟩, 0, none, none, none⟩

/-- `_insertPrep` takes a cell off the free list, growing the array if there is none. -/
theorem insertPrep_ok {s : LArr α} {q : List (Nat × α)} {f : List Nat} (hI : Inv s q f) :
    ∃ s' cur f', insertPrep s = some (s', cur) ∧ Part s' q f' ∧ cur < s'.ref.length ∧ cur ∉ nodes q ++ f' ∧
      (∀ i, i < s'.ref.length → i = cur ∨ i ∈ nodes q ++ f') ∧ (s.last = s'.last) := by
  have h1 : ∃ s1 f1, (if s.free = none then setCapacity s (Arith.fbnextN s.ref.length) else some s) = some s1 ∧
      Inv s1 q f1 ∧ f1 ≠ [] := by
    split
    · obtain ⟨s1, f1, e, h1, _, h3⟩ := setCapacity_ok hI (Arith.fbnextN s.ref.length)
      exact ⟨s1, f1, e, h1, h3 (by unfold Arith.fbnextN; omega)⟩
    · rename_i h
      refine ⟨s, f, rfl, hI, ?_⟩
      rintro rfl
      exact h hI.1.free
  obtain ⟨s1, f1, e1, hI1, hne⟩ := h1
  cases f1 with
  | nil => exact absurd rfl hne
  | cons cur f' =>
    have hP := hI1.1
    have hcur : cur < s1.ref.length := hP.bound cur (by simp)
    have hnx := hP.chain [] cur f' rfl
    have hnd := hP.nodup
    rw [List.perm_middle.nodup_iff, List.nodup_cons] at hnd
    refine ⟨{ s1 with free := f'.head? }, cur, f', ?_, ?_, hcur, hnd.1, ?_, ?_⟩
    · simp only [insertPrep, e1, Option.bind_some]
      rw [hP.free]
      simp only [List.head?_cons, Option.bind_some, rN_eq hcur, hnx, Option.map_some]
    · exact ⟨hP.rep, hP.items, hP.start, hP.last, hP.length, rfl, hP.chain.tail, hnd.2,
        fun i hi => hP.bound i (by simp only [List.mem_append, List.mem_cons] at hi ⊢; tauto)⟩
    · intro i hi
      have := hI1.2 i hi
      simp only [List.mem_append, List.mem_cons] at this ⊢
      tauto
    · rw [hI.1.last]; exact hP.last.symm

/-- Putting a new node between `A` and `B`, given what the final memory looks like. -/
theorem part_insert {s : LArr α} {A B : List (Nat × α)} {f : List Nat} {cur : Nat} {x : α} {h0 : Mem (Option α)}
    {r : List (Cell α)} {st la : Option Nat} (hP : Part s (A ++ B) f) (hc : cur < s.ref.length)
    (hn : cur ∉ nodes (A ++ B) ++ f) (hall : ∀ i, i < s.ref.length → i = cur ∨ i ∈ nodes (A ++ B) ++ f)
    (hl : r.length = s.ref.length)
    (hit : ∀ m, item (hp r) m = if m = cur then some (some x) else item (hp s.ref) m)
    (h1 : nx (hp r) cur = (nodes B).head?) (h2 : pv (hp r) cur = (nodes A).getLast?)
    (h3 : ∀ a, (nodes A).getLast? = some a → nx (hp r) a = some cur)
    (h4 : ∀ b, (nodes B).head? = some b → pv (hp r) b = some cur)
    (h5 : ∀ m, m ≠ cur → (nodes A).getLast? ≠ some m → nx (hp r) m = nx (hp s.ref) m)
    (h6 : ∀ m, m ≠ cur → (nodes B).head? ≠ some m → pv (hp r) m = pv (hp s.ref) m)
    (hst : st = (nodes (A ++ (cur, x) :: B)).head?) (hla : la = (nodes (A ++ (cur, x) :: B)).getLast?) :
    Inv ⟨r, s.length + 1, st, la, s.free⟩ (A ++ (cur, x) :: B) f := by
  simp only [List.mem_append, not_or] at hn
  have hnod : nodes (A ++ (cur, x) :: B) = nodes A ++ cur :: nodes B := by simp [nodes_append, nodes_cons]
  have hnq : ∀ e ∈ A ++ B, e.1 ≠ cur := fun e he hc => hn.1 (hc ▸ mem_nodes he)
  refine ⟨⟨?_, ?_, hst, hla, ?_, hP.free, ?_, ?_, ?_⟩, ?_⟩
  · rw [hnod]
    have hr := hP.rep
    rw [nodes_append] at hr
    refine Rep.insert hr (by rw [← nodes_append]; exact hn.1) ?_ (hp_isSome.2 hc) h1 h2 h3 h4 h5 h6
    intro m
    rw [Bool.eq_iff_iff, hp_isSome, hp_isSome, hl]
  · intro e he
    rw [hit]
    have : e = (cur, x) ∨ e ∈ A ++ B := by simp at he ⊢; tauto
    rcases this with rfl | h
    · simp
    · rw [if_neg (hnq e h)]; exact hP.items e h
  · simp [hP.length]; omega
  · refine hP.chain.congr fun m hm => ?_
    refine h5 m (by rintro rfl; exact hn.2 hm) fun hc => ?_
    have h7 : m ∈ nodes (A ++ B) := by rw [nodes_append]; exact List.mem_append_left _ (mem_last hc)
    exact (List.nodup_append.1 hP.nodup).2.2 m h7 m hm rfl
  · rw [hnod]
    have := hP.nodup
    rw [nodes_append, List.append_assoc] at this
    rw [List.append_assoc, List.cons_append]
    refine nodup_insert this ?_
    rw [← List.append_assoc, ← nodes_append]
    simp [hn]
  · intro i hi
    simp only [hl]
    have : i = cur ∨ i ∈ nodes (A ++ B) ++ f := by
      rw [hnod] at hi; rw [nodes_append]; simp only [List.mem_append, List.mem_cons] at hi ⊢; tauto
    rcases this with rfl | h
    · exact hc
    · exact hP.bound i h
  · intro i hi
    simp only [hl] at hi
    have := hall i hi
    rw [hnod]; rw [nodes_append] at this
    simp only [List.mem_append, List.mem_cons] at this ⊢; tauto

theorem insertAfter_ok {s : LArr α} {A B : List (Nat × α)} {f : List Nat} (hI : Inv s (A ++ B) f) (x : α)
    (index : Option Nat) (hidx : (if index = none then s.last else index) = (nodes A).getLast?) (hAB : A = [] → B = []) :
    ∃ s' cur f', insertAfter s x index = some (s', cur) ∧ cur ∉ nodes (A ++ B) ∧ Inv s' (A ++ (cur, x) :: B) f' := by
  obtain ⟨s1, cur, f1, e1, hP, hc, hn, hall, hlast⟩ := insertPrep_ok hI
  rw [hlast] at hidx
  have hn' := hn
  simp only [List.mem_append, not_or] at hn'
  obtain ⟨r1, er1, hr1, hl1⟩ := wC_ok hc (⟨none, (nodes A).getLast?, some x⟩ : Cell α)
  have hc1 : cur < r1.length := by omega
  have n1 : nx (hp r1) cur = none := by simp [nx, hr1]
  have p1 : pv (hp r1) cur = (nodes A).getLast? := by simp [pv, hr1]
  have n1' : ∀ m, m ≠ cur → nx (hp r1) m = nx (hp s1.ref) m := fun m hm => by simp [nx, hr1, hm]
  have p1' : ∀ m, m ≠ cur → pv (hp r1) m = pv (hp s1.ref) m := fun m hm => by simp [pv, hr1, hm]
  have i1 : ∀ m, item (hp r1) m = if m = cur then some (some x) else item (hp s1.ref) m := by
    intro m; by_cases hm : m = cur <;> simp [item, hr1, hm]
  have hrep := hP.rep
  rw [nodes_append] at hrep
  simp only [insertAfter, e1, Option.bind_some, hidx, er1]
  cases hA : (nodes A).getLast? with
  | none =>
    rw [List.getLast?_eq_none_iff] at hA
    have hA' : A = [] := by simpa [nodes] using hA
    have hB' := hAB hA'
    subst hA' hB'
    simp only [rN_eq hc1, n1, Option.bind_some, Option.map_some]
    refine ⟨_, cur, f1, rfl, hn'.1, ?_⟩
    refine part_insert (h0 := hp r1) (A := []) (B := []) hP hc hn hall hl1 i1 n1 (by rw [p1]) (by simp [nodes_nil])
      (by simp [nodes_nil]) (fun m hm _ => n1' m hm) (fun m hm _ => p1' m hm) rfl rfl
  | some p =>
    have hpA := mem_last hA
    have hpm : p ∈ nodes (A ++ B) := by rw [nodes_append]; exact List.mem_append_left _ hpA
    have hpl : p < s1.ref.length := hP.bound p (by simp [hpm])
    have hpc : p ≠ cur := by rintro rfl; exact hn'.1 hpm
    have hpn : nx (hp s1.ref) p = (nodes B).head? := by
      obtain ⟨A', hA'⟩ : ∃ A', nodes A = A' ++ [p] := by
        rcases List.eq_nil_or_concat (nodes A) with h | ⟨A', a, h⟩
        · rw [h] at hA; simp at hA
        · rw [h, List.concat_eq_append, List.getLast?_concat] at hA
          cases hA
          exact ⟨A', by rw [h, List.concat_eq_append]⟩
      rw [hA'] at hrep
      have hrep' : Rep (hp s1.ref) (A' ++ p :: nodes B) := by simpa using hrep
      exact hrep'.next
    have hsA : (nodes (A ++ (cur, x) :: B)).head? = (nodes (A ++ B)).head? := by
      cases A with
      | nil => simp [nodes_nil] at hA
      | cons => rfl
    simp only
    rw [rN_eq (by omega), n1' p hpc, hpn]
    obtain ⟨r2, er2, hr2, hl2⟩ := wN_ok hc1 (nodes B).head?
    obtain ⟨r3, er3, hr3, hl3⟩ := wN_ok (r := r2) (i := p) (by omega) (some cur)
    have hs1 : (hp r1 cur).isSome := hp_isSome.2 hc1
    have hs2 : (hp r2 p).isSome := hp_isSome.2 (by omega)
    have n3 : ∀ m, nx (hp r3) m = if m = p then some cur else if m = cur then (nodes B).head? else nx (hp r1) m := by
      intro m; rw [hr3, nx_setN hs2, hr2, nx_setN hs1]
    have p3 : ∀ m, pv (hp r3) m = pv (hp r1) m := by intro m; rw [hr3, pv_setN, hr2, pv_setN]
    have i3 : ∀ m, item (hp r3) m = item (hp r1) m := by intro m; rw [hr3, item_setN, hr2, item_setN]
    simp only [Option.bind_some, er2, er3, Option.map_some]
    rw [rN_eq (by omega), n3, if_neg (Ne.symm hpc), if_pos rfl]
    simp only [Option.bind_some]
    cases hB : (nodes B).head? with
    | none =>
      have hB' : B = [] := by simpa [nodes] using hB
      subst hB'
      simp only [Option.map_some]
      refine ⟨_, cur, f1, rfl, hn'.1, ?_⟩
      refine part_insert (h0 := hp r1) (A := A) (B := []) hP hc hn hall (by omega) (fun m => by rw [i3, i1]) ?_ ?_ ?_ ?_ ?_ ?_ ?_ ?_
      · rw [n3, if_neg (Ne.symm hpc), if_pos rfl]
      · rw [p3, p1]
      · intro a ha; rw [hA] at ha; cases ha; rw [n3, if_pos rfl]
      · intro b hb; rw [hB] at hb; cases hb
      · intro m hm ha
        rw [n3, if_neg (by rintro rfl; exact ha hA), if_neg hm, n1' m hm]
      · intro m hm _; rw [p3, p1' m hm]
      · rw [hP.start, hsA]
      · simp [nodes_append, nodes_cons, nodes_nil]
    | some b =>
      have hbB := mem_head hB
      have hbm : b ∈ nodes (A ++ B) := by rw [nodes_append]; exact List.mem_append_right _ hbB
      have hbl : b < s1.ref.length := hP.bound b (by simp [hbm])
      have hbc : b ≠ cur := by rintro rfl; exact hn'.1 hbm
      obtain ⟨r4, er4, hr4, hl4⟩ := wP_ok (r := r3) (i := b) (by omega) (some cur)
      have hs3 : (hp r3 b).isSome := hp_isSome.2 (by omega)
      simp only [er4, Option.map_some]
      refine ⟨_, cur, f1, rfl, hn'.1, ?_⟩
      refine part_insert (h0 := hp r1) (A := A) (B := B) hP hc hn hall (by omega)
        (fun m => by rw [hr4, item_setP, i3, i1]) ?_ ?_ ?_ ?_ ?_ ?_ ?_ ?_
      · rw [hr4, nx_setP, n3, if_neg (Ne.symm hpc), if_pos rfl]
      · rw [hr4, pv_setP hs3, if_neg (Ne.symm hbc), p3, p1]
      · intro a ha; rw [hA] at ha; cases ha; rw [hr4, nx_setP, n3, if_pos rfl]
      · intro b' hb; rw [hB] at hb; cases hb; rw [hr4, pv_setP hs3, if_pos rfl]
      · intro m hm ha
        rw [hr4, nx_setP, n3, if_neg (by rintro rfl; exact ha hA), if_neg hm, n1' m hm]
      · intro m hm hb
        rw [hr4, pv_setP hs3, if_neg (by rintro rfl; exact hb hB), p3, p1' m hm]
      · rw [hP.start, hsA]
      · rw [hP.last, nodes_append, nodes_append, nodes_cons]
        cases hnB : nodes B with
        | nil => rw [hnB] at hB; simp at hB
        | cons c C =>
          rw [getLast?_mid, getLast?_mid]
          simp [List.getLast?_cons]

theorem insertBefore_ok {s : LArr α} {A B : List (Nat × α)} {f : List Nat} (hI : Inv s (A ++ B) f) (x : α) :
    ∃ s' cur f', insertBefore s x (nodes B).head? = some (s', cur) ∧ cur ∉ nodes (A ++ B) ∧
      Inv s' (A ++ (cur, x) :: B) f' := by
  obtain ⟨s1, cur, f1, e1, hP, hc, hn, hall, hlast⟩ := insertPrep_ok hI
  have hn' := hn
  simp only [List.mem_append, not_or] at hn'
  have hrep := hP.rep
  rw [nodes_append] at hrep
  have hsA : ∀ a, (nodes A).getLast? = some a → (nodes (A ++ (cur, x) :: B)).head? = (nodes (A ++ B)).head? := by
    intro a hA
    cases A with
    | nil => simp [nodes_nil] at hA
    | cons => rfl
  -- the second half, common to both cases
  have fin : ∀ (r : List (Cell α)) (la : Option Nat), r.length = s1.ref.length →
      (∀ m, item (hp r) m = if m = cur then some (some x) else item (hp s1.ref) m) →
      nx (hp r) cur = (nodes B).head? → pv (hp r) cur = (nodes A).getLast? →
      (∀ b, (nodes B).head? = some b → pv (hp r) b = some cur) →
      (∀ m, m ≠ cur → nx (hp r) m = nx (hp s1.ref) m) →
      (∀ m, m ≠ cur → (nodes B).head? ≠ some m → pv (hp r) m = pv (hp s1.ref) m) →
      la = (nodes (A ++ (cur, x) :: B)).getLast? →
      ∃ s' cur' f', ((rP r cur).bind fun p =>
          (match p with
            | none => some (r, some cur)
            | some p => (wN r p (some cur)).map fun r => (r, s1.start)).map fun (r, start) =>
              ((⟨r, s1.length + 1, start, la, s1.free⟩ : LArr α), cur)) = some (s', cur') ∧
        cur' ∉ nodes (A ++ B) ∧ Inv s' (A ++ (cur', x) :: B) f' := by
    intro r la hl hit hnc hpc hb hnx hpv hla
    rw [rP_eq (by omega), hpc]
    simp only [Option.bind_some]
    cases hA : (nodes A).getLast? with
    | none =>
      simp only [Option.map_some]
      refine ⟨_, cur, f1, rfl, hn'.1, ?_⟩
      refine part_insert (h0 := hp r) hP hc hn hall hl hit hnc hpc ?_ hb (fun m hm _ => hnx m hm) hpv ?_ hla
      · intro a ha; rw [hA] at ha; cases ha
      · rw [List.getLast?_eq_none_iff] at hA
        rw [nodes_append, hA]; rfl
    | some p =>
      have hpm : p ∈ nodes (A ++ B) := by rw [nodes_append]; exact List.mem_append_left _ (mem_last hA)
      have hpl : p < s1.ref.length := hP.bound p (by simp [hpm])
      have hpc' : p ≠ cur := by rintro rfl; exact hn'.1 hpm
      obtain ⟨r3, er3, hr3, hl3⟩ := wN_ok (r := r) (i := p) (by omega) (some cur)
      have hs : (hp r p).isSome := hp_isSome.2 (by omega)
      simp only [er3, Option.map_some]
      refine ⟨_, cur, f1, rfl, hn'.1, ?_⟩
      refine part_insert (h0 := hp r) hP hc hn hall (by omega) (fun m => by rw [hr3, item_setN, hit]) ?_ ?_ ?_ ?_ ?_ ?_ ?_ hla
      · rw [hr3, nx_setN hs, if_neg (Ne.symm hpc'), hnc]
      · rw [hr3, pv_setN, hpc]
      · intro a ha; rw [hA] at ha; cases ha; rw [hr3, nx_setN hs, if_pos rfl]
      · intro b h; rw [hr3, pv_setN, hb b h]
      · intro m hm ha; rw [hr3, nx_setN hs, if_neg (by rintro rfl; exact ha hA), hnx m hm]
      · intro m hm h; rw [hr3, pv_setN, hpv m hm h]
      · rw [hP.start, hsA p hA]
  simp only [insertBefore, e1, Option.bind_some]
  cases hB : (nodes B).head? with
  | none =>
    have hB' : B = [] := by simpa [nodes] using hB
    subst hB'
    have hla : s1.last = (nodes A).getLast? := by rw [hP.last]; simp
    obtain ⟨r1, er1, hr1, hl1⟩ := wC_ok hc (⟨none, (nodes A).getLast?, some x⟩ : Cell α)
    simp only [if_true, hla, er1, Option.bind_some]
    refine fin r1 (some cur) hl1 ?_ ?_ ?_ ?_ ?_ ?_ ?_
    · intro m; by_cases hm : m = cur <;> simp [item, hr1, hm]
    · simp [nx, hr1, nodes_nil]
    · simp [pv, hr1]
    · simp [nodes_nil]
    · intro m hm; simp [nx, hr1, hm]
    · intro m hm _; simp [pv, hr1, hm]
    · simp [nodes_append, nodes_cons, nodes_nil]
  | some b =>
    have hbB := mem_head hB
    have hbm : b ∈ nodes (A ++ B) := by rw [nodes_append]; exact List.mem_append_right _ hbB
    have hbl : b < s1.ref.length := hP.bound b (by simp [hbm])
    have hbc : b ≠ cur := by rintro rfl; exact hn'.1 hbm
    obtain ⟨r1, er1, hr1, hl1⟩ := wC_ok hc (⟨some b, none, some x⟩ : Cell α)
    obtain ⟨B', hB'⟩ : ∃ B', nodes B = b :: B' := by
      cases hnB : nodes B with
      | nil => rw [hnB] at hB; simp at hB
      | cons c C => rw [hnB] at hB; cases hB; exact ⟨C, rfl⟩
    have hbp : pv (hp s1.ref) b = (nodes A).getLast? := by rw [hB'] at hrep; exact hrep.prev
    have p1' : ∀ m, m ≠ cur → pv (hp r1) m = pv (hp s1.ref) m := fun m hm => by simp [pv, hr1, hm]
    simp only [reduceCtorEq, if_false, er1, Option.bind_some]
    rw [rP_eq (by omega), p1' b hbc, hbp]
    obtain ⟨r2, er2, hr2, hl2⟩ := wP_ok (r := r1) (i := cur) (by omega) (nodes A).getLast?
    obtain ⟨r3, er3, hr3, hl3⟩ := wP_ok (r := r2) (i := b) (by omega) (some cur)
    have hs1 : (hp r1 cur).isSome := hp_isSome.2 (by omega)
    have hs2 : (hp r2 b).isSome := hp_isSome.2 (by omega)
    simp only [Option.bind_some, er2, er3, Option.map_some]
    have p3 : ∀ m, pv (hp r3) m = if m = b then some cur else if m = cur then (nodes A).getLast? else pv (hp r1) m := by
      intro m; rw [hr3, pv_setP hs2, hr2, pv_setP hs1]
    refine fin r3 s1.last (by omega) ?_ ?_ ?_ ?_ ?_ ?_ ?_
    · intro m; rw [hr3, item_setP, hr2, item_setP]; by_cases hm : m = cur <;> simp [item, hr1, hm]
    · rw [hr3, nx_setP, hr2, nx_setP]; simp [nx, hr1, hB]
    · rw [p3, if_neg (Ne.symm hbc), if_pos rfl]
    · intro b' h; rw [hB] at h; cases h; rw [p3, if_pos rfl]
    · intro m hm; rw [hr3, nx_setP, hr2, nx_setP]; simp [nx, hr1, hm]
    · intro m hm h; rw [p3, if_neg (by rintro rfl; exact h hB), if_neg hm, p1' m hm]
    · rw [hP.last, nodes_append, nodes_append, nodes_cons, hB', getLast?_mid, getLast?_mid]
      simp [List.getLast?_cons]

theorem remove_ok {s : LArr α} {A B : List (Nat × α)} {i : Nat} {y : α} {f : List Nat}
    (hI : Inv s (A ++ (i, y) :: B) f) :
    ∃ s', remove s i = some (s', some y) ∧ Inv s' (A ++ B) (i :: f) := by
  have hP := hI.1
  have hnod : nodes (A ++ (i, y) :: B) = nodes A ++ i :: nodes B := by simp [nodes_append, nodes_cons]
  have hrep := hP.rep
  rw [hnod] at hrep
  have hnd := nodup_split hrep.1.1
  have hi : i < s.ref.length := hP.bound i (by rw [hnod]; simp)
  have hnodup := hP.nodup
  rw [hnod, List.append_assoc, List.cons_append, List.perm_middle.nodup_iff, List.nodup_cons] at hnodup
  rw [← List.append_assoc, ← nodes_append] at hnodup
  -- unlinking backwards
  have hfst : ∃ r1 la, unlinkNext s (nodes B).head? (nodes A).getLast? = some (r1, la) ∧
      r1.length = s.ref.length ∧ (∀ m, nx (hp r1) m = nx (hp s.ref) m) ∧
      (∀ m, pv (hp r1) m = if (nodes B).head? = some m then (nodes A).getLast? else pv (hp s.ref) m) ∧
      (∀ m, item (hp r1) m = item (hp s.ref) m) ∧ la = (nodes (A ++ B)).getLast? := by
    cases hB : (nodes B).head? with
    | none =>
      have hB' : B = [] := by simpa [nodes] using hB
      subst hB'
      exact ⟨s.ref, _, rfl, rfl, by simp, by simp, by simp, by simp⟩
    | some b =>
      have hbm : b ∈ nodes B := mem_head hB
      have hbl : b < s.ref.length := hP.bound b (by rw [hnod]; simp [hbm])
      obtain ⟨r1, er1, hr1, hl1⟩ := wP_ok hbl (nodes A).getLast?
      refine ⟨r1, s.last, by simp [unlinkNext, er1], hl1, fun m => by rw [hr1, nx_setP], fun m => ?_, fun m => by rw [hr1, item_setP], ?_⟩
      · rw [hr1, pv_setP (hp_isSome.2 hbl)]; simp only [Option.some.injEq, eq_comm]
      · rw [hP.last, hnod, nodes_append]
        cases hnB : nodes B with
        | nil => rw [hnB] at hB; simp at hB
        | cons c C => rw [getLast?_mid, getLast?_mid]; simp [List.getLast?_cons]
  obtain ⟨r1, la, e1, hl1, n1, p1, i1, hla⟩ := hfst
  have hsnd : ∃ r2 st, unlinkPrev s r1 (nodes B).head? (nodes A).getLast? = some (r2, st) ∧
      r2.length = s.ref.length ∧ (∀ m, pv (hp r2) m = pv (hp r1) m) ∧
      (∀ m, nx (hp r2) m = if (nodes A).getLast? = some m then (nodes B).head? else nx (hp s.ref) m) ∧
      (∀ m, item (hp r2) m = item (hp s.ref) m) ∧ st = (nodes (A ++ B)).head? := by
    cases hA : (nodes A).getLast? with
    | none =>
      have hA' : A = [] := by simpa [nodes] using hA
      subst hA'
      exact ⟨r1, _, rfl, hl1, by simp, by simp [n1], i1, by simp⟩
    | some p =>
      have hpl : p < s.ref.length := hP.bound p (by rw [hnod]; simp [mem_last hA])
      obtain ⟨r2, er2, hr2, hl2⟩ := wN_ok (r := r1) (i := p) (by omega) (nodes B).head?
      refine ⟨r2, s.start, by simp [unlinkPrev, er2], by omega, fun m => by rw [hr2, pv_setN], fun m => ?_,
        fun m => by rw [hr2, item_setN, i1], ?_⟩
      · rw [hr2, nx_setN (hp_isSome.2 (by omega)), n1]; simp only [Option.some.injEq, eq_comm]
      · rw [hP.start]
        cases A with
        | nil => simp [nodes_nil] at hA
        | cons => rfl
  obtain ⟨r2, st, e2, hl2, p2, n2, i2, hst⟩ := hsnd
  have hpi : pv (hp r1) i = (nodes A).getLast? := by
    rw [p1, if_neg (fun h => hnd.2.1 (mem_head h))]; exact hrep.prev
  have hni : nx (hp r1) i = (nodes B).head? := by rw [n1]; exact hrep.next
  have hPart : Part (⟨r2, s.length - 1, st, la, s.free⟩ : LArr α) (A ++ B) f := by
    refine ⟨?_, ?_, hst, hla, ?_, hP.free, ?_, hnodup.2, ?_⟩
    · rw [nodes_append]
      refine Rep.remove hrep ?_ ?_ ?_ ?_ ?_
      · intro m; rw [Bool.eq_iff_iff, hp_isSome, hp_isSome, hl2]
      · intro a ha; rw [n2, if_pos ha]
      · intro b hb; rw [p2, p1, if_pos hb]
      · intro m _ ha; rw [n2, if_neg ha]
      · intro m _ hb; rw [p2, p1, if_neg hb]
    · intro e he
      rw [i2]
      exact hP.items e (by simp at he ⊢; tauto)
    · simp [hP.length]
    · refine hP.chain.congr fun m hm => ?_
      rw [n2, if_neg]
      intro hc
      exact (List.nodup_append.1 hP.nodup).2.2 m (by rw [hnod]; simp [mem_last hc]) m hm rfl
    · intro j hj
      simp only [hl2]
      exact hP.bound j (by
        rw [nodes_append] at hj; rw [hnod]; simp only [List.mem_append, List.mem_cons] at hj ⊢; tauto)
  obtain ⟨s', e3, hP3, hl3, hi3⟩ := addFree_ok hPart (i := i) (by simp only [hl2]; exact hi) hnodup.1
  refine ⟨s', ?_, hP3, ?_⟩
  · unfold remove
    rw [rN_eq hi, rP_eq hi, hrep.next, hrep.prev]
    simp only [Option.bind_some]
    rw [e1]
    simp only [Option.bind_some]
    rw [rP_eq (by omega), rN_eq (by omega), hpi, hni]
    simp only [Option.bind_some]
    rw [e2]
    simp only [Option.bind_some, e3]
    have hit : item (hp s'.ref) i = some (some y) := by
      rw [hi3, i2]; exact hP.items (i, y) (by simp)
    unfold item hp at hit
    obtain ⟨c, hc1, hc2⟩ := Option.map_eq_some_iff.1 hit
    simp [hc1, hc2]
  · intro j hj
    simp only [hl3, hl2] at hj
    have := hI.2 j hj
    rw [hnod] at this
    rw [nodes_append]
    simp only [List.mem_append, List.mem_cons] at this ⊢
    tauto

theorem set_ok {s : LArr α} {A B : List (Nat × α)} {i : Nat} {y : α} {f : List Nat}
    (hI : Inv s (A ++ (i, y) :: B) f) (x : α) :
    ∃ s', setItem s i x = some s' ∧ Inv s' (A ++ (i, x) :: B) f := by
  have hP := hI.1
  have hn : ∀ z : α, nodes (A ++ (i, z) :: B) = nodes A ++ i :: nodes B := fun z => by simp [nodes_append, nodes_cons]
  have hi : i < s.ref.length := hP.bound i (by rw [hn]; simp)
  have hnx : ∀ m, nx (hp (s.ref.set i { s.ref[i] with item := some x })) m = nx (hp s.ref) m := by
    intro m; unfold nx hp
    by_cases hm : m = i
    · subst hm; simp [hi]
    · rw [List.getElem?_set_ne (Ne.symm hm)]
  have hpv : ∀ m, pv (hp (s.ref.set i { s.ref[i] with item := some x })) m = pv (hp s.ref) m := by
    intro m; unfold pv hp
    by_cases hm : m = i
    · subst hm; simp [hi]
    · rw [List.getElem?_set_ne (Ne.symm hm)]
  have hit : ∀ m, item (hp (s.ref.set i { s.ref[i] with item := some x })) m = if m = i then some (some x) else item (hp s.ref) m := by
    intro m; unfold item hp
    by_cases hm : m = i
    · subst hm; simp [hi]
    · rw [List.getElem?_set_ne (Ne.symm hm), if_neg hm]
  have hnd : (nodes A ++ i :: nodes B).Nodup := by
    have := (List.nodup_append.1 hP.nodup).1; rwa [hn] at this
  have hnd := nodup_split hnd
  refine ⟨{ s with ref := s.ref.set i { s.ref[i] with item := some x } }, by simp [setItem, hi], ⟨?_, ?_, ?_, ?_, ?_, hP.free, ?_, ?_, ?_⟩, ?_⟩
  · have hr := hP.rep
    rw [hn] at hr ⊢
    exact ⟨hr.1.congr (fun m _ => hnx m) (fun m _ => hpv m), fun z hz => by
      rw [hp_isSome, List.length_set]; exact hp_isSome.1 (hr.2 z hz)⟩
  · intro e he
    rw [hit]
    have : e = (i, x) ∨ (e ∈ A ∨ e ∈ B) := by simp at he ⊢; tauto
    rcases this with rfl | h
    · simp
    · have hne : e.1 ≠ i := by
        rintro rfl
        rcases h with h | h
        · exact hnd.1 (mem_nodes h)
        · exact hnd.2.1 (mem_nodes h)
      rw [if_neg hne]
      exact hP.items e (by simp; tauto)
  · have := hP.start; rw [hn] at this ⊢; exact this
  · have := hP.last; rw [hn] at this ⊢; exact this
  · have := hP.length; simpa using this
  · exact hP.chain.congr fun m _ => hnx m
  · have := hP.nodup; rw [hn] at this ⊢; exact this
  · intro j hj
    rw [hn] at hj
    simp only [List.length_set]
    exact hP.bound j (by rw [hn]; exact hj)
  · intro j hj
    simp only [List.length_set] at hj
    have := hI.2 j hj
    rw [hn] at this ⊢; exact this

theorem live_split {s : List (Nat × α)} {i : Nat} (h : i ∈ s.map (·.1)) : ∃ A y B, s = A ++ (i, y) :: B := by
  obtain ⟨e, he, rfl⟩ := List.mem_map.1 h
  obtain ⟨A, B, hs⟩ := List.append_of_mem he
  exact ⟨A, e.2, B, hs⟩

/-- One legal operation never fails, does what the specification says, and keeps the invariant. -/
theorem step_ok {w : LArr α} {s : List (Nat × α)} {f : List Nat} (hI : Inv w s f) {op : Op α} (hl : Legal op s) :
    ∃ w' r s' f', exec op w = some (w', r) ∧ SStep op r s s' ∧ Inv w' s' f' := by
  cases op with
  | add x =>
    have hI' : Inv w (s ++ []) f := by simpa using hI
    obtain ⟨w', cur, f', e, hn, h⟩ := insertAfter_ok hI' x w.last (by
      split
      · exact hI.1.last
      · exact hI.1.last) (fun _ => rfl)
    exact ⟨w', .handle cur, _, f', by simp [exec, add, e], .add (by simpa [nodes] using hn), h⟩
  | insertAfter x i =>
    cases i with
    | none =>
      have hI' : Inv w (s ++ []) f := by simpa using hI
      obtain ⟨w', cur, f', e, hn, h⟩ := insertAfter_ok hI' x none (by rw [if_pos rfl]; exact hI.1.last) (fun _ => rfl)
      exact ⟨w', .handle cur, _, f', by simp [exec, e], .afterNull (by simpa [nodes] using hn), h⟩
    | some i =>
      obtain ⟨A, y, B, rfl⟩ := live_split hl
      have hI' : Inv w ((A ++ [(i, y)]) ++ B) f := by simpa using hI
      obtain ⟨w', cur, f', e, hn, h⟩ := insertAfter_ok hI' x (some i) (by simp [nodes_append, nodes_cons, nodes_nil]) (by simp)
      refine ⟨w', .handle cur, _, f', by simp [exec, e], .after rfl (by simpa [nodes] using hn), by simpa using h⟩
  | insertBefore x i =>
    cases i with
    | none =>
      have hI' : Inv w (s ++ []) f := by simpa using hI
      obtain ⟨w', cur, f', e, hn, h⟩ := insertBefore_ok hI' x
      simp only [nodes_nil, List.head?_nil] at e
      exact ⟨w', .handle cur, _, f', by simp [exec, e], .beforeNull (by simpa [nodes] using hn), h⟩
    | some i =>
      obtain ⟨A, y, B, rfl⟩ := live_split hl
      obtain ⟨w', cur, f', e, hn, h⟩ := insertBefore_ok hI x
      simp only [nodes_cons, List.head?_cons] at e
      exact ⟨w', .handle cur, _, f', by simp [exec, e], .before rfl hn, h⟩
  | remove i =>
    obtain ⟨A, y, B, rfl⟩ := live_split hl
    obtain ⟨w', e, h⟩ := remove_ok hI
    exact ⟨w', .value (some y), _, _, by simp [exec, e], .remove rfl, h⟩
  | set i x =>
    obtain ⟨A, y, B, rfl⟩ := live_split hl
    obtain ⟨w', e, h⟩ := set_ok hI x
    exact ⟨w', .unit, _, _, by simp [exec, e], .set rfl, h⟩
  | clear =>
    obtain ⟨w', e, f', h⟩ := clear_ok w
    exact ⟨w', .unit, _, f', by simp [exec, e], .clear, h⟩
  | setCapacity n =>
    obtain ⟨w', f', e, h, _⟩ := setCapacity_ok hI n
    exact ⟨w', .unit, _, f', by simp [exec, e], .setCapacity, h⟩

/-- The specification determines the new sequence from the operation, the result and the old sequence. -/
theorem SStep.det {op : Op α} {r : Ret α} {s s1 s2 : List (Nat × α)} (hnd : (s.map (·.1)).Nodup) (h1 : SStep op r s s1)
    (h2 : SStep op r s s2) : s1 = s2 := by
  have uniq : ∀ {A B A' B' : List (Nat × α)} {i : Nat} {y y' : α}, ((A ++ (i, y) :: B).map (·.1)).Nodup →
      A ++ (i, y) :: B = A' ++ (i, y') :: B' → A = A' ∧ y = y' ∧ B = B' := by
    intro A B A' B' i y y' hn he
    have hm := congrArg (List.map (·.1)) he
    simp only [List.map_append, List.map_cons] at hm hn
    have := split_unique hn hm
    have hlen : A.length = A'.length := by simpa using congrArg List.length this.1
    have := List.append_inj he hlen
    simp at this
    exact ⟨this.1, this.2.1, this.2.2⟩
  cases h1 with
  | add => cases h2; rfl
  | afterNull => cases h2; rfl
  | beforeNull => cases h2; rfl
  | clear => cases h2; rfl
  | setCapacity => cases h2; rfl
  | after hs _ => cases h2 with | after hs' _ => subst hs; obtain ⟨rfl, rfl, rfl⟩ := uniq hnd hs'; rfl
  | before hs _ => cases h2 with | before hs' _ => subst hs; obtain ⟨rfl, rfl, rfl⟩ := uniq hnd hs'; rfl
  | remove hs => cases h2 with | remove hs' => subst hs; obtain ⟨rfl, -, rfl⟩ := uniq hnd hs'; rfl
  | set hs => cases h2 with | set hs' => subst hs; obtain ⟨rfl, -, rfl⟩ := uniq hnd hs'; rfl

theorem Reach.inv {w : LArr α} {s : List (Nat × α)} (h : Reach w s) : ∃ f, Inv w s f := by
  induction h with
  | init e =>
    obtain ⟨s, e', f, hI⟩ := mk_ok (α := α) _
    rw [e] at e'
    cases e'
    exact ⟨f, hI⟩
  | @step w s op w' r s' _ hl e hs ih =>
    obtain ⟨f, hI⟩ := ih
    obtain ⟨w2, r2, s2, f2, e2, hs2, hI2⟩ := step_ok hI hl
    rw [e] at e2
    cases e2
    have hnd : (s.map (·.1)).Nodup := (List.nodup_append.1 hI.1.nodup).1
    rw [SStep.det hnd hs hs2]
    exact ⟨f2, hI2⟩

/-! ## Properties -/

/-- **C17**: after every history, every operation on live indices succeeds (also when the array has to grow), hands out
only unused indices and changes the sequence exactly as specified. -/
theorem C17_operations_follow_spec {w : LArr α} {s : List (Nat × α)} (h : Reach w s) (op : Op α) (hl : Legal op s) :
    ∃ w' r s', exec op w = some (w', r) ∧ SStep op r s s' ∧ Reach w' s' := by
  obtain ⟨f, hI⟩ := h.inv
  obtain ⟨w', r, s', f', e, hs, _⟩ := step_ok hI hl
  exact ⟨w', r, s', e, hs, .step h hl e hs⟩

/-- **C17**: after every history, every live index reads its own value; walking from `Front` with `Next` gives the live
indices in list order, walking from `Back` with `Prev` the reverse; `Length` is the number of live values; live indices are
distinct. -/
theorem C17_observations {w : LArr α} {s : List (Nat × α)} (h : Reach w s) :
    (∀ e ∈ s, getItem w e.1 = some (some e.2)) ∧ w.length = s.length ∧ (s.map (·.1)).Nodup ∧
    w.start = (s.map (·.1)).head? ∧ w.last = (s.map (·.1)).getLast? ∧
    ∀ n, s.length ≤ n →
      walk (fun i => (rN w.ref i).bind id) n w.start = s.map (·.1) ∧
      walk (fun i => (rP w.ref i).bind id) n w.last = (s.map (·.1)).reverse := by
  obtain ⟨f, hI⟩ := h.inv
  have hP := hI.1
  refine ⟨hP.items, hP.length, (List.nodup_append.1 hP.nodup).1, hP.start, hP.last, fun n hn => ?_⟩
  have e1 : (fun i => (rN w.ref i).bind id) = nx (hp w.ref) := by
    funext i; simp only [rN, nx, hp]; cases (w.ref[i]? : Option (Cell α)) <;> rfl
  have e2 : (fun i => (rP w.ref i).bind id) = pv (hp w.ref) := by
    funext i; simp only [rP, pv, hp]; cases (w.ref[i]? : Option (Cell α)) <;> rfl
  rw [e1, e2, hP.start, hP.last]
  exact C18_traversal (hp w.ref) (nodes s) hP.rep n (by simpa [nodes] using hn)

/-- The operation removes or overwrites index `i`. -/
def Op.Hits (op : Op α) (i : Nat) : Prop :=
  match op with
  | .remove j | .set j _ => j = i
  | .clear => True
  | _ => False

/-- **C17**: an index keeps denoting its value across every operation that does not remove or overwrite it. -/
theorem C17_handles_stable {w w' : LArr α} {s s' : List (Nat × α)} {op : Op α} {r : Ret α} (h : Reach w s)
    (hl : Legal op s) (e : exec op w = some (w', r)) (hs : SStep op r s s') {i : Nat} {x : α} (hi : (i, x) ∈ s)
    (hh : ¬ op.Hits i) : (i, x) ∈ s' ∧ getItem w i = some (some x) ∧ getItem w' i = some (some x) := by
  have hmem : (i, x) ∈ s' := by
    cases hs <;> simp_all [Op.Hits] <;> rcases hi with hi | hi | hi <;> simp_all
  exact ⟨hmem, (C17_observations h).1 _ hi, (C17_observations (.step h hl e hs)).1 _ hmem⟩

/-- A history with growth, removal and reuse. -/
example : ∃ w : LArr Nat, Reach w [(0, 10), (2, 40), (1, 20)] := by
  obtain ⟨w0, e0, _⟩ := mk_ok (α := Nat) 1
  have h0 : Reach w0 [] := .init e0
  have e0' : mk 1 = some (⟨[⟨none, none, none⟩], 0, none, none, some 0⟩ : LArr Nat) := by decide +kernel
  rw [e0'] at e0; cases e0
  have h1 := Reach.step (op := .add 10) h0 trivial rfl (.add (h := 0) (by simp))
  have h2 := Reach.step (op := .add 20) h1 trivial rfl (.add (h := 1) (by decide))
  have h3 := Reach.step (op := .insertAfter 30 (some 0)) h2 (by simp [Legal]) rfl
    (.after (h := 2) (A := []) (y := 10) (B := [(1, 20)]) rfl (by decide))
  have h4 := Reach.step (op := .remove 2) h3 (by simp [Legal]) rfl (.remove (A := [(0, 10)]) (y := 30) (B := [(1, 20)]) rfl)
  have h5 := Reach.step (op := .insertBefore 40 (some 1)) h4 (by simp [Legal]) rfl
    (.before (h := 2) (A := [(0, 10)]) (y := 20) (B := []) rfl (by decide))
  exact ⟨_, h5⟩

end Verif.Linked.Arr
