import Verif.Heap.PModel
import Verif.Heap.Lemmas2

/-!
# Handles of `PriorityHeap` (C66)
-/

namespace Verif.Heap


variable {α : Type} {cmp : α → α → Int}

/-! ## Specification: the elements with their handles -/

/-- What the caller should see: the elements with their handles, and whether all elements that left were taken from the top. -/
structure PSpec (α : Type) where
  elems : List (Nat × α)
  clean : Bool

/-- The calls that are allowed: handles of elements that are there, and `Pop`/`Peek` when there is one. -/
def PSpec.legal (s : PSpec α) : POp α → Prop
  | .push _ | .length | .clear => True
  | .pop | .peek => s.elems ≠ []
  | .get h | .set h _ | .remove h => ∃ v, (h, v) ∈ s.elems

/-- What a call may return, and the elements afterwards. `Push` returns a handle no element has; `Get`, `Set` and `Remove` concern the element with that handle and
no other; `Pop` takes one element away, a greatest one as long as elements only left from the top. -/
inductive PSpec.Step (cmp : α → α → Int) : PSpec α → POp α → POut α → PSpec α → Prop
  | push {s v h e} : (∀ x ∈ s.elems, x.1 ≠ h) → e.Perm ((h, v) :: s.elems) → Step cmp s (.push v) (.handle h) ⟨e, s.clean⟩
  | pop {s h v e} : s.elems.Perm ((h, v) :: e) → (s.clean = true → ∀ x ∈ s.elems, cmp x.2 v ≤ 0) → Step cmp s .pop (.val v) ⟨e, s.clean⟩
  | peek {s h v} : (h, v) ∈ s.elems → (s.clean = true → ∀ x ∈ s.elems, cmp x.2 v ≤ 0) → Step cmp s .peek (.val v) s
  | get {s h v} : (h, v) ∈ s.elems → Step cmp s (.get h) (.val v) s
  | set {s h v o r e} : s.elems.Perm ((h, o) :: r) → e.Perm ((h, v) :: r) → Step cmp s (.set h v) (.ok true) ⟨e, s.clean⟩
  | remove {s h v e} : s.elems.Perm ((h, v) :: e) → Step cmp s (.remove h) (.ok true) ⟨e, false⟩
  | length {s} : Step cmp s .length (.num s.elems.length) s
  | clear {s} : Step cmp s .clear .unit ⟨[], true⟩

/-! ## Moving pairs about -/

/-- Everything in the first `n` places is tracked but the hole at `k`, where `val` is to go. -/
structure Hole (n : Nat) (a : List (Nat × α)) (sub : List Int) (k : Nat) (val : Nat × α) : Prop where
  lt : k < n
  le : n ≤ a.length
  inj : ∀ (i j : Nat) (x y : Nat × α), i < n → j < n → i ≠ j → (a.set k val)[i]? = some x → (a.set k val)[j]? = some y → x.1 ≠ y.1
  tr : ∀ (i : Nat) (x : Nat × α), i < n → i ≠ k → a[i]? = some x → sub[x.1]? = some (i : Int)
  key : val.1 < sub.length

/-- Everything in the first `n` places is tracked. -/
structure Tracked (n : Nat) (a : List (Nat × α)) (sub : List Int) : Prop where
  inj : ∀ (i j : Nat) (x y : Nat × α), i < n → j < n → i ≠ j → a[i]? = some x → a[j]? = some y → x.1 ≠ y.1
  tr : ∀ (i : Nat) (x : Nat × α), i < n → a[i]? = some x → sub[x.1]? = some (i : Int)

theorem lt_of_getElem? {β : Type _} {l : List β} {i : Nat} {x : β} (h : l[i]? = some x) : i < l.length := (List.getElem?_eq_some_iff.1 h).1

theorem put_of_lt {a : List (Nat × α)} {sub : List Int} {k : Nat} {x : Nat × α} (h1 : k < a.length) (h2 : x.1 < sub.length) :
    put a sub k x = some (a.set k x, sub.set x.1 (k : Int)) := by
  simp only [put, mfunc, wr_of_lt h1, wr_of_lt h2, Option.bind_eq_bind, Option.bind_some]

theorem Hole.move {n : Nat} {a : List (Nat × α)} {sub : List Int} {k : Nat} {val : Nat × α} (h : Hole n a sub k val) {c : Nat} {x : Nat × α} (hc : c < n)
    (hck : c ≠ k) (hx : a[c]? = some x) :
    put a sub k x = some (a.set k x, sub.set x.1 (k : Int)) ∧ Hole n (a.set k x) (sub.set x.1 (k : Int)) c val := by
  have hxs := h.tr c x hc hck hx
  have hkl : k < a.length := Nat.lt_of_lt_of_le h.lt h.le
  have hcl : c < a.length := Nat.lt_of_lt_of_le hc h.le
  refine ⟨put_of_lt hkl (lt_of_getElem? hxs), hc, by simpa using h.le, fun i j y z hi hj hij hy hz => ?_, fun i y hi hic hy => ?_, by simpa using h.key⟩
  · -- swapping the places of two entries
    have key : ∀ (i : Nat) (y : Nat × α), i < n → ((a.set k x).set c val)[i]? = some y →
        (a.set k val)[if i = k then c else if i = c then k else i]? = some y := by
      intro i y hi hy
      by_cases h1 : i = k
      · subst h1
        rw [List.getElem?_set_ne hck, List.getElem?_set_self hkl] at hy
        rw [if_pos rfl, List.getElem?_set_ne (Ne.symm hck), hx]
        exact hy
      · by_cases h2 : i = c
        · subst h2
          rw [List.getElem?_set_self (by simpa using hcl)] at hy
          rw [if_neg h1, if_pos rfl, List.getElem?_set_self hkl]
          exact hy
        · rw [List.getElem?_set_ne (Ne.symm h2), List.getElem?_set_ne (Ne.symm h1)] at hy
          rw [if_neg h1, if_neg h2, List.getElem?_set_ne (Ne.symm h1)]
          exact hy
    refine h.inj _ _ y z ?_ ?_ ?_ (key i y hi hy) (key j z hj hz)
    · have := h.lt; split <;> (try split) <;> omega
    · have := h.lt; split <;> (try split) <;> omega
    · split <;> split <;> (try split) <;> (try split) <;> omega
  · by_cases h1 : i = k
    · subst h1
      rw [List.getElem?_set_self hkl] at hy
      cases hy
      exact List.getElem?_set_self (lt_of_getElem? hxs)
    · rw [List.getElem?_set_ne (Ne.symm h1)] at hy
      have hne := h.inj i c y x hi hc hic (by rw [List.getElem?_set_ne (Ne.symm h1)]; exact hy) (by rw [List.getElem?_set_ne (Ne.symm hck)]; exact hx)
      rw [List.getElem?_set_ne (Ne.symm hne)]
      exact h.tr i y hi h1 hy

theorem Hole.finish {n : Nat} {a : List (Nat × α)} {sub : List Int} {k : Nat} {val : Nat × α} (h : Hole n a sub k val) :
    put a sub k val = some (a.set k val, sub.set val.1 (k : Int)) ∧ Tracked n (a.set k val) (sub.set val.1 (k : Int)) := by
  have hkl : k < a.length := Nat.lt_of_lt_of_le h.lt h.le
  refine ⟨put_of_lt hkl h.key, h.inj, fun i x hi hx => ?_⟩
  by_cases h1 : i = k
  · subst h1
    rw [List.getElem?_set_self hkl] at hx
    cases hx
    exact List.getElem?_set_self h.key
  · have hne := h.inj i k x val hi h.lt h1 hx (List.getElem?_set_self hkl)
    rw [List.getElem?_set_ne (Ne.symm hne)]
    rw [List.getElem?_set_ne (Ne.symm h1)] at hx
    exact h.tr i x hi h1 hx

/-- What percolating leaves: `a'` with `sub'`, from the hole `k` in `a`, `sub`. -/
structure Moved (n : Nat) (a : List (Nat × α)) (sub : List Int) (k : Nat) (val : Nat × α) (a' : List (Nat × α)) (sub' : List Int) : Prop where
  tracked : Tracked n a' sub'
  perm : a'.Perm (a.set k val)
  len : sub'.length = sub.length
  frame : ∀ key, (∀ (i : Nat) (x : Nat × α), i < n → (a.set k val)[i]? = some x → x.1 ≠ key) → sub'[key]? = sub[key]?
  above : ∀ i, n ≤ i → a'[i]? = a[i]?

theorem Hole.moved {n : Nat} {a : List (Nat × α)} {sub : List Int} {k : Nat} {val : Nat × α} (h : Hole n a sub k val) :
    Moved n a sub k val (a.set k val) (sub.set val.1 (k : Int)) := by
  refine ⟨h.finish.2, List.Perm.refl _, by simp, fun key hk => ?_, fun i hi => ?_⟩
  · rw [List.getElem?_set_ne]
    exact hk k val h.lt (List.getElem?_set_self (Nat.lt_of_lt_of_le h.lt h.le))
  · rw [List.getElem?_set_ne]
    have := h.lt
    omega

theorem Moved.step {n : Nat} {a : List (Nat × α)} {sub : List Int} {k : Nat} {val : Nat × α} (h : Hole n a sub k val) {c : Nat} {x : Nat × α} (hc : c < n)
    (hck : c ≠ k) (hx : a[c]? = some x) {a' : List (Nat × α)} {sub' : List Int} (m : Moved n (a.set k x) (sub.set x.1 (k : Int)) c val a' sub') :
    Moved n a sub k val a' sub' := by
  have hkl : k < a.length := Nat.lt_of_lt_of_le h.lt h.le
  have hcl : c < a.length := Nat.lt_of_lt_of_le hc h.le
  have hp := perm_set_hole (v := val) hkl hx hck
  refine ⟨m.tracked, m.perm.trans hp, by simpa using m.len, fun key hk => ?_, fun i hi => ?_⟩
  · rw [m.frame key fun i y hi hy => ?_, List.getElem?_set_ne]
    · exact hk c x hc (by rw [List.getElem?_set_ne (Ne.symm hck)]; exact hx)
    · by_cases h1 : i = k
      · subst h1
        rw [List.getElem?_set_ne hck, List.getElem?_set_self hkl] at hy
        cases hy
        exact hk c x hc (by rw [List.getElem?_set_ne (Ne.symm hck)]; exact hx)
      · by_cases h2 : i = c
        · subst h2
          rw [List.getElem?_set_self (by simpa using hcl)] at hy
          cases hy
          exact hk k val h.lt (List.getElem?_set_self hkl)
        · rw [List.getElem?_set_ne (Ne.symm h2), List.getElem?_set_ne (Ne.symm h1)] at hy
          exact hk i y hi (by rw [List.getElem?_set_ne (Ne.symm h1)]; exact hy)
  · rw [m.above i hi, List.getElem?_set_ne]
    have := h.lt
    omega

theorem percolateUpT_spec {n : Nat} : ∀ (k : Nat) {a : List (Nat × α)} {sub : List Int} {val : Nat × α}, Hole n a sub k val →
    ∃ a' sub', percolateUpT cmp a sub k val = some (a', sub') ∧ percolateUp (cmp2 cmp) a k val = some a' ∧ Moved n a sub k val a' sub' := by
  intro k
  induction k using Nat.strongRecOn with
  | ind k ih =>
    intro a sub val h
    have hkl : k < a.length := Nat.lt_of_lt_of_le h.lt h.le
    unfold percolateUpT percolateUp
    by_cases hk : k = 0
    · rw [dif_pos hk, dif_pos hk]
      exact ⟨_, _, h.finish.1, wr_of_lt hkl, h.moved⟩
    · rw [dif_neg hk, dif_neg hk]
      have hpk : parent k < k := by unfold parent; omega
      have hpl : parent k < a.length := by omega
      have hx : a[parent k]? = some a[parent k] := List.getElem?_eq_getElem hpl
      simp only [rd_of_lt hpl, Option.bind_eq_bind, Option.bind_some]
      by_cases hc : cmp2 cmp val a[parent k] < 0
      · rw [if_pos hc, if_pos hc]
        exact ⟨_, _, h.finish.1, wr_of_lt hkl, h.moved⟩
      · rw [if_neg hc, if_neg hc]
        obtain ⟨e1, h1⟩ := h.move (c := parent k) (Nat.lt_trans hpk h.lt) (by omega) hx
        obtain ⟨a', sub', e2, e3, m⟩ := ih _ hpk h1
        refine ⟨a', sub', ?_, ?_, Moved.step h (Nat.lt_trans hpk h.lt) (by omega) hx m⟩
        · rw [e1, Option.bind_some]
          exact e2
        · rw [wr_of_lt hkl, Option.bind_some]
          exact e3

theorem percolateDownT_spec {n : Nat} : ∀ (d k : Nat) {a : List (Nat × α)} {sub : List Int} {val : Nat × α}, d = n - k → Hole n a sub k val →
    ∃ a' sub', percolateDownT cmp a sub n k val = some (a', sub') ∧ percolateDown (cmp2 cmp) a n k val = some a' ∧ Moved n a sub k val a' sub' := by
  intro d
  induction d using Nat.strongRecOn with
  | ind d ih =>
    intro k a sub val hd h
    have hkl : k < a.length := Nat.lt_of_lt_of_le h.lt h.le
    have hkn := h.lt
    have hle := h.le
    unfold percolateDownT percolateDown
    by_cases h2 : 2 * k + 2 < n
    · rw [dif_pos h2, dif_pos h2]
      have hl : 2 * k + 1 < a.length := by omega
      have hr : 2 * k + 2 < a.length := by omega
      simp only [rd_of_lt hl, rd_of_lt hr, Option.bind_eq_bind, Option.bind_some]
      have hx : a[if cmp2 cmp a[2 * k + 1] a[2 * k + 2] > 0 then 2 * k + 1 else 2 * k + 2]? =
          some (if cmp2 cmp a[2 * k + 1] a[2 * k + 2] > 0 then a[2 * k + 1] else a[2 * k + 2]) := by
        split
        · exact List.getElem?_eq_getElem hl
        · exact List.getElem?_eq_getElem hr
      have hi : (if cmp2 cmp a[2 * k + 1] a[2 * k + 2] > 0 then 2 * k + 1 else 2 * k + 2) < n ∧
          k < (if cmp2 cmp a[2 * k + 1] a[2 * k + 2] > 0 then 2 * k + 1 else 2 * k + 2) := by split <;> omega
      revert hx hi
      generalize (if cmp2 cmp a[2 * k + 1] a[2 * k + 2] > 0 then 2 * k + 1 else 2 * k + 2) = i
      generalize (if cmp2 cmp a[2 * k + 1] a[2 * k + 2] > 0 then a[2 * k + 1] else a[2 * k + 2]) = c
      intro hx hi
      by_cases hc : cmp2 cmp val c > 0
      · rw [if_pos hc, if_pos hc]
        exact ⟨_, _, h.finish.1, wr_of_lt hkl, h.moved⟩
      · rw [if_neg hc, if_neg hc]
        obtain ⟨e1, h1⟩ := h.move (c := i) hi.1 (by omega) hx
        obtain ⟨a', sub', e2, e3, m⟩ := ih (n - i) (by omega) i rfl h1
        refine ⟨a', sub', ?_, ?_, Moved.step h hi.1 (by omega) hx m⟩
        · rw [e1, Option.bind_some]
          exact e2
        · rw [wr_of_lt hkl, Option.bind_some]
          exact e3
    · rw [dif_neg h2, dif_neg h2]
      by_cases h1 : 2 * k + 1 < n
      · rw [if_pos h1, if_pos h1]
        have hl : 2 * k + 1 < a.length := by omega
        have hx : a[2 * k + 1]? = some a[2 * k + 1] := List.getElem?_eq_getElem hl
        simp only [rd_of_lt hl, Option.bind_eq_bind, Option.bind_some]
        by_cases hc : cmp2 cmp val a[2 * k + 1] ≤ 0
        · rw [if_pos hc, if_pos hc]
          obtain ⟨e1, h3⟩ := h.move (c := 2 * k + 1) h1 (by omega) hx
          refine ⟨_, _, ?_, ?_, Moved.step h h1 (by omega) hx h3.moved⟩
          · rw [e1, Option.bind_some]
            exact h3.finish.1
          · rw [wr_of_lt hkl, Option.bind_some]
            exact wr_of_lt (by simpa using hl)
        · rw [if_neg hc, if_neg hc]
          exact ⟨_, _, h.finish.1, wr_of_lt hkl, h.moved⟩
      · rw [if_neg h1, if_neg h1]
        exact ⟨_, _, h.finish.1, wr_of_lt hkl, h.moved⟩

/-! ## The free list of handles -/

/-- The cells of the free list that starts with `f` are `F`. -/
def FreeL (sub : List Int) : Int → List Nat → Prop
  | f, [] => f = -1
  | f, k :: F => f = (k : Int) ∧ ∃ g, sub[k]? = some g ∧ FreeL sub g F

theorem FreeL.congr {sub sub' : List Int} : ∀ {F : List Nat} {f : Int}, (∀ k ∈ F, sub'[k]? = sub[k]?) → FreeL sub f F → FreeL sub' f F
  | [], _, _, h => h
  | k :: F, _, hs, ⟨h1, g, h2, h3⟩ =>
    ⟨h1, g, by rw [hs k List.mem_cons_self]; exact h2, FreeL.congr (fun k hk => hs k (List.mem_cons_of_mem _ hk)) h3⟩

theorem FreeL.lt {sub : List Int} : ∀ {F : List Nat} {f : Int}, FreeL sub f F → ∀ k ∈ F, k < sub.length
  | [], _, _, k, hk => nomatch hk
  | k :: F, _, ⟨_, g, h2, h3⟩, j, hj => by
    rcases List.mem_cons.1 hj with rfl | hj
    · exact lt_of_getElem? h2
    · exact FreeL.lt h3 j hj

theorem initFree_spec : ∀ (n : Nat) {sub : List Int} {f : Int} {F : List Nat}, FreeL sub f F → F.Nodup →
    ∃ F', FreeL (initFree n sub f).1 (initFree n sub f).2 F' ∧ F'.Nodup ∧ (∀ k ∈ F', k ∈ F ∨ sub.length ≤ k) ∧ F'.length = F.length + n ∧
      (∀ k < sub.length, (initFree n sub f).1[k]? = sub[k]?) ∧ sub.length ≤ (initFree n sub f).1.length := by
  intro n
  induction n with
  | zero => intro sub f F h hn; exact ⟨F, h, hn, fun k hk => .inl hk, rfl, fun _ _ => rfl, Nat.le_refl _⟩
  | succ n ih =>
    intro sub f F h hn
    have hlt := FreeL.lt h
    have h1 : FreeL (sub ++ [f]) (sub.length : Int) (sub.length :: F) :=
      ⟨rfl, f, List.getElem?_concat_length, h.congr fun k hk => List.getElem?_append_left (hlt k hk)⟩
    obtain ⟨F', g1, g2, g3, g4, g5, g6⟩ := ih h1 (List.nodup_cons.2 ⟨fun hm => absurd (hlt _ hm) (Nat.lt_irrefl _), hn⟩)
    simp only [initFree]
    refine ⟨F', g1, g2, fun k hk => ?_, by rw [g4, List.length_cons]; omega, fun k hk => ?_, by simp at g6; omega⟩
    · rcases g3 k hk with g | g
      · rcases List.mem_cons.1 g with rfl | g
        · exact .inr (Nat.le_refl _)
        · exact .inl g
      · simp at g
        exact .inr (by omega)
    · rw [g5 k (by simp; omega), List.getElem?_append_left hk]

/-- The state: everything is tracked, and the free handles are not in use. -/
structure PInv (p : PH α) : Prop where
  tracked : Tracked p.arr.length p.arr p.sub
  free : ∃ F, FreeL p.sub p.free F ∧ F.Nodup ∧ ∀ x ∈ p.arr, x.1 ∉ F

theorem getNext_spec {p : PH α} (h : PInv p) : ∃ k p', getNext p = some (k, p') ∧ p'.arr = p.arr ∧ Tracked p.arr.length p.arr p'.sub ∧ k < p'.sub.length ∧
    (∀ x ∈ p.arr, x.1 ≠ k) ∧ ∃ F, FreeL p'.sub p'.free F ∧ F.Nodup ∧ k ∉ F ∧ ∀ x ∈ p.arr, x.1 ∉ F := by
  obtain ⟨ht, F, hF, hn, hd⟩ := h
  have hkeys : ∀ x ∈ p.arr, x.1 < p.sub.length := by
    intro x hx
    obtain ⟨i, hi⟩ := List.getElem?_of_mem hx
    exact lt_of_getElem? (ht.tr i x (lt_of_getElem? hi) hi)
  cases F with
  | cons k F =>
    obtain ⟨e, g, h1, h2⟩ := hF
    obtain ⟨n1, n2⟩ := List.nodup_cons.1 hn
    refine ⟨k, { p with free := g }, ?_, rfl, ht, lt_of_getElem? h1, fun x hx e => hd x hx (e ▸ List.mem_cons_self), F, h2, n2, n1,
      fun x hx hF => hd x hx (List.mem_cons_of_mem _ hF)⟩
    have e1 : ¬ p.free = -1 := by omega
    have e2 : ¬ p.free < 0 := by omega
    have e3 : p.free.toNat = k := by omega
    simp only [getNext, if_neg e1, if_neg e2, e3, rd, h1, Option.map_some]
  | nil =>
    obtain ⟨F', g1, g2, g3, g4, g5, g6⟩ := initFree_spec (Arith.fbnextN p.sub.length - p.sub.length) hF hn
    have hpos : 0 < Arith.fbnextN p.sub.length - p.sub.length := by unfold Arith.fbnextN; omega
    have e1 : p.free = -1 := hF
    cases F' with
    | nil => simp at g4; omega
    | cons k F' =>
      obtain ⟨e, g, h1, h2⟩ := g1
      obtain ⟨n1, n2⟩ := List.nodup_cons.1 g2
      have hge : ∀ j ∈ k :: F', p.sub.length ≤ j := fun j hj => (g3 j hj).elim (fun h => nomatch h) id
      refine ⟨k, ⟨p.arr, (initFree (Arith.fbnextN p.sub.length - p.sub.length) p.sub p.free).1, g⟩, ?_, rfl, ?_, lt_of_getElem? h1, fun x hx e => ?_, F', h2, n2, n1,
        fun x hx hF => ?_⟩
      · have e2 : ¬ (initFree (Arith.fbnextN p.sub.length - p.sub.length) p.sub p.free).2 < 0 := by omega
        have e3 : (initFree (Arith.fbnextN p.sub.length - p.sub.length) p.sub p.free).2.toNat = k := by omega
        simp only [getNext, if_pos e1, if_neg e2, e3, rd, h1, Option.map_some]
      · refine ⟨ht.inj, fun i x hi hx => ?_⟩
        rw [g5 _ (hkeys x (List.mem_of_getElem? hx))]
        exact ht.tr i x hi hx
      · have := hge k List.mem_cons_self
        have := hkeys x hx
        omega
      · have := hge x.1 (List.mem_cons_of_mem _ hF)
        have := hkeys x hx
        omega

/-! ## The calls -/

theorem cmp2_ord (ho : CmpOrd cmp) : CmpOrd (cmp2 cmp) := ⟨fun a b => ho.sym a.2 b.2, fun a b c => ho.trans a.2 b.2 c.2⟩

theorem push_step {p : PH α} (h : PInv p) (v : α) : ∃ p' k, push cmp p v = some (p', k) ∧ PInv p' ∧ (∀ x ∈ p.arr, x.1 ≠ k) ∧ p'.arr.Perm ((k, v) :: p.arr) ∧
    insert (cmp2 cmp) p.arr (k, v) = some p'.arr := by
  obtain ⟨k, q, e, ha, ht, hk, hne, F, hF, hn, hkF, hd⟩ := getNext_spec h
  have hset : (p.arr ++ [(k, v)]).set p.arr.length (k, v) = p.arr ++ [(k, v)] := set_append_length _ _ _
  have hole : Hole (p.arr.length + 1) (p.arr ++ [(k, v)]) q.sub p.arr.length (k, v) := by
    refine ⟨by omega, by simp, fun i j x y hi hj hij hx hy => ?_, fun i x hi hik hx => ?_, hk⟩
    · rw [hset] at hx hy
      rcases Nat.lt_or_ge i p.arr.length with hi' | hi' <;> rcases Nat.lt_or_ge j p.arr.length with hj' | hj'
      · rw [List.getElem?_append_left hi'] at hx
        rw [List.getElem?_append_left hj'] at hy
        exact ht.inj i j x y hi' hj' hij hx hy
      · have : j = p.arr.length := by omega
        subst this
        rw [List.getElem?_append_left hi'] at hx
        rw [List.getElem?_concat_length] at hy
        cases hy
        exact hne x (List.mem_of_getElem? hx)
      · have : i = p.arr.length := by omega
        subst this
        rw [List.getElem?_append_left hj'] at hy
        rw [List.getElem?_concat_length] at hx
        cases hx
        exact fun e => hne y (List.mem_of_getElem? hy) e.symm
      · omega
    · have hi' : i < p.arr.length := by omega
      rw [List.getElem?_append_left hi'] at hx
      exact ht.tr i x hi' hx
  obtain ⟨a', sub', e1, e2, m⟩ := percolateUpT_spec (cmp := cmp) _ hole
  have hp : a'.Perm ((k, v) :: p.arr) := by
    have := m.perm
    rw [hset] at this
    exact this.trans List.perm_append_comm
  have hl : a'.length = p.arr.length + 1 := by simpa using hp.length_eq
  refine ⟨{ q with arr := a', sub := sub' }, k, ?_, ⟨by simp only [hl]; exact m.tracked, F, ?_, hn, fun x hx => ?_⟩, hne, hp, e2⟩
  · simp only [push, e, Option.bind_some, ha, e1, Option.map_some]
  · refine hF.congr fun j hj => m.frame j fun i x hi hx => ?_
    rw [hset] at hx
    rcases List.mem_append.1 (List.mem_of_getElem? hx) with g | g
    · exact fun e => hd x g (e ▸ hj)
    · cases List.mem_singleton.1 g
      exact fun (e : k = j) => hkF (e ▸ hj)
  · rcases List.mem_cons.1 (hp.mem_iff.1 hx) with rfl | g
    · exact hkF
    · exact hd x g

theorem indexOf_spec {p : PH α} (h : PInv p) {k : Nat} {v : α} (hm : (k, v) ∈ p.arr) : ∃ i, i < p.arr.length ∧ p.arr[i]? = some (k, v) ∧ indexOf p k = some i := by
  obtain ⟨i, hi⟩ := List.getElem?_of_mem hm
  have hl := lt_of_getElem? hi
  have := h.tracked.tr i _ hl hi
  refine ⟨i, hl, hi, ?_⟩
  simp only at this
  simp only [indexOf, rd, this, Option.map_some]
  rw [if_neg (by omega)]
  simp

theorem perm_cons_eraseIdx {β : Type _} : ∀ {l : List β} {i : Nat} {x : β}, l[i]? = some x → l.Perm (x :: l.eraseIdx i)
  | [], i, x, h => by simp at h
  | y :: l, 0, x, h => by
    simp at h
    subst h
    simp
  | y :: l, i + 1, x, h => by
    simp only [List.getElem?_cons_succ] at h
    exact ((perm_cons_eraseIdx h).cons y).trans (List.Perm.swap x y _)

theorem set_perm {β : Type _} : ∀ {l : List β} {i : Nat} {x : β} (v : β), l[i]? = some x → (l.set i v).Perm (v :: l.eraseIdx i)
  | [], i, x, v, h => by simp at h
  | y :: l, 0, x, v, h => by simp
  | y :: l, i + 1, x, v, h => by
    simp only [List.getElem?_cons_succ] at h
    exact ((set_perm v h).cons y).trans (List.Perm.swap v y _)

theorem set_step {p : PH α} (h : PInv p) {k : Nat} {o : α} (hm : (k, o) ∈ p.arr) (v : α) :
    ∃ p' r, setKey cmp p k v = some (p', true) ∧ PInv p' ∧ p.arr.Perm ((k, o) :: r) ∧ p'.arr.Perm ((k, v) :: r) ∧
      ∃ i, i < p.arr.length ∧ set (cmp2 cmp) p.arr i (k, v) = some (p'.arr, true) := by
  obtain ⟨i, hl, hi, e⟩ := indexOf_spec h hm
  have hkeys : ∀ (j : Nat) (x : Nat × α), (p.arr.set i (k, v))[j]? = some x → ∃ y, p.arr[j]? = some y ∧ y.1 = x.1 := by
    intro j x hx
    by_cases hj : j = i
    · subst hj
      rw [List.getElem?_set_self hl] at hx
      cases hx
      exact ⟨_, hi, rfl⟩
    · rw [List.getElem?_set_ne (Ne.symm hj)] at hx
      exact ⟨x, hx, rfl⟩
  have hole : Hole p.arr.length p.arr p.sub i (k, v) := by
    refine ⟨hl, Nat.le_refl _, fun a b x y ha hb hab hx hy => ?_, fun j x hj _ hx => h.tracked.tr j x hj hx, show k < p.sub.length from lt_of_getElem? (h.tracked.tr i (k, o) hl hi)⟩
    obtain ⟨x', g1, g2⟩ := hkeys a x hx
    obtain ⟨y', g3, g4⟩ := hkeys b y hy
    have := h.tracked.inj a b x' y' ha hb hab g1 g3
    omega
  have fin : ∀ a' sub', Moved p.arr.length p.arr p.sub i (k, v) a' sub' → PInv (⟨a', sub', p.free⟩ : PH α) := by
    intro a' sub' m
    have hla : a'.length = p.arr.length := by simpa using m.perm.length_eq
    obtain ⟨F, hF, hn, hd⟩ := h.free
    refine ⟨by simp only [hla]; exact m.tracked, F, hF.congr fun j hj => m.frame j fun b x hb hx => ?_, hn, fun x hx => ?_⟩
    · obtain ⟨y, g1, g2⟩ := hkeys b x hx
      have := hd y (List.mem_of_getElem? g1)
      exact fun e => this (by rw [g2, e]; exact hj)
    · obtain ⟨b, hb⟩ := List.getElem?_of_mem (m.perm.mem_iff.1 hx)
      obtain ⟨y, g1, g2⟩ := hkeys b x hb
      rw [← g2]
      exact hd y (List.mem_of_getElem? g1)
  have hrd : rd p.arr i = some (k, o) := hi
  unfold setKey
  simp only [e, Option.bind_some, if_neg (Nat.not_le.2 hl), hrd]
  by_cases hc : cmp2 cmp (k, o) (k, v) ≤ 0
  · obtain ⟨a', sub', e1, e2, m⟩ := percolateUpT_spec (cmp := cmp) _ hole
    refine ⟨⟨a', sub', p.free⟩, p.arr.eraseIdx i, ?_, fin _ _ m, perm_cons_eraseIdx hi, m.perm.trans (set_perm _ hi), i, hl, ?_⟩
    · rw [if_pos hc, e1, Option.map_some]
    · simp only [set, if_neg (Nat.not_le.2 hl), hrd, Option.bind_eq_bind, Option.bind_some, if_pos hc, e2]
  · obtain ⟨a', sub', e1, e2, m⟩ := percolateDownT_spec (cmp := cmp) _ _ rfl hole
    refine ⟨⟨a', sub', p.free⟩, p.arr.eraseIdx i, ?_, fin _ _ m, perm_cons_eraseIdx hi, m.perm.trans (set_perm _ hi), i, hl, ?_⟩
    · rw [if_neg hc, e1, Option.map_some]
    · simp only [set, if_neg (Nat.not_le.2 hl), hrd, Option.bind_eq_bind, Option.bind_some, if_neg hc, e2]

theorem remove_step {p : PH α} (h : PInv p) {i : Nat} {x : Nat × α} (hi : p.arr[i]? = some x) :
    ∃ p', removeT cmp p i = some (p', true) ∧ PInv p' ∧ p.arr.Perm (x :: p'.arr) ∧ remove (cmp2 cmp) p.arr i = some (p'.arr, true) := by
  have hl := lt_of_getElem? hi
  have hsub : ∀ (q : List (Nat × α)), (∀ y ∈ q, y ∈ p.arr) → ∀ sub', (∀ F, FreeL p.sub p.free F → (∀ x ∈ p.arr, x.1 ∉ F) → FreeL sub' p.free F) → Tracked q.length q sub' →
      PInv (⟨q, sub', p.free⟩ : PH α) := by
    intro q hq sub' hf ht
    obtain ⟨F, hF, hn, hd⟩ := h.free
    exact ⟨ht, F, hf F hF hd, hn, fun y hy => hd y (hq y hy)⟩
  have hdrop : ∀ (q : List (Nat × α)) (n : Nat) (sub' : List Int), q.length = n + 1 → Tracked n q sub' → Tracked q.dropLast.length q.dropLast sub' := by
    intro q n sub' hq ht
    have hd : q.dropLast.length = n := by simp; omega
    rw [hd]
    refine ⟨fun a b y z ha hb hab hy hz => ht.inj a b y z ha hb hab ?_ ?_, fun a y ha hy => ht.tr a y ha ?_⟩
    · rwa [List.getElem?_dropLast, if_pos (by omega)] at hy
    · rwa [List.getElem?_dropLast, if_pos (by omega)] at hz
    · rwa [List.getElem?_dropLast, if_pos (by omega)] at hy
  unfold removeT remove
  rw [if_neg (Nat.not_le.2 hl), if_neg (Nat.not_le.2 hl)]
  by_cases h1 : 1 < p.arr.length
  · rw [if_pos h1, if_pos h1]
    have hll : p.arr.length - 1 < p.arr.length := by omega
    have hlast : p.arr[p.arr.length - 1]? = some p.arr[p.arr.length - 1] := List.getElem?_eq_getElem hll
    generalize hval : p.arr[p.arr.length - 1] = val at hlast
    simp only [rd, hlast, Option.bind_eq_bind, Option.bind_some]
    have hsplit : p.arr = p.arr.dropLast ++ [val] := by
      have hne : p.arr ≠ [] := by intro e; rw [e] at h1; simp at h1
      conv => lhs; rw [← List.dropLast_concat_getLast hne]
      rw [List.getLast_eq_getElem, hval]
    by_cases hin : i = p.arr.length - 1
    · -- the last element itself: it is written back
      have e1 : p.arr.set i val = p.arr := by
        refine List.ext_getElem? fun j => ?_
        by_cases hj : j = i
        · subst hj
          rw [List.getElem?_set_self hl, hin, hlast]
        · rw [List.getElem?_set_ne (Ne.symm hj)]
      have hx : x = val := by rw [hin, hlast] at hi; exact (Option.some.inj hi).symm
      have hs := h.tracked.tr i x hl hi
      have e2 : p.sub.set x.1 (i : Int) = p.sub := by
        refine List.ext_getElem? fun j => ?_
        by_cases hj : j = x.1
        · subst hj
          rw [List.getElem?_set_self (lt_of_getElem? hs), hs]
        · rw [List.getElem?_set_ne (Ne.symm hj)]
      have ht : Tracked (p.arr.length - 1) p.arr p.sub :=
        ⟨fun a b y z ha hb => h.tracked.inj a b y z (by omega) (by omega), fun a y ha => h.tracked.tr a y (by omega)⟩
      refine ⟨⟨p.arr.dropLast, p.sub, p.free⟩, ?_, hsub _ (fun y hy => (List.dropLast_sublist _).subset hy) _ (fun F hF _ => hF) (hdrop _ (p.arr.length - 1) _ (by omega) ht), ?_, ?_⟩
      · rw [percolateDownT, dif_neg (by omega), if_neg (by omega), ← hx, put_of_lt hl (lt_of_getElem? hs), Option.map_some, e2, hx, e1]
      · conv => lhs; rw [hsplit]
        rw [hx]
        exact List.perm_append_comm
      · rw [percolateDown, dif_neg (by omega), if_neg (by omega), wr_of_lt hl, Option.bind_some, e1]
    · have hin' : i < p.arr.length - 1 := by omega
      have hole : Hole (p.arr.length - 1) p.arr p.sub i val := by
        have pos : ∀ (j : Nat) (y : Nat × α), (p.arr.set i val)[j]? = some y → p.arr[if j = i then p.arr.length - 1 else j]? = some y := by
          intro j y hy
          by_cases hj : j = i
          · subst hj
            rw [List.getElem?_set_self hl] at hy
            rw [if_pos rfl, hlast]
            exact hy
          · rw [List.getElem?_set_ne (Ne.symm hj)] at hy
            rw [if_neg hj]
            exact hy
        refine ⟨hin', by omega, fun a b y z ha hb hab hy hz => ?_, fun j y hj _ hy => h.tracked.tr j y (by omega) hy, lt_of_getElem? (h.tracked.tr _ _ hll hlast)⟩
        refine h.tracked.inj _ _ y z ?_ ?_ ?_ (pos a y hy) (pos b z hz)
        · split <;> omega
        · split <;> omega
        · split <;> split <;> omega
      obtain ⟨a', sub', e1, e2, m⟩ := percolateDownT_spec (cmp := cmp) _ _ rfl hole
      have hla : a'.length = p.arr.length := by simpa using m.perm.length_eq
      have hal : a'[p.arr.length - 1]? = some val := by rw [m.above _ (Nat.le_refl _)]; exact hlast
      have hsplit' : a' = a'.dropLast ++ [val] := by
        have hne : a' ≠ [] := by intro e; rw [e] at hla; simp at hla; omega
        conv => lhs; rw [← List.dropLast_concat_getLast hne]
        have : a'.getLast hne = val := by
          rw [List.getLast_eq_getElem]
          have hal' : a'[a'.length - 1]? = some val := by rw [hla]; exact hal
          rw [List.getElem?_eq_getElem (by omega)] at hal'
          exact Option.some.inj hal'
        rw [this]
      have hdl : i < p.arr.dropLast.length := by simp; omega
      have hid : p.arr.dropLast[i]? = some x := by rw [List.getElem?_dropLast, if_pos (by omega)]; exact hi
      have hp : a'.dropLast.Perm (p.arr.dropLast.set i val) := by
        have := m.perm
        rw [hsplit', hsplit, List.set_append_left _ _ hdl] at this
        exact (List.perm_append_right_iff [val]).1 this
      have hperm : p.arr.Perm (x :: a'.dropLast) := by
        have g1 : p.arr.Perm (val :: p.arr.dropLast) := by
          conv => lhs; rw [hsplit]
          exact List.perm_append_comm
        have g2 := (perm_cons_eraseIdx hid).cons val
        have g3 := (hp.trans (set_perm val hid)).cons x
        exact g1.trans (g2.trans ((List.Perm.swap x val _).trans g3.symm))
      refine ⟨⟨a'.dropLast, sub', p.free⟩, ?_, hsub _ (fun y hy => hperm.symm.mem_iff.1 (List.mem_cons_of_mem _ hy)) _ (fun F hF hd => ?_)
        (hdrop _ (p.arr.length - 1) _ (by omega) m.tracked), hperm, ?_⟩
      · rw [e1, Option.map_some]
      · refine hF.congr fun j hj => m.frame j fun b y hb hy e => ?_
        have : y ∈ p.arr := by
          rcases List.mem_or_eq_of_mem_set (List.mem_of_getElem? hy) with g | g
          · exact g
          · rw [g]; exact List.mem_of_getElem? hlast
        exact hd y this (e ▸ hj)
      · rw [e2, Option.bind_some]
  · rw [if_neg h1, if_neg h1]
    have hlen : p.arr.length = 1 := by omega
    obtain ⟨y, hy⟩ := List.length_eq_one_iff.1 hlen
    refine ⟨⟨p.arr.dropLast, p.sub, p.free⟩, rfl, hsub _ (fun y hy => (List.dropLast_sublist _).subset hy) _ (fun F hF _ => hF)
      (hdrop _ 0 _ hlen ⟨fun a b y z ha => absurd ha (Nat.not_lt_zero _), fun a y ha => absurd ha (Nat.not_lt_zero _)⟩), ?_, rfl⟩
    have hi0 : i = 0 := by omega
    subst hi0
    rw [hy] at hi ⊢
    simp at hi
    subst hi
    simp

/-- The relation between the heap and its elements with handles. -/
structure PRel (cmp : α → α → Int) (p : PH α) (s : PSpec α) : Prop where
  inv : PInv p
  perm : p.arr.Perm s.elems
  heap : s.clean = true → Spec.IsHeap (cmp2 cmp) p.arr

theorem isHeap_nil : Spec.IsHeap (cmp2 cmp) ([] : List (Nat × α)) := by
  intro i x y _ hx
  simp at hx

theorem PInv.new : PInv (PH.new : PH α) :=
  ⟨⟨fun i j x y hi => absurd hi (Nat.not_lt_zero _), fun i x hi => absurd hi (Nat.not_lt_zero _)⟩, [], rfl, List.nodup_nil, fun x hx => nomatch hx⟩

/-- **C66**: a priority heap behaves like its elements with their handles. From the empty heap on, after any calls that were allowed, each call that is allowed (`Get`,
`Set` and `Remove` with the handle of an element that is there) succeeds, and what it returns and leaves is as specified: `Get(h)` returns the value pushed or set
last under `h`, `Set(h, v)` and `Remove(h)` change exactly that element, `Push` returns a handle no element has, and all other elements keep their handles. `Pop`
and `Peek` give a greatest element as long as no element was removed by handle since the last `Clear` (see C03 for why not afterwards). -/
theorem C66_handles (ho : CmpOrd cmp) : ∃ R : PH α → PSpec α → Prop, R PH.new ⟨[], true⟩ ∧
    ∀ p s op, R p s → s.legal op → ∃ p' out s', stepP cmp p op = some (p', out) ∧ PSpec.Step cmp s op out s' ∧ R p' s' := by
  have ho2 := cmp2_ord ho
  refine ⟨PRel cmp, ⟨PInv.new, List.Perm.refl _, fun _ => isHeap_nil⟩, ?_⟩
  intro p s op h hop
  have htop : s.elems ≠ [] → ∃ x, p.arr[0]? = some x ∧ x ∈ s.elems ∧ (s.clean = true → ∀ y ∈ s.elems, cmp y.2 x.2 ≤ 0) := by
    intro hne
    have hpos : 0 < p.arr.length := by
      rw [h.perm.length_eq]
      exact List.length_pos_iff.2 hne
    refine ⟨p.arr[0], List.getElem?_eq_getElem hpos, h.perm.mem_iff.1 (List.getElem_mem hpos), fun hc y hy => ?_⟩
    exact heap_root_max ho2 (h.heap hc) (List.getElem?_eq_getElem hpos) y (h.perm.mem_iff.2 hy)
  cases op with
  | push v =>
    obtain ⟨p', k, e, hi, hne, hp, hins⟩ := push_step (cmp := cmp) h.inv v
    refine ⟨p', .handle k, ⟨p'.arr, s.clean⟩, by simp only [stepP, e, Option.map_some], .push (fun x hx => hne x (h.perm.mem_iff.2 hx)) (hp.trans (h.perm.cons _)),
      hi, List.Perm.refl _, fun hc => ?_⟩
    obtain ⟨r, g1, g2, _⟩ := insert_spec ho2 (h.heap hc) (k, v)
    rw [hins] at g1
    cases g1
    exact g2
  | pop =>
    obtain ⟨x, h0, hx, hmax⟩ := htop hop
    obtain ⟨p', e, hi, hp, hrem⟩ := remove_step (cmp := cmp) h.inv h0
    refine ⟨p', .val x.2, ⟨p'.arr, s.clean⟩, by simp only [stepP, popP, rd, h0, e, Option.bind_some, Option.map_some],
      .pop (h := x.1) (h.perm.symm.trans hp) hmax, hi, List.Perm.refl _, fun hc => ?_⟩
    obtain ⟨r, g1, g2, _⟩ := remove_spec ho2 (h.heap hc) (lt_of_getElem? h0) (fun _ _ h => absurd h (Nat.lt_irrefl _))
    rw [hrem] at g1
    cases g1
    exact g2
  | peek =>
    obtain ⟨x, h0, hx, hmax⟩ := htop hop
    exact ⟨p, .val x.2, s, by simp only [stepP, peekP, rd, h0, Option.map_some], .peek (h := x.1) hx hmax, h⟩
  | get k =>
    obtain ⟨v, hv⟩ := hop
    obtain ⟨i, _, hi, e⟩ := indexOf_spec h.inv (h.perm.mem_iff.2 hv)
    exact ⟨p, .val v, s, by simp only [stepP, getKey, e, Option.bind_some, rd, hi, Option.map_some], .get hv, h⟩
  | set k v =>
    obtain ⟨o, hv⟩ := hop
    obtain ⟨p', r, e, hi, hp, hp', i, hl, hs⟩ := set_step (cmp := cmp) h.inv (h.perm.mem_iff.2 hv) v
    refine ⟨p', .ok true, ⟨p'.arr, s.clean⟩, by simp only [stepP, e, Option.map_some], .set (h.perm.symm.trans hp) hp', hi, List.Perm.refl _, fun hc => ?_⟩
    obtain ⟨r, g1, g2, _⟩ := set_spec ho2 (h.heap hc) hl (k, v)
    rw [hs] at g1
    cases g1
    exact g2
  | remove k =>
    obtain ⟨v, hv⟩ := hop
    obtain ⟨i, _, hi, e⟩ := indexOf_spec h.inv (h.perm.mem_iff.2 hv)
    obtain ⟨p', e', hi', hp, _⟩ := remove_step (cmp := cmp) h.inv hi
    exact ⟨p', .ok true, ⟨p'.arr, false⟩, by simp only [stepP, removeKey, e, e', Option.bind_some, Option.map_some], .remove (h.perm.symm.trans hp),
      hi', List.Perm.refl _, fun hc => nomatch hc⟩
  | length => exact ⟨p, _, s, by simp only [stepP, h.perm.length_eq], .length, h⟩
  | clear =>
    refine ⟨clearP p, .unit, ⟨[], true⟩, rfl, .clear, ⟨⟨fun i j x y hi => absurd hi (Nat.not_lt_zero _), fun i x hi => absurd hi (Nat.not_lt_zero _)⟩, ?_⟩, List.Perm.refl _,
      fun _ => isHeap_nil⟩
    obtain ⟨F, hF, hn, _⟩ := h.inv.free
    exact ⟨F, hF, hn, fun x hx => nomatch hx⟩

/-- The outputs of a sequence of calls. -/
def outsP (cmp : α → α → Int) : PH α → List (POp α) → Option (List (POut α))
  | _, [] => some []
  | p, op :: ops => (stepP cmp p op).bind fun r => (outsP cmp r.1 ops).map (r.2 :: ·)

/-- Handles in use: three pushes, a change, a removal and reading. -/
example : outsP icmp PH.new [.push 3, .push 5, .push 4, .set 0 9, .remove 1, .get 0, .get 3, .pop, .length] =
    some [.handle 0, .handle 1, .handle 3, .ok true, .ok true, .val 9, .val 4, .val 9, .num 1] := by
  decide +kernel

/-- A handle whose element has left denotes whatever is at its last place: here `Set` through it destroys another element, whose own handle then shows the
new value. -/
theorem C66_stale_counterexample :
    outsP icmp PH.new [.push 3, .push 5, .pop, .set 1 1, .get 0, .length] = some [.handle 0, .handle 1, .val 5, .ok true, .val 1, .num 1] := by
  decide +kernel

/-- Moving a heap into a new one loses the table of handles: reading through one is an access outside the array. -/
theorem C66_move_counterexample : ∃ p : PH Int, (stepP icmp PH.new (.push 3)).map (·.1) = some p ∧ getKey p 0 = some 3 ∧ getKey (moveCtor p) 0 = none := by
  exact ⟨⟨[(0, 3)], [0], -1⟩, by decide +kernel, by decide, by decide⟩

end Verif.Heap
