import Verif.Arith.IntDiv

/-!
# `ArbitraryArray`

`include/bss-util/DynArray.h:339-453`: an array of bytes that is used as an array of elements whose size is chosen at run time. Bytes are natural numbers, a byte that was never written is `none`.
Sizes are natural numbers (no overflow). `Front`, `Back`, `begin` and `end` are left out: they convert a byte, or a pointer to bytes, and do not give an element of another type.
-/

namespace Verif.Arb

abbrev Bytes := List (Option Nat)

/-- The array: its memory of `_capacity` bytes, `_length`, `_element`. -/
structure AArr where
  mem : Bytes
  len : Nat
  el : Nat

/-- `memcpy` to the offset `o`; `none` if it goes beyond the memory. -/
def write (m : Bytes) (o : Nat) (src : Bytes) : Option Bytes :=
  if o + src.length ≤ m.length then some (m.take o ++ src ++ m.drop (o + src.length)) else none

/-- The `n` bytes at the offset `o`. -/
def read (m : Bytes) (o n : Nat) : Option Bytes := if o + n ≤ m.length then some ((m.drop o).take n) else none

/-- `_setCapacity`, `Array.h:135-140`. -/
def realloc (m : Bytes) (n : Nat) : Bytes := m.take n ++ List.replicate (n - m.length) none

/-- The constructor, `DynArray.h:353`. -/
def make (size el : Nat) : AArr := ⟨List.replicate (size * el) none, 0, el⟩

/-- `Add`, `DynArray.h:354-360`; `item` are the bytes of the value. -/
def add (a : AArr) (item : List Nat) : Option AArr :=
  let m := if a.len * a.el ≥ a.mem.length then realloc a.mem (Arith.fbnextN a.len * a.el) else a.mem
  (write m (a.len * a.el) ((item.take a.el).map some)).map fun m => ⟨m, a.len + 1, a.el⟩

/-- `Remove`, `DynArray.h:361-367`. -/
def remove (a : AArr) (i : Nat) : Option AArr :=
  let o := i * a.el
  if o + a.el ≤ a.mem.length then
    (read a.mem (o + a.el) (a.mem.length - o - a.el)).bind fun s => (write a.mem o s).map fun m => ⟨m, a.len - 1, a.el⟩
  else none

/-- `RemoveLast`, `DynArray.h:368`. -/
def removeLast (a : AArr) : Option AArr := if a.len = 0 then none else some ⟨a.mem, a.len - 1, a.el⟩

/-- `SetElement(newarray, element, num)`, `DynArray.h:369-382`, with an array that is not part of this one; `src` are its bytes. -/
def setArray (a : AArr) (src : List Nat) (el num : Nat) : Option AArr :=
  let m := if num * el > a.mem.length then List.replicate (num * el) none else a.mem
  (write m 0 (src.map some)).map fun m => ⟨m, num, el⟩

/-- The loop of `SetElement(element)`, `DynArray.h:400-401`. -/
def setElementLoop (mem : Bytes) (old new : Nat) : Nat → Nat → Bytes → Option Bytes
  | 0, _, n => some n
  | k + 1, i, n => (read mem (i * old) (min new old)).bind fun s => (write n (i * new) s).bind fun n => setElementLoop mem old new k (i + 1) n

/-- `SetElement(element)`, `DynArray.h:389-408`. -/
def setElement (a : AArr) (el : Nat) : Option AArr :=
  if el = a.el then some a
  else (setElementLoop a.mem a.el el a.len 0 (List.replicate (el * a.len) (some 0))).map fun m => ⟨m, a.len, el⟩

/-- `SetLength`, `DynArray.h:412`. -/
def setLength (a : AArr) (n : Nat) : AArr := ⟨if n * a.el > a.mem.length then realloc a.mem (n * a.el) else a.mem, n, a.el⟩

/-- `Clear`, `DynArray.h:411`. -/
def clear (a : AArr) : AArr := ⟨a.mem, 0, a.el⟩

/-- The bytes of the element that `Get` points to, `DynArray.h:423-426`. -/
def get (a : AArr) (i : Nat) : Option Bytes := read a.mem (i * a.el) a.el

/-- The copy constructor, `DynArray.h:351`. -/
def copyNew (b : AArr) : Option AArr :=
  (read b.mem 0 (b.len * b.el)).bind fun s => (write (List.replicate b.mem.length none) 0 s).map fun m => ⟨m, b.len, b.el⟩

/-- `operator=(const ArbitraryArray&)`, `DynArray.h:430-437`: the memory is replaced before it is copied, so that nothing is left to copy if both are the same. -/
def assign (self : Bool) (b : AArr) : AArr := ⟨if self then List.replicate b.mem.length none else b.mem, b.len, b.el⟩

/-- The move constructor and `operator=(ArbitraryArray&&)`, `DynArray.h:352`, `:438-444`: the target and what is left in the source. -/
def move (b : AArr) : AArr × AArr := (⟨b.mem, b.len, b.el⟩, ⟨[], b.len, b.el⟩)

/-! ## Specification: a list of rows of `el` bytes -/

/-- `fresh`: the array was constructed with no room, and not used since then. -/
structure SArr where
  el : Nat
  rows : List Bytes
  fresh : Bool

/-- `row` has `el` bytes and begins with the bytes of the item, cut off after `el` bytes. -/
def Begins (el : Nat) (item : List Nat) (row : Bytes) : Prop := row.length = el ∧ ∀ j, j < el → j < item.length → row[j]? = (item[j]?).map some

/-- A row with another number of bytes: cut off, or filled with zeros. -/
def resize (el : Nat) (row : Bytes) : Bytes := row.take el ++ List.replicate (el - row.length) (some 0)

/-- What objects may look like. Elements have at least one byte. An array can be replaced with one of another element size only while it is fresh, or if the new size divides the old one; the size can be set first. -/
inductive Reach : AArr → SArr → Prop where
  | make {n el} : 0 < el → Reach (make n el) ⟨el, [], n == 0⟩
  | add {a s item b row} : Reach a s → add a item = some b → Begins s.el item row → get b s.rows.length = some row → Reach b ⟨s.el, s.rows ++ [row], false⟩
  | remove {a s i b} : Reach a s → i < s.rows.length → remove a i = some b → Reach b ⟨s.el, s.rows.eraseIdx i, false⟩
  | removeLast {a s b} : Reach a s → s.rows ≠ [] → removeLast a = some b → Reach b ⟨s.el, s.rows.dropLast, false⟩
  | setArray {a s el b} {rows : List (List Nat)} : Reach a s → 0 < el → (s.fresh = true ∨ el ∣ s.el) → (∀ r ∈ rows, r.length = el) → setArray a rows.flatten el rows.length = some b →
      Reach b ⟨el, rows.map (·.map some), false⟩
  | setElement {a s el b} : Reach a s → 0 < el → setElement a el = some b → Reach b ⟨el, s.rows.map (resize el), false⟩
  | shorten {a s n} : Reach a s → n ≤ s.rows.length → Reach (setLength a n) ⟨s.el, s.rows.take n, false⟩
  | lengthen {a s n} {new : List Bytes} : Reach a s → s.rows.length + new.length = n → (∀ r ∈ new, r.length = s.el) →
      (∀ j, j < new.length → get (setLength a n) (s.rows.length + j) = new[j]?) → Reach (setLength a n) ⟨s.el, s.rows ++ new, false⟩
  | clear {a s} : Reach a s → Reach (clear a) ⟨s.el, [], false⟩
  | copyNew {a s b} : Reach a s → copyNew a = some b → Reach b ⟨s.el, s.rows, false⟩
  | assign {a s} : Reach a s → Reach (assign false a) ⟨s.el, s.rows, false⟩
  | move {a s} : Reach a s → Reach (move a).1 ⟨s.el, s.rows, false⟩

/-! ## Proofs -/

/-- The memory is the rows and room for whole elements. -/
structure Rep (a : AArr) (s : SArr) : Prop where
  el : a.el = s.el
  pos : 0 < s.el
  len : a.len = s.rows.length
  wid : ∀ r ∈ s.rows, r.length = s.el
  mem : ∃ rest q, a.mem = s.rows.flatten ++ rest ∧ rest.length = q * s.el
  fresh : s.fresh = true → a.mem = []

theorem flat_len {el : Nat} : ∀ {l : List Bytes}, (∀ r ∈ l, r.length = el) → l.flatten.length = l.length * el
  | [], _ => by simp
  | r :: l, h => by
    rw [List.flatten_cons, List.length_append, h r (by simp), flat_len fun x hx => h x (List.mem_cons_of_mem _ hx), List.length_cons, Nat.succ_mul, Nat.add_comm]

theorem chunk {el : Nat} : ∀ (k : Nat) (l : Bytes), k * el ≤ l.length → ∃ rows : List Bytes, rows.length = k ∧ (∀ r ∈ rows, r.length = el) ∧ l = rows.flatten ++ l.drop (k * el)
  | 0, l, _ => ⟨[], rfl, by simp, by simp⟩
  | k + 1, l, h => by
    rw [Nat.succ_mul] at h
    obtain ⟨rows, h1, h2, h3⟩ := chunk (el := el) k (l.drop el) (by rw [List.length_drop]; omega)
    refine ⟨l.take el :: rows, by simp [h1], ?_, ?_⟩
    · intro r hr
      rcases List.mem_cons.1 hr with rfl | hr
      · rw [List.length_take]; omega
      · exact h2 r hr
    · rw [List.flatten_cons, List.append_assoc, Nat.succ_mul, Nat.add_comm, ← List.drop_drop, ← h3, List.take_append_drop]

theorem rep_add {α : Type _} (m n : Nat) (x : α) : List.replicate (m + n) x = List.replicate m x ++ List.replicate n x := (List.replicate_append_replicate).symm

theorem read_mid {A B C : Bytes} {o n : Nat} (ho : o = A.length) (hn : n = B.length) : read (A ++ B ++ C) o n = some B := by
  subst ho hn
  rw [read, if_pos (by simp), List.append_assoc, List.drop_left, List.take_left]

theorem write_mid {A B C D : Bytes} {o : Nat} (ho : o = A.length) (hn : D.length = B.length) : write (A ++ B ++ C) o D = some (A ++ D ++ C) := by
  subst ho
  rw [write, if_pos (by simp [hn]), hn]
  congr 2
  · rw [List.append_assoc A B C, List.take_left]
  · rw [← List.length_append, List.drop_left]

theorem get_row {a : AArr} {s : SArr} (h : Rep a s) {i : Nat} {r : Bytes} (hr : s.rows[i]? = some r) : get a i = some r := by
  obtain ⟨rest, q, hm, _⟩ := h.mem
  obtain ⟨hi, rfl⟩ := List.getElem?_eq_some_iff.1 hr
  have hs : s.rows = s.rows.take i ++ s.rows[i] :: s.rows.drop (i + 1) := by rw [← List.drop_eq_getElem_cons hi, List.take_append_drop]
  have hA : (s.rows.take i).flatten.length = i * s.el := by
    rw [flat_len fun x hx => h.wid x (List.mem_of_mem_take hx), List.length_take, Nat.min_eq_left (Nat.le_of_lt hi)]
  have hm' : a.mem = (s.rows.take i).flatten ++ s.rows[i] ++ ((s.rows.drop (i + 1)).flatten ++ rest) := by
    rw [hm]
    conv => lhs; rw [hs]
    rw [List.flatten_append, List.flatten_cons]
    simp only [List.append_assoc]
  rw [get, hm', h.el]
  exact read_mid hA.symm (h.wid _ (List.getElem_mem hi)).symm

/-- Making room never changes what is there. -/
theorem realloc_ge {m : Bytes} {n : Nat} (h : m.length ≤ n) : realloc m n = m ++ List.replicate (n - m.length) none := by
  rw [realloc, List.take_of_length_le h]

theorem add_ok {a : AArr} {s : SArr} (h : Rep a s) (item : List Nat) : ∃ b row, add a item = some b ∧ Begins s.el item row ∧ Rep b ⟨s.el, s.rows ++ [row], false⟩ := by
  have hfl := flat_len h.wid
  have hpos := h.pos
  -- the memory after the check
  obtain ⟨rest, q, hm, hq⟩ : ∃ rest q, (if a.len * a.el ≥ a.mem.length then realloc a.mem (Arith.fbnextN a.len * a.el) else a.mem) = s.rows.flatten ++ rest ∧ rest.length = (q + 1) * s.el := by
    obtain ⟨rest, q, hm, hq⟩ := h.mem
    have hml : a.mem.length = s.rows.length * s.el + q * s.el := by rw [hm, List.length_append, hfl, hq]
    rw [h.len, h.el]
    split
    · next hc =>
      have hq0 : q * s.el = 0 := by omega
      have hr : rest = [] := List.eq_nil_of_length_eq_zero (by omega)
      have hf := (Arith.C56_fbnext (x := s.rows.length) (y := 0)).1
      obtain ⟨d, hd⟩ := Nat.exists_eq_add_of_lt hf
      have hml' : a.mem.length = s.rows.length * s.el := by omega
      have hn : Arith.fbnextN s.rows.length * s.el = s.rows.length * s.el + (d + 1) * s.el := by rw [hd, ← Nat.add_mul]; rfl
      refine ⟨List.replicate ((d + 1) * s.el) none, d, ?_, by simp⟩
      rw [realloc_ge (by omega), hn, hml', Nat.add_sub_cancel_left, hm, hr, List.append_nil]
    · next hc =>
      rcases q with _ | q
      · omega
      · exact ⟨rest, q, hm, hq⟩
  have hrl : s.el ≤ rest.length := by rw [hq, Nat.succ_mul]; omega
  let src : Bytes := (item.take s.el).map some
  have hsl : src.length ≤ s.el := by simp only [src, List.length_map, List.length_take]; omega
  let row : Bytes := src ++ (rest.take s.el).drop src.length
  have hrow : row.length = s.el := by simp only [row, List.length_append, List.length_drop, List.length_take]; omega
  refine ⟨⟨s.rows.flatten ++ src ++ rest.drop src.length, a.len + 1, a.el⟩, row, ?_, ⟨hrow, ?_⟩, ⟨h.el, hpos, ?_, ?_, ?_, nofun⟩⟩
  · have hsplit : s.rows.flatten ++ rest = s.rows.flatten ++ rest.take src.length ++ rest.drop src.length := by rw [List.append_assoc, List.take_append_drop]
    have hw : write (s.rows.flatten ++ rest) (a.len * a.el) src = some (s.rows.flatten ++ src ++ rest.drop src.length) := by
      rw [hsplit]
      exact write_mid (by rw [hfl, h.len, h.el]) (by rw [List.length_take]; omega)
    simp only [add]
    rw [hm, show (item.take a.el).map some = src by rw [h.el], hw]
    rfl
  · intro j hj hji
    have : j < src.length := by simp only [src, List.length_map, List.length_take]; omega
    rw [List.getElem?_append_left this]
    simp only [src, List.getElem?_map, List.getElem?_take, if_pos hj]
  · simp [h.len]
  · intro r hr
    rcases List.mem_append.1 hr with hr | hr
    · exact h.wid r hr
    · rw [List.mem_singleton.1 hr]; exact hrow
  · refine ⟨rest.drop s.el, q, ?_, by rw [List.length_drop, hq, Nat.succ_mul, Nat.add_sub_cancel]⟩
    rw [List.flatten_append, List.flatten_singleton]
    simp only [row, List.append_assoc]
    congr 2
    rw [List.drop_take]
    have : rest.drop s.el = (rest.drop src.length).drop (s.el - src.length) := by rw [List.drop_drop, Nat.add_sub_cancel' hsl]
    rw [this, List.take_append_drop]

theorem remove_ok {a : AArr} {s : SArr} (h : Rep a s) {i : Nat} (hi : i < s.rows.length) : ∃ b, remove a i = some b ∧ Rep b ⟨s.el, s.rows.eraseIdx i, false⟩ := by
  obtain ⟨rest, q, hm, hq⟩ := h.mem
  have hpos := h.pos
  obtain ⟨A, r, B, hs, hAl⟩ : ∃ A r B, s.rows = A ++ r :: B ∧ A.length = i :=
    ⟨s.rows.take i, s.rows[i], s.rows.drop (i + 1), by rw [← List.drop_eq_getElem_cons hi, List.take_append_drop], by rw [List.length_take]; omega⟩
  have hA : A.flatten.length = i * s.el := by rw [flat_len fun x hx => h.wid x (by rw [hs]; simp [hx]), hAl]
  have hr : r.length = s.el := h.wid r (by rw [hs]; simp)
  have her : s.rows.eraseIdx i = A ++ B := by rw [hs, ← hAl, List.eraseIdx_append_of_length_le (Nat.le_refl _), Nat.sub_self]; rfl
  let T := B.flatten ++ rest
  have hm' : a.mem = A.flatten ++ r ++ T := by rw [hm, hs, List.flatten_append, List.flatten_cons]; simp only [T, List.append_assoc]
  have hlen : a.mem.length = i * s.el + s.el + T.length := by rw [hm', List.length_append, List.length_append, hA, hr]
  have hread : read a.mem (i * s.el + s.el) (a.mem.length - i * s.el - s.el) = some T := by
    rw [show a.mem.length - i * s.el - s.el = T.length by omega, hm']
    have := read_mid (A := A.flatten ++ r) (B := T) (C := []) (o := i * s.el + s.el) (n := T.length) (by rw [List.length_append, hA, hr]) rfl
    rwa [List.append_nil] at this
  have hwrite : write a.mem (i * s.el) T = some (A.flatten ++ T ++ (r ++ T).drop T.length) := by
    have : a.mem = A.flatten ++ (r ++ T).take T.length ++ (r ++ T).drop T.length := by rw [List.append_assoc, List.take_append_drop, hm', List.append_assoc]
    rw [this]
    exact write_mid hA.symm (by rw [List.length_take]; have := List.length_append (as := r) (bs := T); omega)
  refine ⟨⟨A.flatten ++ T ++ (r ++ T).drop T.length, a.len - 1, a.el⟩, ?_, ⟨h.el, hpos, ?_, ?_, ⟨rest ++ (r ++ T).drop T.length, q + 1, ?_, ?_⟩, nofun⟩⟩
  · simp only [remove, h.el]
    rw [if_pos (by omega), hread, Option.bind_some, hwrite]
    rfl
  · show a.len - 1 = (s.rows.eraseIdx i).length
    rw [her, h.len, hs]; simp
  · intro x hx
    exact h.wid x (List.mem_of_mem_eraseIdx hx)
  · show _ = (s.rows.eraseIdx i).flatten ++ _
    rw [her, List.flatten_append]
    simp only [T, List.append_assoc]
  · show _ = (q + 1) * s.el
    rw [List.length_append, List.length_drop, List.length_append, hq, hr, Nat.succ_mul]; omega

theorem shrink_ok {a : AArr} {s : SArr} (h : Rep a s) {n : Nat} (hn : n ≤ s.rows.length) : Rep ⟨a.mem, n, a.el⟩ ⟨s.el, s.rows.take n, false⟩ := by
  obtain ⟨rest, q, hm, hq⟩ := h.mem
  refine ⟨h.el, h.pos, by simp only [List.length_take]; omega, fun r hr => h.wid r (List.mem_of_mem_take hr), ⟨(s.rows.drop n).flatten ++ rest, (s.rows.length - n) + q, ?_, ?_⟩, nofun⟩
  · show a.mem = _
    rw [hm, ← List.append_assoc, ← List.flatten_append, List.take_append_drop]
  · rw [List.length_append, flat_len fun r hr => h.wid r (List.mem_of_mem_drop hr), hq, List.length_drop, ← Nat.add_mul]

theorem setArray_ok {a : AArr} {s : SArr} (h : Rep a s) {el : Nat} (hel : 0 < el) (hd : s.fresh = true ∨ el ∣ s.el) {rows : List (List Nat)} (hw : ∀ r ∈ rows, r.length = el) :
    ∃ b, setArray a rows.flatten el rows.length = some b ∧ Rep b ⟨el, rows.map (·.map some), false⟩ := by
  have hw' : ∀ r ∈ rows.map (·.map some), r.length = el := by
    intro r hr
    obtain ⟨x, hx, rfl⟩ := List.mem_map.1 hr
    rw [List.length_map]; exact hw x hx
  have hfl := flat_len hw'
  have hmf : rows.flatten.map some = (rows.map (·.map some)).flatten := by rw [List.map_flatten]
  rw [List.length_map] at hfl
  -- the capacity is a multiple of the new size
  obtain ⟨c, hc⟩ : ∃ c, a.mem.length = c * el := by
    rcases hd with hd | ⟨d, hd⟩
    · exact ⟨0, by rw [h.fresh hd]; simp⟩
    · obtain ⟨rest, q, hm, hq⟩ := h.mem
      refine ⟨(s.rows.length + q) * d, ?_⟩
      rw [hm, List.length_append, flat_len h.wid, hq, ← Nat.add_mul, hd, Nat.mul_assoc, Nat.mul_comm d el]
  obtain ⟨m, c', hm, hml, hle⟩ : ∃ m c', (if rows.length * el > a.mem.length then List.replicate (rows.length * el) none else a.mem) = m ∧ m.length = c' * el ∧ rows.length ≤ c' := by
    split
    · exact ⟨_, rows.length, rfl, by simp, Nat.le_refl _⟩
    · next hn => exact ⟨_, c, rfl, hc, Nat.le_of_mul_le_mul_right (by omega) hel⟩
  have hle' : rows.length * el ≤ c' * el := Nat.mul_le_mul_right el hle
  refine ⟨⟨(rows.map (·.map some)).flatten ++ m.drop (rows.length * el), rows.length, el⟩, ?_, ⟨rfl, hel, by simp, hw', ⟨m.drop (rows.length * el), c' - rows.length, rfl, ?_⟩, nofun⟩⟩
  · simp only [setArray]
    rw [hm, hmf, write, if_pos (by rw [hfl]; omega), hfl]
    simp
  · rw [List.length_drop, hml, Nat.sub_mul]

theorem setElement_loop {old new : Nat} (rest : Bytes) : ∀ (todo done : List Bytes), (∀ r ∈ done ++ todo, r.length = old) →
    setElementLoop ((done ++ todo).flatten ++ rest) old new todo.length done.length ((done.map (resize new)).flatten ++ List.replicate (todo.length * new) (some 0)) =
      some (((done ++ todo).map (resize new)).flatten) := by
  have hres : ∀ r : Bytes, r.length = old → (resize new r).length = new := by
    intro r hr
    rw [resize, List.length_append, List.length_take, List.length_replicate]; omega
  intro todo
  induction todo with
  | nil => intro done _; simp [setElementLoop]
  | cons r todo ih =>
    intro done hw
    have hr : r.length = old := hw r (by simp)
    have hd : done.flatten.length = done.length * old := flat_len fun x hx => hw x (by simp [hx])
    have hd' : (done.map (resize new)).flatten.length = done.length * new := by
      rw [flat_len (el := new), List.length_map]
      intro x hx
      obtain ⟨y, hy, rfl⟩ := List.mem_map.1 hx
      exact hres y (hw y (by simp [hy]))
    have hread : read ((done ++ r :: todo).flatten ++ rest) (done.length * old) (min new old) = some (r.take new) := by
      have : (done ++ r :: todo).flatten ++ rest = done.flatten ++ r.take new ++ (r.drop new ++ (todo.flatten ++ rest)) := by
        rw [List.flatten_append, List.flatten_cons]
        simp only [List.append_assoc]
        rw [← List.append_assoc (r.take new), List.take_append_drop]
      rw [this]
      exact read_mid hd.symm (by rw [List.length_take, hr])
    have hwrite : write ((done.map (resize new)).flatten ++ List.replicate ((r :: todo).length * new) (some 0)) (done.length * new) (r.take new) =
        some (((done ++ [r]).map (resize new)).flatten ++ List.replicate (todo.length * new) (some 0)) := by
      have e : (r :: todo).length * new = (r.take new).length + ((new - r.length) + todo.length * new) := by
        rw [List.length_cons, Nat.succ_mul, List.length_take]; omega
      rw [e, rep_add, ← List.append_assoc, write_mid hd'.symm (by simp), rep_add, List.map_append, List.flatten_append, List.map_singleton, List.flatten_singleton, resize]
      simp only [List.append_assoc]
    have := ih (done ++ [r]) (by simpa using hw)
    rw [List.length_append] at this
    rw [List.append_assoc done [r] todo] at this
    rw [List.length_cons, setElementLoop, hread, Option.bind_some]
    rw [List.length_cons] at hwrite
    rw [hwrite, Option.bind_some]
    exact this

theorem setElement_ok {a : AArr} {s : SArr} (h : Rep a s) {el : Nat} (hel : 0 < el) : ∃ b, setElement a el = some b ∧ Rep b ⟨el, s.rows.map (resize el), false⟩ := by
  obtain ⟨rest, q, hm, hq⟩ := h.mem
  by_cases he : el = s.el
  · subst he
    have : s.rows.map (resize s.el) = s.rows := by
      rw [List.map_congr_left (g := id), List.map_id]
      intro r hr
      rw [resize, List.take_of_length_le (by rw [h.wid r hr]; exact Nat.le_refl _), h.wid r hr]
      simp
    refine ⟨a, by rw [setElement, if_pos h.el.symm], ?_⟩
    rw [this]
    exact ⟨h.el, h.pos, h.len, h.wid, ⟨rest, q, hm, hq⟩, nofun⟩
  · refine ⟨⟨(s.rows.map (resize el)).flatten, a.len, el⟩, ?_, ⟨rfl, hel, by simp [h.len], ?_, ⟨[], 0, by simp, by simp⟩, nofun⟩⟩
    · have := setElement_loop (old := s.el) (new := el) rest s.rows [] (by simpa using h.wid)
      simp only [List.nil_append, List.map_nil, List.flatten_nil, List.length_nil] at this
      rw [setElement, h.el, if_neg he, hm, h.len, Nat.mul_comm el, this]
      rfl
    · intro r hr
      obtain ⟨x, hx, rfl⟩ := List.mem_map.1 hr
      show _ = el
      rw [resize, List.length_append, List.length_take, List.length_replicate]; omega

theorem lengthen_ok {a : AArr} {s : SArr} (h : Rep a s) {n k : Nat} (hn : s.rows.length + k = n) :
    ∃ new : List Bytes, new.length = k ∧ Rep (setLength a n) ⟨s.el, s.rows ++ new, false⟩ := by
  have hfl := flat_len h.wid
  obtain ⟨rest, q, hm, hq, hk⟩ : ∃ rest q, (setLength a n).mem = s.rows.flatten ++ rest ∧ rest.length = q * s.el ∧ k ≤ q := by
    obtain ⟨rest, q, hm, hq⟩ := h.mem
    have hml : a.mem.length = s.rows.length * s.el + q * s.el := by rw [hm, List.length_append, hfl, hq]
    have hn' : n * s.el = s.rows.length * s.el + k * s.el := by rw [← hn, Nat.add_mul]
    simp only [setLength, h.el]
    split
    · next hc =>
      refine ⟨rest ++ List.replicate (n * s.el - a.mem.length) none, k, ?_, ?_, Nat.le_refl _⟩
      · rw [realloc_ge (by omega), hm, List.append_assoc]
      · rw [List.length_append, hq, List.length_replicate]; omega
    · next hc => exact ⟨rest, q, hm, hq, Nat.le_of_mul_le_mul_right (by omega : k * s.el ≤ q * s.el) h.pos⟩
  have hk' := Nat.mul_le_mul_right s.el hk
  obtain ⟨new, h1, h2, h3⟩ := chunk (el := s.el) k rest (by omega)
  refine ⟨new, h1, h.el, h.pos, by simp [setLength, ← hn, h1], ?_, ⟨rest.drop (k * s.el), q - k, ?_, ?_⟩, nofun⟩
  · intro r hr
    rcases List.mem_append.1 hr with hr | hr
    · exact h.wid r hr
    · exact h2 r hr
  · rw [List.flatten_append, List.append_assoc, ← h3, hm]
  · rw [List.length_drop, hq, Nat.sub_mul]

theorem copyNew_ok {a : AArr} {s : SArr} (h : Rep a s) : ∃ b, copyNew a = some b ∧ Rep b ⟨s.el, s.rows, false⟩ := by
  obtain ⟨rest, q, hm, hq⟩ := h.mem
  have hfl := flat_len h.wid
  refine ⟨⟨s.rows.flatten ++ List.replicate (q * s.el) none, a.len, a.el⟩, ?_, ⟨h.el, h.pos, h.len, h.wid, ⟨_, q, rfl, by simp⟩, nofun⟩⟩
  have h1 : read a.mem 0 (a.len * a.el) = some s.rows.flatten := by
    rw [hm]
    exact read_mid (A := []) rfl (by rw [hfl, h.len, h.el])
  have h2 : write (List.replicate a.mem.length none) 0 s.rows.flatten = some (s.rows.flatten ++ List.replicate (q * s.el) none) := by
    rw [hm, List.length_append, hq, rep_add]
    exact write_mid (A := []) rfl (by simp)
  rw [copyNew, h1, Option.bind_some, h2]
  rfl

/-- What the rows are is determined by reading them. -/
theorem rows_eq {a : AArr} {s : SArr} {X Y : List Bytes} {f : Bool} (h : Rep a ⟨s.el, s.rows ++ X, f⟩) (hl : X.length = Y.length)
    (hg : ∀ j, j < Y.length → get a (s.rows.length + j) = Y[j]?) : X = Y := by
  apply List.ext_getElem hl
  intro j h1 h2
  have e := get_row h (i := s.rows.length + j) (r := X[j]) (by
    show (s.rows ++ X)[s.rows.length + j]? = _
    rw [List.getElem?_append_right (Nat.le_add_right _ _), Nat.add_sub_cancel_left, List.getElem?_eq_getElem h1])
  rw [hg j h2, List.getElem?_eq_getElem h2] at e
  exact (Option.some.inj e).symm

theorem Reach.rep {a : AArr} {s : SArr} (h : Reach a s) : Rep a s := by
  induction h with
  | @make n el hel =>
    refine ⟨rfl, hel, rfl, by simp, ⟨List.replicate (n * el) none, n, rfl, by simp⟩, ?_⟩
    intro hf
    have : n = 0 := by simpa using hf
    subst this
    simp [Arb.make]
  | @add a s item b row _ he hb hg ih =>
    obtain ⟨b', row', h1, _, h3⟩ := add_ok ih item
    cases he.symm.trans h1
    have := rows_eq h3 (Y := [row]) rfl (fun j hj => by
      obtain rfl : j = 0 := by simp at hj; exact hj
      simpa using hg)
    cases this
    exact h3
  | remove _ hi he ih =>
    obtain ⟨b', h1, h2⟩ := remove_ok ih hi
    cases he.symm.trans h1
    exact h2
  | @removeLast a s b _ hne he ih =>
    have hl := List.length_pos_iff.2 hne
    rw [Arb.removeLast, if_neg (by rw [ih.len]; omega)] at he
    cases he
    rw [List.dropLast_eq_take, ih.len]
    exact shrink_ok ih (by omega)
  | setArray _ hel hd hw he ih =>
    obtain ⟨b', h1, h2⟩ := setArray_ok ih hel hd hw
    cases he.symm.trans h1
    exact h2
  | setElement _ hel he ih =>
    obtain ⟨b', h1, h2⟩ := setElement_ok ih hel
    cases he.symm.trans h1
    exact h2
  | @shorten a s n _ hn ih =>
    obtain ⟨rest, q, hm, _⟩ := ih.mem
    have := Nat.mul_le_mul_right s.el hn
    rw [setLength, if_neg (by rw [ih.el, hm, List.length_append, flat_len ih.wid]; omega)]
    exact shrink_ok ih hn
  | @lengthen a s n new _ hn hw hg ih =>
    obtain ⟨new', h1, h2⟩ := lengthen_ok ih hn
    cases rows_eq h2 h1 hg
    exact h2
  | @clear a s _ ih =>
    have := shrink_ok ih (n := 0) (Nat.zero_le _)
    rwa [List.take_zero] at this
  | copyNew _ he ih =>
    obtain ⟨b', h1, h2⟩ := copyNew_ok ih
    cases he.symm.trans h1
    exact h2
  | @assign a s _ ih => exact ⟨ih.el, ih.pos, ih.len, ih.wid, ih.mem, nofun⟩
  | @move a s _ ih => exact ⟨ih.el, ih.pos, ih.len, ih.wid, ih.mem, nofun⟩

/-- In every reachable state the length and the element size are those of the list, and `Get` gives each element. Every call stays inside of the memory: `Add` appends an element that begins
with the bytes of the item, `Remove` and `RemoveLast` remove one and keep the others, arrays replace the content, changing the element size cuts off or fills with zeros, `SetLength` and copies
keep the elements. -/
theorem C211_elements_partial {a : AArr} {s : SArr} (h : Reach a s) :
    a.len = s.rows.length ∧ a.el = s.el ∧ (∀ i r, s.rows[i]? = some r → get a i = some r) ∧
    (∀ item, ∃ b row, add a item = some b ∧ Begins s.el item row ∧ Reach b ⟨s.el, s.rows ++ [row], false⟩) ∧
    (∀ i, i < s.rows.length → ∃ b, remove a i = some b ∧ Reach b ⟨s.el, s.rows.eraseIdx i, false⟩) ∧
    (s.rows ≠ [] → ∃ b, removeLast a = some b ∧ Reach b ⟨s.el, s.rows.dropLast, false⟩) ∧
    (∀ el (rows : List (List Nat)), 0 < el → (s.fresh = true ∨ el ∣ s.el) → (∀ r ∈ rows, r.length = el) →
      ∃ b, setArray a rows.flatten el rows.length = some b ∧ Reach b ⟨el, rows.map (·.map some), false⟩) ∧
    (∀ el, 0 < el → ∃ b, setElement a el = some b ∧ Reach b ⟨el, s.rows.map (resize el), false⟩) ∧
    (∀ n, n ≤ s.rows.length → Reach (setLength a n) ⟨s.el, s.rows.take n, false⟩) ∧
    (∀ k, ∃ new : List Bytes, new.length = k ∧ Reach (setLength a (s.rows.length + k)) ⟨s.el, s.rows ++ new, false⟩) ∧
    Reach (clear a) ⟨s.el, [], false⟩ ∧
    (∃ b, copyNew a = some b ∧ Reach b ⟨s.el, s.rows, false⟩) ∧ Reach (assign false a) ⟨s.el, s.rows, false⟩ ∧ Reach (move a).1 ⟨s.el, s.rows, false⟩ := by
  have hr := h.rep
  refine ⟨hr.len, hr.el, fun i r => get_row hr, fun item => ?_, fun i hi => ?_, fun hne => ?_, fun el rows hel hd hw => ?_, fun el hel => ?_, fun n hn => .shorten h hn, fun k => ?_, .clear h, ?_,
    .assign h, .move h⟩
  · obtain ⟨b, row, h1, h2, h3⟩ := add_ok hr item
    exact ⟨b, row, h1, h2, .add h h1 h2 (get_row h3 (by simp))⟩
  · obtain ⟨b, h1, _⟩ := remove_ok hr hi
    exact ⟨b, h1, .remove h hi h1⟩
  · have hl := List.length_pos_iff.2 hne
    have h1 : removeLast a = some ⟨a.mem, a.len - 1, a.el⟩ := by rw [removeLast, if_neg (by rw [hr.len]; omega)]
    exact ⟨_, h1, .removeLast h hne h1⟩
  · obtain ⟨b, h1, _⟩ := setArray_ok hr hel hd hw
    exact ⟨b, h1, .setArray h hel hd hw h1⟩
  · obtain ⟨b, h1, _⟩ := setElement_ok hr hel
    exact ⟨b, h1, .setElement h hel h1⟩
  · obtain ⟨new, h1, h2⟩ := lengthen_ok hr (k := k) rfl
    refine ⟨new, h1, .lengthen h (by rw [h1]) (fun r hx => h2.wid r (List.mem_append_right _ hx)) fun j hj => ?_⟩
    rw [List.getElem?_eq_getElem hj]
    exact get_row h2 (by simp [hj])
  · obtain ⟨b, h1, _⟩ := copyNew_ok hr
    exact ⟨b, h1, .copyNew h h1⟩

/-- If an array with room for `n` bytes gets elements of another size that leave less room than one more element needs, `Add` of a whole element writes behind the memory. -/
theorem C211_add_counterexample {n el : Nat} {rows : List (List Nat)} (hw : ∀ r ∈ rows, r.length = el) (h1 : rows.length * el < n) (h2 : n < (rows.length + 1) * el) {item : List Nat}
    (hi : item.length = el) : ∃ b, setArray (make n 1) rows.flatten el rows.length = some b ∧ add b item = none := by
  have hfl : (rows.flatten.map some).length = rows.length * el := by
    rw [List.map_flatten, flat_len (el := el), List.length_map]
    intro r hr
    obtain ⟨x, hx, rfl⟩ := List.mem_map.1 hr
    rw [List.length_map]; exact hw x hx
  have hm : (make n 1).mem.length = n := by simp [make]
  rw [Nat.succ_mul] at h2
  refine ⟨⟨(rows.flatten.map some) ++ (make n 1).mem.drop (rows.length * el), rows.length, el⟩, ?_, ?_⟩
  · simp only [setArray]
    rw [hm, if_neg (by omega), write, if_pos (by rw [hfl, hm]; omega), hfl]
    simp
  · have hl : (rows.flatten.map some ++ (make n 1).mem.drop (rows.length * el)).length = n := by rw [List.length_append, hfl, List.length_drop, hm]; omega
    simp only [add]
    rw [if_neg (by rw [hl]; omega), write, if_neg]
    · rfl
    · rw [hl, List.length_map, List.length_take, hi, Nat.min_self]; omega

/-- The conditions of the counterexample can be met: room for ten bytes, two elements of four bytes. -/
example : ∃ b, setArray (make 10 1) [1, 2, 3, 4, 5, 6, 7, 8] 4 2 = some b ∧ add b [1, 2, 3, 4] = none :=
  C211_add_counterexample (n := 10) (el := 4) (rows := [[1, 2, 3, 4], [5, 6, 7, 8]]) (by simp) (by decide) (by decide) rfl

/-- An array that is assigned to itself keeps its length and loses every byte. -/
theorem C211_self_counterexample {a : AArr} {s : SArr} (h : Reach a s) {i : Nat} (hi : i < s.rows.length) :
    (assign true a).len = s.rows.length ∧ ∃ r, get (assign true a) i = some r ∧ ∀ x ∈ r, x = none := by
  have hr := h.rep
  have hg := get_row hr (List.getElem?_eq_getElem hi)
  refine ⟨hr.len, ?_⟩
  rw [get, read] at hg
  split at hg
  · next hb =>
    refine ⟨((List.replicate a.mem.length none).drop (i * a.el)).take a.el, ?_, ?_⟩
    · simp only [get, read, assign, if_true, List.length_replicate]
      rw [if_pos hb]
    · intro x hx
      exact (List.mem_replicate.1 (List.mem_of_mem_drop (List.mem_of_mem_take hx))).2
  · cases hg

/-- An array that was moved from keeps its length, but has no memory. -/
theorem C211_moved_counterexample {a : AArr} {s : SArr} (h : Reach a s) (i : Nat) : (move a).2.len = s.rows.length ∧ get (move a).2 i = none := by
  have hr := h.rep
  have := hr.pos
  refine ⟨hr.len, ?_⟩
  show read [] (i * a.el) a.el = none
  rw [read, if_neg]
  rw [hr.el, List.length_nil]
  omega

/-- The hypotheses can be met: two elements of two bytes, one item too long and one too short, then three bytes each. -/
example : ∃ a s, Reach a s ∧ s.el = 3 ∧ s.rows = [[some 1, some 2, some 0], [some 7, none, some 0]] := by
  have h0 := Reach.make (n := 2) (el := 2) (by decide)
  have h1 := Reach.add (item := [1, 2, 3]) (row := [some 1, some 2]) h0 rfl ⟨rfl, fun j hj _ => by
    match j, hj with
    | 0, _ => rfl
    | 1, _ => rfl⟩ rfl
  have h2 := Reach.add (item := [7]) (row := [some 7, none]) h1 rfl ⟨rfl, fun j _ hj => by
    match j, hj with
    | 0, _ => rfl⟩ rfl
  have h3 := Reach.setElement (el := 3) h2 (by decide) rfl
  exact ⟨_, _, h3, rfl, rfl⟩

end Verif.Arb
