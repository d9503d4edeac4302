import Verif.Circ.Lemmas

/-!
# C13 (`Queue` is FIFO) and C14 (`ArrayCircular` keeps the newest elements)
-/

namespace Verif.Circ
variable {α : Type}

/-! ## C14 -/

inductive Op (α : Type)
  | push (x : α)
  | pop
  | popBack
  | clear
  | setCapacity (n : Nat)

/-- The specification: a capacity and the surviving values, newest first.  `none` = a call outside its precondition
(push with capacity 0, pop of an empty array). -/
def spec : Op α → Nat × List α → Option ((Nat × List α) × Option α)
  | .push x, (n, l) => if n = 0 then none else some ((n, (x :: l).take n), none)
  | .pop, (_, []) => none
  | .pop, (n, x :: l) => some ((n, l), some x)
  | .popBack, (n, l) =>
    match l.getLast? with
    | none => none
    | some x => some ((n, l.dropLast), some x)
  | .clear, (n, _) => some ((n, []), none)
  | .setCapacity m, (n, l) => some ((m, if m < n then [] else l), none)

/-- The code. -/
def exec : Op α → Circ α → Option (Circ α × Option α)
  | .push x, c => (push c x).map fun c' => (c', none)
  | .pop, c => (pop c).map fun (x, c') => (c', some x)
  | .popBack, c => (popBack c).map fun (x, c') => (c', some x)
  | .clear, c => (clear c).map fun c' => (c', none)
  | .setCapacity m, c => (setCapacity c m).map fun c' => (c', none)

/-- Run a list of operations with either step function, collecting the returned values. -/
def runAll {σ : Type} (f : Op α → σ → Option (σ × Option α)) : List (Op α) → σ → Option (σ × List (Option α))
  | [], s => some (s, [])
  | o :: os, s => (f o s).bind fun (s1, r) => (runAll f os s1).map fun (s2, rs) => (s2, r :: rs)

theorem exec_sim {c : Circ α} {n : Nat} {l : List α} (hr : Rep c l) (hn : c.arr.length = n) (hx : Exact c) (o : Op α)
    {n' : Nat} {l' : List α} {r : Option α} (hs : spec o (n, l) = some ((n', l'), r)) :
    ∃ c', exec o c = some (c', r) ∧ Rep c' l' ∧ c'.arr.length = n' ∧ Exact c' := by
  cases o with
  | push x =>
    simp only [spec] at hs
    split at hs
    · simp at hs
    · rename_i h0
      simp at hs
      obtain ⟨⟨rfl, rfl⟩, rfl⟩ := hs
      obtain ⟨c', e1, e2, e3, e4⟩ := push_spec hr (by omega) x
      exact ⟨c', by simp [exec, e1], by rw [← hn]; exact e2, by omega, e4 hx⟩
  | pop =>
    cases l with
    | nil => simp [spec] at hs
    | cons x l =>
      simp [spec] at hs
      obtain ⟨⟨rfl, rfl⟩, rfl⟩ := hs
      obtain ⟨c', e1, e2, e3, e4⟩ := pop_spec hr
      exact ⟨c', by simp [exec, e1], e2, by omega, e4 hx⟩
  | popBack =>
    simp only [spec] at hs
    split at hs
    · simp at hs
    · rename_i x hlast
      simp at hs
      obtain ⟨⟨rfl, rfl⟩, rfl⟩ := hs
      have hne : l ≠ [] := by rintro rfl; simp at hlast
      have he : l = l.dropLast ++ [x] := by
        rw [List.getLast?_eq_some_getLast hne] at hlast
        injection hlast with hlast
        rw [← hlast, List.dropLast_concat_getLast]
      rw [he] at hr
      obtain ⟨c', e1, e2, e3, e4⟩ := popBack_spec hr
      exact ⟨c', by simp [exec, e1], e2, by omega, e4 hx⟩
  | clear =>
    simp [spec] at hs
    obtain ⟨⟨rfl, rfl⟩, rfl⟩ := hs
    obtain ⟨c', e1, e2, _, e3, e4⟩ := clear_spec hr
    exact ⟨c', by simp [exec, e1], e2, by omega, fun j x hj => absurd hj (e4 hx j x)⟩
  | setCapacity m =>
    simp [spec] at hs
    obtain ⟨⟨rfl, rfl⟩, rfl⟩ := hs
    by_cases hm : m < n
    · obtain ⟨c', e1, e2, e3, e4⟩ := setCapacity_shrink hr (n := m) (by omega)
      exact ⟨c', by simp [exec, e1], by rw [if_pos hm]; exact e2, e3, e4⟩
    · obtain ⟨c', e1, e2, e3, e4⟩ := setCapacity_grow hr (n := m) (by omega)
      exact ⟨c', by simp [exec, e1], by rw [if_neg hm]; exact e2, e3, e4 hx⟩

theorem run_sim : ∀ (os : List (Op α)) {c : Circ α} {n : Nat} {l : List α}, Rep c l → c.arr.length = n → Exact c →
    ∀ {n' : Nat} {l' : List α} {rs : List (Option α)}, runAll spec os (n, l) = some ((n', l'), rs) →
    ∃ c', runAll exec os c = some (c', rs) ∧ Rep c' l' ∧ c'.arr.length = n' ∧ Exact c'
  | [], c, n, l, hr, hn, hx, n', l', rs, hs => by
    simp [runAll] at hs
    obtain ⟨⟨rfl, rfl⟩, rfl⟩ := hs
    exact ⟨c, rfl, hr, hn, hx⟩
  | o :: os, c, n, l, hr, hn, hx, n', l', rs, hs => by
    simp only [runAll, Option.bind_eq_some_iff] at hs
    obtain ⟨⟨⟨n1, l1⟩, r⟩, h1, h2⟩ := hs
    simp only [Option.map_eq_some_iff] at h2
    obtain ⟨⟨⟨n2, l2⟩, rs'⟩, h2, h3⟩ := h2
    simp at h3
    obtain ⟨⟨rfl, rfl⟩, rfl⟩ := h3
    obtain ⟨c1, e1, e2, e3, e4⟩ := exec_sim hr hn hx o h1
    obtain ⟨c2, f1, f2, f3, f4⟩ := run_sim os e2 e3 e4 h2
    exact ⟨c2, by simp [runAll, e1, f1], f2, f3, f4⟩

/-- C14: for every initial capacity and every history of legal calls, the circular array behaves as the specification:
every returned value agrees, `Length`/`Capacity` agree, index 0 is the newest element and index `k` the `k`-th newest,
`Front`/`Back` are the newest/oldest. -/
theorem C14_newest_elements (n : Nat) (os : List (Op α)) {m : Nat} {l : List α} {rs : List (Option α)}
    (h : runAll spec os (n, []) = some ((m, l), rs)) :
    ∃ c, runAll exec os (new n) = some (c, rs) ∧ c.cap = m ∧ c.len = l.length ∧ l.length ≤ m ∧
      (∀ k, k < l.length → at' c k = l[k]?) ∧ front c = l.head? ∧ back c = l.getLast? := by
  obtain ⟨c, h1, h2, h3, _⟩ := run_sim os (Rep.new n) (by simp [new]) (Exact.new n) h
  refine ⟨c, h1, h3, h2.len, by have := h2.le; have := h2.len; omega, ?_, ?_, ?_⟩
  · intro k hk
    exact at_spec h2 (by have := h2.len; omega)
  · cases l with
    | nil =>
      have := h2.len
      simp at this
      unfold front; rw [if_pos (.inl this)]; rfl
    | cons x l => rw [front_spec h2]; rfl
  · rcases List.eq_nil_or_concat l with rfl | ⟨l', x, rfl⟩
    · have := h2.len
      simp at this
      unfold back; rw [if_pos this]; rfl
    · rw [List.concat_eq_append] at h2 ⊢
      rw [back_spec h2]; simp

/-- C14: a push onto a full array discards exactly the oldest value (specification side, for the reader). -/
theorem C14_full_push_drops_oldest (n : Nat) (os : List (Op α)) {l : List α} {x y : α} {rs : List (Option α)}
    (h : runAll spec os (n, []) = some ((l.length + 1, l ++ [y]), rs)) :
    ∃ c c', runAll exec os (new n) = some (c, rs) ∧ push c x = some c' ∧ c'.len = c.len ∧
      ∀ k, k < c'.len → at' c' k = (x :: l)[k]? := by
  obtain ⟨c, h1, h2, h3, h4⟩ := run_sim os (Rep.new n) (by simp [new]) (Exact.new n) h
  obtain ⟨c', e1, e2, e3, e4⟩ := push_spec h2 (by omega) x
  have ht : (x :: (l ++ [y])).take c.arr.length = x :: l := by
    rw [h3]; simp
  rw [ht] at e2
  have l1 := h2.len
  have l2 := e2.len
  simp at l1 l2
  exact ⟨c, c', h1, e1, by omega, fun k hk => at_spec e2 hk⟩

/-- C14: `Clear` destroys every element that was constructed, and a copy holds the same values in the same order. -/
theorem C14_clear_and_copy (n : Nat) (os : List (Op α)) {m : Nat} {l : List α} {rs : List (Option α)}
    (h : runAll spec os (n, []) = some ((m, l), rs)) :
    ∃ c, runAll exec os (new n) = some (c, rs) ∧
      (∃ c', clear c = some c' ∧ c'.len = 0 ∧ ∀ s ∈ c'.arr, s = none) ∧
      (∀ (k : Nat) (d : Circ α), d = new k → ∃ d', assign d c = some d' ∧ d'.cap = m ∧ d'.len = l.length ∧
        ∀ k, k < l.length → at' d' k = l[k]?) := by
  obtain ⟨c, h1, h2, h3, h4⟩ := run_sim os (Rep.new n) (by simp [new]) (Exact.new n) h
  refine ⟨c, h1, ?_, ?_⟩
  · obtain ⟨c', e1, e2, _, e3, e4⟩ := clear_spec h2
    refine ⟨c', e1, by have := e2.len; simpa using this, ?_⟩
    intro s hs
    obtain ⟨j, hj⟩ := List.getElem?_of_mem hs
    cases s with
    | none => rfl
    | some x => exact absurd hj (e4 h4 j x)
  · rintro k d rfl
    obtain ⟨d', e1, e2, e3, _⟩ := assign_spec (Rep.new k) h2
    exact ⟨d', e1, by rw [← h3]; exact e3, e2.len, fun k hk => at_spec e2 (by have := e2.len; omega)⟩

/-- A history that wraps around, pops at both ends, and grows while wrapped. -/
example : runAll spec [.push 1, .push 2, .push 3, .push 4, .popBack, .push 5, .setCapacity 5, .push 6, .pop] (3, []) =
    some ((5, [5, 4, 3]), [none, none, none, none, some 2, none, none, none, some 6]) := by decide +kernel

/-! ## C13 -/

inductive QOp (α : Type)
  | push (x : α)
  | pop
  | peek
  | discard
  | clear

/-- FIFO specification: the queue contents, oldest first. -/
def qspec : QOp α → List α → Option (List α × Option α)
  | .push x, q => some (q ++ [x], none)
  | .pop, [] => none
  | .pop, x :: q => some (q, some x)
  | .peek, [] => none
  | .peek, x :: q => some (x :: q, some x)
  | .discard, [] => none
  | .discard, _ :: q => some (q, none)
  | .clear, _ => some ([], none)

def qexec : QOp α → Circ α → Option (Circ α × Option α)
  | .push x, c => (qPush c x).map fun c' => (c', none)
  | .pop, c => (qPop c).map fun (x, c') => (c', some x)
  | .peek, c => (qPeek c).map fun x => (c, some x)
  | .discard, c => (qDiscard c).map fun c' => (c', none)
  | .clear, c => (clear c).map fun c' => (c', none)

def qrun {σ : Type} (f : QOp α → σ → Option (σ × Option α)) : List (QOp α) → σ → Option (σ × List (Option α))
  | [], s => some (s, [])
  | o :: os, s => (f o s).bind fun (s1, r) => (qrun f os s1).map fun (s2, rs) => (s2, r :: rs)

theorem qexec_sim {c : Circ α} {q : List α} (hr : Rep c q.reverse) (o : QOp α) {q' : List α} {r : Option α}
    (hs : qspec o q = some (q', r)) : ∃ c', qexec o c = some (c', r) ∧ Rep c' q'.reverse := by
  cases o with
  | push x =>
    simp [qspec] at hs
    obtain ⟨rfl, rfl⟩ := hs
    have hlen := hr.len
    have hle := hr.le
    simp at hlen
    obtain ⟨c1, e1, e2, e3⟩ : ∃ c1, (if c.len ≥ c.cap then setCapacity c (Arith.fbnextN c.len) else some c) = some c1 ∧
        Rep c1 q.reverse ∧ c1.len < c1.arr.length := by
      by_cases hf : c.len ≥ c.cap
      · rw [if_pos hf]
        have hg := (Arith.C56_fbnext (x := c.len) (y := 0)).1
        unfold Circ.cap at hf
        obtain ⟨c1, e1, e2, e3, _⟩ := setCapacity_grow hr (n := Arith.fbnextN c.len) (by omega)
        exact ⟨c1, e1, e2, by have := e2.len; simp at this; omega⟩
      · rw [if_neg hf]
        unfold Circ.cap at hf
        exact ⟨c, rfl, hr, by omega⟩
    obtain ⟨c2, f1, f2, f3, _⟩ := push_spec e2 (by omega) x
    refine ⟨c2, by simp only [qexec, qPush, e1, Option.bind_some, f1, Option.map_some], ?_⟩
    have hl1 := e2.len
    simp at hl1
    have : (x :: q.reverse).take c1.arr.length = (q ++ [x]).reverse := by
      rw [List.take_of_length_le (by simp; omega)]; simp
    rw [this] at f2
    exact f2
  | pop =>
    cases q with
    | nil => simp [qspec] at hs
    | cons x q =>
      simp [qspec] at hs
      obtain ⟨rfl, rfl⟩ := hs
      rw [List.reverse_cons] at hr
      obtain ⟨c', e1, e2, _⟩ := popBack_spec hr
      exact ⟨c', by simp [qexec, qPop, e1], e2⟩
  | peek =>
    cases q with
    | nil => simp [qspec] at hs
    | cons x q =>
      simp [qspec] at hs
      obtain ⟨rfl, rfl⟩ := hs
      have hr' := hr
      rw [List.reverse_cons] at hr'
      exact ⟨c, by simp [qexec, qPeek, back_spec hr'], hr⟩
  | discard =>
    cases q with
    | nil => simp [qspec] at hs
    | cons x q =>
      simp [qspec] at hs
      obtain ⟨rfl, rfl⟩ := hs
      rw [List.reverse_cons] at hr
      obtain ⟨h1, h2, h3, h4, h5, h6⟩ := hr
      simp only [List.length_append, List.length_singleton] at h1
      refine ⟨{ c with len := c.len - 1 }, ?_, ⟨?_, ?_, h3, h4, ?_, ?_⟩⟩
      · simp only [qexec, qDiscard]
        rw [if_neg (by omega)]; rfl
      · simp only; omega
      · simp only; omega
      · intro _; exact h5 (by omega)
      · intro k y hk
        exact h6 k y (by rw [List.getElem?_append_left (List.getElem?_eq_some_iff.1 hk).1]; exact hk)
  | clear =>
    simp [qspec] at hs
    obtain ⟨rfl, rfl⟩ := hs
    obtain ⟨c', e1, e2, _⟩ := clear_spec hr
    exact ⟨c', by simp [qexec, e1], by simpa using e2⟩

theorem qrun_sim : ∀ (os : List (QOp α)) {c : Circ α} {q : List α}, Rep c q.reverse →
    ∀ {q' : List α} {rs : List (Option α)}, qrun qspec os q = some (q', rs) →
    ∃ c', qrun qexec os c = some (c', rs) ∧ Rep c' q'.reverse
  | [], c, q, hr, q', rs, hs => by
    simp [qrun] at hs
    obtain ⟨rfl, rfl⟩ := hs
    exact ⟨c, rfl, hr⟩
  | o :: os, c, q, hr, q', rs, hs => by
    simp only [qrun, Option.bind_eq_some_iff] at hs
    obtain ⟨⟨q1, r⟩, h1, h2⟩ := hs
    simp only [Option.map_eq_some_iff] at h2
    obtain ⟨⟨q2, rs'⟩, h2, h3⟩ := h2
    simp at h3
    obtain ⟨rfl, rfl⟩ := h3
    obtain ⟨c1, e1, e2⟩ := qexec_sim hr o h1
    obtain ⟨c2, f1, f2⟩ := qrun_sim os e2 h2
    exact ⟨c2, by simp [qrun, e1, f1], f2⟩

/-- C13: for every initial capacity and every history of Push/Pop/Peek/Discard/Clear that never pops an empty queue,
the queue returns exactly what a FIFO list returns, and its length is the list's. -/
theorem C13_fifo (n : Nat) (os : List (QOp α)) {q : List α} {rs : List (Option α)} (h : qrun qspec os [] = some (q, rs)) :
    ∃ c, qrun qexec os (new n) = some (c, rs) ∧ c.len = q.length := by
  obtain ⟨c, h1, h2⟩ := qrun_sim os (by simpa using Rep.new n) h
  exact ⟨c, h1, by have := h2.len; simpa using this⟩

/-- C13: draining the queue afterwards yields the remaining values in push order. -/
theorem C13_drain (n : Nat) (os : List (QOp α)) {q : List α} {rs : List (Option α)} (h : qrun qspec os [] = some (q, rs)) :
    ∃ c, qrun qexec (os ++ List.replicate q.length .pop) (new n) = some (c, rs ++ q.map some) ∧ c.len = 0 := by
  have drain : ∀ q : List α, qrun qspec (List.replicate q.length .pop) q = some ([], q.map some) := by
    intro q
    induction q with
    | nil => rfl
    | cons x q ih => simp [List.replicate_succ, qrun, qspec, ih]
  have app : ∀ (a b : List (QOp α)) (q0 : List α) {q1 q2 : List α} {r1 r2 : List (Option α)}, qrun qspec a q0 = some (q1, r1) →
      qrun qspec b q1 = some (q2, r2) → qrun qspec (a ++ b) q0 = some (q2, r1 ++ r2) := by
    intro a
    induction a with
    | nil => intro b q0 q1 q2 r1 r2 h1 h2; simp [qrun] at h1; obtain ⟨rfl, rfl⟩ := h1; simpa using h2
    | cons o a ih =>
      intro b q0 q1 q2 r1 r2 h1 h2
      simp only [qrun, Option.bind_eq_some_iff] at h1
      obtain ⟨⟨qa, ra⟩, h3, h4⟩ := h1
      simp only [Option.map_eq_some_iff] at h4
      obtain ⟨⟨qb, rb⟩, h4, h5⟩ := h4
      simp at h5
      obtain ⟨rfl, rfl⟩ := h5
      have := ih b qa h4 h2
      simp [qrun, h3, this]
  have := C13_fifo n (os ++ List.replicate q.length .pop) (app _ _ [] h (drain q))
  simpa using this

/-- A history with growth while the contents wrap around the end of the block. -/
example : qrun qspec [.push 1, .push 2, .pop, .push 3, .push 4, .peek, .push 5, .discard, .pop] [] =
    some ([4, 5], [none, none, some 1, none, none, some 2, none, none, some 3]) := by decide +kernel

end Verif.Circ
