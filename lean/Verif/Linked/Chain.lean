/-!
# Doubly linked chains

A small specification, independent of any particular code: `WF nx pv l` says that the links `nx`/`pv` of the nodes of
`l` are those of the doubly linked list `l`.
-/

namespace Verif.Linked

/-- The nodes `l` (distinct) are linked in this order: every node points forward to its successor and back to its
predecessor in `l`, with null at the ends. -/
def WF (nx pv : Nat → Option Nat) (l : List Nat) : Prop :=
  l.Nodup ∧ ∀ A x B, l = A ++ x :: B → nx x = B.head? ∧ pv x = A.getLast?

theorem WF.nil (nx pv : Nat → Option Nat) : WF nx pv [] := ⟨List.nodup_nil, fun A x B h => by simp at h⟩

/-- In a list without duplicates the decomposition around an element is unique. -/
theorem split_unique {x : Nat} : ∀ {A B A' B' : List Nat}, (A ++ x :: B).Nodup → A ++ x :: B = A' ++ x :: B' →
    A = A' ∧ B = B' := by
  intro A
  induction A with
  | nil =>
    intro B A' B' hn h
    cases A' with
    | nil => simp at h; exact ⟨rfl, h⟩
    | cons a A' =>
      simp at h
      obtain ⟨rfl, rfl⟩ := h
      simp at hn
  | cons a A ih =>
    intro B A' B' hn h
    cases A' with
    | nil =>
      simp at h
      obtain ⟨rfl, h⟩ := h
      simp at hn
    | cons a' A' =>
      simp at h
      obtain ⟨rfl, h⟩ := h
      have := ih (List.nodup_cons.1 hn).2 h
      exact ⟨by rw [this.1], this.2⟩

theorem mem_last {A : List Nat} {a : Nat} (h : A.getLast? = some a) : a ∈ A := List.mem_of_getLast? h
theorem mem_head {A : List Nat} {a : Nat} (h : A.head? = some a) : a ∈ A := List.mem_of_head? h

theorem getLast?_mid (A B : List Nat) (x : Nat) : (A ++ x :: B).getLast? = some (B.getLast?.getD x) := by
  rw [List.getLast?_append]
  cases B with
  | nil => simp
  | cons b B => simp [List.getLast?_cons]

theorem WF.next {nx pv : Nat → Option Nat} {A B : List Nat} {x : Nat} (h : WF nx pv (A ++ x :: B)) : nx x = B.head? :=
  (h.2 A x B rfl).1
theorem WF.prev {nx pv : Nat → Option Nat} {A B : List Nat} {x : Nat} (h : WF nx pv (A ++ x :: B)) : pv x = A.getLast? :=
  (h.2 A x B rfl).2

theorem nodup_insert {A B : List Nat} {n : Nat} (h : (A ++ B).Nodup) (hn : n ∉ A ++ B) : (A ++ n :: B).Nodup :=
  (List.perm_middle.nodup_iff).2 (List.nodup_cons.2 ⟨hn, h⟩)

/-- Linking a new node `n` between `A` and `B`. -/
theorem WF.insert {nx pv nx' pv' : Nat → Option Nat} {A B : List Nat} {n : Nat} (h : WF nx pv (A ++ B))
    (hn : n ∉ A ++ B) (h1 : nx' n = B.head?) (h2 : pv' n = A.getLast?)
    (h3 : ∀ a, A.getLast? = some a → nx' a = some n) (h4 : ∀ b, B.head? = some b → pv' b = some n)
    (h5 : ∀ m, m ≠ n → A.getLast? ≠ some m → nx' m = nx m) (h6 : ∀ m, m ≠ n → B.head? ≠ some m → pv' m = pv m) :
    WF nx' pv' (A ++ n :: B) := by
  have hnd := nodup_insert h.1 hn
  refine ⟨hnd, fun A' x B' he => ?_⟩
  have hx : x ∈ A ++ n :: B := by rw [he]; simp
  rcases List.mem_append.1 hx with hA | hB
  · obtain ⟨P, Q, rfl⟩ := List.append_of_mem hA
    have he' : P ++ x :: (Q ++ n :: B) = A' ++ x :: B' := by rw [← he]; simp
    obtain ⟨rfl, rfl⟩ := split_unique (by simpa using hnd) he'
    have hxn : x ≠ n := by rintro rfl; apply hn; simp
    have hold := h.2 P x (Q ++ B) (by simp)
    have hndx : x ∉ Q ∧ x ∉ B := by
      have := h.1
      rw [show (P ++ x :: Q) ++ B = P ++ x :: (Q ++ B) by simp, List.perm_middle.nodup_iff, List.nodup_cons] at this
      simp at this
      exact ⟨this.1.2.1, this.1.2.2⟩
    constructor
    · cases Q with
      | nil => rw [h3 x (by simp)]; rfl
      | cons q Q =>
        rw [h5 x hxn, hold.1]
        · rfl
        · rw [getLast?_mid]
          intro e
          simp only [Option.some.injEq] at e
          have : x ∈ q :: Q := by
            rw [← e]
            have := mem_last (A := q :: Q) (a := ((q :: Q).getLast?).getD x) (by simp [List.getLast?_cons])
            exact this
          exact hndx.1 this
    · rw [h6 x hxn, hold.2]
      intro e
      exact hndx.2 (mem_head e)
  · rcases List.mem_cons.1 hB with rfl | hB
    · obtain ⟨rfl, rfl⟩ := split_unique hnd he
      exact ⟨h1, h2⟩
    · obtain ⟨P, Q, rfl⟩ := List.append_of_mem hB
      have he' : (A ++ n :: P) ++ x :: Q = A' ++ x :: B' := by rw [← he]; simp
      obtain ⟨rfl, rfl⟩ := split_unique (by simpa using hnd) he'
      have hxn : x ≠ n := by rintro rfl; apply hn; simp
      have hold := h.2 (A ++ P) x Q (by simp)
      have hndx : x ∉ A ∧ x ∉ P := by
        have := h.1
        rw [show A ++ (P ++ x :: Q) = (A ++ P) ++ x :: Q by simp, List.perm_middle.nodup_iff, List.nodup_cons] at this
        simp at this
        exact ⟨this.1.1, this.1.2.1⟩
      constructor
      · rw [h5 x hxn, hold.1]
        intro e
        exact hndx.1 (mem_last e)
      · rw [getLast?_mid]
        cases hP : P.getLast? with
        | none =>
          rw [List.getLast?_eq_none_iff] at hP
          subst hP
          rw [h4 x (by simp)]
          rfl
        | some p =>
          have hPne : P ≠ [] := by rintro rfl; simp at hP
          rw [h6 x hxn, hold.2, List.getLast?_append, hP]
          · rfl
          · intro e
            cases P with
            | nil => exact hPne rfl
            | cons a P => simp at e; subst e; exact hndx.2 (by simp)

/-- Unlinking a node `x` from between `A` and `B`. -/
theorem WF.remove {nx pv nx' pv' : Nat → Option Nat} {A B : List Nat} {x : Nat} (h : WF nx pv (A ++ x :: B))
    (h3 : ∀ a, A.getLast? = some a → nx' a = B.head?) (h4 : ∀ b, B.head? = some b → pv' b = A.getLast?)
    (h5 : ∀ m, m ≠ x → A.getLast? ≠ some m → nx' m = nx m) (h6 : ∀ m, m ≠ x → B.head? ≠ some m → pv' m = pv m) :
    WF nx' pv' (A ++ B) := by
  have hnd' := h.1
  rw [List.perm_middle.nodup_iff, List.nodup_cons] at hnd'
  refine ⟨hnd'.2, fun A' y B' he => ?_⟩
  have hy : y ∈ A ++ B := by rw [he]; simp
  have hyx : y ≠ x := by rintro rfl; exact hnd'.1 hy
  rcases List.mem_append.1 hy with hA | hB
  · obtain ⟨P, Q, rfl⟩ := List.append_of_mem hA
    have he' : P ++ y :: (Q ++ B) = A' ++ y :: B' := by rw [← he]; simp
    have hnd2 : (P ++ y :: (Q ++ B)).Nodup := by simpa using hnd'.2
    obtain ⟨rfl, rfl⟩ := split_unique hnd2 he'
    have hold := h.2 P y (Q ++ x :: B) (by simp)
    rw [List.perm_middle.nodup_iff, List.nodup_cons] at hnd2
    simp at hnd2
    constructor
    · cases Q with
      | nil => rw [h3 y (by simp)]; rfl
      | cons q Q =>
        rw [h5 y hyx, hold.1]
        · rfl
        · rw [getLast?_mid]
          intro e
          simp only [Option.some.injEq] at e
          have : y ∈ q :: Q := by
            rw [← e]
            exact mem_last (A := q :: Q) (by simp [List.getLast?_cons])
          simp at this hnd2
          rcases this with rfl | this
          · exact hnd2.1.2.1.1 rfl
          · exact hnd2.1.2.1.2 this
    · rw [h6 y hyx, hold.2]
      intro e
      exact hnd2.1.2.2 (mem_head e)
  · obtain ⟨P, Q, rfl⟩ := List.append_of_mem hB
    have he' : (A ++ P) ++ y :: Q = A' ++ y :: B' := by rw [← he]; simp
    have hnd2 : ((A ++ P) ++ y :: Q).Nodup := by simpa using hnd'.2
    obtain ⟨rfl, rfl⟩ := split_unique hnd2 he'
    have hold := h.2 (A ++ x :: P) y Q (by simp)
    rw [List.perm_middle.nodup_iff, List.nodup_cons] at hnd2
    simp at hnd2
    constructor
    · rw [h5 y hyx, hold.1]
      intro e
      exact hnd2.1.1 (mem_last e)
    · cases hP : P.getLast? with
      | none =>
        rw [List.getLast?_eq_none_iff] at hP
        subst hP
        rw [h4 y (by simp)]
        simp
      | some p =>
        have hPne : P ≠ [] := by rintro rfl; simp at hP
        rw [h6 y hyx, hold.2, getLast?_mid, List.getLast?_append, hP]
        · rfl
        · intro e
          cases P with
          | nil => exact hPne rfl
          | cons a P => simp at e; subst e; exact hnd2.1.2.1 (by simp)

/-- Links of nodes outside `l` do not matter. -/
theorem WF.congr {nx pv nx' pv' : Nat → Option Nat} {l : List Nat} (h : WF nx pv l)
    (h1 : ∀ m ∈ l, nx' m = nx m) (h2 : ∀ m ∈ l, pv' m = pv m) : WF nx' pv' l :=
  ⟨h.1, fun A x B he => by
    have hx : x ∈ l := by rw [he]; simp
    rw [h1 x hx, h2 x hx]
    exact h.2 A x B he⟩

/-- Following `nx` from a node for `n` steps (a loop `for(; cur; cur = cur->next)`). -/
def walk (nx : Nat → Option Nat) : Nat → Option Nat → List Nat
  | 0, _ => []
  | _, none => []
  | n + 1, some x => x :: walk nx n (nx x)

/-- Forward traversal from the root visits exactly the nodes in order, and stops at the end. -/
theorem WF.walk_forward {nx pv : Nat → Option Nat} {l : List Nat} (h : WF nx pv l) (n : Nat) (hn : l.length ≤ n) :
    walk nx n l.head? = l := by
  suffices H : ∀ (B A : List Nat) (n : Nat), l = A ++ B → B.length ≤ n → walk nx n B.head? = B from H l [] n rfl hn
  intro B
  induction B with
  | nil => intro A n _ _; cases n <;> rfl
  | cons b B ih =>
    intro A n he hn
    cases n with
    | zero => simp at hn
    | succ n =>
      have := (h.2 A b B he).1
      simp only [List.head?_cons, walk, this]
      rw [ih (A ++ [b]) n (by simp [he]) (by simpa using hn)]

/-- Backward traversal from the last node visits the nodes in reverse. -/
theorem WF.walk_backward {nx pv : Nat → Option Nat} {l : List Nat} (h : WF nx pv l) (n : Nat) (hn : l.length ≤ n) :
    walk pv n l.getLast? = l.reverse := by
  suffices H : ∀ (n : Nat) (A B : List Nat), l = A ++ B → A.length ≤ n → walk pv n A.getLast? = A.reverse from
    H n l [] (by simp) hn
  intro n
  induction n with
  | zero => intro A B _ hn; have : A = [] := List.length_eq_zero_iff.1 (by omega); subst this; rfl
  | succ n ih =>
    intro A B he hn
    rcases List.eq_nil_or_concat A with rfl | ⟨A', a, rfl⟩
    · rfl
    · rw [List.concat_eq_append] at he hn ⊢
      have := (h.2 A' a B (by simp [he])).2
      rw [List.getLast?_concat, walk, this, ih A' (a :: B) (by simp [he]) (by simp at hn; omega)]
      simp

end Verif.Linked
