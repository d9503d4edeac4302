import Verif.Dyn.Model

/-! # Lemmas on the dynamic array model -/

namespace Verif.Dyn
variable {α : Type}

theorem get_mid {β : Type} (P Q : List β) (x : β) : (P ++ x :: Q)[P.length]? = some x := by simp

theorem set_mid {β : Type} (P Q : List β) (x y : β) : (P ++ x :: Q).set P.length y = P ++ y :: Q := by simp

theorem copyLoop_spec (xs : List α) : ∀ (P Q S R : List (Slot α)), xs.length ≤ Q.length →
    copyLoop xs.length P.length S.length (P ++ Q) (S ++ (xs.map Slot.val ++ R)) =
      some (P ++ (xs.map Slot.val ++ Q.drop xs.length)) := by
  induction xs with
  | nil => intro P Q S R _; simp [copyLoop]
  | cons x xs ih =>
    intro P Q S R h
    cases Q with
    | nil => simp at h
    | cons q Q =>
      simp only [List.length_cons, copyLoop, List.map_cons, List.cons_append, get_mid]
      have h1 : construct (P ++ q :: Q) P.length x = some (P ++ Slot.val x :: Q) := by
        simp [construct]
      rw [h1, Option.bind_some]
      have := ih (P ++ [Slot.val x]) Q (S ++ [Slot.val x]) R (by simpa using h)
      simpa using this

/-- The same with the positions as numbers. -/
theorem copyLoop_spec' (xs : List α) (P Q R : List (Slot α)) (h : xs.length ≤ Q.length) {k di : Nat}
    (hk : k = xs.length) (hd : di = P.length) :
    copyLoop k di 0 (P ++ Q) (xs.map Slot.val ++ R) = some (P ++ (xs.map Slot.val ++ Q.drop xs.length)) := by
  subst hk hd
  simpa using copyLoop_spec xs P Q [] R h

theorem destroyFrom_spec (xs : List α) : ∀ (P R : List (Slot α)),
    destroyFrom P.length xs.length (P ++ (xs.map Slot.val ++ R)) = some (P ++ (List.replicate xs.length Slot.raw ++ R)) := by
  induction xs with
  | nil => intro P R; simp [destroyFrom]
  | cons x xs ih =>
    intro P R
    have h1 : destroyAt (P ++ Slot.val x :: (xs.map Slot.val ++ R)) P.length =
        some (P ++ Slot.raw :: (xs.map Slot.val ++ R)) := by
      simp [destroyAt]
    simp only [List.length_cons, destroyFrom, List.map_cons, List.cons_append]
    rw [h1, Option.bind_some]
    have := ih (P ++ [Slot.raw]) R
    simpa [List.replicate_succ] using this

theorem constructFrom_spec (init : Nat → α) (k : Nat) : ∀ (P Q : List (Slot α)), k ≤ Q.length →
    constructFrom init P.length k (P ++ Q) =
      some (P ++ ((List.range' P.length k).map (fun i => Slot.val (init i)) ++ Q.drop k)) := by
  induction k with
  | zero => intro P Q _; simp [constructFrom]
  | succ k ih =>
    intro P Q h
    cases Q with
    | nil => simp at h
    | cons q Q =>
      have h1 : construct (P ++ q :: Q) P.length (init P.length) = some (P ++ Slot.val (init P.length) :: Q) := by
        simp [construct]
      simp only [constructFrom]
      rw [h1, Option.bind_some]
      have := ih (P ++ [Slot.val (init P.length)]) Q (by simpa using h)
      simpa [List.range'_succ] using this

theorem moveAssign_spec {P R : List (Slot α)} {x : α} {s : Slot α} (hs : s ≠ .raw) :
    moveAssign (P ++ Slot.val x :: s :: R) P.length (P.length + 1) = some (P ++ Slot.moved :: Slot.val x :: R) := by
  have e : (P ++ Slot.val x :: s :: R)[P.length + 1]? = some s := by
    simp
  unfold moveAssign
  rw [get_mid, e]
  cases s with
  | raw => exact absurd rfl hs
  | moved => simp
  | val y => simp

theorem moveAssign_spec' {P R : List (Slot α)} {x : α} {s : Slot α} (hs : s ≠ .raw) :
    moveAssign (P ++ s :: Slot.val x :: R) (P.length + 1) P.length = some (P ++ Slot.val x :: Slot.moved :: R) := by
  have e : (P ++ s :: Slot.val x :: R)[P.length + 1]? = some (Slot.val x) := by simp
  unfold moveAssign
  rw [get_mid, e]
  cases s with
  | raw => exact absurd rfl hs
  | moved => simp
  | val y => simp

theorem moveBackward_spec (P : List (Slot α)) : ∀ (n : Nat) (xs : List α) (R : List (Slot α)), xs.length = n →
    moveBackward P.length n (P ++ (xs.map Slot.val ++ Slot.moved :: R)) =
      some (P ++ Slot.moved :: (xs.map Slot.val ++ R)) := by
  intro n
  induction n with
  | zero => intro xs R h; cases xs <;> simp_all [moveBackward]
  | succ n ih =>
    intro xs R h
    rcases List.eq_nil_or_concat xs with rfl | ⟨ys, y, rfl⟩
    · simp at h
    · have hy : ys.length = n := by simpa using h
      have h1 := moveAssign_spec (P := P ++ ys.map Slot.val) (R := R) (x := y) (s := Slot.moved) (by simp)
      simp only [List.length_append, List.length_map, hy] at h1
      simp only [moveBackward]
      have e : P ++ ((ys ++ [y]).map Slot.val ++ Slot.moved :: R) = P ++ ys.map Slot.val ++ Slot.val y :: Slot.moved :: R := by
        simp
      rw [List.concat_eq_append, e, h1, Option.bind_some]
      have := ih ys (Slot.val y :: R) hy
      simpa using this

theorem moveForward_spec (xs : List α) : ∀ (P R : List (Slot α)) (s : Slot α), s ≠ .raw →
    ∃ s' : Slot α, s' ≠ .raw ∧ moveForward xs.length P.length (P ++ s :: (xs.map Slot.val ++ R)) =
      some (P ++ (xs.map Slot.val ++ s' :: R)) := by
  induction xs with
  | nil => intro P R s hs; exact ⟨s, hs, by simp [moveForward]⟩
  | cons x xs ih =>
    intro P R s hs
    have h1 := moveAssign_spec' (P := P) (R := xs.map Slot.val ++ R) (x := x) hs
    obtain ⟨s', hs', e⟩ := ih (P ++ [Slot.val x]) R Slot.moved (by simp)
    refine ⟨s', hs', ?_⟩
    simp only [List.length_cons, moveForward, List.map_cons, List.cons_append]
    rw [h1, Option.bind_some]
    simpa using e

/-- The elements are `l`, the rest of the block is `t`. -/
def WRep (d : Dyn α) (l : List α) (t : List (Slot α)) : Prop := d.arr = l.map Slot.val ++ t ∧ d.len = l.length

/-- The elements are `l` and all the rest of the block is raw memory. -/
def Rep (d : Dyn α) (l : List α) : Prop := ∃ k, WRep d l (List.replicate k .raw)

theorem Rep.new (n : Nat) : Rep (new n : Dyn α) [] := ⟨n, by simp [WRep, Dyn.new]⟩

theorem WRep.cap {d : Dyn α} {l : List α} {t : List (Slot α)} (h : WRep d l t) : d.cap = l.length + t.length := by
  simp [Dyn.cap, h.1]

theorem WRep.get {d : Dyn α} {l : List α} {t : List (Slot α)} (h : WRep d l t) {i : Nat} (hi : i < l.length) :
    get d i = l[i]? := by
  simp [Dyn.get, h.1, List.getElem?_append, hi]

/-- `_setCapacity(capacity, length)` that does not cut elements off. -/
theorem WRep.setCap {d : Dyn α} {l : List α} {t : List (Slot α)} (kind : Kind) (h : WRep d l t) {c : Nat}
    (hc : l.length ≤ c) : ∃ d', setCap kind d c = some d' ∧ d'.cap = c ∧ ∃ t', WRep d' l t' ∧
      ((∀ s ∈ t, s = Slot.raw) → ∀ s ∈ t', s = Slot.raw) := by
  cases kind with
  | simple =>
    refine ⟨_, rfl, ?_, t.take (c - l.length) ++ List.replicate (c - d.arr.length) .raw, ⟨?_, h.2⟩, ?_⟩
    · simp [Dyn.cap, realloc]; omega
    · simp only [realloc]
      rw [h.1, List.take_append, List.take_of_length_le (by simpa using hc)]
      simp
    · intro hr s hs
      rcases List.mem_append.1 hs with hs | hs
      · exact hr s (List.mem_of_mem_take hs)
      · exact (List.mem_replicate.1 hs).2
  | safe =>
    have e := copyLoop_spec' l [] (List.replicate c .raw) t (by simpa using hc) (k := min d.len c) (di := 0)
      (by rw [h.2]; omega) rfl
    simp only [List.nil_append] at e
    refine ⟨⟨l.map Slot.val ++ (List.replicate c Slot.raw).drop l.length, d.len⟩, ?_, ?_, _, ⟨rfl, h.2⟩, ?_⟩
    · simp [Dyn.setCap, h.1, e]
    · simp [Dyn.cap]; omega
    · intro _ s hs
      exact (List.mem_replicate.1 (List.mem_of_mem_drop hs)).2

theorem WRep.checkSize {d : Dyn α} {l : List α} {t : List (Slot α)} (kind : Kind) (h : WRep d l t) :
    ∃ d', checkSize kind d = some d' ∧ l.length < d'.cap ∧ d.cap ≤ d'.cap ∧ ∃ t', WRep d' l t' ∧
      ((∀ s ∈ t, s = Slot.raw) → ∀ s ∈ t', s = Slot.raw) := by
  unfold Dyn.checkSize
  by_cases hc : d.len ≥ d.cap
  · rw [if_pos hc]
    have hf : d.cap < Arith.fbnextN d.cap := by unfold Arith.fbnextN; omega
    have hl : d.len = d.cap := by have := h.cap; have := h.2; omega
    obtain ⟨d', e1, e2, t', e3, e4⟩ := h.setCap kind (c := Arith.fbnextN d.cap) (by have := h.2; omega)
    exact ⟨d', e1, by have := h.2; omega, by omega, t', e3, e4⟩
  · rw [if_neg hc]
    exact ⟨d, rfl, by have := h.2; omega, Nat.le_refl _, t, h, id⟩

theorem all_raw_iff {t : List (Slot α)} : (∀ s ∈ t, s = Slot.raw) ↔ t = List.replicate t.length .raw := by
  rw [List.eq_replicate_iff]; simp

theorem Rep.ofW {d : Dyn α} {l : List α} {t : List (Slot α)} (h : WRep d l t) (hr : ∀ s ∈ t, s = Slot.raw) : Rep d l :=
  ⟨t.length, by rw [← all_raw_iff.1 hr]; exact h⟩

theorem Rep.setCap {d : Dyn α} {l : List α} (kind : Kind) (h : Rep d l) {c : Nat} (hc : l.length ≤ c) :
    ∃ d', setCap kind d c = some d' ∧ Rep d' l ∧ d'.cap = c := by
  obtain ⟨k, h⟩ := h
  obtain ⟨d', e1, e2, t', e3, e4⟩ := h.setCap kind hc
  exact ⟨d', e1, Rep.ofW e3 (e4 (by simp)), e2⟩

theorem Rep.checkSize {d : Dyn α} {l : List α} (kind : Kind) (h : Rep d l) :
    ∃ d', checkSize kind d = some d' ∧ Rep d' l ∧ l.length < d'.cap ∧ d.cap ≤ d'.cap := by
  obtain ⟨k, h⟩ := h
  obtain ⟨d', e1, e2, e5, t', e3, e4⟩ := h.checkSize kind
  exact ⟨d', e1, Rep.ofW e3 (e4 (by simp)), e2, e5⟩

theorem WRep.add {d : Dyn α} {l : List α} {t : List (Slot α)} (kind : Kind) (h : WRep d l t) (x : α) :
    ∃ d', add kind d x = some (d', l.length) ∧ (∃ t', WRep d' (l ++ [x]) t' ∧
      ((∀ s ∈ t, s = Slot.raw) → ∀ s ∈ t', s = Slot.raw)) := by
  obtain ⟨d1, e1, e2, _, t', e3, e4⟩ := h.checkSize kind
  cases t' with
  | nil => have := e3.cap; simp at this; omega
  | cons s t' =>
    refine ⟨⟨l.map .val ++ .val x :: t', l.length + 1⟩, ?_, t', ⟨by simp, by simp⟩, fun hr s' hs' => e4 hr s' (by simp [hs'])⟩
    have : construct d1.arr d1.len x = some (l.map .val ++ .val x :: t') := by
      have hlen : d1.len = (l.map (Slot.val (α := α))).length := by simp [e3.2]
      rw [e3.1, hlen]
      simp [construct]
    rw [e3.2] at this
    simp [Dyn.add, e1, this, e3.2]

theorem Rep.add {d : Dyn α} {l : List α} (kind : Kind) (h : Rep d l) (x : α) :
    ∃ d', add kind d x = some (d', l.length) ∧ Rep d' (l ++ [x]) := by
  obtain ⟨k, h⟩ := h
  obtain ⟨d', e1, t', e2, e3⟩ := h.add kind x
  exact ⟨d', e1, Rep.ofW e2 (e3 (by simp))⟩

theorem split_at {l : List α} {i : Nat} (hi : i < l.length) : ∃ A x B, l = A ++ x :: B ∧ A.length = i :=
  ⟨l.take i, l[i], l.drop (i + 1), by rw [List.getElem_cons_drop]; simp, by simp; omega⟩

theorem split_le {l : List α} {i : Nat} (hi : i ≤ l.length) : ∃ A B, l = A ++ B ∧ A.length = i :=
  ⟨l.take i, l.drop i, by simp, by simp; omega⟩

theorem memmove_up (P B : List (Slot α)) (s : Slot α) (R : List (Slot α)) :
    memmove (P ++ (B ++ s :: R)) (P.length + 1) P.length B.length =
      some (P ++ ((B ++ [s]).take 1 ++ (B ++ R))) := by
  unfold memmove
  rw [if_pos (by simp; omega)]
  congr 1
  have e1 : (P ++ (B ++ s :: R)).take (P.length + 1) = P ++ (B ++ [s]).take 1 := by
    rw [List.take_append, List.take_of_length_le (by omega)]
    congr 1
    simp only [Nat.add_sub_cancel_left]
    cases B <;> simp
  have e2 : ((P ++ (B ++ s :: R)).drop P.length).take B.length = B := by simp
  have e3 : (P ++ (B ++ s :: R)).drop (P.length + 1 + B.length) = R := by
    rw [List.drop_append, List.drop_eq_nil_of_le (by omega)]
    have : P.length + 1 + B.length - P.length = B.length + 1 := by omega
    rw [this, List.drop_append, List.drop_eq_nil_of_le (by omega)]
    simp
  rw [e1, e2, e3]
  simp

theorem insertRaw_spec (kind : Kind) (A B : List α) (s : Slot α) (R : List (Slot α)) (x : α) :
    insertRaw kind ((A ++ B).map .val ++ s :: R) (A ++ B).length A.length x =
      some ((A ++ x :: B).map .val ++ R) := by
  cases kind with
  | simple =>
    have h := memmove_up (A.map .val) (B.map .val) s R
    simp only [List.length_map] at h
    simp only [insertRaw]
    have e : (A ++ B).map Slot.val ++ s :: R = A.map .val ++ (B.map .val ++ s :: R) := by simp
    have e2 : (A ++ B).length - A.length = B.length := by simp
    rw [e, e2, h, Option.bind_some]
    cases B with
    | nil =>
      have := set_mid (A.map Slot.val) R s (.val x)
      simp only [List.length_map] at this
      simp [construct, this]
    | cons b B =>
      have := set_mid (A.map Slot.val) (Slot.val b :: (B.map .val ++ R)) (Slot.val b) (.val x)
      simp only [List.length_map] at this
      simp [construct, this]
  | safe =>
    simp only [insertRaw]
    rcases List.eq_nil_or_concat B with rfl | ⟨ys, y, rfl⟩
    · have := set_mid (A.map Slot.val) R s (.val x)
      simp only [List.length_map] at this
      simp [construct, this]
    · rw [if_pos (by simp)]
      have hlen : (A ++ ys.concat y).length - 1 = ((A ++ ys).map (Slot.val (α := α))).length := by
        simp
      have hlen2 : (A ++ ys.concat y).length = ((A ++ ys).map (Slot.val (α := α))).length + 1 := by
        simp; omega
      have h1 : moveConstruct ((A ++ ys.concat y).map Slot.val ++ s :: R) ((A ++ ys.concat y).length - 1)
          (A ++ ys.concat y).length = some ((A ++ ys).map .val ++ .moved :: .val y :: R) := by
        rw [hlen, hlen2]
        have e : (A ++ ys.concat y).map Slot.val ++ s :: R = (A ++ ys).map .val ++ .val y :: s :: R := by simp
        rw [e]
        unfold moveConstruct
        rw [get_mid]
        have e : ((A ++ ys).map Slot.val ++ .val y :: s :: R)[((A ++ ys).map (Slot.val (α := α))).length + 1]? = some s := by
          rw [List.getElem?_append_right (by omega)]; simp
        rw [e]
        show some _ = some _
        rw [List.set_append_right _ _ (by omega), List.set_append_right _ _ (by omega)]
        simp
      rw [h1, Option.bind_some]
      have e : (A ++ ys).map Slot.val ++ .moved :: .val y :: R = A.map .val ++ (ys.map .val ++ .moved :: .val y :: R) := by
        simp
      have h2 := moveBackward_spec (A.map .val) ys.length ys (.val y :: R) rfl
      simp only [List.length_map] at h2
      have e2 : (A ++ ys.concat y).length - 1 - A.length = ys.length := by simp
      rw [e, e2, h2, Option.bind_some]
      have h3 := get_mid (A.map Slot.val) (ys.map .val ++ .val y :: R) .moved
      have h4 := set_mid (A.map Slot.val) (ys.map .val ++ .val y :: R) .moved (.val x)
      simp only [List.length_map] at h3 h4
      simp [assignAt, h3, h4]

theorem Rep.insert {d : Dyn α} {A B : List α} (kind : Kind) (h : Rep d (A ++ B)) (x : α) :
    ∃ d', insert kind d x A.length = some d' ∧ Rep d' (A ++ x :: B) := by
  obtain ⟨d1, e1, ⟨k, e2⟩, e3, _⟩ := h.checkSize kind
  obtain ⟨_, h'⟩ := h
  have hk : k ≠ 0 := by rintro rfl; have := e2.cap; simp at this e3; omega
  obtain ⟨k, rfl⟩ := Nat.exists_eq_succ_of_ne_zero hk
  have h1 := insertRaw_spec kind A B .raw (List.replicate k .raw) x
  rw [← e2.2] at h1
  refine ⟨⟨_, d1.len + 1⟩, ?_, k, rfl, ?_⟩
  · rw [Dyn.insert, if_pos (by rw [h'.2]; simp), e1, Option.bind_some, e2.1, List.replicate_succ, h1]
    rfl
  · rw [e2.2]; simp; omega

theorem memmove_down (P B : List (Slot α)) (s : Slot α) (R : List (Slot α)) :
    memmove (P ++ s :: (B ++ R)) P.length (P.length + 1) B.length =
      some (P ++ (B ++ ((s :: B).drop B.length ++ R))) := by
  unfold memmove
  rw [if_pos (by simp; omega)]
  congr 1
  have e1 : (P ++ s :: (B ++ R)).take P.length = P := by simp
  have e2 : ((P ++ s :: (B ++ R)).drop (P.length + 1)).take B.length = B := by
    rw [List.drop_append, List.drop_eq_nil_of_le (by omega)]
    simp
  have e3 : (P ++ s :: (B ++ R)).drop (P.length + B.length) = (s :: B).drop B.length ++ R := by
    rw [List.drop_append, List.drop_eq_nil_of_le (by omega)]
    have : P.length + B.length - P.length = B.length := by omega
    rw [this, List.nil_append, ← List.cons_append, List.drop_append_of_le_length (by simp)]
  rw [e1, e2, e3]
  simp

/-- Removal, where the removed slot may already have been moved from. -/
theorem removeRaw_spec (kind : Kind) (A B : List α) (s : Slot α) (hs : s ≠ .raw) (R : List (Slot α)) :
    removeRaw kind (A.map .val ++ s :: (B.map .val ++ R)) (A.length + 1 + B.length) A.length =
      some ((A ++ B).map .val ++ .raw :: R) := by
  cases kind with
  | simple =>
    simp only [removeRaw]
    have h1 : destroyAt (A.map .val ++ s :: (B.map .val ++ R)) A.length =
        some (A.map .val ++ .raw :: (B.map .val ++ R)) := by
      have h3 := get_mid (A.map Slot.val) (B.map .val ++ R) s
      have h4 := set_mid (A.map Slot.val) (B.map .val ++ R) s .raw
      simp only [List.length_map] at h3 h4
      unfold destroyAt
      rw [h3, h4]
      cases s <;> simp_all
    rw [h1, Option.bind_some]
    have h2 := memmove_down (A.map .val) (B.map .val) .raw R
    simp only [List.length_map] at h2
    have e2 : A.length + 1 + B.length - A.length - 1 = B.length := by omega
    rw [e2, h2, Option.map_some]
    congr 1
    have e3 : (Slot.raw :: B.map Slot.val).drop B.length =
        [((Slot.raw :: B.map Slot.val)[B.length]'(by simp))] := by
      rw [List.drop_eq_getElem_cons (by simp)]
      simp
    rw [e3]
    generalize (Slot.raw :: B.map Slot.val)[B.length]'_ = u
    have e4 : A.length + 1 + B.length - 1 = ((A ++ B).map (Slot.val (α := α))).length := by simp only [List.length_map, List.length_append]; omega
    have := set_mid ((A ++ B).map Slot.val) R u .raw
    rw [e4]
    simpa using this
  | safe =>
    simp only [removeRaw]
    obtain ⟨s', hs', h1⟩ := moveForward_spec B (A.map .val) R s hs
    simp only [List.length_map] at h1
    have e : A.length + 1 + B.length - 1 - A.length = B.length := by omega
    rw [e, h1, Option.bind_some]
    have e4 : A.length + 1 + B.length - 1 = ((A ++ B).map (Slot.val (α := α))).length := by simp only [List.length_map, List.length_append]; omega
    have h3 := get_mid ((A ++ B).map Slot.val) R s'
    have h4 := set_mid ((A ++ B).map Slot.val) R s' .raw
    rw [e4]
    have e5 : A.map Slot.val ++ (B.map Slot.val ++ s' :: R) = (A ++ B).map .val ++ s' :: R := by simp
    rw [e5]
    unfold destroyAt
    rw [h3, h4]
    cases s' with
    | raw => exact absurd rfl hs'
    | moved => rfl
    | val y => rfl

theorem Rep.remove {d : Dyn α} {A B : List α} {x : α} (kind : Kind) (h : Rep d (A ++ x :: B)) :
    ∃ d', remove kind d A.length = some d' ∧ Rep d' (A ++ B) := by
  obtain ⟨k, h⟩ := h
  have hl : d.len = A.length + 1 + B.length := by rw [h.2]; simp; omega
  have h1 := removeRaw_spec kind A B (.val x) (by simp) (List.replicate k .raw)
  refine ⟨⟨_, d.len - 1⟩, ?_, k + 1, rfl, ?_⟩
  · rw [Dyn.remove, if_pos (by omega), h.1, hl]
    have e : (A ++ x :: B).map Slot.val ++ List.replicate k .raw =
      A.map .val ++ .val x :: (B.map .val ++ List.replicate k .raw) := by simp
    rw [e, h1]
    rfl
  · rw [hl]; simp only [List.length_append]; omega

theorem Rep.removeLast {d : Dyn α} {A : List α} {x : α} (kind : Kind) (h : Rep d (A ++ [x])) :
    ∃ d', removeLast kind d = some d' ∧ Rep d' A := by
  obtain ⟨d', e1, e2⟩ := h.remove kind
  obtain ⟨_, h⟩ := h
  have hl : d.len = A.length + 1 := by rw [h.2]; simp
  refine ⟨d', ?_, by simpa using e2⟩
  rw [Dyn.removeLast, if_neg (by omega), hl]
  exact e1

theorem Rep.pop {d : Dyn α} {A : List α} {x : α} (kind : Kind) (h : Rep d (A ++ [x])) :
    ∃ d', sPop kind d = some (d', x) ∧ Rep d' A := by
  obtain ⟨k, h⟩ := h
  have hl : d.len = A.length + 1 := by rw [h.2]; simp
  have hb : back d = some x := by
    rw [back, if_neg (by omega), h.get (by simp; omega), hl]
    simp
  have h1 := removeRaw_spec kind A [] .moved (by simp) (List.replicate k .raw)
  have hset : d.arr.set (d.len - 1) .moved = A.map .val ++ .moved :: ([].map .val ++ List.replicate k .raw) := by
    have := set_mid (A.map Slot.val) (List.replicate k .raw) (.val x) .moved
    simp only [List.length_map] at this
    rw [h.1, hl]
    simpa using this
  refine ⟨⟨_, A.length⟩, ?_, k + 1, rfl, rfl⟩
  · simp only [sPop, hb, Option.bind_some, Dyn.removeLast, Dyn.remove]
    rw [if_neg (by omega), if_pos (by omega), hset, hl]
    simp only [List.length_nil, Nat.add_zero, Nat.add_sub_cancel] at h1 ⊢
    rw [h1]
    simp [List.replicate_succ]

theorem Rep.cap {d : Dyn α} {l : List α} (h : Rep d l) : l.length ≤ d.cap := by
  obtain ⟨k, h⟩ := h
  have := h.cap
  omega

theorem Rep.setLength {d : Dyn α} {l : List α} (kind : Kind) (init : Nat → α) (h : Rep d l) (n : Nat) :
    ∃ d', setLength kind init d n = some d' ∧
      Rep d' (l.take n ++ (List.range' l.length (n - l.length)).map init) := by
  have hl := h.choose_spec.2
  unfold Dyn.setLength
  by_cases hn : n < l.length
  · obtain ⟨k, h⟩ := h
    rw [if_pos (by omega)]
    have h1 := destroyFrom_spec (l.drop n) ((l.take n).map Slot.val) (List.replicate k .raw)
    have e : (l.take n).map Slot.val ++ ((l.drop n).map .val ++ List.replicate k .raw) = d.arr := by
      rw [h.1, ← List.append_assoc, ← List.map_append, List.take_append_drop]
    rw [e] at h1
    have e2 : ((l.take n).map (Slot.val (α := α))).length = n := by simp; omega
    have e3 : (l.drop n).length = d.len - n := by simp [hl]
    rw [e2, e3] at h1
    rw [h1, Option.map_some, Option.bind_some]
    rw [if_neg (by have := h.cap; simp [Dyn.cap]; omega), Option.bind_some, if_neg (by simp; omega), Option.map_some]
    refine ⟨_, rfl, (d.len - n) + k, ?_, ?_⟩
    · have : n - l.length = 0 := by omega
      simp [this]
    · simp; omega
  · rw [if_neg (by omega), Option.bind_some]
    have h2 : ∃ d2, (if n > d.cap then Dyn.setCap kind d n else some d) = some d2 ∧ Rep d2 l ∧ n ≤ d2.cap := by
      split
      · obtain ⟨d2, e1, e2, e3⟩ := h.setCap kind (c := n) (by omega)
        exact ⟨d2, e1, e2, by omega⟩
      · exact ⟨d, rfl, h, by omega⟩
    obtain ⟨d2, e1, ⟨k, e2⟩, e3⟩ := h2
    rw [e1, Option.bind_some]
    have hcap := e2.cap
    simp at hcap
    by_cases hn2 : n > l.length
    · rw [if_pos (by have := e2.2; omega)]
      have h3 := constructFrom_spec init (n - l.length) (l.map .val) (List.replicate k .raw) (by simp; omega)
      simp only [List.length_map] at h3
      rw [e2.2, e2.1, h3, Option.map_some]
      refine ⟨_, rfl, k - (n - l.length), ?_, ?_⟩
      · rw [List.take_of_length_le (by omega)]
        simp [Function.comp_def]
      · rw [List.take_of_length_le (by omega)]
        simp; omega
    · have : n = l.length := by omega
      subst this
      rw [if_neg (by have := e2.2; omega), Option.map_some]
      refine ⟨_, rfl, k, ?_, ?_⟩
      · simp [e2.1]
      · simp

theorem Rep.append {d e : Dyn α} {l m : List α} (kind : Kind) (h : Rep d l) (he : Rep e m) :
    ∃ d', append kind d e = some d' ∧ Rep d' (l ++ m) := by
  obtain ⟨k2, he⟩ := he
  have hl := h.choose_spec.2
  obtain ⟨d1, e1, ⟨k, e2⟩, e3⟩ := h.setCap kind (c := d.len + e.len) (by omega)
  have hcap := e2.cap
  simp at hcap
  have h1 := copyLoop_spec' m (l.map .val) (List.replicate k .raw) (List.replicate k2 .raw)
    (by simp; have := he.2; omega) (k := e.len) (di := d1.len) he.2 (by simp [e2.2])
  refine ⟨⟨l.map .val ++ (m.map .val ++ (List.replicate k .raw).drop m.length), d1.len + e.len⟩, ?_, k - m.length, ?_, ?_⟩
  · simp only [Dyn.append, e1, Option.bind_some]
    rw [e2.1, he.1, h1]
    rfl
  · simp
  · rw [e2.2, he.2]; simp

theorem Rep.appendSelf {d : Dyn α} {l : List α} (kind : Kind) (h : Rep d l) :
    ∃ d', appendSelf kind d = some d' ∧ Rep d' (l ++ l) := by
  have hl := h.choose_spec.2
  obtain ⟨d1, e1, ⟨k, e2⟩, e3⟩ := h.setCap kind (c := d.len + d.len) (by omega)
  have hcap := e2.cap
  simp at hcap
  have h1 := copyLoop_spec' l (l.map .val) (List.replicate k .raw) (List.replicate k .raw)
    (by simp; omega) (k := d1.len) (di := d1.len) e2.2 (by simp [e2.2])
  refine ⟨⟨l.map .val ++ (l.map .val ++ (List.replicate k .raw).drop l.length), d1.len + d1.len⟩, ?_, k - l.length, ?_, ?_⟩
  · simp only [Dyn.appendSelf, e1, Option.bind_some]
    rw [e2.1, h1]
    rfl
  · simp
  · rw [e2.2]; simp

theorem Rep.copyOf {d : Dyn α} {l : List α} (h : Rep d l) : ∃ d', copyOf d = some d' ∧ Rep d' l ∧ d'.cap = d.cap := by
  obtain ⟨k, h⟩ := h
  have hcap := h.cap
  simp at hcap
  have h1 := copyLoop_spec' l [] (List.replicate d.cap .raw) (List.replicate k .raw) (by simp; omega) (k := d.len)
    (di := 0) h.2 rfl
  simp only [List.nil_append] at h1
  refine ⟨⟨l.map .val ++ (List.replicate d.cap .raw).drop l.length, d.len⟩, ?_, ⟨d.cap - l.length, ?_, h.2⟩, ?_⟩
  · simp only [Dyn.copyOf]
    rw [h.1, h1]
    rfl
  · simp
  · simp [Dyn.cap, h.1]

theorem Rep.plus {d e : Dyn α} {l m : List α} (h : Rep d l) (he : Rep e m) :
    ∃ d', plus d e = some d' ∧ Rep d' (l ++ m) := by
  obtain ⟨k, h⟩ := h
  obtain ⟨k2, he⟩ := he
  have h1 := copyLoop_spec' l [] (List.replicate (d.len + e.len) .raw) (List.replicate k .raw)
    (by simp [h.2]) (k := d.len) (di := 0) h.2 rfl
  simp only [List.nil_append, List.drop_replicate] at h1
  have h2 := copyLoop_spec' m (l.map .val) (List.replicate (d.len + e.len - l.length) .raw) (List.replicate k2 .raw)
    (by simp [h.2, he.2]) (k := e.len) (di := d.len) he.2 (by simp [h.2])
  refine ⟨⟨l.map .val ++ (m.map .val ++ (List.replicate (d.len + e.len - l.length) .raw).drop m.length), d.len + e.len⟩,
    ?_, 0, ?_, ?_⟩
  · simp only [Dyn.plus]
    rw [h.1, h1, Option.bind_some, he.1, h2]
    rfl
  · simp [h.2, he.2]
  · rw [h.2, he.2]; simp

theorem Rep.destroyAll {d : Dyn α} {l : List α} (h : Rep d l) :
    destroyFrom 0 d.len d.arr = some (List.replicate d.cap .raw) := by
  obtain ⟨k, h⟩ := h
  have h1 := destroyFrom_spec l [] (List.replicate k .raw)
  simp only [List.nil_append, List.length_nil] at h1
  rw [h.1, h.2, h1]
  simp [h.cap]

theorem Rep.assign {d e : Dyn α} {l m : List α} (h : Rep d l) (he : Rep e m) :
    ∃ d', assign d e = some d' ∧ Rep d' m := by
  have hc := he.cap
  obtain ⟨k2, he⟩ := he
  simp only [Dyn.assign, h.destroyAll, Option.bind_some]
  have e' : (if e.len > d.cap then List.replicate e.cap Slot.raw else List.replicate d.cap (Slot.raw (α := α))) =
      List.replicate (if e.len > d.cap then e.cap else d.cap) .raw := by split <;> rfl
  rw [e']
  have h1 := copyLoop_spec' m [] (List.replicate (if e.len > d.cap then e.cap else d.cap) .raw) (List.replicate k2 .raw)
    (by simp; have := he.2; split <;> omega) (k := e.len) (di := 0) he.2 rfl
  simp only [List.nil_append, List.drop_replicate] at h1
  rw [he.1, h1]
  exact ⟨_, rfl, _, rfl, he.2⟩

theorem Rep.set {d : Dyn α} {l : List α} (h : Rep d l) (p : List α) : ∃ d', set d p = some d' ∧ Rep d' p := by
  simp only [Dyn.set, h.destroyAll, Option.bind_some]
  have e : (if p.length > d.cap then List.replicate p.length Slot.raw else List.replicate d.cap (Slot.raw (α := α))) =
      List.replicate (if p.length > d.cap then p.length else d.cap) .raw := by split <;> rfl
  rw [e]
  have h1 := copyLoop_spec' p [] (List.replicate (if p.length > d.cap then p.length else d.cap) .raw) []
    (by simp; split <;> omega) (k := p.length) (di := 0) rfl rfl
  simp only [List.nil_append, List.drop_replicate, List.append_nil] at h1
  rw [h1]
  exact ⟨_, rfl, _, rfl, rfl⟩

theorem Rep.put {d : Dyn α} {l : List α} (h : Rep d l) {i : Nat} (hi : i < l.length) (x : α) :
    ∃ d', put d i x = some d' ∧ Rep d' (l.set i x) := by
  obtain ⟨k, h⟩ := h
  refine ⟨⟨d.arr.set i (.val x), d.len⟩, ?_, k, ?_, ?_⟩
  · simp [Dyn.put, assignAt, h.1, List.getElem?_append, hi]
  · simp only [h.1]
    rw [List.set_append_left _ _ (by simpa using hi), List.map_set]
  · simp [h.2]

theorem Rep.get {d : Dyn α} {l : List α} (h : Rep d l) (i : Nat) : get d i = l[i]? := by
  obtain ⟨k, h⟩ := h
  by_cases hi : i < l.length
  · exact h.get hi
  · simp only [Dyn.get, h.1]
    rw [List.getElem?_append_right (by simpa using hi), List.getElem?_replicate, List.getElem?_eq_none (l := l) (by omega)]
    split
    · next heq => split at heq <;> simp at heq
    · rfl

end Verif.Dyn
