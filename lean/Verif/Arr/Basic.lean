import Verif.Arr.Model

/-! # Lemmas about blocks and the heap -/

namespace Verif.Arr
variable {α : Type}

theorem get_mid {β : Type} (P Q : List β) (x : β) : (P ++ x :: Q)[P.length]? = some x := by simp

theorem set_mid {β : Type} (P Q : List β) (x y : β) : (P ++ x :: Q).set P.length y = P ++ y :: Q := by simp

theorem construct_mid {i : Nat} (P Q : List (Slot α)) (x : α) (h : i = P.length) : construct i x (P ++ .raw :: Q) = some (P ++ .val x :: Q) := by
  subst h; simp [construct]

theorem destroyAt_mid {i : Nat} (P Q : List (Slot α)) (s : Slot α) (hs : s ≠ .raw) (h : i = P.length) : destroyAt i (P ++ s :: Q) = some (P ++ .raw :: Q) := by
  subst h
  cases s with
  | raw => exact absurd rfl hs
  | moved => simp [destroyAt]
  | val y => simp [destroyAt]

theorem destroyFrom_at (ss : List (Slot α)) : ∀ (P R : List (Slot α)), (∀ s ∈ ss, s ≠ .raw) →
    destroyFrom P.length ss.length (P ++ (ss ++ R)) = some (P ++ (List.replicate ss.length .raw ++ R)) := by
  induction ss with
  | nil => intro P R _; simp [destroyFrom]
  | cons s ss ih =>
    intro P R h
    simp only [List.length_cons, destroyFrom, List.cons_append]
    rw [destroyAt_mid P _ s (h s (by simp)) rfl, Option.bind_some]
    have := ih (P ++ [.raw]) R fun s hs => h s (by simp [hs])
    simpa [List.replicate_succ] using this

theorem constructFrom_at (dflt : α) (k : Nat) : ∀ (P R : List (Slot α)),
    constructFrom dflt P.length k (P ++ (List.replicate k .raw ++ R)) = some (P ++ (List.replicate k (.val dflt) ++ R)) := by
  induction k with
  | zero => intro P R; simp [constructFrom]
  | succ k ih =>
    intro P R
    simp only [constructFrom, List.replicate_succ, List.cons_append]
    rw [construct_mid P _ dflt rfl, Option.bind_some]
    have := ih (P ++ [.val dflt]) R
    simpa using this

theorem moveAssign_up {P R : List (Slot α)} {x : α} {s : Slot α} (hs : s ≠ .raw) :
    moveAssign P.length (P.length + 1) (P ++ .val x :: s :: R) = some (P ++ .moved :: .val x :: R) := by
  have e : (P ++ Slot.val x :: s :: R)[P.length + 1]? = some s := by simp
  unfold moveAssign
  rw [get_mid, e]
  cases s with
  | raw => exact absurd rfl hs
  | moved => simp
  | val y => simp

theorem moveAssign_down {P R : List (Slot α)} {x : α} {s : Slot α} (hs : s ≠ .raw) :
    moveAssign (P.length + 1) P.length (P ++ s :: .val x :: R) = some (P ++ .val x :: .moved :: R) := by
  have e : (P ++ s :: Slot.val x :: R)[P.length + 1]? = some (Slot.val x) := by simp
  unfold moveAssign
  rw [get_mid, e]
  cases s with
  | raw => exact absurd rfl hs
  | moved => simp
  | val y => simp

theorem moveBackward_at (P : List (Slot α)) : ∀ (n : Nat) (xs : List α) (R : List (Slot α)), xs.length = n →
    moveBackward P.length n (P ++ (xs.map .val ++ .moved :: R)) = some (P ++ .moved :: (xs.map .val ++ R)) := by
  intro n
  induction n with
  | zero => intro xs R h; cases xs <;> simp_all [moveBackward]
  | succ n ih =>
    intro xs R h
    rcases List.eq_nil_or_concat xs with rfl | ⟨ys, y, rfl⟩
    · simp at h
    · have hy : ys.length = n := by simpa using h
      have h1 := moveAssign_up (P := P ++ ys.map Slot.val) (R := R) (x := y) (s := Slot.moved) (by simp)
      simp only [List.length_append, List.length_map, hy] at h1
      simp only [moveBackward]
      have e : P ++ ((ys ++ [y]).map Slot.val ++ Slot.moved :: R) = P ++ ys.map Slot.val ++ Slot.val y :: Slot.moved :: R := by simp
      rw [List.concat_eq_append, e, h1, Option.bind_some]
      have := ih ys (Slot.val y :: R) hy
      simpa using this

theorem moveForward_at (xs : List α) : ∀ (P R : List (Slot α)) (s : Slot α), s ≠ .raw →
    ∃ s' : Slot α, s' ≠ .raw ∧ moveForward xs.length P.length (P ++ s :: (xs.map .val ++ R)) = some (P ++ (xs.map .val ++ s' :: R)) := by
  induction xs with
  | nil => intro P R s hs; exact ⟨s, hs, by simp [moveForward]⟩
  | cons x xs ih =>
    intro P R s hs
    have h1 := moveAssign_down (P := P) (R := xs.map Slot.val ++ R) (x := x) hs
    obtain ⟨s', hs', e⟩ := ih (P ++ [Slot.val x]) R Slot.moved (by simp)
    refine ⟨s', hs', ?_⟩
    simp only [List.length_cons, moveForward, List.map_cons, List.cons_append]
    rw [h1, Option.bind_some]
    simpa using e

theorem shiftUp_at (P B R : List (Slot α)) : shiftUp P.length B.length (P ++ (B ++ .raw :: R)) = some (P ++ .raw :: (B ++ R)) := by
  have e : (P ++ (B ++ Slot.raw :: R))[P.length + B.length]? = some Slot.raw := by
    rw [← List.append_assoc, ← List.length_append, get_mid]
  have e3 : (P ++ (B ++ Slot.raw :: R)).drop (P.length + B.length + 1) = R := by
    rw [show P ++ (B ++ Slot.raw :: R) = (P ++ B ++ [.raw]) ++ R by simp, show P.length + B.length + 1 = (P ++ B ++ [Slot.raw]).length by simp; omega, List.drop_left]
  unfold shiftUp
  rw [e]
  simp only
  rw [e3]
  simp

theorem shiftDown_at (P B R : List (Slot α)) : shiftDown P.length B.length (P ++ .raw :: (B ++ R)) = some (P ++ (B ++ .raw :: R)) := by
  have e3 : (P ++ Slot.raw :: (B ++ R)).drop (P.length + B.length + 1) = R := by
    rw [show P ++ Slot.raw :: (B ++ R) = (P ++ (.raw :: B)) ++ R by simp, show P.length + B.length + 1 = (P ++ (Slot.raw :: B)).length by simp; omega, List.drop_left]
  have e4 : (P ++ Slot.raw :: (B ++ R)).drop (P.length + 1) = B ++ R := by
    rw [show P ++ Slot.raw :: (B ++ R) = (P ++ [.raw]) ++ (B ++ R) by simp, show P.length + 1 = (P ++ [Slot.raw]).length by simp, List.drop_left]
  unfold shiftDown
  rw [get_mid]
  simp only
  rw [if_pos (by simp; omega), e3, e4]
  simp

/-! ## Frames -/

/-- No block is beyond the next number. -/
def Fresh (h : Heap α) : Prop := ∀ b, h.next ≤ b → h.blk b = none

/-- Between two heaps, the only block that changed is the one of a pointer, which may have been freed, and the one of the pointer that replaced it. -/
structure Frame (h h' : Heap α) (p p' : Option Nat) : Prop where
  other : ∀ b, p ≠ some b → p' ≠ some b → h'.blk b = h.blk b
  gone : ∀ b, p = some b → p' ≠ some b → h'.blk b = none
  new : ∀ b, p' = some b → p = some b ∨ h.blk b = none
  fresh : Fresh h → Fresh h'

theorem Frame.refl (h : Heap α) (p : Option Nat) : Frame h h p p := ⟨fun _ _ _ => rfl, fun _ h1 h2 => absurd h1 h2, fun _ h => .inl h, id⟩

theorem Frame.trans {h h' h'' : Heap α} {p p' p'' : Option Nat} (a : Frame h h' p p') (b : Frame h' h'' p' p'') : Frame h h'' p p'' where
  other c h1 h2 := by
    by_cases h3 : p' = some c
    · rw [b.gone c h3 h2]
      exact ((a.new c h3).resolve_left h1).symm
    · rw [b.other c h3 h2, a.other c h1 h3]
  gone c h1 h2 := by
    by_cases h3 : p' = some c
    · exact b.gone c h3 h2
    · rw [b.other c h3 h2, a.gone c h1 h3]
  new c h1 := by
    rcases b.new c h1 with h2 | h2
    · exact a.new c h2
    · by_cases h3 : p = some c
      · exact .inl h3
      · by_cases h4 : p' = some c
        · exact a.new c h4
        · exact .inr (by rw [← a.other c h3 h4, h2])
  fresh h := b.fresh (a.fresh h)

theorem Frame.put {h : Heap α} {b : Nat} {a s : List (Slot α)} (hb : h.blk b = some a) : Frame h (h.put b (some s)) (some b) (some b) where
  other c h1 _ := by simp only [Heap.put]; rw [if_neg (by rintro rfl; exact h1 rfl)]
  gone c h1 h2 := absurd h1 h2
  new c h := .inl h
  fresh hf c hc := by
    simp only [Heap.put] at hc ⊢
    split
    · rename_i e; subst e; rw [hf _ hc] at hb; cases hb
    · exact hf c hc

theorem put_blk (h : Heap α) (b : Nat) (s : Option (List (Slot α))) : (h.put b s).blk b = s := by simp [Heap.put]

theorem put_blk_ne (h : Heap α) {b c : Nat} (s : Option (List (Slot α))) (hc : c ≠ b) : (h.put b s).blk c = h.blk c := by simp [Heap.put, hc]

theorem put_put (h : Heap α) (b : Nat) (s t : Option (List (Slot α))) : (h.put b s).put b t = h.put b t := by
  simp only [Heap.put, Heap.mk.injEq, true_and]
  funext c
  split <;> rfl

theorem put_self (h : Heap α) (b : Nat) : h.put b (h.blk b) = h := by
  cases h with
  | mk n f =>
    simp only [Heap.put, Heap.mk.injEq, true_and]
    funext c
    split
    · rename_i e; rw [e]
    · rfl

theorem put_comm (h : Heap α) {b c : Nat} (s t : Option (List (Slot α))) (hbc : b ≠ c) : (h.put b s).put c t = (h.put c t).put b s := by
  simp only [Heap.put, Heap.mk.injEq, true_and]
  funext d
  by_cases h1 : d = c
  · subst h1; rw [if_pos rfl, if_neg (Ne.symm hbc), if_pos rfl]
  · rw [if_neg h1]
    by_cases h2 : d = b
    · rw [if_pos h2, if_pos h2]
    · rw [if_neg h2, if_neg h2, if_neg h1]

/-! ## Blocks with elements -/

/-- The elements and the raw rest of a block. -/
def body (cap : Nat) (xs : List α) : List (Slot α) := xs.map .val ++ List.replicate (cap - xs.length) .raw

/-- A pointer leads to a block of a capacity with given elements; null if the capacity is 0. -/
def Blk (h : Heap α) (p : Option Nat) (cap : Nat) (xs : List α) : Prop :=
  xs.length ≤ cap ∧ match p with
    | none => cap = 0
    | some b => 0 < cap ∧ h.blk b = some (body cap xs)

theorem Blk.some {h : Heap α} {p : Option Nat} {cap : Nat} {xs : List α} (hb : Blk h p cap xs) (hc : 0 < cap) : ∃ b, p = some b ∧ h.blk b = some (body cap xs) := by
  cases p with
  | none => have := hb.2; omega
  | some b => exact ⟨b, rfl, hb.2.2⟩

theorem Blk.none {h : Heap α} {cap : Nat} {xs : List α} (hb : Blk h none cap xs) : cap = 0 ∧ xs = [] := by
  have h1 := hb.1
  have h2 : cap = 0 := hb.2
  exact ⟨h2, List.length_eq_zero_iff.mp (by omega)⟩

/-- A change of the block that a pointer leads to. -/
theorem Blk.on {h : Heap α} {b cap : Nat} {xs ys : List α} {f : List (Slot α) → Option (List (Slot α))} (hb : Blk h (.some b) cap xs)
    (hf : f (body cap xs) = .some (body cap ys)) (hl : ys.length ≤ cap) :
    h.on (.some b) f = .some (h.put b (.some (body cap ys))) ∧ Blk (h.put b (.some (body cap ys))) (.some b) cap ys ∧ Frame h (h.put b (.some (body cap ys))) (.some b) (.some b) := by
  refine ⟨?_, ⟨hl, hb.2.1, put_blk _ _ _⟩, Frame.put hb.2.2⟩
  simp [Heap.on, hb.2.2, hf]

theorem setLength_shrink (dflt : α) {h : Heap α} {p : Option Nat} {cap n : Nat} {xs : List α} (hb : Blk h p cap xs) (hn : n ≤ xs.length) :
    ∃ h', setLength dflt h p xs.length n = some h' ∧ Blk h' p cap (xs.take n) ∧ Frame h h' p p := by
  unfold setLength
  by_cases hlt : n < xs.length
  · obtain ⟨b, rfl, hbb⟩ := hb.some (by have := hb.1; omega)
    have := hb.on (ys := xs.take n) (f := destroyFrom n (xs.length - n)) (by
      obtain ⟨A, B, rfl, rfl⟩ : ∃ A B, xs = A ++ B ∧ A.length = n := ⟨xs.take n, xs.drop n, by simp, by simp; omega⟩
      have e := destroyFrom_at (B.map (Slot.val (α := α))) (A.map .val) (List.replicate (cap - (A ++ B).length) .raw) (by simp)
      have hl := hb.1
      simp only [List.length_map, List.length_append] at e hl
      simp only [body, List.map_append, List.append_assoc, List.length_append, List.take_left, Nat.add_sub_cancel_left]
      rw [e, List.replicate_append_replicate, show B.length + (cap - (A.length + B.length)) = cap - A.length by omega]) (by have := hb.1; simp; omega)
    rw [if_pos hlt, this.1, Option.bind_some, if_neg (by omega)]
    exact ⟨_, rfl, this.2⟩
  · rw [if_neg hlt, Option.bind_some, if_neg (by omega), List.take_of_length_le (by omega)]
    exact ⟨h, rfl, hb, Frame.refl _ _⟩

theorem setLength_grow (dflt : α) {h : Heap α} {p : Option Nat} {cap n : Nat} {xs : List α} (hb : Blk h p cap xs) (hn : xs.length ≤ n) (hc : n ≤ cap) :
    ∃ h', setLength dflt h p xs.length n = some h' ∧ Blk h' p cap (xs ++ List.replicate (n - xs.length) dflt) ∧ Frame h h' p p := by
  unfold setLength
  rw [if_neg (by omega), Option.bind_some]
  by_cases hlt : xs.length < n
  · obtain ⟨b, rfl, hbb⟩ := hb.some (by omega)
    have := hb.on (ys := xs ++ List.replicate (n - xs.length) dflt) (f := constructFrom dflt xs.length (n - xs.length)) (by
      have e := constructFrom_at dflt (n - xs.length) (xs.map (Slot.val (α := α))) (List.replicate (cap - n) .raw)
      rw [← List.append_assoc (List.map _ _) (List.replicate _ Slot.raw), List.append_assoc, List.replicate_append_replicate, show n - xs.length + (cap - n) = cap - xs.length by omega, List.length_map] at e
      simp only [body, e, List.map_append, List.map_replicate, List.length_append, List.length_replicate, List.append_assoc]
      rw [show cap - (xs.length + (n - xs.length)) = cap - n by omega]) (by simp; omega)
    rw [if_pos hlt, this.1]
    exact ⟨_, rfl, this.2⟩
  · rw [if_neg hlt, show n - xs.length = 0 by omega]
    simp only [List.replicate_zero, List.append_nil]
    exact ⟨h, rfl, hb, Frame.refl _ _⟩

theorem free_ok {h : Heap α} {p : Option Nat} {cap : Nat} (hb : Blk h p cap []) : ∃ h', h.free p = some h' ∧ Frame h h' p none := by
  cases p with
  | none => exact ⟨h, rfl, Frame.refl _ _⟩
  | some b =>
    refine ⟨h.put b none, ?_, ?_, ?_, ?_, ?_⟩
    · simp only [Heap.free, hb.2.2, Option.bind_some, body]
      rw [if_pos]
      intro s hs
      simp only [List.map_nil, List.nil_append, List.mem_replicate] at hs
      rw [hs.2]
    · intro c h1 _
      exact put_blk_ne _ _ (by rintro rfl; exact h1 rfl)
    · rintro c ⟨⟩ _
      exact put_blk _ _ _
    · intro c h; cases h
    · intro hf c hc
      by_cases e : c = b
      · subst e; exact put_blk _ _ _
      · rw [put_blk_ne _ _ e]; exact hf c hc

theorem alloc_blk (h : Heap α) (n : Nat) : (h.alloc n).1.blk h.next = some (List.replicate n .raw) := by simp [Heap.alloc]

theorem alloc_blk_ne (h : Heap α) (n : Nat) {b : Nat} (hb : b ≠ h.next) : (h.alloc n).1.blk b = h.blk b := by simp [Heap.alloc, hb]

theorem alloc_frame {h : Heap α} (n : Nat) (hf : Fresh h) : Frame h (h.alloc n).1 none (some h.next) where
  other c _ h1 := alloc_blk_ne h n (by rintro rfl; exact h1 rfl)
  gone c h1 := by cases h1
  new c h1 := by cases h1; exact .inr (hf _ (Nat.le_refl _))
  fresh _ c hc := by
    have hc : h.next + 1 ≤ c := hc
    rw [alloc_blk_ne h n (by omega)]
    exact hf c (by omega)

theorem getAlloc_none {h : Heap α} (n : Nat) (hf : Fresh h) : ∃ h' p, h.getAlloc n none = some (h', p) ∧ Blk h' p n [] ∧ Frame h h' none p := by
  by_cases hn : n = 0
  · subst hn
    exact ⟨h, none, rfl, ⟨Nat.le_refl _, rfl⟩, Frame.refl _ _⟩
  · refine ⟨(h.alloc n).1, some h.next, ?_, ⟨by simp, by omega, ?_⟩, alloc_frame n hf⟩
    · simp [Heap.getAlloc, hn, Heap.alloc]
    · simp [alloc_blk, body]

theorem copyMoveLoop_at (d s : Nat) (hds : d ≠ s) (zs : List α) : ∀ (i : Nat) (h : Heap α) (P Q R S : List (Slot α)), P.length = i → Q.length = i →
    h.blk d = some (P ++ (List.replicate zs.length .raw ++ R)) → h.blk s = some (Q ++ (zs.map .val ++ S)) →
    copyMoveLoop d s i zs.length h = some ((h.put d (some (P ++ (zs.map .val ++ R)))).put s (some (Q ++ (List.replicate zs.length .moved ++ S)))) := by
  induction zs with
  | nil =>
    intro i h P Q R S _ _ h1 h2
    simp only [List.length_nil, copyMoveLoop, List.replicate_zero, List.map_nil, List.nil_append] at h1 h2 ⊢
    rw [← h1, put_self, ← h2, put_self]
  | cons z zs ih =>
    intro i h P Q R S hP hQ h1 h2
    have hr : read i (Q ++ (Slot.val z :: zs.map Slot.val ++ S)) = some z := by
      subst hQ; simp [read]
    have hc := construct_mid P (List.replicate zs.length .raw ++ R) z hP.symm
    simp only [List.length_cons, List.map_cons, List.replicate_succ, List.cons_append] at h1 h2 ⊢
    simp only [List.cons_append] at hr
    rw [copyMoveLoop, h2, Option.bind_some, hr, Option.bind_some]
    have e1 : h.on (some d) (construct i z) = some (h.put d (some (P ++ .val z :: (List.replicate zs.length .raw ++ R)))) := by
      simp [Heap.on, h1, hc]
    rw [e1, Option.bind_some]
    have e2 : (h.put d (some (P ++ .val z :: (List.replicate zs.length .raw ++ R)))).on (some s) (fun a => some (a.set i .moved)) =
        some ((h.put d (some (P ++ .val z :: (List.replicate zs.length .raw ++ R)))).put s (some (Q ++ .moved :: (zs.map .val ++ S)))) := by
      subst hQ
      simp [Heap.on, put_blk_ne _ _ (Ne.symm hds), h2]
    rw [e2, Option.bind_some, ih (i + 1) _ (P ++ [.val z]) (Q ++ [.moved]) R S (by simp [hP]) (by simp [hQ])]
    · rw [put_comm _ _ _ (Ne.symm hds), put_put, put_put]
      simp
    · rw [put_blk_ne _ _ hds, put_blk]; simp
    · rw [put_blk]; simp

theorem setCapacity_ok (dflt : α) (kind : Kind) {h : Heap α} {o : Obj} {n length : Nat} {xs : List α} (hf : Fresh h) (hb : Blk h o.ptr o.cap xs) (hn : xs.length ≤ n)
    (hl : min length n = xs.length) :
    ∃ h' p, setCapacity dflt kind h o n length = some (h', { o with ptr := p, cap := n }) ∧ Blk h' p n xs ∧ Frame h h' o.ptr p := by
  cases kind with
  | construct =>
    simp only [setCapacity, Heap.getAlloc]
    by_cases h0 : n = 0
    · subst h0
      obtain rfl : xs = [] := List.length_eq_zero_iff.mp (by omega)
      obtain ⟨h', e1, e2⟩ := free_ok hb
      rw [if_pos rfl, e1]
      exact ⟨h', none, rfl, ⟨Nat.le_refl _, rfl⟩, e2⟩
    · rw [if_neg h0]
      cases hp : o.ptr with
      | none =>
        rw [hp] at hb
        obtain ⟨-, rfl⟩ := hb.none
        refine ⟨(h.alloc n).1, some h.next, rfl, ⟨by simp, by omega, ?_⟩, alloc_frame n hf⟩
        simp [alloc_blk, body]
      | some b =>
        rw [hp] at hb
        have hbn : b ≠ h.next := by
          rintro rfl
          have := hb.2.2
          rw [hf _ (Nat.le_refl _)] at this; cases this
        simp only [hb.2.2, Option.bind_some]
        have e0 : (body o.cap xs).drop n = List.replicate (o.cap - n) .raw := by
          have := hb.1
          rw [body, List.drop_append, List.drop_eq_nil_of_le (by simpa using hn), List.nil_append, List.drop_replicate, List.length_map]
          congr 1; omega
        have e1 : (body o.cap xs).take n ++ List.replicate (n - (body o.cap xs).length) .raw = body n xs := by
          have := hb.1
          rw [body, List.take_append, List.take_of_length_le (by simpa using hn), List.append_assoc, List.take_replicate, List.replicate_append_replicate, body]
          congr 2; simp; omega
        rw [if_pos (by rw [e0]; intro s hs; rw [(List.mem_replicate.mp hs).2]), e1]
        refine ⟨_, some h.next, rfl, ⟨hn, by omega, ?_⟩, ?_, ?_, ?_, ?_⟩
        · rw [put_blk_ne _ _ (Ne.symm hbn)]; exact put_blk _ _ _
        · intro c h1 h2
          have h1 : c ≠ b := by rintro rfl; exact h1 rfl
          have h2 : c ≠ h.next := by rintro rfl; exact h2 rfl
          rw [put_blk_ne _ _ h1, show (h.alloc n).2 = h.next from rfl, put_blk_ne _ _ h2, alloc_blk_ne _ _ h2]
        · rintro c ⟨⟩ _
          exact put_blk _ _ _
        · rintro c ⟨⟩
          exact .inr (hf _ (Nat.le_refl _))
        · intro _ c hc
          have hc : h.next + 1 ≤ c := hc
          by_cases e : c = b
          · subst e; exact put_blk _ _ _
          · rw [put_blk_ne _ _ e, show (h.alloc n).2 = h.next from rfl, put_blk_ne _ _ (by omega), alloc_blk_ne _ _ (by omega)]
            exact hf _ (by omega)
  | safe =>
    simp only [setCapacity]
    obtain ⟨h1, p, e1, hb1, hf1⟩ := getAlloc_none (h := h) n hf
    rw [e1, Option.bind_some]
    simp only
    rw [hl]
    cases hp : o.ptr with
    | none =>
      rw [hp] at hb
      obtain ⟨-, rfl⟩ := hb.none
      have : copyMove dflt h1 p none 0 = some h1 := by cases p <;> rfl
      rw [List.length_nil, this]
      exact ⟨h1, p, rfl, hb1, hf1⟩
    | some s =>
      rw [hp] at hb
      have hs := hb.2.2
      by_cases h0 : xs.length = 0
      · obtain rfl := List.length_eq_zero_iff.mp h0
        have : copyMove dflt h1 p (some s) 0 = some h1 := by cases p <;> rfl
        rw [List.length_nil, this, Option.bind_some]
        have hps : p ≠ some s := by
          rintro rfl
          rcases hf1.new s rfl with h | h
          · cases h
          · rw [hs] at h; cases h
        have hs1 : Blk h1 (some s) o.cap [] := ⟨hb.1, hb.2.1, by rw [hf1.other s (by simp) hps, hs]⟩
        obtain ⟨h2, e2, hf2⟩ := free_ok hs1
        rw [e2]
        refine ⟨h2, p, rfl, ?_, ?_, ?_, ?_, ?_⟩
        · cases p with
          | none => exact hb1
          | some d => exact ⟨hb1.1, hb1.2.1, by rw [hf2.other d (fun e => hps e.symm) (by simp)]; exact hb1.2.2⟩
        · intro c h3 h4
          rw [hf2.other c h3 (by simp), hf1.other c (by simp) h4]
        · intro c h3 h4
          exact hf2.gone c h3 (by simp)
        · intro c h3
          exact .inr ((hf1.new c h3).resolve_left (by simp))
        · exact fun hf => hf2.fresh (hf1.fresh hf)
      · obtain ⟨d, rfl, hd⟩ := hb1.some (by omega)
        have hds : d ≠ s := by
          rintro rfl
          rcases hf1.new d rfl with h | h
          · cases h
          · rw [hs] at h; cases h
        have hs1 : h1.blk s = some (body o.cap xs) := by
          rw [hf1.other s (by simp) (fun e => hds (by cases e; rfl)), hs]
        have hd' : h1.blk d = some ([] ++ (List.replicate xs.length .raw ++ List.replicate (n - xs.length) .raw)) := by
          rw [hd, body, List.replicate_append_replicate, show xs.length + (n - xs.length) = n by omega]; simp
        have hcm := copyMoveLoop_at d s hds xs 0 h1 [] [] (List.replicate (n - xs.length) .raw) (List.replicate (o.cap - xs.length) .raw) rfl rfl hd' hs1
        simp only [List.nil_append] at hcm
        simp only [copyMove]
        rw [if_neg h0, hcm, Option.bind_some]
        have hdf := destroyFrom_at (List.replicate xs.length (Slot.moved (α := α))) [] (List.replicate (o.cap - xs.length) .raw) (by
          intro x hx; rw [(List.mem_replicate.mp hx).2]; simp)
        simp only [List.nil_append, List.length_replicate, List.length_nil, List.replicate_append_replicate] at hdf
        have hsl : ∀ g : Heap α, setLength dflt (g.put s (some (List.replicate xs.length .moved ++ List.replicate (o.cap - xs.length) .raw))) (some s) xs.length 0 =
            some (g.put s (some (List.replicate (xs.length + (o.cap - xs.length)) .raw))) := by
          intro g
          rw [setLength, if_pos (by omega)]
          simp only [Heap.on, Option.bind_some, put_blk, Nat.sub_zero]
          rw [hdf]
          simp only [Option.map_some, Option.bind_some, put_put]
          rw [if_neg (by omega)]
        rw [hsl, Option.bind_some]
        have hfr : ∀ g : Heap α, (g.put s (some (List.replicate (xs.length + (o.cap - xs.length)) .raw))).free (some s) = some (g.put s none) := by
          intro g
          simp only [Heap.free, put_blk, Option.bind_some, put_put]
          rw [if_pos]
          intro x hx
          rw [(List.mem_replicate.mp hx).2]
        rw [hfr]
        refine ⟨_, some d, rfl, ⟨hn, by omega, ?_⟩, ?_, ?_, ?_, ?_⟩
        · rw [put_blk_ne _ _ hds, put_blk]; rfl
        · intro c h3 h4
          have h3 : c ≠ s := by rintro rfl; exact h3 rfl
          have h5 : c ≠ d := by rintro rfl; exact h4 rfl
          rw [put_blk_ne _ _ h3, put_blk_ne _ _ h5, hf1.other c (by simp) h4]
        · rintro c ⟨⟩ _
          exact put_blk _ _ _
        · rintro c ⟨⟩
          exact .inr ((hf1.new d rfl).resolve_left (by simp))
        · intro hf c hc
          by_cases e : c = s
          · subst e; exact put_blk _ _ _
          · have h6 := hf1.fresh hf c hc
            rw [put_blk_ne _ _ e, put_blk_ne _ _ (by rintro rfl; rw [h6] at hd; cases hd), h6]

theorem setCapacityDiscard_ok {h : Heap α} {o : Obj} (n : Nat) (hf : Fresh h) (hb : Blk h o.ptr o.cap []) :
    ∃ h' p, setCapacityDiscard h o n = some (h', { o with ptr := p, cap := n }) ∧ Blk h' p n [] ∧ Frame h h' o.ptr p := by
  obtain ⟨h1, e1, f1⟩ := free_ok hb
  obtain ⟨h2, p, e2, b2, f2⟩ := getAlloc_none n (f1.fresh hf)
  exact ⟨h2, p, by simp [setCapacityDiscard, e1, e2], b2, f1.trans f2⟩

theorem copyLoop_at (b d : Nat) (src : Src α) (cap : Nat) (ys : List α) : ∀ (i : Nat) (h : Heap α) (xs : List α), d + i = xs.length → xs.length + ys.length ≤ cap →
    h.blk b = some (body cap xs) → (∀ zs : List α, ∀ k (hk : k < ys.length), src.get (h.put b (some (body cap (xs ++ zs)))) (i + k) = some ys[k]) →
    copyLoop b d src i ys.length h = some (h.put b (some (body cap (xs ++ ys)))) := by
  induction ys with
  | nil =>
    intro i h xs _ _ hb _
    rw [List.length_nil, copyLoop, List.append_nil, ← hb, put_self]
  | cons y ys ih =>
    intro i h xs hd hc hb hs
    have h0 := hs [] 0 (by simp)
    rw [List.append_nil, ← hb, put_self] at h0
    rw [List.length_cons, copyLoop, Nat.add_zero] at *
    simp only [List.getElem_cons_zero] at h0
    rw [h0, Option.bind_some]
    have hcon : construct (d + i) y (body cap xs) = some (body cap (xs ++ [y])) := by
      have := construct_mid (i := d + i) (xs.map Slot.val) (List.replicate (cap - xs.length - 1) .raw) y (by simpa using hd)
      simp only [body]
      rw [show cap - xs.length = (cap - xs.length - 1) + 1 by omega, List.replicate_succ, this]
      simp [Nat.sub_sub]
    have e1 : h.on (some b) (construct (d + i) y) = some (h.put b (some (body cap (xs ++ [y])))) := by
      simp [Heap.on, hb, hcon]
    rw [e1, Option.bind_some, ih (i + 1) _ (xs ++ [y]) (by simp; omega) (by simp; omega) (put_blk _ _ _)]
    · rw [put_put]; simp
    · intro zs k hk
      have := hs (y :: zs) (k + 1) (by simpa using hk)
      rw [put_put, List.append_assoc, List.singleton_append, show i + 1 + k = i + (k + 1) by omega, this]
      simp

theorem copy_ok {h : Heap α} {p : Option Nat} {cap : Nat} {xs : List α} (src : Src α) (ys : List α) (hb : Blk h p cap xs) (hc : xs.length + ys.length ≤ cap)
    (hnull : src.null = true → ys = []) (hs : ∀ b, p = some b → ∀ zs : List α, ∀ k (hk : k < ys.length), src.get (h.put b (some (body cap (xs ++ zs)))) k = some ys[k]) :
    ∃ h', copy h p xs.length src ys.length = some h' ∧ Blk h' p cap (xs ++ ys) ∧ Frame h h' p p := by
  cases p with
  | none =>
    obtain ⟨rfl, rfl⟩ := hb.none
    obtain rfl : ys = [] := List.length_eq_zero_iff.mp (by omega)
    exact ⟨h, rfl, hb, Frame.refl _ _⟩
  | some b =>
    simp only [copy]
    by_cases h0 : src.null = true ∨ ys.length = 0
    · rw [if_pos h0]
      obtain rfl : ys = [] := h0.elim hnull fun h => List.length_eq_zero_iff.mp h
      exact ⟨h, rfl, by simpa using hb, Frame.refl _ _⟩
    · rw [if_neg h0, copyLoop_at b xs.length src cap ys 0 h xs rfl hc hb.2.2 (by simpa using hs b rfl)]
      exact ⟨_, rfl, ⟨by simpa using hc, hb.2.1, put_blk _ _ _⟩, Frame.put hb.2.2⟩

theorem on_construct {h : Heap α} {p : Option Nat} {cap : Nat} {xs : List α} (x : α) (hb : Blk h p cap xs) (hc : xs.length < cap) :
    ∃ h', h.on p (construct xs.length x) = some h' ∧ Blk h' p cap (xs ++ [x]) ∧ Frame h h' p p := by
  obtain ⟨b, rfl, -⟩ := hb.some (by omega)
  have := hb.on (ys := xs ++ [x]) (f := construct xs.length x) (by
    have := construct_mid (i := xs.length) (xs.map Slot.val) (List.replicate (cap - xs.length - 1) .raw) x (by simp)
    simp only [body]
    rw [show cap - xs.length = (cap - xs.length - 1) + 1 by omega, List.replicate_succ, this]
    simp [Nat.sub_sub]) (by simp; omega)
  exact ⟨_, this⟩

theorem on_eq {h : Heap α} {b : Nat} {f : List (Slot α) → Option (List (Slot α))} {a a' : List (Slot α)} (hb : h.blk b = some a) (hf : f a = some a') :
    h.on (some b) f = some (h.put b (some a')) := by simp [Heap.on, hb, hf]

theorem insertRaw_ok (kind : Kind) {h : Heap α} {p : Option Nat} {cap k : Nat} {xs : List α} {item : Heap α → Option α} (x : α) (hb : Blk h p cap xs) (hc : xs.length < cap) (hk : k ≤ xs.length)
    (hi : ∀ b, p = some b → ∀ a, item (h.put b (some a)) = some x) :
    ∃ h', insertRaw kind h p xs.length k item = some h' ∧ Blk h' p cap (xs.take k ++ x :: xs.drop k) ∧ Frame h h' p p := by
  obtain ⟨b, rfl, hbb⟩ := hb.some (by omega)
  have hi := hi b rfl
  obtain ⟨A, B, rfl, rfl⟩ : ∃ A B, xs = A ++ B ∧ A.length = k := ⟨xs.take k, xs.drop k, by simp, by simp; omega⟩
  have hl : (A ++ x :: B).length ≤ cap := by simp at hc ⊢; omega
  suffices hsuf : insertRaw kind h (some b) (A ++ B).length A.length item = some (h.put b (some (body cap (A ++ x :: B)))) by
    simp only [List.take_left, List.drop_left]
    exact ⟨_, hsuf, ⟨hl, hb.2.1, put_blk _ _ _⟩, Frame.put hbb⟩
  have hbody : body cap (A ++ B) = A.map .val ++ (B.map .val ++ .raw :: List.replicate (cap - (A ++ B).length - 1) .raw) := by
    rw [body, show cap - (A ++ B).length = (cap - (A ++ B).length - 1) + 1 by omega, List.replicate_succ]; simp
  have hbody' : body cap (A ++ x :: B) = A.map .val ++ .val x :: (B.map .val ++ List.replicate (cap - (A ++ B).length - 1) .raw) := by
    simp [body, Nat.sub_sub, Nat.add_assoc]
  generalize List.replicate (cap - (A ++ B).length - 1) Slot.raw = R at hbody hbody'
  rw [hbody] at hbb
  cases kind with
  | construct =>
    have h1 := shiftUp_at (A.map (Slot.val (α := α))) (B.map .val) R
    simp only [List.length_map] at h1
    simp only [insertRaw]
    rw [show (A ++ B).length - A.length = B.length by simp, on_eq hbb h1, Option.bind_some, hi, Option.bind_some,
      on_eq (put_blk _ _ _) (construct_mid _ _ x (by simp)), put_put, hbody']
  | safe =>
    simp only [insertRaw]
    by_cases hlt : A.length < (A ++ B).length
    · rw [if_pos hlt]
      rcases List.eq_nil_or_concat B with rfl | ⟨B', y, rfl⟩
      · simp at hlt
      · rw [List.concat_eq_append] at *
        have h1 : moveConstruct ((A ++ (B' ++ [y])).length - 1) (A ++ (B' ++ [y])).length (A.map .val ++ ((B' ++ [y]).map .val ++ .raw :: R)) =
            some (A.map .val ++ (B'.map .val ++ .moved :: .val y :: R)) := by
          have hg1 : (A.map Slot.val ++ ((B' ++ [y]).map Slot.val ++ Slot.raw :: R))[(A ++ (B' ++ [y])).length - 1]? = some (Slot.val y) := by
            have := get_mid (A.map Slot.val ++ B'.map Slot.val) (Slot.raw :: R) (Slot.val y)
            simp only [List.length_append, List.length_map] at this
            rw [show (A ++ (B' ++ [y])).length - 1 = A.length + B'.length by simp, ← this]
            simp
          have hg2 : (A.map Slot.val ++ ((B' ++ [y]).map Slot.val ++ Slot.raw :: R))[(A ++ (B' ++ [y])).length]? = some Slot.raw := by
            have := get_mid (A.map Slot.val ++ (B' ++ [y]).map Slot.val) R Slot.raw
            rw [List.append_assoc] at this
            rw [← this]
            congr 1
            simp
          unfold moveConstruct
          rw [hg1, hg2]
          simp only
          have hs1 : (A.map Slot.val ++ ((B' ++ [y]).map Slot.val ++ Slot.raw :: R)).set (A ++ (B' ++ [y])).length (.val y) = A.map Slot.val ++ B'.map Slot.val ++ .val y :: .val y :: R := by
            have := set_mid (A.map Slot.val ++ (B' ++ [y]).map Slot.val) R Slot.raw (.val y)
            rw [List.append_assoc, show (A.map Slot.val ++ (B' ++ [y]).map Slot.val).length = (A ++ (B' ++ [y])).length by simp] at this
            rw [this]; simp
          rw [hs1]
          have := set_mid (A.map Slot.val ++ B'.map Slot.val) (.val y :: R) (Slot.val y) .moved
          rw [show (A.map Slot.val ++ B'.map Slot.val).length = (A ++ (B' ++ [y])).length - 1 by simp] at this
          rw [this]; simp
        have h2 := moveBackward_at (A.map Slot.val) B'.length B' (.val y :: R) rfl
        rw [List.length_map] at h2
        rw [on_eq hbb h1, Option.bind_some, show (A ++ (B' ++ [y])).length - 1 - A.length = B'.length by simp,
          on_eq (put_blk _ _ _) h2, Option.bind_some, put_put, hi, Option.bind_some]
        have h3 : assignAt A.length x (A.map .val ++ .moved :: (B'.map .val ++ .val y :: R)) = some (A.map .val ++ .val x :: (B'.map .val ++ .val y :: R)) := by
          have e := get_mid (A.map Slot.val) (B'.map .val ++ .val y :: R) Slot.moved
          have e' := set_mid (A.map Slot.val) (B'.map .val ++ .val y :: R) Slot.moved (.val x)
          rw [List.length_map] at e e'
          unfold assignAt
          rw [e]
          simp only
          rw [e']
        rw [on_eq (put_blk _ _ _) h3, put_put, hbody']
        simp
    · rw [if_neg hlt]
      obtain rfl : B = [] := by
        apply List.length_eq_zero_iff.mp; simp at hlt; exact by simpa using hlt
      have hh : item h = some x := by have := hi (A.map .val ++ (([] : List α).map .val ++ .raw :: R)); rw [← hbb, put_self] at this; exact this
      rw [hh, Option.bind_some, on_eq hbb (construct_mid _ _ x (by simp)), hbody']
      simp

theorem removeRaw_ok (kind : Kind) {h : Heap α} {p : Option Nat} {cap k : Nat} {xs : List α} (hb : Blk h p cap xs) (hk : k < xs.length) :
    ∃ h', removeRaw kind h p xs.length k = some h' ∧ Blk h' p cap (xs.eraseIdx k) ∧ Frame h h' p p := by
  obtain ⟨b, rfl, hbb⟩ := hb.some (by have := hb.1; omega)
  obtain ⟨A, y, B, rfl, rfl⟩ : ∃ A x B, xs = A ++ x :: B ∧ A.length = k :=
    ⟨xs.take k, xs[k], xs.drop (k + 1), by rw [List.getElem_cons_drop]; simp, by simp; omega⟩
  have hl := hb.1
  have he : (A ++ y :: B).eraseIdx A.length = A ++ B := by rw [List.eraseIdx_append_of_length_le (Nat.le_refl _)]; simp
  rw [he]
  suffices hsuf : removeRaw kind h (some b) (A ++ y :: B).length A.length = some (h.put b (some (body cap (A ++ B)))) from
    ⟨_, hsuf, ⟨by simp at hl ⊢; omega, hb.2.1, put_blk _ _ _⟩, Frame.put hbb⟩
  have hbody : body cap (A ++ y :: B) = A.map .val ++ .val y :: (B.map .val ++ List.replicate (cap - (A ++ y :: B).length) .raw) := by simp [body]
  have hbody' : body cap (A ++ B) = A.map .val ++ (B.map .val ++ .raw :: List.replicate (cap - (A ++ y :: B).length) .raw) := by
    rw [body, show cap - (A ++ B).length = cap - (A ++ y :: B).length + 1 by simp at hl ⊢; omega, List.replicate_succ]; simp
  generalize List.replicate (cap - (A ++ y :: B).length) Slot.raw = R at hbody hbody'
  rw [hbody] at hbb
  cases kind with
  | construct =>
    have h1 := destroyAt_mid (i := A.length) (A.map Slot.val) (B.map .val ++ R) (.val y) (by simp) (by simp)
    have h2 := shiftDown_at (A.map (Slot.val (α := α))) (B.map .val) R
    simp only [List.length_map] at h2
    simp only [removeRaw]
    rw [on_eq hbb h1, Option.bind_some, show (A ++ y :: B).length - A.length - 1 = B.length by simp,
      on_eq (put_blk _ _ _) h2, put_put, hbody']
  | safe =>
    obtain ⟨s, hs, h1⟩ := moveForward_at B (A.map Slot.val) R (.val y) (by simp)
    rw [List.length_map] at h1
    have h2 := destroyAt_mid (i := (A ++ y :: B).length - 1) (A.map Slot.val ++ B.map .val) R s hs (by simp)
    simp only [removeRaw]
    rw [show (A ++ y :: B).length - 1 - A.length = B.length by simp, on_eq hbb h1, Option.bind_some, ← List.append_assoc,
      on_eq (put_blk _ _ _) h2, put_put, hbody']
    simp

end Verif.Arr
