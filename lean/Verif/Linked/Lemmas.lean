import Verif.Linked.Chain
import Verif.Linked.Model

/-! # Memory lemmas for the linked list functions -/

namespace Verif.Linked
variable {α : Type}

/-- The `next` link stored at an address. -/
def nx (h : Mem α) (p : Nat) : Option Nat := (h p).bind (·.next)
/-- The `prev` link stored at an address. -/
def pv (h : Mem α) (p : Nat) : Option Nat := (h p).bind (·.prev)
/-- The payload stored at an address. -/
def item (h : Mem α) (p : Nat) : Option α := (h p).map (·.item)

/-- The memory holds the doubly linked list `l`. -/
def Rep (h : Mem α) (l : List Nat) : Prop := WF (nx h) (pv h) l ∧ ∀ x ∈ l, (h x).isSome

def setN (h : Mem α) (p : Nat) (v : Option Nat) : Mem α :=
  fun q => if q = p then (h p).map fun nd => { nd with next := v } else h q
def setP (h : Mem α) (p : Nat) (v : Option Nat) : Mem α :=
  fun q => if q = p then (h p).map fun nd => { nd with prev := v } else h q

theorem wrNext_eq {h : Mem α} {p : Nat} (hp : (h p).isSome) (v : Option Nat) : wrNext h p v = some (setN h p v) := by
  obtain ⟨nd, e⟩ := Option.isSome_iff_exists.1 hp
  simp only [wrNext, e, Option.map_some, Option.some.injEq]
  funext q; simp [setN, e]
theorem wrPrev_eq {h : Mem α} {p : Nat} (hp : (h p).isSome) (v : Option Nat) : wrPrev h p v = some (setP h p v) := by
  obtain ⟨nd, e⟩ := Option.isSome_iff_exists.1 hp
  simp only [wrPrev, e, Option.map_some, Option.some.injEq]
  funext q; simp [setP, e]
theorem rdNext_eq {h : Mem α} {p : Nat} (hp : (h p).isSome) : rdNext h p = some (nx h p) := by
  obtain ⟨nd, e⟩ := Option.isSome_iff_exists.1 hp
  simp [rdNext, nx, e]
theorem rdPrev_eq {h : Mem α} {p : Nat} (hp : (h p).isSome) : rdPrev h p = some (pv h p) := by
  obtain ⟨nd, e⟩ := Option.isSome_iff_exists.1 hp
  simp [rdPrev, pv, e]

theorem isSome_setN (h : Mem α) (p : Nat) (v : Option Nat) (m : Nat) : (setN h p v m).isSome = (h m).isSome := by
  unfold setN; split <;> simp_all
theorem isSome_setP (h : Mem α) (p : Nat) (v : Option Nat) (m : Nat) : (setP h p v m).isSome = (h m).isSome := by
  unfold setP; split <;> simp_all
theorem item_setN (h : Mem α) (p : Nat) (v : Option Nat) (m : Nat) : item (setN h p v) m = item h m := by
  unfold item setN; split <;> simp_all [Function.comp_def]
theorem item_setP (h : Mem α) (p : Nat) (v : Option Nat) (m : Nat) : item (setP h p v) m = item h m := by
  unfold item setP; split <;> simp_all [Function.comp_def]
theorem pv_setN (h : Mem α) (p : Nat) (v : Option Nat) (m : Nat) : pv (setN h p v) m = pv h m := by
  unfold pv setN; split
  · subst m; cases h p <;> rfl
  · rfl
theorem nx_setP (h : Mem α) (p : Nat) (v : Option Nat) (m : Nat) : nx (setP h p v) m = nx h m := by
  unfold nx setP; split
  · subst m; cases h p <;> rfl
  · rfl
theorem nx_setN {h : Mem α} {p : Nat} (hp : (h p).isSome) (v : Option Nat) (m : Nat) :
    nx (setN h p v) m = if m = p then v else nx h m := by
  obtain ⟨nd, e⟩ := Option.isSome_iff_exists.1 hp
  unfold nx setN; split <;> simp [e]
theorem pv_setP {h : Mem α} {p : Nat} (hp : (h p).isSome) (v : Option Nat) (m : Nat) :
    pv (setP h p v) m = if m = p then v else pv h m := by
  obtain ⟨nd, e⟩ := Option.isSome_iff_exists.1 hp
  unfold pv setP; split <;> simp [e]
theorem setN_ne {h : Mem α} {p m : Nat} (v : Option Nat) (hm : m ≠ p) : setN h p v m = h m := by simp [setN, hm]
theorem setP_ne {h : Mem α} {p m : Nat} (v : Option Nat) (hm : m ≠ p) : setP h p v m = h m := by simp [setP, hm]

/-- What an operation may do to the memory: payloads and allocation are unchanged, and so is every node outside `s`. -/
def Frame (h h' : Mem α) (s : Nat → Prop) : Prop :=
  (∀ m, item h' m = item h m) ∧ (∀ m, (h' m).isSome = (h m).isSome) ∧ ∀ m, ¬ s m → h' m = h m

theorem Rep.insert {h h' : Mem α} {A B : List Nat} {n : Nat} (hr : Rep h (A ++ B)) (hn : n ∉ A ++ B)
    (hs : ∀ m, (h' m).isSome = (h m).isSome) (hns : (h n).isSome)
    (h1 : nx h' n = B.head?) (h2 : pv h' n = A.getLast?)
    (h3 : ∀ a, A.getLast? = some a → nx h' a = some n) (h4 : ∀ b, B.head? = some b → pv h' b = some n)
    (h5 : ∀ m, m ≠ n → A.getLast? ≠ some m → nx h' m = nx h m)
    (h6 : ∀ m, m ≠ n → B.head? ≠ some m → pv h' m = pv h m) : Rep h' (A ++ n :: B) := by
  refine ⟨hr.1.insert hn h1 h2 h3 h4 h5 h6, fun x hx => ?_⟩
  rw [hs]
  rcases List.mem_append.1 hx with hx | hx
  · exact hr.2 x (by simp [hx])
  · rcases List.mem_cons.1 hx with rfl | hx
    · exact hns
    · exact hr.2 x (by simp [hx])

theorem Rep.remove {h h' : Mem α} {A B : List Nat} {x : Nat} (hr : Rep h (A ++ x :: B))
    (hs : ∀ m, (h' m).isSome = (h m).isSome)
    (h3 : ∀ a, A.getLast? = some a → nx h' a = B.head?) (h4 : ∀ b, B.head? = some b → pv h' b = A.getLast?)
    (h5 : ∀ m, m ≠ x → A.getLast? ≠ some m → nx h' m = nx h m)
    (h6 : ∀ m, m ≠ x → B.head? ≠ some m → pv h' m = pv h m) : Rep h' (A ++ B) := by
  refine ⟨hr.1.remove h3 h4 h5 h6, fun y hy => ?_⟩
  rw [hs]
  rcases List.mem_append.1 hy with hy | hy
  · exact hr.2 y (by simp [hy])
  · exact hr.2 y (by simp [hy])

theorem Rep.next {h : Mem α} {A B : List Nat} {x : Nat} (hr : Rep h (A ++ x :: B)) : nx h x = B.head? := hr.1.next
theorem Rep.prev {h : Mem α} {A B : List Nat} {x : Nat} (hr : Rep h (A ++ x :: B)) : pv h x = A.getLast? := hr.1.prev

theorem Rep.some {h : Mem α} {l : List Nat} (hr : Rep h l) {x : Nat} (hx : x ∈ l) : (h x).isSome := hr.2 x hx

/-- In a list without duplicates, the neighbours of a node differ from it. -/
theorem nodup_split {A B : List Nat} {x : Nat} (h : (A ++ x :: B).Nodup) :
    x ∉ A ∧ x ∉ B ∧ (∀ a ∈ A, a ∉ B) := by
  rw [List.perm_middle.nodup_iff, List.nodup_cons] at h
  simp only [List.mem_append, not_or] at h
  refine ⟨h.1.1, h.1.2, fun a ha hb => ?_⟩
  exact (List.nodup_append.1 h.2).2.2 a ha a hb rfl

end Verif.Linked
