import Verif.Sync.QueueDestroy
import Verif.Sync.MicroLockQueueProps

/-!
# The nodes of a `MicroLockQueue`, its destructor and its move functions

`include/bss-util/LocklessQueue.h:137-142, 158-166, 192-201`, on the executions of C43. The loop of the destructor is that of `LocklessQueue`, from `_div` on (`LQ.destroy`). The allocator is
shared by all queues here (with an allocator of its own, a move takes it along).
-/

namespace Verif.Sync.MLQ

open LQ (Node setN Path Chain destroy destroy_chain setN_self setN_other)

variable {α : Type}

/-- The pointers `_div` and `_last` of a queue object. -/
structure Obj where
  div : Nat
  last : Nat

/-- `LocklessQueue.h:137-142`, the move constructor: the new object and the source. -/
def moveNew (m : Obj) : Obj × Obj := (⟨m.div, m.last⟩, ⟨0, 0⟩)

/-- `LocklessQueue.h:192-201`, the move assignment: the target and the source. -/
def moveAssign (_ m : Obj) : Obj × Obj := (⟨m.div, m.last⟩, ⟨0, 0⟩)

/-- `LocklessQueue.h:158-166`, the destructor, for at most `k` rounds. -/
def destruct (k : Nat) (o : Obj) (h : Nat → Option (Node α)) : Option (Nat → Option (Node α)) := destroy k o.div h

/-! ## Specification -/

/-- A running call holds the node: a `Push` that has not linked it yet, or a `Pop` that is about to give it back. -/
def Held (ags : List (PC α)) (x : Nat) : Prop :=
  ∃ (j : Nat) (q : PC α), ags[j]? = some q ∧
    ((∃ v, q = .pHave x v) ∨ (∃ v, q = .pLink x v) ∨ (∃ v, q = .cUnl x v) ∨ ∃ v, q = .cDel x v)

/-! ## Proofs -/

theorem own_iff {q : PC α} {x : Nat} : x ∈ own q ↔ ((∃ v, q = .pHave x v) ∨ (∃ v, q = .pLink x v) ∨ (∃ v, q = .cUnl x v) ∨ ∃ v, q = .cDel x v) := by
  cases q <;> simp [own, eq_comm]

theorem held_iff {ags : List (PC α)} {x : Nat} : Held ags x ↔ ∃ (j : Nat) (q : PC α), ags[j]? = some q ∧ x ∈ own q := by
  simp only [Held, own_iff]

variable {s s' : Sh α} {ags : List (PC α)} {L : List Nat} {i : Nat} {pc pc' : PC α}

theorem held_keep (hi : ags[i]? = some pc) {x : Nat} (h : Held ags x) (hx : x ∈ own pc → x ∈ own pc') : Held (ags.set i pc') x := by
  obtain ⟨j, q, h1, h2⟩ := held_iff.1 h
  by_cases e : i = j
  · subst e
    rw [hi] at h1
    cases h1
    exact held_iff.2 ⟨i, pc', by rw [List.getElem?_set_self (List.getElem?_eq_some_iff.1 hi).1], hx h2⟩
  · exact held_iff.2 ⟨j, q, by rw [List.getElem?_set_ne e]; exact h1, h2⟩

theorem held_mine (hi : ags[i]? = some pc) {x : Nat} (hx : x ∈ own pc') : Held (ags.set i pc') x :=
  held_iff.2 ⟨i, pc', by rw [List.getElem?_set_self (List.getElem?_eq_some_iff.1 hi).1], hx⟩

theorem chain_unique {h : Nat → Option (Node α)} : ∀ {L L' : List Nat} {x : Nat}, Chain h x L → Chain h x L' → 0 ∉ L → 0 ∉ L' → L = L'
  | [], [], _, _, _, _, _ => rfl
  | [], z :: L', x, h1, ⟨h2, _⟩, _, h0 => absurd (by simp [← h2, show x = 0 from h1]) h0
  | z :: L, [], x, ⟨h2, _⟩, h1, h0, _ => absurd (by simp [← h2, show x = 0 from h1]) h0
  | z :: L, z' :: L', x, ⟨h1, n, h2, h3⟩, ⟨h4, m, h5, h6⟩, h0, h0' => by
    subst h1 h4
    rw [h2] at h5
    cases h5
    rw [chain_unique h3 h6 (fun h => h0 (List.mem_cons_of_mem _ h)) fun h => h0' (List.mem_cons_of_mem _ h)]

theorem path_chain {h : Nat → Option (Node α)} : ∀ {D : List Nat} {x t : Nat}, Path h x D t → (∃ n, h t = some n ∧ n.next = 0) → Chain h x (x :: D)
  | [], _, _, hp, ⟨n, h1, h2⟩ => ⟨rfl, n, by rw [show _ = _ from hp]; exact h1, h2⟩
  | y :: D, _, _, ⟨⟨n, h1, h2⟩, h3⟩, hs => ⟨rfl, n, h1, by rw [h2]; exact path_chain h3 hs⟩

theorem path_snoc {h : Nat → Option (Node α)} : ∀ {D : List Nat} {x t : Nat}, Path h x D t → ∃ A, x :: D = A ++ [t]
  | [], _, _, hp => ⟨[], by rw [show _ = _ from hp]; rfl⟩
  | _ :: _, x, _, ⟨_, h3⟩ => by
    obtain ⟨A, e⟩ := path_snoc h3
    exact ⟨x :: A, by rw [e]; rfl⟩

/-- A node that is there already is linked behind the last one. -/
theorem chain_link {h : Nat → Option (Node α)} : ∀ {A : List Nat} {x l : Nat}, Chain h x (A ++ [l]) → (A ++ [l]).Nodup → ∀ {n : Nat} {nd m : Node α}, n ∉ A ++ [l] → h l = some nd →
    h n = some m → m.next = 0 → Chain (setN h l (some { nd with next := n })) x (A ++ [l, n])
  | [], x, l, ⟨h1, _⟩, _, n, nd, m, hn, _, hm, h0 => by
    have hnl : n ≠ l := fun e => hn (by simp [e])
    exact ⟨h1, _, setN_self _ _ _, rfl, m, by rw [setN_other _ _ hnl]; exact hm, h0⟩
  | z :: A, x, l, ⟨h1, k, h2, h3⟩, hd, n, nd, m, hn, hl, hm, h0 => by
    have hd' := List.nodup_cons.1 (show (z :: (A ++ [l])).Nodup from hd)
    have hzl : z ≠ l := fun e => hd'.1 (by simp [e])
    exact ⟨h1, k, by rw [setN_other _ _ hzl]; exact h2, chain_link h3 hd'.2 (fun h => hn (List.mem_cons_of_mem _ h)) hl hm h0⟩

/-- All nodes are in the queue or held. -/
structure All (s : Sh α) (ags : List (PC α)) (L : List Nat) : Prop where
  chain : Chain s.heap s.div (s.div :: L)
  pos : 0 ∉ s.div :: L
  dom : ∀ x, s.heap x ≠ none → x ∈ s.div :: L ∨ Held ags x

theorem All.quiet (H : All s ags L) (hi : ags[i]? = some pc) (e1 : s'.heap = s.heap) (e2 : s'.div = s.div) (ho : ∀ x, x ∈ own pc → x ∈ own pc') : All s' (ags.set i pc') L :=
  ⟨by rw [e1, e2]; exact H.chain, by rw [e2]; exact H.pos, fun x hx => by rw [e1] at hx; rw [e2]; exact (H.dom x hx).imp_right fun h => held_keep hi h (ho x)⟩

theorem All.step {D : List Nat} {tail : Nat} {vs : List α} (H : All s ags L) (I : Inv s ags D tail vs) (hi : ags[i]? = some pc) {a : Act α}
    (hf : ∀ n v, a = .push n v → 0 < n ∧ s.heap n = none) (he : step1 a pc s = some (pc', s')) : ∃ L', All s' (ags.set i pc') L' := by
  have hLD : L = D := by
    have h := chain_unique H.chain (path_chain I.queue I.stop) H.pos fun h => by
      rcases List.mem_cons.1 h with h | h
      · exact H.pos (by simp [h])
      · exact I.pos 0 h rfl
    exact (List.cons.inj h).2
  subst hLD
  obtain ⟨o1, o2, o3⟩ := I.owns i pc hi
  cases a with
  | push n v =>
    cases pc <;> simp only [step1] at he <;> try contradiction
    cases he
    obtain ⟨_, hn⟩ := hf n v rfl
    have hnL : n ∉ s.div :: L := fun h => I.alive n h hn
    refine ⟨L, H.chain.away _ hnL, H.pos, fun x hx => ?_⟩
    by_cases e : x = n
    · exact .inr (held_mine hi (by simp [own, e]))
    · exact (H.dom x (by rw [← setN_other s.heap (some ⟨0, some v⟩) e]; exact hx)).imp_right fun h => held_keep hi h (by simp [own])
  | pop =>
    cases pc <;> simp only [step1] at he <;> try contradiction
    cases he
    exact ⟨L, H.quiet hi rfl rfl (by simp [own])⟩
  | go j =>
    cases pc with
    | idle => cases he
    | pHave n v =>
      simp only [step1] at he
      split at he <;> cases he <;> exact ⟨L, H.quiet hi rfl rfl (by simp [own])⟩
    | pLink n v =>
      obtain ⟨x, h1, h2⟩ := Option.map_eq_some_iff.1 he
      cases h2
      obtain ⟨A, eA⟩ := path_snoc I.queue
      have hlt : s.last = tail := o2
      subst hlt
      have hnL : n ∉ s.div :: L := fun h => I.not_own hi h (by simp [own])
      have hc := H.chain
      have hd := I.nodup
      have hp := H.pos
      have hl := chain_link (eA ▸ hc) (eA ▸ hd) (eA ▸ hnL) h1 o1.2 rfl
      have e : A ++ [s.last, n] = s.div :: (L ++ [n]) := by
        rw [← List.cons_append, eA]; simp
      rw [e] at hl
      refine ⟨L ++ [n], hl, ?_, fun y hy => ?_⟩
      · show 0 ∉ s.div :: (L ++ [n])
        rw [← List.cons_append, List.mem_append]
        rintro (h | h)
        · exact hp h
        · simp at h; exact o1.1 h.symm
      · show y ∈ s.div :: (L ++ [n]) ∨ _
        rw [← List.cons_append, List.mem_append]
        by_cases hyl : y = s.last
        · exact .inl (.inl (by rw [hyl, eA]; simp))
        · by_cases hyn : y = n
          · exact .inl (.inr (by simp [hyn]))
          · rcases H.dom y (by rw [← setN_other s.heap (some { x with next := n }) hyl]; exact hy) with h | h
            · exact .inl (.inl h)
            · exact .inr (held_keep hi h fun hm => absurd (by simpa [own] using hm) hyn)
    | pSet n => cases he; exact ⟨L, H.quiet hi rfl rfl (by simp [own])⟩
    | pUnl => cases he; exact ⟨L, H.quiet hi rfl rfl (by simp [own])⟩
    | peek d k => cases he; exact ⟨L, H.quiet hi rfl rfl (by simp [own])⟩
    | cWait =>
      simp only [step1] at he
      split at he <;> cases he <;> exact ⟨L, H.quiet hi rfl rfl (by simp [own])⟩
    | cRead =>
      obtain ⟨x, h1, h2⟩ := Option.map_eq_some_iff.1 he
      cases h2
      exact ⟨L, H.quiet hi rfl rfl (by simp [own])⟩
    | cItem r n =>
      obtain ⟨x, h1, h2⟩ := Option.bind_eq_some_iff.1 he
      obtain ⟨v, _, h3⟩ := Option.map_eq_some_iff.1 h2
      cases h3
      refine ⟨L, H.chain.item h1 rfl, H.pos, fun y hy => ?_⟩
      refine (H.dom y fun h => ?_).imp_right fun h => held_keep hi h (by simp [own])
      have hyn : y ≠ n := fun e => by rw [e, h1] at h; cases h
      exact hy (by show setN _ _ _ y = none; rw [setN_other _ _ hyn]; exact h)
    | cSet r n v =>
      cases he
      obtain ⟨_, hr, D', e⟩ := o3
      subst hr e
      obtain ⟨_, k, h1, h2⟩ := H.chain
      have hk : k.next = n := h2.1
      refine ⟨D', by rw [hk] at h2; exact h2, fun h => H.pos (List.mem_cons_of_mem _ h), fun y hy => ?_⟩
      rcases H.dom y hy with h | h
      · rcases List.mem_cons.1 h with h | h
        · exact .inr (held_mine hi (by simp [own, h]))
        · exact .inl h
      · exact .inr (held_keep hi h (by simp [own]))
    | cUnl r v => cases he; exact ⟨L, H.quiet hi rfl rfl (by simp [own])⟩
    | cDel r v =>
      obtain ⟨x, h1, h2⟩ := Option.map_eq_some_iff.1 he
      cases h2
      have hr : r ∉ s.div :: L := fun h => I.not_own hi h (by simp [own])
      refine ⟨L, H.chain.away none hr, H.pos, fun y hy => ?_⟩
      have hyr : y ≠ r := fun e => hy (by rw [e]; exact setN_self _ _ _)
      refine (H.dom y (by rw [← setN_other s.heap none hyr]; exact hy)).imp_right fun h => held_keep hi h fun hm => absurd (by simpa [own] using hm) hyr
    | cUnlE => cases he; exact ⟨L, H.quiet hi rfl rfl (by simp [own])⟩

theorem reach_all (h : Reach s ags) : ∃ L, All s ags L := by
  induction h with
  | @new a k ha =>
    refine ⟨[], ⟨rfl, ⟨0, none⟩, by simp [new, setN], rfl⟩, by simp [new]; omega, fun x hx => .inl ?_⟩
    by_cases e : x = a
    · simp [new, e]
    · simp [new, setN, e] at hx
  | step hr hi hf he ih =>
    obtain ⟨L, H⟩ := ih
    obtain ⟨D, t, vs, I⟩ := reach_inv hr
    exact H.step I hi hf he

theorem all_nodup (h : Reach s ags) (H : All s ags L) : (s.div :: L).Nodup := by
  obtain ⟨D, t, vs, I⟩ := reach_inv h
  have e := chain_unique H.chain (path_chain I.queue I.stop) H.pos fun h => by
    rcases List.mem_cons.1 h with h | h
    · exact H.pos (by simp [h])
    · exact I.pos 0 h rfl
  rw [e]
  exact I.nodup

/-- At any time, in any interleaving of any number of threads, every node that was allocated and not given back is in the queue or is held by a running call: no node is lost. -/
theorem C219_no_leak (h : Reach s ags) : ∃ L, Chain s.heap s.div L ∧ L.Nodup ∧ ∀ x, s.heap x ≠ none → x ∈ L ∨ Held ags x := by
  obtain ⟨L, H⟩ := reach_all h
  exact ⟨_, H.chain, all_nodup h H, H.dom⟩

/-- When all threads have finished their calls, the destructor ends, touches no node that was given back, and gives back every node. -/
theorem C219_destroy (h : Reach s ags) (hidle : ∀ q ∈ ags, q = .idle) : ∃ n, ∀ k, n ≤ k → ∃ h', destruct k ⟨s.div, s.last⟩ s.heap = some h' ∧ ∀ x, h' x = none := by
  obtain ⟨L, H⟩ := reach_all h
  refine ⟨(s.div :: L).length + 1, fun k hk => ?_⟩
  obtain ⟨h', h1, h2⟩ := destroy_chain _ _ k _ H.chain (all_nodup h H) H.pos (by omega)
  refine ⟨h', h1, fun x => ?_⟩
  rw [h2 x]
  split
  · rfl
  · next hx =>
    cases e : s.heap x with
    | none => rfl
    | some n =>
      rcases H.dom x (by rw [e]; simp) with h | h
      · exact absurd h hx
      · obtain ⟨j, q, h3, h4⟩ := held_iff.1 h
        rw [hidle q (List.mem_of_getElem? h3)] at h4
        simp [own] at h4

/-- A queue that is moved into a new object: the destructors of both, in either order, give back every node. Missing: the move assignment (`C219_assign_counterexample`). -/
theorem C219_move_partial (h : Reach s ags) (hidle : ∀ q ∈ ags, q = .idle) : ∃ n, ∀ k, n ≤ k →
    ∃ h', ((destruct k (moveNew ⟨s.div, s.last⟩).1 s.heap).bind fun h1 => destruct k (moveNew ⟨s.div, s.last⟩).2 h1) = some h' ∧
      ((destruct k (moveNew ⟨s.div, s.last⟩).2 s.heap).bind fun h1 => destruct k (moveNew ⟨s.div, s.last⟩).1 h1) = some h' ∧ ∀ x, h' x = none := by
  obtain ⟨n, hn⟩ := C219_destroy h hidle
  refine ⟨n + 1, fun k hk => ?_⟩
  obtain ⟨h', h1, h2⟩ := hn k (by omega)
  have e : ∀ g : Nat → Option (Node α), destruct k ⟨0, 0⟩ g = some g := fun g => by
    obtain ⟨k, rfl⟩ := Nat.exists_eq_succ_of_ne_zero (show k ≠ 0 by omega)
    simp [destruct, destroy]
  refine ⟨h', ?_, ?_, h2⟩
  · show ((destruct k ⟨s.div, s.last⟩ s.heap).bind fun h1 => destruct k ⟨0, 0⟩ h1) = _
    rw [h1]
    exact e h'
  · show ((destruct k ⟨0, 0⟩ s.heap).bind fun h1 => destruct k ⟨s.div, s.last⟩ h1) = _
    rw [e]
    exact h1

/-- The hypotheses are met: one thread of two has pushed a value that was not popped. -/
example : ∃ (s : Sh Nat) (ags : List (PC Nat)), Reach s ags ∧ (∀ q ∈ ags, q = .idle) ∧ s.done = [7] ∧ s.heap 100 ≠ none ∧ s.heap 200 ≠ none := by
  have h0 : Reach (new 100 : Sh Nat) [.idle, .idle] := .new (k := 2) (by decide)
  have h1 := h0.step (i := 1) (a := .push 200 7) rfl (fun n v h => by cases h; exact ⟨by decide, rfl⟩) rfl
  have h2 := h1.step (i := 1) (a := .go 0) rfl (fun _ _ h => nomatch h) rfl
  have h3 := h2.step (i := 1) (a := .go 0) rfl (fun _ _ h => nomatch h) rfl
  have h4 := h3.step (i := 1) (a := .go 0) rfl (fun _ _ h => nomatch h) rfl
  have h5 := h4.step (i := 1) (a := .go 0) rfl (fun _ _ h => nomatch h) rfl
  exact ⟨_, _, h5, by simp, rfl, by simp [setN, new], by simp [setN, new]⟩

/-- False for the move assignment: the nodes the target had are lost. After an empty queue was assigned to another one, and both were destroyed, the node of the target is still there. -/
theorem C219_assign_counterexample :
    ∃ h' : Nat → Option (Node Nat),
      ((destruct 9 (moveAssign ⟨100, 100⟩ ⟨200, 200⟩).1 (setN (new 100 : Sh Nat).heap 200 (some ⟨0, none⟩))).bind fun h1 => destruct 9 (moveAssign ⟨100, 100⟩ ⟨200, 200⟩).2 h1) = some h' ∧
        h' 100 ≠ none :=
  ⟨_, rfl, by simp [setN, new, moveAssign]⟩

end Verif.Sync.MLQ
