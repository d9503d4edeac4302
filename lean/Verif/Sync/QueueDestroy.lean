import Verif.Sync.LocklessQueueProps

/-!
# The nodes of a `LocklessQueue` and its destructor

`include/bss-util/LocklessQueue.h:62-70`, on the executions of C42. The move constructor and the assignment (`:52`, `:92-101`) copy atomic members and do not compile when they are used.
-/

namespace Verif.Sync.LQ

variable {α : Type}

/-- The loop of the destructor, `LocklessQueue.h:64-69`, for at most `k` rounds (`none` if they are not enough, or if a node is touched that is not there); null is 0. -/
def destroy : Nat → Nat → (Nat → Option (Node α)) → Option (Nat → Option (Node α))
  | 0, _, _ => none
  | k + 1, x, h => if x = 0 then some h else (h x).bind fun n => destroy k n.next (setN h x none)

/-! ## Specification -/

/-- The nodes `l` are those from `x` on up to the null pointer. -/
def Chain (h : Nat → Option (Node α)) : Nat → List Nat → Prop
  | x, [] => x = 0
  | x, y :: l => x = y ∧ ∃ n, h y = some n ∧ Chain h n.next l

/-! ## Proofs -/

/-- `Push` has linked a node that is not published. -/
def linked : PPC α → Bool
  | .cons .. | .publish .. => true
  | _ => false

theorem setN_self (h : Nat → Option (Node α)) (a : Nat) (n : Option (Node α)) : setN h a n a = n := if_pos rfl
theorem setN_other (h : Nat → Option (Node α)) {a x : Nat} (n : Option (Node α)) (hx : x ≠ a) : setN h a n x = h x := if_neg hx

theorem Chain.away {h : Nat → Option (Node α)} : ∀ {L : List Nat} {x : Nat}, Chain h x L → ∀ {y : Nat} (v : Option (Node α)), y ∉ L → Chain (setN h y v) x L
  | [], _, hc, _, _, _ => hc
  | z :: L, _, ⟨h1, n, h2, h3⟩, y, v, hy =>
    ⟨h1, n, by rw [setN_other h v (fun e : z = y => hy (by simp [e]))]; exact h2, h3.away v fun hm => hy (List.mem_cons_of_mem _ hm)⟩

/-- Only the item of a node changes. -/
theorem Chain.item {h : Nat → Option (Node α)} : ∀ {L : List Nat} {x : Nat}, Chain h x L → ∀ {y : Nat} {n m : Node α}, h y = some n → m.next = n.next → Chain (setN h y (some m)) x L
  | [], _, hc, _, _, _, _, _ => hc
  | z :: L, _, ⟨h1, k, h2, h3⟩, y, n, m, hy, hm => by
    refine ⟨h1, ?_⟩
    by_cases hzy : z = y
    · subst hzy
      rw [hy] at h2
      cases h2
      exact ⟨m, setN_self .., by rw [hm]; exact h3.item hy hm⟩
    · exact ⟨k, by rw [setN_other h _ hzy]; exact h2, h3.item hy hm⟩

theorem Chain.at {h : Nat → Option (Node α)} : ∀ {A : List Nat} {x y : Nat} {B : List Nat}, Chain h x (A ++ y :: B) → ∃ n, h y = some n ∧ Chain h n.next B
  | [], _, _, _, ⟨_, h2⟩ => h2
  | _ :: A, _, _, _, ⟨_, _, _, h3⟩ => Chain.at (A := A) h3

/-- A node is linked behind the last one. -/
theorem Chain.snoc {h : Nat → Option (Node α)} : ∀ {A : List Nat} {x l : Nat}, Chain h x (A ++ [l]) → (A ++ [l]).Nodup → ∀ {n : Nat} {nd : Node α}, n ∉ A ++ [l] → h l = some nd →
    Chain (setN (setN h n (some ⟨0, none⟩)) l (some { nd with next := n })) x (A ++ [l, n])
  | [], x, l, ⟨h1, _⟩, _, n, nd, hn, _ => by
    have hnl : n ≠ l := fun e => hn (by simp [e])
    exact ⟨h1, _, setN_self _ _ _, rfl, ⟨0, none⟩, by rw [setN_other _ _ hnl, setN_self], rfl⟩
  | z :: A, x, l, ⟨h1, k, h2, h3⟩, hd, n, nd, hn, hl => by
    have hd' := List.nodup_cons.1 (show (z :: (A ++ [l])).Nodup from hd)
    have hzl : z ≠ l := fun e => hd'.1 (by simp [e])
    have hzn : z ≠ n := fun e => hn (by simp [e])
    exact ⟨h1, k, by rw [setN_other _ _ hzl, setN_other _ _ hzn]; exact h2, Chain.snoc h3 hd'.2 (fun hm => hn (List.mem_cons_of_mem _ hm)) hl⟩

/-- All nodes are in one chain, but for one that is being given back. -/
structure Nodes (s : Sh α) (p : PPC α) (A T : List Nat) : Prop where
  chain : Chain s.heap s.first (A ++ s.last :: T)
  nodup : (A ++ s.last :: T).Nodup
  pos : 0 ∉ A ++ s.last :: T
  tail : T.length = if linked p then 1 else 0
  dom : ∀ x, s.heap x ≠ none ↔ x ∈ A ++ s.last :: T ∨ p = .del x
  del : ∀ x, p = .del x → x ∉ A ++ s.last :: T

theorem Nodes.plain {s : Sh α} {p p' : PPC α} {A T : List Nat} (N : Nodes s p A T) (hp : ∀ x, p ≠ .del x) (hp' : ∀ x, p' ≠ .del x) (hl : linked p' = linked p) (s' : Sh α)
    (h1 : s'.heap = s.heap) (h2 : s'.first = s.first) (h3 : s'.last = s.last) : Nodes s' p' A T := by
  obtain ⟨c, nd, po, ta, d, _⟩ := N
  refine ⟨by rw [h1, h2, h3]; exact c, by rw [h3]; exact nd, by rw [h3]; exact po, by rw [hl]; exact ta, fun x => ?_, fun x h => absurd h (hp' x)⟩
  rw [h1, h3, d x]
  exact ⟨fun h => h.imp_right fun h => absurd h (hp x), fun h => h.imp_right fun h => absurd h (hp' x)⟩

theorem Nodes.item {s : Sh α} {p p' : PPC α} {A T : List Nat} (N : Nodes s p A T) (hd : ∀ x, p' = .del x ↔ p = .del x) (hl : linked p' = linked p) (s' : Sh α) {y : Nat} {n m : Node α}
    (hy : s.heap y = some n) (hm : m.next = n.next) (h1 : s'.heap = setN s.heap y (some m)) (h2 : s'.first = s.first) (h3 : s'.last = s.last) : Nodes s' p' A T := by
  obtain ⟨c, nd, po, ta, d, e⟩ := N
  refine ⟨by rw [h1, h2, h3]; exact c.item hy hm, by rw [h3]; exact nd, by rw [h3]; exact po, by rw [hl]; exact ta, fun x => ?_, fun x h => by rw [h3]; exact e x ((hd x).1 h)⟩
  rw [h1, h3, hd x, ← d x]
  by_cases hx : x = y
  · subst hx
    rw [setN_self, hy]
    simp
  · rw [setN_other _ _ hx]

theorem Nodes.stepC {s s' : Sh α} {p : PPC α} {c c' : CPC α} {A T : List Nat} (N : Nodes s p A T) (he : LQ.stepC c s = some (c', s')) : Nodes s' p A T := by
  have same : ∀ (s' : Sh α), s'.heap = s.heap → s'.first = s.first → s'.last = s.last → Nodes s' p A T := by
    intro s' h1 h2 h3
    obtain ⟨c, nd, po, ta, d, e⟩ := N
    exact ⟨by rw [h1, h2, h3]; exact c, by rw [h3]; exact nd, by rw [h3]; exact po, ta, fun x => by rw [h1, h3]; exact d x, fun x h => by rw [h3]; exact e x h⟩
  cases c with
  | idle => cases he; exact N
  | cmp d => cases he; exact N
  | next d =>
    obtain ⟨x, _, h2⟩ := Option.map_eq_some_iff.1 he
    cases h2; exact N
  | item d n =>
    obtain ⟨x, h1, h2⟩ := Option.bind_eq_some_iff.1 he
    obtain ⟨v, _, h3⟩ := Option.map_eq_some_iff.1 h2
    cases h3
    exact N.item (m := ⟨x.next, none⟩) (fun _ => Iff.rfl) rfl _ h1 rfl rfl rfl rfl
  | next2 d v =>
    obtain ⟨x, _, h2⟩ := Option.map_eq_some_iff.1 he
    cases h2; exact N
  | publish n v => cases he; exact same _ rfl rfl rfl

theorem Nodes.stepP {s s' : Sh α} {p p' : PPC α} {c : CPC α} {a : PAct α} {A T : List Nat} (N : Nodes s p A T) (hr : Reach s p c)
    (hf : ∀ n, a = .go n → (∃ l v, p = .link l v) → 0 < n ∧ s.heap n = none) (he : LQ.stepP a p s = some (p', s')) : ∃ A T, Nodes s' p' A T := by
  obtain ⟨G, D, vs, I⟩ := reach_inv hr
  have hp := I.prod
  cases a with
  | push v =>
    cases p with
    | idle => cases he; exact ⟨A, T, by refine Nodes.plain N ?_ ?_ ?_ _ ?_ ?_ ?_ <;> first | rfl | simp⟩
    | _ => cases he
  | go n =>
    cases p with
    | idle => cases he
    | link l v =>
      obtain ⟨h0, hn⟩ := hf n rfl ⟨l, v, rfl⟩
      obtain ⟨x, h1, h2⟩ := Option.map_eq_some_iff.1 he
      cases h2
      obtain ⟨hl, _⟩ := hp
      subst hl
      obtain ⟨ch, nd, po, ta, d, _⟩ := N
      have hT : T = [] := List.length_eq_zero_iff.1 ta
      subst hT
      have hnL : n ∉ A ++ [s.last] := fun hm => (d n).2 (.inl hm) hn
      have e : A ++ [s.last, n] = (A ++ [s.last]) ++ [n] := by simp
      refine ⟨A, [n], ch.snoc nd hnL h1, ?_, ?_, rfl, fun y => ?_, fun y h => nomatch h⟩
      · show (A ++ [s.last, n]).Nodup
        rw [e, List.nodup_append]
        exact ⟨nd, by simp, fun a ha b hb => by simp at hb; rintro rfl; exact hnL (hb ▸ ha)⟩
      · show 0 ∉ A ++ [s.last, n]
        rw [e, List.mem_append]
        rintro (h | h)
        · exact po h
        · simp at h; omega
      · show setN (setN s.heap n (some ⟨0, none⟩)) s.last _ y ≠ none ↔ y ∈ A ++ [s.last, n] ∨ _
        rw [e, List.mem_append, List.mem_singleton]
        by_cases hyl : y = s.last
        · subst hyl
          rw [setN_self]
          simp
        · rw [setN_other _ _ hyl]
          by_cases hyn : y = n
          · subst hyn
            rw [setN_self]
            simp
          · rw [setN_other _ _ hyn, d y]
            simp [hyn]
    | cons l m v =>
      obtain ⟨x, h1, h2⟩ := Option.bind_eq_some_iff.1 he
      obtain ⟨y, h3, h4⟩ := Option.map_eq_some_iff.1 h2
      cases h4
      obtain ⟨hl, _⟩ := hp
      subst hl
      obtain ⟨k, hk⟩ := List.length_eq_one_iff.1 N.tail
      subst hk
      obtain ⟨n1, e1, e2, n2, e3, e4⟩ := Chain.at N.chain
      rw [h1] at e1
      cases e1
      rw [e2] at h3
      rw [h3] at e3
      cases e3
      have h5 : s.heap x.next = some y := by rw [e2]; exact h3
      have h6 : (⟨0, some v⟩ : Node α).next = y.next := e4.symm
      exact ⟨A, [k], by refine Nodes.item N ?_ ?_ _ h5 h6 ?_ ?_ ?_ <;> first | rfl | simp⟩
    | publish l v =>
      obtain ⟨x, h1, h2⟩ := Option.map_eq_some_iff.1 he
      cases h2
      obtain ⟨hl, _⟩ := hp
      subst hl
      obtain ⟨k, hk⟩ := List.length_eq_one_iff.1 N.tail
      subst hk
      obtain ⟨n1, e1, e2, _⟩ := Chain.at N.chain
      rw [h1] at e1
      cases e1
      obtain ⟨ch, nd, po, _, d, _⟩ := N
      have e : A ++ [s.last, k] = (A ++ [s.last]) ++ [x.next] := by rw [e2]; simp
      refine ⟨A ++ [s.last], [], by rw [e] at ch; exact ch, by rw [e] at nd; exact nd, by rw [e] at po; exact po, rfl, fun y => ?_, fun y h => nomatch h⟩
      show s.heap y ≠ none ↔ y ∈ (A ++ [s.last]) ++ [x.next] ∨ _
      rw [← e, d y]
      simp
    | gc =>
      cases he
      have : (if s.first = s.div then PPC.idle else PPC.adv : PPC α) = .idle ∨ (if s.first = s.div then PPC.idle else PPC.adv : PPC α) = .adv := by split <;> simp
      rcases this with e | e <;> rw [e]
      · exact ⟨A, T, by refine Nodes.plain N ?_ ?_ ?_ _ ?_ ?_ ?_ <;> first | rfl | simp⟩
      · exact ⟨A, T, by refine Nodes.plain N ?_ ?_ ?_ _ ?_ ?_ ?_ <;> first | rfl | simp⟩
    | adv =>
      obtain ⟨x, h1, h2⟩ := Option.map_eq_some_iff.1 he
      cases h2
      have hne : s.first ≠ s.last := by
        intro e
        obtain ⟨_, hG⟩ := hp
        have h1 := path_last_mem I.queue
        have h2 := path_last_mem I.garbage
        have h3 := List.nodup_cons.1 I.nodup
        obtain ⟨g, G', rfl⟩ := List.exists_cons_of_ne_nil hG
        have h4 : s.div ∈ g :: G' := by
          have h5 := path_last_mem (show Path s.heap g G' s.div from I.garbage.2)
          exact h5
        have h5 : s.last ∈ (g :: G') ++ D := by
          rcases List.mem_cons.1 h1 with h | h
          · rw [h]; exact List.mem_append_left _ h4
          · exact List.mem_append_right _ h
        exact h3.1 (e ▸ h5)
      obtain ⟨ch, nd, po, ta, d, _⟩ := N
      have hT : T = [] := List.length_eq_zero_iff.1 ta
      subst hT
      cases A with
      | nil => exact absurd ch.1 hne
      | cons z A =>
        obtain ⟨hz, k, e1, e2⟩ := ch
        subst hz
        rw [h1] at e1
        cases e1
        have nd' := List.nodup_cons.1 (show (s.first :: (A ++ [s.last])).Nodup from nd)
        refine ⟨A, [], e2, nd'.2, fun h => po (List.mem_cons_of_mem _ h), rfl, fun y => ?_, fun y h => ?_⟩
        · show s.heap y ≠ none ↔ y ∈ A ++ [s.last] ∨ _
          rw [d y]
          simp only [List.cons_append, List.mem_cons, PPC.del.injEq, reduceCtorEq, or_false]
          rw [or_comm, eq_comm]
        · cases h
          exact nd'.1
    | del t =>
      obtain ⟨x, h1, h2⟩ := Option.map_eq_some_iff.1 he
      cases h2
      obtain ⟨ch, nd, po, ta, d, e⟩ := N
      have ht := e t rfl
      refine ⟨A, T, ch.away none ht, nd, po, ta, fun y => ?_, fun y h => nomatch h⟩
      show setN s.heap t none y ≠ none ↔ _
      by_cases hy : y = t
      · subst hy
        rw [setN_self]
        simp only [ne_eq, not_true_eq_false, false_iff, not_or]
        exact ⟨ht, fun h => nomatch h⟩
      · rw [setN_other _ _ hy, d y]
        simp [Ne.symm hy]

theorem reach_nodes {s : Sh α} {p : PPC α} {c : CPC α} (h : Reach s p c) : ∃ A T, Nodes s p A T := by
  induction h with
  | new a ha =>
    refine ⟨[], [], ⟨rfl, ⟨0, none⟩, by simp [LQ.new, setN], rfl⟩, by simp, by simp [LQ.new]; omega, rfl, fun x => ?_, fun x h => nomatch h⟩
    simp [LQ.new, setN]
  | prod hr hf he ih => obtain ⟨A, T, N⟩ := ih; exact N.stepP hr hf he
  | cons _ he ih => obtain ⟨A, T, N⟩ := ih; exact ⟨A, T, N.stepC he⟩

theorem destroy_chain : ∀ (L : List Nat) (x k : Nat) (h : Nat → Option (Node α)), Chain h x L → L.Nodup → 0 ∉ L → L.length < k →
    ∃ h', destroy k x h = some h' ∧ ∀ y, h' y = if y ∈ L then none else h y := by
  intro L
  induction L with
  | nil =>
    intro x k h hc _ _ hk
    obtain ⟨k, rfl⟩ := Nat.exists_eq_succ_of_ne_zero (Nat.ne_of_gt hk)
    exact ⟨h, if_pos hc, fun y => by simp⟩
  | cons z L ih =>
    intro x k h hc hd h0 hk
    obtain ⟨k, rfl⟩ := Nat.exists_eq_succ_of_ne_zero (Nat.ne_of_gt (Nat.lt_of_le_of_lt (Nat.zero_le _) hk))
    obtain ⟨rfl, n, h1, h2⟩ := hc
    have hd' := List.nodup_cons.1 hd
    obtain ⟨h', h3, h4⟩ := ih n.next k (setN h x none) (h2.away none hd'.1) hd'.2 (fun hm => h0 (List.mem_cons_of_mem _ hm)) (by simp at hk; omega)
    refine ⟨h', ?_, fun y => ?_⟩
    · rw [destroy, if_neg (fun e : x = 0 => h0 (by simp [e])), h1]
      exact h3
    · rw [h4 y]
      by_cases hy : y = x
      · subst hy
        rw [setN_self]
        simp
      · rw [setN_other _ _ hy]
        simp [hy]

/-- At any time, in any interleaving, all nodes that were allocated and not given back are in the list that starts at the first node, but for the one that a running `Push` is about to give
back: no node is lost. -/
theorem C218_no_leak {s : Sh α} {p : PPC α} {c : CPC α} (h : Reach s p c) :
    ∃ L, Chain s.heap s.first L ∧ L.Nodup ∧ ∀ x, s.heap x ≠ none ↔ x ∈ L ∨ p = .del x := by
  obtain ⟨A, T, N⟩ := reach_nodes h
  exact ⟨_, N.chain, N.nodup, N.dom⟩

/-- When both threads have finished their calls, the destructor ends, touches no node that was given back, and gives back every node: there is nothing left, whatever values
were not popped. -/
theorem C218_destroy {s : Sh α} (h : Reach s .idle .idle) : ∃ n, ∀ k, n ≤ k → ∃ h', destroy k s.first s.heap = some h' ∧ ∀ x, h' x = none := by
  obtain ⟨A, T, N⟩ := reach_nodes h
  refine ⟨(A ++ s.last :: T).length + 1, fun k hk => ?_⟩
  obtain ⟨h', h1, h2⟩ := destroy_chain _ _ k _ N.chain N.nodup N.pos (by omega)
  refine ⟨h', h1, fun x => ?_⟩
  rw [h2 x]
  split
  · rfl
  · next hx =>
    cases e : s.heap x with
    | none => rfl
    | some n =>
      rcases (N.dom x).1 (by rw [e]; simp) with h | h
      · exact absurd h hx
      · cases h

/-- The hypotheses are met: one value was pushed and not popped, and there are two nodes. -/
example : ∃ s : Sh Nat, Reach s .idle .idle ∧ s.done = [7] ∧ s.heap 100 ≠ none ∧ s.heap 200 ≠ none := by
  have h0 : Reach (new 100 : Sh Nat) .idle .idle := .new 100 (by decide)
  have h1 := h0.prod (a := .push 7) (fun n h => nomatch h) rfl
  have h2 := h1.prod (a := .go 200) (fun n h _ => by cases h; exact ⟨by decide, rfl⟩) rfl
  have h3 := h2.prod (a := .go 0) (fun n h hl => by obtain ⟨_, _, hl⟩ := hl; cases hl) rfl
  have h4 := h3.prod (a := .go 0) (fun n h hl => by obtain ⟨_, _, hl⟩ := hl; cases hl) rfl
  have h5 := h4.prod (a := .go 0) (fun n h hl => by obtain ⟨_, _, hl⟩ := hl; cases hl) rfl
  exact ⟨_, h5, rfl, by simp [setN, new], by simp [setN, new]⟩

end Verif.Sync.LQ
