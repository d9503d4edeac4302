import Verif.Sync.LocklessQueue

/-! # C42: theorems about `LocklessQueue` -/

namespace Verif.Sync.LQ

variable {α : Type} {h h' : Nat → Option (Node α)} {s s' : Sh α} {p p' : PPC α} {c c' : CPC α} {G D : List Nat} {vs : List α}

theorem setN_same (h : Nat → Option (Node α)) (a : Nat) (n : Option (Node α)) : setN h a n a = n := by simp [setN]

theorem setN_ne (h : Nat → Option (Node α)) {a x : Nat} (n : Option (Node α)) (hx : x ≠ a) : setN h a n x = h x := by simp [setN, hx]

/-- The nodes of a path except the last, in order. -/
theorem path_last_mem : ∀ {l : List Nat} {x t : Nat}, Path h x l t → t ∈ x :: l
  | [], x, t, hp => by simp [Path] at hp; simp [hp]
  | y :: l, x, t, hp => by
    have := path_last_mem hp.2
    simp only [List.mem_cons] at this ⊢
    exact .inr this

/-- A path only depends on the links of the nodes before its end. -/
theorem path_congr : ∀ {l : List Nat} {x t : Nat}, Path h x l t → (x :: l).Nodup →
    (∀ y ∈ x :: l, y ≠ t → ∀ n, h y = some n → ∃ n', h' y = some n' ∧ n'.next = n.next) → Path h' x l t
  | [], _, _, hp, _, _ => hp
  | y :: l, x, t, hp, hn, hc => by
    obtain ⟨⟨n, h1, h2⟩, h3⟩ := hp
    have hn' := List.nodup_cons.1 hn
    have hxt : x ≠ t := fun e => hn'.1 (e ▸ path_last_mem h3)
    obtain ⟨n', h4, h5⟩ := hc x (by simp) hxt n h1
    refine ⟨⟨n', h4, by rw [h5, h2]⟩, path_congr h3 hn'.2 fun z hz hzt => hc z (by simp only [List.mem_cons] at hz ⊢; exact .inr hz) hzt⟩

theorem path_append : ∀ {l l' : List Nat} {x t t' : Nat}, Path h x l t → Path h t l' t' → Path h x (l ++ l') t'
  | [], _, x, t, t', hp, hq => by simp [Path] at hp; subst hp; exact hq
  | y :: l, _, x, t, t', hp, hq => ⟨hp.1, path_append hp.2 hq⟩

theorem holds_congr {D : List Nat} {vs : List α} (hh : Holds h D vs) (hc : ∀ x ∈ D, ∀ v, Has h x v → Has h' x v) : Holds h' D vs := by
  induction hh with
  | nil => exact .nil
  | cons h1 _ ih => exact .cons (hc _ (by simp) _ h1) (ih fun x hx => hc x (by simp [hx]))

theorem holds_append {D D' : List Nat} {vs vs' : List α} (hh : Holds h D vs) (hh' : Holds h D' vs') : Holds h (D ++ D') (vs ++ vs') := by
  induction hh with
  | nil => exact hh'
  | cons h1 _ ih => exact .cons h1 ih

theorem rest_congr (hr : rest h c D vs) (hc : ∀ x ∈ D, ∀ v, Has h x v → Has h' x v) : rest h' c D vs := by
  unfold rest at *
  split at hr
  · exact holds_congr hr hc
  · obtain ⟨n, D', vs', e1, e2, e3⟩ := hr
    exact ⟨n, D', vs', e1, e2, holds_congr e3 fun x hx => hc x (by simp [e1, hx])⟩

theorem rest_append {n : Nat} {v : α} (hr : rest h c D vs) (hv : Has h n v) : rest h c (D ++ [n]) (vs ++ [v]) := by
  unfold rest at *
  split at hr
  · exact holds_append hr (.cons hv .nil)
  · obtain ⟨m, D', vs', e1, e2, e3⟩ := hr
    exact ⟨m, D' ++ [n], vs' ++ [v], by simp [e1], by simp [e2], holds_append e3 (.cons hv .nil)⟩

theorem cOk_append (hc : cOk s D c) (l : List Nat) (hs : s'.div = s.div) : cOk s' (D ++ l) c := by
  cases c with
  | idle => trivial
  | cmp d => exact hc.trans hs.symm
  | next d => exact ⟨hc.1.trans hs.symm, by simp [hc.2]⟩
  | item d n =>
    obtain ⟨D', e⟩ := hc.2
    exact ⟨hc.1.trans hs.symm, D' ++ l, by simp [e]⟩
  | next2 d v => exact hc.trans hs.symm
  | publish n v =>
    obtain ⟨D', e⟩ := hc
    exact ⟨D' ++ l, by simp [e]⟩

theorem cOk_congr (hc : cOk s D c) (hs : s'.div = s.div) : cOk s' D c := by
  have := cOk_append hc [] hs
  simpa using this

theorem new_inv {a : Nat} (ha : 0 < a) : Inv (new a : Sh α) .idle .idle [] [] [] where
  garbage := rfl
  queue := rfl
  nodup := by simp
  alive := by simp [new, setN]
  vals := rfl
  rest := by unfold rest; exact .nil
  prod := rfl
  cons := trivial

/-- Nodes keep their place when one outside, or the link of the last one, changes. -/
theorem Inv.paths (I : Inv s p c G D vs) (hc : ∀ y ∈ s.first :: (G ++ D), y ≠ s.last → ∀ n, s.heap y = some n → ∃ n', h' y = some n' ∧ n'.next = n.next) :
    Path h' s.first G s.div ∧ Path h' s.div D s.last := by
  have hnd := I.nodup
  have hd := path_last_mem I.garbage
  have hl := path_last_mem I.queue
  have hsub1 : (s.first :: G).Sublist (s.first :: (G ++ D)) := List.Sublist.cons_cons _ (List.sublist_append_left G D)
  have hdD : (s.div :: D).Nodup := by
    rw [show s.first :: (G ++ D) = (s.first :: G) ++ D by simp, List.nodup_append] at hnd
    exact List.nodup_cons.2 ⟨fun hm => hnd.2.2 _ hd _ hm rfl, hnd.2.1⟩
  refine ⟨path_congr I.garbage (hnd.sublist hsub1) fun y hy hyt n hn => hc y (hsub1.subset hy) ?_ n hn,
    path_congr I.queue hdD fun y hy hyt n hn => hc y ?_ hyt n hn⟩
  · rintro rfl
    rw [show s.first :: (G ++ D) = (s.first :: G) ++ D by simp, List.nodup_append] at hnd
    rcases List.mem_cons.1 hl with e | e
    · exact hyt e
    · exact hnd.2.2 _ hy _ e rfl
  · rcases List.mem_cons.1 hy with rfl | hy
    · exact hsub1.subset hd
    · simp [hy]

theorem Inv.last_mem (I : Inv s p c G D vs) : s.last ∈ s.first :: (G ++ D) := by
  have := path_last_mem (path_append I.garbage I.queue)
  exact this

theorem Inv.stepP (I : Inv s p c G D vs) {a : PAct α} (hf : ∀ n, a = .go n → (∃ l v, p = .link l v) → 0 < n ∧ s.heap n = none)
    (he : stepP a p s = some (p', s')) : ∃ G' D' vs', Inv s' p' c G' D' vs' := by
  have hp := I.prod
  cases a with
  | push v =>
    cases p <;> simp only [LQ.stepP] at he <;> try contradiction
    cases he
    have hp : s.calls = s.done := hp
    exact ⟨G, D, vs, I.garbage, I.queue, I.nodup, I.alive, I.vals, I.rest, ⟨rfl, by simp [hp]⟩, cOk_congr I.cons rfl⟩
  | go n =>
    cases p with
    | idle => simp [LQ.stepP] at he
    | link l v =>
      obtain ⟨rfl, h2⟩ := hp
      obtain ⟨hn0, hn⟩ := hf n rfl ⟨_, _, rfl⟩
      simp only [LQ.stepP, Option.map_eq_some_iff] at he
      obtain ⟨x, hx, he⟩ := he
      cases he
      have hne : ∀ y ∈ s.first :: (G ++ D), y ≠ n := fun y hy e => I.alive y hy (e ▸ hn)
      have hother : ∀ y ∈ s.first :: (G ++ D), y ≠ s.last → setN (setN s.heap n (some ⟨0, none⟩)) s.last (some { x with next := n }) y = s.heap y :=
        fun y hy hyl => by rw [setN_ne _ _ hyl, setN_ne _ _ (hne y hy)]
      have hlast : setN (setN s.heap n (some ⟨0, none⟩)) s.last (some { x with next := n }) s.last = some { x with next := n } := setN_same ..
      obtain ⟨q1, q2⟩ := I.paths (h' := setN (setN s.heap n (some ⟨0, none⟩)) s.last (some { x with next := n })) fun y hy hyl m hm =>
        ⟨m, by rw [hother y hy hyl]; exact hm, rfl⟩
      refine ⟨G, D, vs, q1, q2, I.nodup, ?_, I.vals, ?_, ⟨rfl, h2, fun hm => hne n hm rfl, ⟨_, hlast, rfl⟩, ?_⟩, cOk_congr I.cons rfl⟩
      · intro y hy
        by_cases e : y = s.last
        · rw [e]
          show setN (setN s.heap n (some ⟨0, none⟩)) s.last (some { x with next := n }) s.last ≠ none
          rw [hlast]; simp
        · show setN (setN s.heap n (some ⟨0, none⟩)) s.last (some { x with next := n }) y ≠ none
          rw [hother y hy e]; exact I.alive y hy
      · refine rest_congr I.rest fun y hy v hv => ?_
        have hy' : y ∈ s.first :: (G ++ D) := by simp [hy]
        by_cases e : y = s.last
        · obtain ⟨m, e1, e2⟩ := hv
          rw [e, hx] at e1; cases e1
          exact ⟨{ x with next := n }, by rw [e]; exact hlast, e2⟩
        · obtain ⟨m, e1, e2⟩ := hv
          exact ⟨m, by show setN _ _ _ y = _; rw [hother y hy' e]; exact e1, e2⟩
      · show setN (setN s.heap n (some ⟨0, none⟩)) s.last (some { x with next := n }) n ≠ none
        rw [setN_ne _ _ (Ne.symm (hne _ I.last_mem)), setN_same]; simp
    | cons l m v =>
      obtain ⟨rfl, h2, h3, ⟨x, hx, rfl⟩, h5⟩ := hp
      simp only [LQ.stepP, Option.bind_eq_some_iff, Option.map_eq_some_iff] at he
      obtain ⟨x', hx', y, hy, he⟩ := he
      rw [hx] at hx'; cases hx'
      cases he
      have hne : ∀ z ∈ s.first :: (G ++ D), z ≠ x.next := fun z hz e => h3 (e ▸ hz)
      have hother : ∀ z ∈ s.first :: (G ++ D), setN s.heap x.next (some ⟨0, some v⟩) z = s.heap z := fun z hz => setN_ne _ _ (hne z hz)
      obtain ⟨q1, q2⟩ := I.paths (h' := setN s.heap x.next (some ⟨0, some v⟩)) fun z hz _ k hk => ⟨k, by rw [hother z hz]; exact hk, rfl⟩
      refine ⟨G, D, vs, q1, q2, I.nodup, ?_, I.vals, ?_, ⟨rfl, h2, x.next, h3, ⟨x, ?_, rfl⟩, ⟨_, setN_same .., rfl⟩⟩, cOk_congr I.cons rfl⟩
      · intro z hz
        show setN s.heap x.next (some ⟨0, some v⟩) z ≠ none
        rw [hother z hz]; exact I.alive z hz
      · refine rest_congr I.rest fun z hz w hw => ?_
        obtain ⟨k, e1, e2⟩ := hw
        exact ⟨k, by show setN _ _ _ z = _; rw [hother z (by simp [hz])]; exact e1, e2⟩
      · show setN s.heap x.next (some ⟨0, some v⟩) s.last = some x
        rw [hother _ I.last_mem]; exact hx
    | publish l v =>
      obtain ⟨rfl, h2, n', h3, ⟨x, hx, rfl⟩, h5⟩ := hp
      simp only [LQ.stepP, Option.map_eq_some_iff] at he
      obtain ⟨x', hx', he⟩ := he
      rw [hx] at hx'; cases hx'
      cases he
      refine ⟨G, D ++ [x.next], vs ++ [v], I.garbage, path_append I.queue ⟨⟨x, hx, rfl⟩, rfl⟩, ?_, ?_, ?_, rest_append I.rest h5, h2, cOk_append I.cons _ rfl⟩
      · rw [show s.first :: (G ++ (D ++ [x.next])) = (s.first :: (G ++ D)) ++ [x.next] by simp, List.nodup_append]
        refine ⟨I.nodup, by simp, fun y hy z hz e => ?_⟩
        rw [List.mem_singleton] at hz
        exact h3 (hz ▸ e ▸ hy)
      · intro y hy
        have hy : y ∈ s.first :: (G ++ (D ++ [x.next])) := hy
        rw [show s.first :: (G ++ (D ++ [x.next])) = (s.first :: (G ++ D)) ++ [x.next] by simp, List.mem_append] at hy
        rcases hy with hy | hy
        · exact I.alive y hy
        · rw [List.mem_singleton] at hy
          obtain ⟨k, e1, -⟩ := h5
          rw [hy, e1]; simp
      · show s.done ++ [v] = s.rets ++ (vs ++ [v])
        rw [I.vals, List.append_assoc]
    | gc =>
      have hp : s.calls = s.done := hp
      simp only [LQ.stepP] at he
      cases he
      refine ⟨G, D, vs, I.garbage, I.queue, I.nodup, I.alive, I.vals, I.rest, ?_, I.cons⟩
      split
      · exact hp
      · next hne =>
        refine ⟨hp, ?_⟩
        rintro rfl
        exact hne I.garbage
    | adv =>
      obtain ⟨h1, h2⟩ := hp
      simp only [LQ.stepP, Option.map_eq_some_iff] at he
      obtain ⟨x, hx, he⟩ := he
      cases he
      cases G with
      | nil => exact absurd rfl h2
      | cons g G =>
        obtain ⟨⟨y, e1, e2⟩, hq⟩ := I.garbage
        rw [hx] at e1; cases e1
        have hnd := I.nodup
        have hnd' := List.nodup_cons.1 hnd
        refine ⟨G, D, vs, ?_, I.queue, ?_, ?_, I.vals, I.rest, ⟨h1, ?_, ?_⟩, cOk_congr I.cons rfl⟩
        · show Path s.heap x.next G s.div
          rw [e2]; exact hq
        · show (x.next :: (G ++ D)).Nodup
          rw [e2]; exact hnd'.2
        · intro z hz
          have hz : z ∈ x.next :: (G ++ D) := hz
          rw [e2] at hz
          exact I.alive z (List.mem_cons_of_mem _ hz)
        · show s.first ∉ x.next :: (G ++ D)
          rw [e2]; exact hnd'.1
        · show s.heap s.first ≠ none
          rw [hx]; simp
    | del t =>
      obtain ⟨h1, h2, h3⟩ := hp
      simp only [LQ.stepP, Option.map_eq_some_iff] at he
      obtain ⟨x, hx, he⟩ := he
      cases he
      have hother : ∀ z ∈ s.first :: (G ++ D), setN s.heap t none z = s.heap z := fun z hz => setN_ne _ _ (fun e => h2 (e ▸ hz))
      obtain ⟨q1, q2⟩ := I.paths (h' := setN s.heap t none) fun z hz _ k hk => ⟨k, by rw [hother z hz]; exact hk, rfl⟩
      refine ⟨G, D, vs, q1, q2, I.nodup, ?_, I.vals, ?_, h1, cOk_congr I.cons rfl⟩
      · intro z hz
        show setN s.heap t none z ≠ none
        rw [hother z hz]; exact I.alive z hz
      · refine rest_congr I.rest fun z hz w hw => ?_
        obtain ⟨k, e1, e2⟩ := hw
        exact ⟨k, by show setN _ _ _ z = _; rw [hother z (by simp [hz])]; exact e1, e2⟩

theorem path_head (I : Inv s p c G D vs) (hne : D ≠ []) {x : Node α} (hx : s.heap s.div = some x) : ∃ D', D = x.next :: D' := by
  have hq := I.queue
  cases D with
  | nil => exact absurd rfl hne
  | cons y D =>
    obtain ⟨⟨n, e1, e2⟩, -⟩ := hq
    rw [hx] at e1; cases e1
    exact ⟨D, by rw [e2]⟩

theorem Inv.div_alive (I : Inv s p c G D vs) : s.heap s.div ≠ none := by
  refine I.alive _ ?_
  have := path_last_mem I.garbage
  simp only [List.mem_cons, List.mem_append] at this ⊢
  rcases this with e | e
  · exact .inl e
  · exact .inr (.inl e)

theorem pOk_cons {n : Nat} {D' : List Nat} (hp : pOk s G (n :: D') p) (hf : s'.first = s.first) (hl : s'.last = s.last) (hc : s'.calls = s.calls)
    (hd : s'.done = s.done) (hh : s'.heap = s.heap) : pOk s' (G ++ [n]) D' p := by
  have e : G ++ [n] ++ D' = G ++ n :: D' := by simp
  cases p with
  | idle => exact (hc.trans hp).trans hd.symm
  | link l v => exact ⟨hp.1.trans hl.symm, by rw [hc, hd]; exact hp.2⟩
  | cons l m v =>
    obtain ⟨h1, h2, h3, h4, h5⟩ := hp
    exact ⟨h1.trans hl.symm, by rw [hc, hd]; exact h2, by rw [hf, e]; exact h3, by rw [hh]; exact h4, by rw [hh]; exact h5⟩
  | publish l v =>
    obtain ⟨h1, h2, m, h3, h4, h5⟩ := hp
    exact ⟨h1.trans hl.symm, by rw [hc, hd]; exact h2, m, by rw [hf, e]; exact h3, by rw [hh]; exact h4, by rw [hh]; exact h5⟩
  | gc => exact (hc.trans hp).trans hd.symm
  | adv => exact ⟨(hc.trans hp.1).trans hd.symm, by simp⟩
  | del t =>
    obtain ⟨h1, h2, h3⟩ := hp
    exact ⟨(hc.trans h1).trans hd.symm, by rw [hf, e]; exact h2, by rw [hh]; exact h3⟩

theorem Inv.stepC (I : Inv s p c G D vs) (he : stepC c s = some (c', s')) : ∃ G' D' vs', Inv s' p c' G' D' vs' := by
  have hc := I.cons
  have hr := I.rest
  cases c with
  | idle =>
    simp only [LQ.stepC] at he
    cases he
    exact ⟨G, D, vs, I.garbage, I.queue, I.nodup, I.alive, I.vals, hr, I.prod, rfl⟩
  | cmp d =>
    have hc : d = s.div := hc
    simp only [LQ.stepC] at he
    cases he
    split
    · exact ⟨G, D, vs, I.garbage, I.queue, I.nodup, I.alive, I.vals, hr, I.prod, trivial⟩
    · next hne =>
      refine ⟨G, D, vs, I.garbage, I.queue, I.nodup, I.alive, I.vals, hr, I.prod, hc, ?_⟩
      rintro rfl
      exact hne (hc.trans I.queue)
  | next d =>
    obtain ⟨rfl, hne⟩ := hc
    simp only [LQ.stepC, Option.map_eq_some_iff] at he
    obtain ⟨x, hx, he⟩ := he
    cases he
    exact ⟨G, D, vs, I.garbage, I.queue, I.nodup, I.alive, I.vals, hr, I.prod, rfl, path_head I hne hx⟩
  | item d n =>
    obtain ⟨rfl, D', rfl⟩ := hc
    simp only [LQ.stepC, Option.bind_eq_some_iff, Option.map_eq_some_iff] at he
    obtain ⟨x, hx, v, hv, he⟩ := he
    cases he
    have hother : ∀ z, z ≠ n → setN s.heap n (some { x with item := none }) z = s.heap z := fun z hz => setN_ne _ _ hz
    have hsame : setN s.heap n (some { x with item := none }) n = some { x with item := none } := setN_same ..
    have hnx : ∀ z k, s.heap z = some k → ∃ k', setN s.heap n (some { x with item := none }) z = some k' ∧ k'.next = k.next := by
      intro z k hk
      by_cases e : z = n
      · subst e
        rw [hx] at hk; cases hk
        exact ⟨_, hsame, rfl⟩
      · exact ⟨k, by rw [hother z e]; exact hk, rfl⟩
    have hal : ∀ z, s.heap z ≠ none → setN s.heap n (some { x with item := none }) z ≠ none := by
      intro z hz
      by_cases e : z = n
      · subst e; rw [hsame]; simp
      · rw [hother z e]; exact hz
    obtain ⟨q1, q2⟩ := I.paths (h' := setN s.heap n (some { x with item := none })) fun z _ _ k hk => hnx z k hk
    have hnd := I.nodup
    have hnD : n ∉ D' := by
      rw [show s.first :: (G ++ n :: D') = (s.first :: G) ++ (n :: D') by simp, List.nodup_append] at hnd
      exact (List.nodup_cons.1 hnd.2.1).1
    have hmem : n ∈ s.first :: (G ++ n :: D') := by simp
    refine ⟨G, n :: D', vs, q1, q2, I.nodup, fun z hz => hal z (I.alive z hz), I.vals, ?_, ?_, rfl⟩
    · unfold LQ.rest at hr ⊢
      simp only [moved] at hr ⊢
      cases hr with
      | @cons _ _ w ws h1 h2 =>
        obtain ⟨k, e1, e2⟩ := h1
        rw [hx] at e1; cases e1
        rw [hv] at e2; cases e2
        refine ⟨n, D', ws, rfl, rfl, holds_congr h2 fun z hz u hu => ?_⟩
        obtain ⟨k, e1, e2⟩ := hu
        exact ⟨k, by rw [hother z (fun e => hnD (e ▸ hz))]; exact e1, e2⟩
    · have hp := I.prod
      cases p with
      | idle => exact hp
      | link l v => exact hp
      | cons l m v =>
        obtain ⟨h1, h2, h3, ⟨k, h4, h5⟩, h6⟩ := hp
        obtain ⟨k', e1, e2⟩ := hnx l k h4
        exact ⟨h1, h2, h3, ⟨k', e1, e2.trans h5⟩, hal m h6⟩
      | publish l w =>
        obtain ⟨h1, h2, m, h3, ⟨k, h4, h5⟩, k2, h6, h7⟩ := hp
        obtain ⟨k', e1, e2⟩ := hnx l k h4
        exact ⟨h1, h2, m, h3, ⟨k', e1, e2.trans h5⟩, k2, by
          show setN _ _ _ m = _
          rw [hother m (fun e => h3 (e ▸ hmem))]; exact h6, h7⟩
      | gc => exact hp
      | adv => exact hp
      | del t => exact ⟨hp.1, hp.2.1, hal t hp.2.2⟩
  | next2 d v =>
    have hc : d = s.div := hc
    subst hc
    simp only [LQ.stepC, Option.map_eq_some_iff] at he
    obtain ⟨x, hx, he⟩ := he
    cases he
    have hr' := hr
    unfold LQ.rest at hr'
    simp only [moved] at hr'
    obtain ⟨n, D', vs', rfl, rfl, h3⟩ := hr'
    exact ⟨G, _, _, I.garbage, I.queue, I.nodup, I.alive, I.vals, hr, I.prod, path_head I (by simp) hx⟩
  | publish n v =>
    obtain ⟨D', rfl⟩ := hc
    simp only [LQ.stepC] at he
    cases he
    unfold LQ.rest at hr
    simp only [moved] at hr
    obtain ⟨n', D2, vs', e1, rfl, h3⟩ := hr
    cases e1
    obtain ⟨hl, hq⟩ := I.queue
    refine ⟨G ++ [n], D', vs', path_append I.garbage ⟨hl, rfl⟩, hq, ?_, ?_, ?_, h3, pOk_cons I.prod rfl rfl rfl rfl rfl, trivial⟩
    · have := I.nodup
      simpa using this
    · intro z hz
      exact I.alive z (by simpa using hz)
    · show s.done = s.rets ++ [v] ++ vs'
      rw [I.vals]; simp

theorem reach_inv (h : Reach s p c) : ∃ G D vs, Inv s p c G D vs := by
  induction h with
  | new a ha => exact ⟨_, _, _, new_inv ha⟩
  | prod _ hf he ih => obtain ⟨G, D, vs, I⟩ := ih; exact I.stepP hf he
  | cons _ he ih => obtain ⟨G, D, vs, I⟩ := ih; exact I.stepC he

/-- C42: `Pop` has returned the values of the first calls of `Push`, each once and in order; and no call of `Push` that has returned is left
out of the queue. -/
theorem C42_fifo (h : Reach s p c) : s.rets <+: s.done ∧ s.done <+: s.calls ∧ (p = .idle → s.done = s.calls) := by
  obtain ⟨G, D, vs, I⟩ := reach_inv h
  have hp := I.prod
  refine ⟨⟨vs, I.vals.symm⟩, ?_, ?_⟩
  · cases p with
    | idle => rw [show s.calls = s.done from hp]; exact List.prefix_rfl
    | link l v => rw [hp.2]; exact List.prefix_append ..
    | cons l m v => rw [hp.2.1]; exact List.prefix_append ..
    | publish l v => rw [hp.2.1]; exact List.prefix_append ..
    | gc => rw [show s.calls = s.done from hp]; exact List.prefix_rfl
    | adv => rw [hp.1]; exact List.prefix_rfl
    | del t => rw [hp.1]; exact List.prefix_rfl
  · rintro rfl
    exact hp.symm

/-- C42: `Pop` finds the queue empty exactly if every value published so far (by a completed `Push` in particular) was already returned. -/
theorem C42_empty {d : Nat} (h : Reach s p (.cmp d)) : d = s.last ↔ s.rets = s.done := by
  obtain ⟨G, D, vs, I⟩ := reach_inv h
  have hd : d = s.div := I.cons
  have hr := I.rest
  unfold LQ.rest at hr
  simp only [moved] at hr
  have hv := I.vals
  constructor
  · intro e
    have hq := I.queue
    cases D with
    | nil =>
      cases hr
      rw [hv]; simp
    | cons y D =>
      exfalso
      have hm := path_last_mem hq.2
      rw [← e, hd] at hm
      have hnd := I.nodup
      rw [show s.first :: (G ++ y :: D) = (s.first :: G) ++ (y :: D) by simp, List.nodup_append] at hnd
      exact hnd.2.2 _ (path_last_mem I.garbage) _ hm rfl
  · intro e
    rw [hv] at e
    have : vs = [] := by
      have := congrArg List.length e
      simp at this
      exact this
    subst this
    cases hr
    exact hd.trans I.queue

/-- C42: no step of either thread touches a node that was given back, or runs into other undefined behaviour. -/
theorem C42_no_ub (h : Reach s p c) : (∀ n, p ≠ .idle → ∃ r, stepP (.go n) p s = some r) ∧ ∃ r, stepC c s = some r := by
  obtain ⟨G, D, vs, I⟩ := reach_inv h
  have al : ∀ {x}, s.heap x ≠ none → ∃ k, s.heap x = some k := fun hx => Option.ne_none_iff_exists'.1 hx
  constructor
  · intro n hne
    have hp := I.prod
    cases p with
    | idle => exact absurd rfl hne
    | link l v =>
      obtain ⟨k, hk⟩ := al (I.alive _ I.last_mem)
      simp only [LQ.stepP]
      rw [hp.1, hk]; exact ⟨_, rfl⟩
    | cons l m v =>
      obtain ⟨-, -, -, ⟨k, hk, e⟩, h5⟩ := hp
      obtain ⟨k2, hk2⟩ := al h5
      simp only [LQ.stepP]
      rw [hk, Option.bind_some, e, hk2]; exact ⟨_, rfl⟩
    | publish l v =>
      obtain ⟨-, -, m, -, ⟨k, hk, -⟩, -⟩ := hp
      simp only [LQ.stepP]
      rw [hk]; exact ⟨_, rfl⟩
    | gc => exact ⟨_, rfl⟩
    | adv =>
      obtain ⟨k, hk⟩ := al (I.alive s.first (by simp))
      simp only [LQ.stepP]
      rw [hk]; exact ⟨_, rfl⟩
    | del t =>
      obtain ⟨k, hk⟩ := al hp.2.2
      simp only [LQ.stepP]
      rw [hk]; exact ⟨_, rfl⟩
  · have hc := I.cons
    have hr := I.rest
    obtain ⟨kd, hkd⟩ := al I.div_alive
    cases c with
    | idle => exact ⟨_, rfl⟩
    | cmp d => exact ⟨_, rfl⟩
    | next d =>
      simp only [LQ.stepC]
      rw [hc.1, hkd]; exact ⟨_, rfl⟩
    | item d n =>
      obtain ⟨-, D', rfl⟩ := hc
      unfold LQ.rest at hr
      simp only [moved] at hr
      cases hr with
      | cons h1 _ =>
        obtain ⟨k, e1, e2⟩ := h1
        simp only [LQ.stepC]
        rw [e1, Option.bind_some, e2]; exact ⟨_, rfl⟩
    | next2 d v =>
      simp only [LQ.stepC]
      rw [show d = s.div from hc, hkd]; exact ⟨_, rfl⟩
    | publish n v => exact ⟨_, rfl⟩

/-- The consumer goes on alone for `k` steps. -/
def runC : Nat → CPC α → Sh α → Option (CPC α × Sh α)
  | 0, c, s => some (c, s)
  | k + 1, c, s => (stepC c s).bind fun r => runC k r.1 r.2

theorem runC_reach : ∀ {k : Nat} {c : CPC α} {s : Sh α}, Reach s p c → ∃ c' s', runC k c s = some (c', s') ∧ Reach s' p c'
  | 0, c, s, h => ⟨c, s, rfl, h⟩
  | k + 1, c, s, h => by
    obtain ⟨⟨c1, s1⟩, e1⟩ := (C42_no_ub h).2
    obtain ⟨c', s', e2, h'⟩ := runC_reach (k := k) (h.cons e1)
    exact ⟨c', s', by simp only [runC, e1, Option.bind_some]; exact e2, h'⟩

/-- C42: whatever the producer is doing, if values have been published that were not returned yet, a call of `Pop` that runs alone returns the
next one. -/
theorem C42_delivers {v : α} {vs : List α} (h : Reach s p .idle) (hv : s.done = s.rets ++ v :: vs) :
    ∃ s', runC 6 .idle s = some (.idle, s') ∧ s'.rets = s.rets ++ [v] := by
  have hcmp : Reach s p (.cmp s.div) := h.cons rfl
  have hne : s.div ≠ s.last := fun e => by
    have := (C42_empty hcmp).1 e
    rw [hv] at this
    have := congrArg List.length this
    simp at this
  have e1 : stepC (.cmp s.div) s = some (.next s.div, s) := by simp only [LQ.stepC, if_neg hne]
  have h1 := hcmp.cons e1
  obtain ⟨r2, e2⟩ := (C42_no_ub h1).2
  have e2' := e2
  simp only [LQ.stepC, Option.map_eq_some_iff] at e2'
  obtain ⟨x, -, rfl⟩ := e2'
  have h2 := h1.cons e2
  obtain ⟨r3, e3⟩ := (C42_no_ub h2).2
  have e3' := e3
  simp only [LQ.stepC, Option.bind_eq_some_iff, Option.map_eq_some_iff] at e3'
  obtain ⟨y, -, w, -, rfl⟩ := e3'
  have h3 := h2.cons e3
  obtain ⟨r4, e4⟩ := (C42_no_ub h3).2
  have e4' := e4
  simp only [LQ.stepC, Option.map_eq_some_iff] at e4'
  obtain ⟨z, -, rfl⟩ := e4'
  have h4 := h3.cons e4
  have h5 := h4.cons rfl
  have hf := (C42_fifo h5).1
  simp only at hf
  rw [hv] at hf
  have hf := (List.prefix_append_right_inj _).1 hf
  rw [List.cons_prefix_cons] at hf
  have hrun : runC 6 .idle s = some (.idle, { s with heap := setN s.heap x.next (some { y with item := none }), div := z.next, rets := s.rets ++ [w] }) := by
    simp only [runC, e1, e2, e3, e4, Option.bind_some, show stepC (.idle : CPC α) s = some (.cmp s.div, s) from rfl]
    rfl
  exact ⟨_, hrun, by rw [hf.1]⟩

/-- The hypotheses are met: two values pushed, one popped, and the first node's address used again. -/
example : ∃ s : Sh Nat, Reach s .gc (.cmp 200) ∧ s.calls = [7, 8] ∧ s.done = [7, 8] ∧ s.rets = [7] := by
  have h0 : Reach (new 100 : Sh Nat) .idle .idle := .new 100 (by decide)
  have h1 := h0.prod (a := .push 7) (fun _ h => nomatch h) rfl
  have h2 := h1.prod (a := .go 200) (fun n h _ => by cases h; exact ⟨by decide, rfl⟩) rfl
  have h3 := h2.prod (a := .go 0) (fun _ _ h => nomatch h) rfl
  have h4 := h3.prod (a := .go 0) (fun _ _ h => nomatch h) rfl
  have c1 := ((h4.cons rfl).cons rfl).cons rfl
  have c2 := ((c1.cons rfl).cons rfl).cons rfl
  have h5 := c2.prod (a := .go 0) (fun _ _ h => nomatch h) rfl
  have h6 := h5.prod (a := .go 0) (fun _ _ h => nomatch h) rfl
  have h7 := h6.prod (a := .go 0) (fun _ _ h => nomatch h) rfl
  have h8 := h7.prod (a := .go 0) (fun _ _ h => nomatch h) rfl
  have h9 := h8.prod (a := .push 8) (fun _ h => nomatch h) rfl
  have h10 := h9.prod (a := .go 100) (fun n h _ => by cases h; exact ⟨by decide, rfl⟩) rfl
  have h11 := h10.cons rfl
  have h12 := h11.prod (a := .go 0) (fun _ _ h => nomatch h) rfl
  have h13 := h12.prod (a := .go 0) (fun _ _ h => nomatch h) rfl
  exact ⟨_, h13, rfl, rfl, rfl⟩

end Verif.Sync.LQ
