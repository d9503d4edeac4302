import Verif.Sync.MicroLockQueue
import Verif.Sync.LocklessQueueProps

/-! # C43: theorems about `MicroLockQueue` -/

namespace Verif.Sync.MLQ

open LQ (Node setN Path Has Holds setN_same setN_ne path_last_mem path_congr path_append holds_congr holds_append)

variable {α : Type}

theorem tot_set {f : PC α → Nat} : ∀ {l : List (PC α)} {i : Nat} {x y : PC α}, l[i]? = some x → tot f (l.set i y) + f x = tot f l + f y
  | [], _, _, _, h => by simp at h
  | z :: l, 0, x, y, h => by
    simp at h; subst h
    simp [tot]; omega
  | z :: l, i + 1, x, y, h => by
    simp at h
    have := tot_set (f := f) (y := y) h
    simp [tot]; omega

theorem tot_ge {f : PC α → Nat} : ∀ {l : List (PC α)} {i : Nat} {x : PC α}, l[i]? = some x → f x ≤ tot f l
  | [], _, _, h => by simp at h
  | z :: l, 0, x, h => by simp at h; subst h; simp [tot]
  | z :: l, i + 1, x, h => by
    simp at h
    have := tot_ge (f := f) h
    simp [tot]; omega

theorem tot_two {f : PC α → Nat} : ∀ {l : List (PC α)} {i j : Nat} {x y : PC α}, l[i]? = some x → l[j]? = some y → i ≠ j → f x + f y ≤ tot f l
  | [], _, _, _, _, h, _, _ => by simp at h
  | z :: l, 0, 0, _, _, _, _, hne => absurd rfl hne
  | z :: l, 0, j + 1, x, y, h, h', _ => by
    simp at h h'; subst h
    have := tot_ge (f := f) h'
    simp [tot]; omega
  | z :: l, i + 1, 0, x, y, h, h', _ => by
    simp at h h'; subst h'
    have := tot_ge (f := f) h
    simp [tot]; omega
  | z :: l, i + 1, j + 1, x, y, h, h', hne => by
    simp at h h'
    have := tot_two (f := f) h h' (by omega)
    simp [tot]; omega

theorem tot_zero {f : PC α → Nat} : ∀ {l : List (PC α)}, (∀ x ∈ l, f x = 0) → tot f l = 0
  | [], _ => rfl
  | z :: l, h => by
    have := tot_zero (l := l) fun x hx => h x (by simp [hx])
    simp [tot, h z (by simp), this]

theorem set_get {l : List (PC α)} {i j : Nat} {y z : PC α} (h : (l.set i y)[j]? = some z) : (i = j ∧ z = y) ∨ (i ≠ j ∧ l[j]? = some z) := by
  rw [List.getElem?_set] at h
  split at h
  · next e =>
    split at h
    · exact .inl ⟨e, (Option.some.inj h).symm⟩
    · cases h
  · next e => exact .inr ⟨e, h⟩

variable {s s' : Sh α} {ags : List (PC α)} {D D' : List Nat} {tail tail' : Nat} {vs vs' : List α} {i : Nat} {pc pc' : PC α}

/-- A node in the queue belongs to no thread. -/
theorem Inv.not_own (I : Inv s ags D tail vs) (hi : ags[i]? = some pc) {x : Nat} (hx : x ∈ s.div :: D) : x ∉ own pc := by
  intro hm
  have h1 := I.uniq x
  have h2 := tot_ge (f := oc x) hi
  have h3 : 0 < (s.div :: D).count x := List.count_pos_iff.2 hx
  have h4 : 0 < oc x pc := List.count_pos_iff.2 hm
  omega

theorem Inv.own_two (I : Inv s ags D tail vs) (hi : ags[i]? = some pc) {j : Nat} {q : PC α} (hj : ags[j]? = some q) (hne : i ≠ j) {x : Nat}
    (hx : x ∈ own pc) : x ∉ own q := by
  intro hm
  have h1 := I.uniq x
  have h2 := tot_two (f := oc x) hi hj hne
  have h3 : 0 < oc x pc := List.count_pos_iff.2 hx
  have h4 : 0 < oc x q := List.count_pos_iff.2 hm
  omega

theorem ownOk_alive {h : Nat → Option (Node α)} (ho : ownOk h pc) {x : Nat} (hx : x ∈ own pc) : h x ≠ none := by
  cases pc <;> simp only [own, List.mem_singleton, List.not_mem_nil] at hx <;> subst hx <;> simp only [ownOk] at ho
  · rw [ho.2]; simp
  · rw [ho.2]; simp
  · exact ho
  · exact ho

theorem ownOk_congr {h h' : Nat → Option (Node α)} (ho : ownOk h pc) (hc : ∀ x ∈ own pc, h' x = h x) : ownOk h' pc := by
  cases pc with
  | pHave n v => exact ⟨ho.1, by rw [hc n (by simp [own])]; exact ho.2⟩
  | pLink n v => exact ⟨ho.1, by rw [hc n (by simp [own])]; exact ho.2⟩
  | cUnl r v => show h' r ≠ none; rw [hc r (by simp [own])]; exact ho
  | cDel r v => show h' r ≠ none; rw [hc r (by simp [own])]; exact ho
  | _ => trivial

theorem cOk_append {d : Nat} {mv : Option α} (hc : cOk d D mv pc) (l : List Nat) : cOk d (D ++ l) mv pc := by
  cases pc with
  | cItem r n => obtain ⟨h1, h2, D', e⟩ := hc; exact ⟨h1, h2, D' ++ l, by simp [e]⟩
  | cSet r n v => obtain ⟨h1, h2, D', e⟩ := hc; exact ⟨h1, h2, D' ++ l, by simp [e]⟩
  | _ => exact hc

theorem pOk_triv (h : holdsP pc = false) (l t : Nat) : pOk l t pc := by cases pc <;> first | trivial | cases h

theorem cOk_triv (h : holdsC pc = false) (d : Nat) (D : List Nat) (mv : Option α) : cOk d D mv pc := by cases pc <;> first | trivial | cases h

theorem excl {f : PC α → Bool} {b : Bool} (h : tot (fun pc => one (f pc)) ags = one b) (hi : ags[i]? = some pc) (hf : f pc = true) {j : Nat} {q : PC α}
    (hj : ags[j]? = some q) (hne : i ≠ j) : f q = false := by
  have h2 := tot_two (f := fun pc => one (f pc)) hi hj hne
  cases e : f q with
  | false => rfl
  | true =>
    rw [h] at h2
    simp only [hf, e, one, if_true] at h2
    split at h2 <;> omega

theorem held {f : PC α → Bool} {b : Bool} (h : tot (fun pc => one (f pc)) ags = one b) (hi : ags[i]? = some pc) (hf : f pc = true) : b = true := by
  have h2 := tot_ge (f := fun pc => one (f pc)) hi
  cases b with
  | true => rfl
  | false =>
    rw [h] at h2
    simp [hf, one] at h2

/-- The general step. -/
theorem Inv.upd (I : Inv s ags D tail vs) (hi : ags[i]? = some pc)
    (queue : Path s'.heap s'.div D' tail') (stop : ∃ x, s'.heap tail' = some x ∧ x.next = 0) (pos : ∀ x ∈ D', x ≠ 0)
    (alive : ∀ x ∈ s'.div :: D', s'.heap x ≠ none)
    (uniq : ∀ x, (s'.div :: D').count x + tot (oc x) (ags.set i pc') ≤ 1) (vals : s'.done = s'.rets ++ vs') (rest : restOk s'.heap s'.mv D' vs')
    (hown : ∀ (j : Nat) (q : PC α), ags[j]? = some q → i ≠ j → ∀ x ∈ own q, s'.heap x = s.heap x)
    (hP : holdsP pc = true ∨ (s'.last = s.last ∧ tail' = tail))
    (hC : holdsC pc = true ∨ (s'.div = s.div ∧ s'.mv = s.mv ∧ ∃ l, D' = D ++ l))
    (hok : ownOk s'.heap pc' ∧ pOk s'.last tail' pc' ∧ cOk s'.div D' s'.mv pc')
    (hpf : one s'.pflag + one (holdsP pc) = one s.pflag + one (holdsP pc')) (hcf : one s'.cflag + one (holdsC pc) = one s.cflag + one (holdsC pc'))
    (pfree : s'.pflag = false → s'.last = tail') (cfree : s'.cflag = false → s'.mv = none) : Inv s' (ags.set i pc') D' tail' vs' := by
  refine ⟨queue, stop, pos, alive, uniq, vals, rest, fun j q hj => ?_, ?_, ?_, pfree, cfree⟩
  · rcases set_get hj with ⟨-, rfl⟩ | ⟨hij, hj⟩
    · exact hok
    · obtain ⟨h1, h2, h3⟩ := I.owns j q hj
      refine ⟨ownOk_congr h1 (hown j q hj hij), ?_, ?_⟩
      · rcases hP with hP | ⟨e1, e2⟩
        · exact pOk_triv (excl I.pflag hi hP hj hij) _ _
        · rw [e1, e2]; exact h2
      · rcases hC with hC | ⟨e1, e2, l, e3⟩
        · exact cOk_triv (excl I.cflag hi hC hj hij) _ _ _
        · rw [e1, e2, e3]; exact cOk_append h3 l
  · have h1 := I.pflag
    have h2 := tot_set (f := fun pc => one (holdsP pc)) (y := pc') hi
    omega
  · have h1 := I.cflag
    have h2 := tot_set (f := fun pc => one (holdsC pc)) (y := pc') hi
    omega

/-- A step that touches neither memory nor the ends of the queue. -/
theorem Inv.quiet (I : Inv s ags D tail vs) (hi : ags[i]? = some pc) (e1 : s'.heap = s.heap) (e2 : s'.div = s.div) (e3 : s'.last = s.last) (e4 : s'.done = s.done)
    (e5 : s'.rets = s.rets) (e6 : s'.mv = s.mv) (eo : own pc' = own pc)
    (hok : ownOk s.heap pc' ∧ pOk s.last tail pc' ∧ cOk s.div D s.mv pc')
    (hpf : one s'.pflag + one (holdsP pc) = one s.pflag + one (holdsP pc')) (hcf : one s'.cflag + one (holdsC pc) = one s.cflag + one (holdsC pc'))
    (pfree : s'.pflag = false → s.last = tail) (cfree : s'.cflag = false → s.mv = none) : Inv s' (ags.set i pc') D tail vs := by
  refine I.upd hi (by rw [e1, e2]; exact I.queue) (by rw [e1]; exact I.stop) I.pos (by rw [e1, e2]; exact I.alive) (fun x => ?_) (by rw [e4, e5]; exact I.vals)
    (by rw [e1, e6]; exact I.rest) (fun _ _ _ _ _ _ => by rw [e1]) (.inr ⟨e3, rfl⟩) (.inr ⟨e2, e6, [], by simp⟩) (by rw [e1, e2, e3, e6]; exact hok) hpf hcf
    (by rw [e3]; exact pfree) (by rw [e6]; exact cfree)
  have h1 := I.uniq x
  have h2 := tot_set (f := oc x) (y := pc') hi
  have h3 : oc x pc' = oc x pc := by unfold oc; rw [eo]
  rw [e2]
  omega

theorem Inv.nodup (I : Inv s ags D tail vs) : (s.div :: D).Nodup := List.nodup_iff_count.2 fun x => by
  have := I.uniq x; omega

theorem new_inv {a k : Nat} (ha : 0 < a) : Inv (new a : Sh α) (List.replicate k .idle) [] a [] := by
  have hz : ∀ f : PC α → Nat, f .idle = 0 → tot f (List.replicate k .idle) = 0 := fun f hf => tot_zero fun x hx => by
    rw [(List.mem_replicate.1 hx).2, hf]
  refine ⟨rfl, ⟨⟨0, none⟩, by simp [new, setN], rfl⟩, by simp, by simp [new, setN], fun x => ?_, rfl, .nil, fun j q hj => ?_, ?_, ?_, fun _ => rfl, fun _ => rfl⟩
  · rw [hz _ (by simp [oc, own])]
    show [a].count x + 0 ≤ 1
    by_cases e : a = x <;> simp [List.count_cons, e]
  · rw [List.getElem?_replicate] at hj
    split at hj
    · cases hj; exact ⟨trivial, trivial, trivial⟩
    · cases hj
  · rw [hz _ rfl]; rfl
  · rw [hz _ rfl]; rfl

theorem Inv.step (I : Inv s ags D tail vs) (hi : ags[i]? = some pc) {a : Act α} (hf : ∀ n v, a = .push n v → 0 < n ∧ s.heap n = none)
    (he : step1 a pc s = some (pc', s')) : ∃ D' tail' vs', Inv s' (ags.set i pc') D' tail' vs' := by
  obtain ⟨o1, o2, o3⟩ := I.owns i pc hi
  cases a with
  | push n v =>
    cases pc <;> simp only [step1] at he <;> try contradiction
    cases he
    obtain ⟨hn0, hn⟩ := hf n v rfl
    have hne : ∀ x, s.heap x ≠ none → setN s.heap n (some ⟨0, some v⟩) x = s.heap x := fun x hx => setN_ne _ _ (fun e => hx (e ▸ hn))
    have hq := path_congr (h' := setN s.heap n (some ⟨0, some v⟩)) I.queue I.nodup fun y hy _ k hk =>
      ⟨k, by rw [hne y (I.alive y hy)]; exact hk, rfl⟩
    refine ⟨D, tail, vs, I.upd hi hq ?_ I.pos (fun x hx => ?_) (fun x => ?_) I.vals ?_ (fun j q hj _ x hx => hne x ?_) (.inr ⟨rfl, rfl⟩) (.inr ⟨rfl, rfl, [], by simp⟩)
      ⟨⟨by omega, setN_same ..⟩, trivial, trivial⟩ rfl rfl I.pfree I.cfree⟩
    · obtain ⟨x, h1, h2⟩ := I.stop
      exact ⟨x, by show setN _ _ _ tail = _; rw [hne tail (by rw [h1]; simp)]; exact h1, h2⟩
    · show setN s.heap n (some ⟨0, some v⟩) x ≠ none
      rw [hne x (I.alive x hx)]; exact I.alive x hx
    · have h1 := I.uniq x
      have h2 := tot_set (f := oc x) (y := .pHave n v) hi
      have h3 : oc x (.idle : PC α) = 0 := rfl
      have h4 : oc x (.pHave n v) = [n].count x := rfl
      by_cases e : n = x
      · subst e
        have h5 : (s.div :: D).count n = 0 := List.count_eq_zero.2 fun hm => I.alive n hm hn
        have h6 : tot (oc n) ags = 0 := tot_zero fun q hq => by
          obtain ⟨j, hj⟩ := List.mem_iff_getElem?.1 hq
          exact List.count_eq_zero.2 fun hm => ownOk_alive (I.owns j q hj).1 hm hn
        simp at h4
        show (s.div :: D).count n + _ ≤ 1
        omega
      · have h5 : [n].count x = 0 := by simp [List.count_cons, e]
        show (s.div :: D).count x + _ ≤ 1
        omega
    · have hr := I.rest
      have hh : ∀ x ∈ D, ∀ w, Has s.heap x w → Has (setN s.heap n (some ⟨0, some v⟩)) x w := fun x hx w ⟨k, e1, e2⟩ =>
        ⟨k, by rw [hne x (I.alive x (by simp [hx]))]; exact e1, e2⟩
      unfold restOk at hr ⊢
      show match s.mv with | none => _ | some v => _
      cases e : s.mv with
      | none => rw [e] at hr; exact holds_congr hr hh
      | some w =>
        rw [e] at hr
        obtain ⟨m, D', vs', e1, e2, e3⟩ := hr
        exact ⟨m, D', vs', e1, e2, holds_congr e3 fun x hx => hh x (by simp [e1, hx])⟩
    · exact ownOk_alive (I.owns j q hj).1 hx
  | pop =>
    cases pc <;> simp only [step1] at he <;> try contradiction
    cases he
    exact ⟨D, tail, vs, I.quiet hi rfl rfl rfl rfl rfl rfl rfl ⟨trivial, trivial, trivial⟩ rfl rfl I.pfree I.cfree⟩
  | go junk =>
    cases pc with
    | idle => simp [step1] at he
    | pHave n v =>
      simp only [step1] at he
      split at he
      · cases he
        exact ⟨D, tail, vs, I.quiet hi rfl rfl rfl rfl rfl rfl rfl ⟨o1, trivial, trivial⟩ rfl rfl I.pfree I.cfree⟩
      · next hp =>
        cases he
        have hp : s.pflag = false := by simpa using hp
        exact ⟨D, tail, vs, I.quiet hi rfl rfl rfl rfl rfl rfl rfl ⟨o1, I.pfree hp, trivial⟩ (by simp [hp, one, holdsP]) rfl (fun h => nomatch h) I.cfree⟩
    | pLink n v =>
      have hlt : s.last = tail := o2
      obtain ⟨hn0, hn⟩ := o1
      simp only [step1, Option.map_eq_some_iff] at he
      obtain ⟨x, hx, he⟩ := he
      cases he
      rw [hlt] at hx ⊢
      have htm : tail ∈ s.div :: D := path_last_mem I.queue
      have hnt : n ≠ tail := fun e => I.not_own hi htm (by simp [own, e])
      have hnm : n ∉ s.div :: D := fun hm => I.not_own hi hm (by simp [own])
      have hother : ∀ y, y ≠ tail → setN s.heap tail (some { x with next := n }) y = s.heap y := fun y hy => setN_ne _ _ hy
      have hsame : setN s.heap tail (some { x with next := n }) tail = some { x with next := n } := setN_same ..
      have hq := path_congr (h' := setN s.heap tail (some { x with next := n })) I.queue I.nodup fun y hy hyt k hk =>
        ⟨k, by rw [hother y hyt]; exact hk, rfl⟩
      have hh : ∀ y w, Has s.heap y w → Has (setN s.heap tail (some { x with next := n })) y w := by
        intro y w ⟨k, e1, e2⟩
        by_cases e : y = tail
        · subst e
          rw [hx] at e1; cases e1
          exact ⟨{ x with next := n }, hsame, e2⟩
        · exact ⟨k, by rw [hother y e]; exact e1, e2⟩
      have hnv : Has (setN s.heap tail (some { x with next := n })) n v := hh n v ⟨_, hn, rfl⟩
      refine ⟨D ++ [n], n, vs ++ [v], I.upd hi (path_append hq ⟨⟨_, hsame, rfl⟩, rfl⟩) ⟨⟨0, some v⟩, by show setN _ _ _ n = _; rw [hother n hnt]; exact hn, rfl⟩ ?_ ?_ ?_ ?_ ?_ ?_
        (.inl rfl) (.inr ⟨rfl, rfl, [n], rfl⟩) ⟨trivial, rfl, trivial⟩ rfl rfl ?_ I.cfree⟩
      · intro y hy
        rcases List.mem_append.1 hy with hy | hy
        · exact I.pos y hy
        · rw [List.mem_singleton.1 hy]; exact hn0
      · intro y hy
        show setN s.heap tail (some { x with next := n }) y ≠ none
        by_cases e : y = tail
        · rw [e, hsame]; simp
        · rw [hother y e]
          have hy : y ∈ s.div :: (D ++ [n]) := hy
          rw [show s.div :: (D ++ [n]) = (s.div :: D) ++ [n] by simp, List.mem_append] at hy
          rcases hy with hy | hy
          · exact I.alive y hy
          · rw [List.mem_singleton.1 hy, hn]; simp
      · intro y
        have h1 := I.uniq y
        have h2 := tot_set (f := oc y) (y := .pSet n) hi
        have h3 : oc y (.pSet n : PC α) = 0 := rfl
        have h4 : oc y (.pLink n v) = [n].count y := rfl
        show (s.div :: (D ++ [n])).count y + _ ≤ 1
        rw [show s.div :: (D ++ [n]) = (s.div :: D) ++ [n] by simp, List.count_append]
        omega
      · show s.done ++ [v] = s.rets ++ (vs ++ [v])
        rw [I.vals, List.append_assoc]
      · have hr := I.rest
        unfold restOk at hr ⊢
        show match s.mv with | none => _ | some v => _
        cases e : s.mv with
        | none => rw [e] at hr; exact holds_append (holds_congr hr fun y _ w hw => hh y w hw) (.cons hnv .nil)
        | some w =>
          rw [e] at hr
          obtain ⟨m, D', vs', e1, e2, e3⟩ := hr
          exact ⟨m, D' ++ [n], vs' ++ [v], by simp [e1], by simp [e2], holds_append (holds_congr e3 fun y _ w hw => hh y w hw) (.cons hnv .nil)⟩
      · intro j q hj hij y hy
        exact hother y fun e => I.not_own hj htm (e ▸ hy)
      · intro h
        have := held I.pflag hi rfl
        have h : s.pflag = false := h
        rw [h] at this; cases this
    | pSet n =>
      have ht : tail = n := o2
      simp only [step1] at he
      cases he
      refine ⟨D, tail, vs, I.upd hi I.queue I.stop I.pos I.alive (fun y => ?_) I.vals I.rest (fun _ _ _ _ _ _ => rfl) (.inl rfl) (.inr ⟨rfl, rfl, [], by simp⟩)
        ⟨trivial, ht.symm, trivial⟩ rfl rfl (fun _ => ht.symm) I.cfree⟩
      have h1 := I.uniq y
      have h2 := tot_set (f := oc y) (y := .pUnl) hi
      have h3 : oc y (.pSet n : PC α) = 0 := rfl
      have h4 : oc y (.pUnl : PC α) = 0 := rfl
      show (s.div :: D).count y + _ ≤ 1
      omega
    | pUnl =>
      simp only [step1] at he
      cases he
      have hp := held I.pflag hi rfl
      exact ⟨D, tail, vs, I.quiet hi rfl rfl rfl rfl rfl rfl rfl ⟨trivial, trivial, trivial⟩ (by simp [hp, one, holdsP]) rfl (fun _ => o2) I.cfree⟩
    | peek d k =>
      simp only [step1] at he
      cases he
      split
      · exact ⟨D, tail, vs, I.quiet hi rfl rfl rfl rfl rfl rfl rfl ⟨trivial, trivial, trivial⟩ rfl rfl I.pfree I.cfree⟩
      · exact ⟨D, tail, vs, I.quiet hi rfl rfl rfl rfl rfl rfl rfl ⟨trivial, trivial, trivial⟩ rfl rfl I.pfree I.cfree⟩
    | cWait =>
      simp only [step1] at he
      split at he
      · cases he
        exact ⟨D, tail, vs, I.quiet hi rfl rfl rfl rfl rfl rfl rfl ⟨trivial, trivial, trivial⟩ rfl rfl I.pfree I.cfree⟩
      · next hc =>
        cases he
        have hc : s.cflag = false := by simpa using hc
        exact ⟨D, tail, vs, I.quiet hi rfl rfl rfl rfl rfl rfl rfl ⟨trivial, trivial, I.cfree hc⟩ rfl (by simp [hc, one, holdsC]) I.pfree (fun h => nomatch h)⟩
    | cRead =>
      simp only [step1, Option.map_eq_some_iff] at he
      obtain ⟨x, hx, he⟩ := he
      cases he
      split
      · exact ⟨D, tail, vs, I.quiet hi rfl rfl rfl rfl rfl rfl rfl ⟨trivial, trivial, o3⟩ rfl rfl I.pfree I.cfree⟩
      · next hne =>
        refine ⟨D, tail, vs, I.quiet hi rfl rfl rfl rfl rfl rfl rfl ⟨trivial, trivial, o3, rfl, ?_⟩ rfl rfl I.pfree I.cfree⟩
        have hq := I.queue
        cases D with
        | nil =>
          obtain ⟨y, h1, h2⟩ := I.stop
          have hq : s.div = tail := hq
          rw [← hq, hx] at h1; cases h1
          exact absurd h2 hne
        | cons y D =>
          obtain ⟨⟨k, e1, e2⟩, -⟩ := hq
          rw [hx] at e1; cases e1
          exact ⟨D, by rw [e2]⟩
    | cItem r n =>
      obtain ⟨hmv, rfl, D', rfl⟩ := o3
      simp only [step1, Option.bind_eq_some_iff, Option.map_eq_some_iff] at he
      obtain ⟨x, hx, v, hv, he⟩ := he
      cases he
      have hother : ∀ z, z ≠ n → setN s.heap n (some { x with item := none }) z = s.heap z := fun z hz => setN_ne _ _ hz
      have hsame : setN s.heap n (some { x with item := none }) n = some { x with item := none } := setN_same ..
      have hnx : ∀ z k, s.heap z = some k → ∃ k', setN s.heap n (some { x with item := none }) z = some k' ∧ k'.next = k.next := by
        intro z k hk
        by_cases e : z = n
        · subst e
          rw [hx] at hk; cases hk
          exact ⟨_, hsame, rfl⟩
        · exact ⟨k, by rw [hother z e]; exact hk, rfl⟩
      have hq := path_congr (h' := setN s.heap n (some { x with item := none })) I.queue I.nodup fun z _ _ k hk => hnx z k hk
      have hnd := I.nodup
      have hnD : n ∉ D' := (List.nodup_cons.1 (List.nodup_cons.1 hnd).2).1
      refine ⟨n :: D', tail, vs, I.upd hi hq ?_ I.pos (fun z hz => ?_) (fun y => ?_) I.vals ?_ (fun j q hj _ y hy => ?_) (.inr ⟨rfl, rfl⟩) (.inl rfl)
        ⟨trivial, trivial, rfl, rfl, D', rfl⟩ rfl rfl I.pfree (fun h => ?_)⟩
      · obtain ⟨k, h1, h2⟩ := I.stop
        obtain ⟨k', h3, h4⟩ := hnx tail k h1
        exact ⟨k', h3, h4.trans h2⟩
      · show setN s.heap n (some { x with item := none }) z ≠ none
        by_cases e : z = n
        · rw [e, hsame]; simp
        · rw [hother z e]; exact I.alive z hz
      · have h1 := I.uniq y
        have h2 := tot_set (f := oc y) (y := .cSet s.div n v) hi
        have h3 : oc y (.cItem s.div n : PC α) = 0 := rfl
        have h4 : oc y (.cSet s.div n v : PC α) = 0 := rfl
        show (s.div :: n :: D').count y + _ ≤ 1
        omega
      · have hr := I.rest
        unfold restOk at hr ⊢
        rw [hmv] at hr
        cases hr with
        | @cons _ _ w ws h1 h2 =>
          obtain ⟨k, e1, e2⟩ := h1
          rw [hx] at e1; cases e1
          rw [hv] at e2; cases e2
          refine ⟨n, D', ws, rfl, rfl, holds_congr h2 fun z hz u hu => ?_⟩
          obtain ⟨k, e1, e2⟩ := hu
          exact ⟨k, by show setN _ _ _ z = _; rw [hother z (fun e => hnD (e ▸ hz))]; exact e1, e2⟩
      · exact hother y fun e => I.not_own hj (x := n) (by simp) (e ▸ hy)
      · have := held I.cflag hi rfl
        have h : s.cflag = false := h
        rw [h] at this; cases this
    | cSet r n v =>
      obtain ⟨hmv, rfl, D', rfl⟩ := o3
      simp only [step1] at he
      cases he
      have hr := I.rest
      unfold restOk at hr
      rw [hmv] at hr
      obtain ⟨n', D2, vs', e1, rfl, h3⟩ := hr
      cases e1
      obtain ⟨hl, hq⟩ := I.queue
      refine ⟨D', tail, vs', I.upd hi hq I.stop (fun x hx => I.pos x (by simp [hx])) (fun x hx => I.alive x (List.mem_cons_of_mem _ hx)) (fun y => ?_) ?_ h3
        (fun _ _ _ _ _ _ => rfl) (.inr ⟨rfl, rfl⟩) (.inl rfl) ⟨I.alive s.div (by simp), trivial, rfl⟩ rfl rfl I.pfree (fun _ => rfl)⟩
      · have h1 := I.uniq y
        have h2 := tot_set (f := oc y) (y := .cUnl s.div v) hi
        have h3 : oc y (.cSet s.div n v : PC α) = 0 := rfl
        have h4 : oc y (.cUnl s.div v : PC α) = [s.div].count y := rfl
        rw [show s.div :: n :: D' = [s.div] ++ (n :: D') by simp, List.count_append] at h1
        show (n :: D').count y + _ ≤ 1
        omega
      · show s.done = s.rets ++ [v] ++ vs'
        rw [I.vals]; simp
    | cUnl r v =>
      simp only [step1] at he
      cases he
      have hc := held I.cflag hi rfl
      exact ⟨D, tail, vs, I.quiet hi rfl rfl rfl rfl rfl rfl rfl ⟨o1, trivial, trivial⟩ rfl (by simp [hc, one, holdsC]) I.pfree (fun _ => o3)⟩
    | cDel r v =>
      simp only [step1, Option.map_eq_some_iff] at he
      obtain ⟨x, hx, he⟩ := he
      cases he
      have hrm : r ∉ s.div :: D := fun hm => I.not_own hi hm (by simp [own])
      have hother : ∀ z, z ≠ r → setN s.heap r none z = s.heap z := fun z hz => setN_ne _ _ hz
      have hq := path_congr (h' := setN s.heap r none) I.queue I.nodup fun z hz _ k hk => ⟨k, by rw [hother z (fun e => hrm (e ▸ hz))]; exact hk, rfl⟩
      refine ⟨D, tail, vs, I.upd hi hq ?_ I.pos (fun z hz => ?_) (fun y => ?_) I.vals ?_ (fun j q hj hij y hy => ?_) (.inr ⟨rfl, rfl⟩) (.inr ⟨rfl, rfl, [], by simp⟩)
        ⟨trivial, trivial, trivial⟩ rfl rfl I.pfree I.cfree⟩
      · obtain ⟨k, h1, h2⟩ := I.stop
        exact ⟨k, by show setN _ _ _ tail = _; rw [hother tail (fun e => hrm (e ▸ path_last_mem I.queue))]; exact h1, h2⟩
      · show setN s.heap r none z ≠ none
        rw [hother z (fun e => hrm (e ▸ hz))]; exact I.alive z hz
      · have h1 := I.uniq y
        have h2 := tot_set (f := oc y) (y := .idle) hi
        have h4 : oc y (.idle : PC α) = 0 := rfl
        show (s.div :: D).count y + _ ≤ 1
        omega
      · have hr := I.rest
        have hh : ∀ x ∈ D, ∀ w, Has s.heap x w → Has (setN s.heap r none) x w := fun x hx w ⟨k, e1, e2⟩ =>
          ⟨k, by rw [hother x (fun e => hrm (by simp [← e, hx]))]; exact e1, e2⟩
        unfold restOk at hr ⊢
        show match s.mv with | none => _ | some v => _
        cases e : s.mv with
        | none => rw [e] at hr; exact holds_congr hr hh
        | some w =>
          rw [e] at hr
          obtain ⟨m, D', vs', e1, e2, e3⟩ := hr
          exact ⟨m, D', vs', e1, e2, holds_congr e3 fun x hx => hh x (by simp [e1, hx])⟩
      · exact hother y fun e => I.own_two hi hj hij (x := r) (by simp [own]) (e ▸ hy)
    | cUnlE =>
      simp only [step1] at he
      cases he
      have hc := held I.cflag hi rfl
      exact ⟨D, tail, vs, I.quiet hi rfl rfl rfl rfl rfl rfl rfl ⟨trivial, trivial, trivial⟩ rfl (by simp [hc, one, holdsC]) I.pfree (fun _ => o3)⟩

theorem reach_inv (h : Reach s ags) : ∃ D tail vs, Inv s ags D tail vs := by
  induction h with
  | new ha => exact ⟨_, _, _, new_inv ha⟩
  | step _ hi hf he ih => obtain ⟨D, t, vs, I⟩ := ih; exact I.step hi hf he

/-! ## Pushed values -/

/-- How often the thread is about to deliver `v`. -/
def pn [DecidableEq α] (v : α) (pc : PC α) : Nat := (pend pc).count v

theorem calls_step [DecidableEq α] (v : α) (hi : ags[i]? = some pc) {a : Act α} (he : step1 a pc s = some (pc', s'))
    (I : s.calls.count v = s.done.count v + tot (pn v) ags) : s'.calls.count v = s'.done.count v + tot (pn v) (ags.set i pc') := by
  have h2 := tot_set (f := pn v) (y := pc') hi
  have key : s'.calls.count v + s.done.count v + pn v pc = s.calls.count v + s'.done.count v + pn v pc' := by
    cases a <;> cases pc <;> simp only [step1, Option.map_eq_some_iff, Option.bind_eq_some_iff] at he <;> try contradiction
    all_goals first
      | (cases he; simp [pn, pend]; done)
      | (obtain ⟨x, hx, he⟩ := he; cases he; simp [pn, pend]; done)
      | (cases he; simp [pn, pend, List.count_append] <;> omega; done)
      | (obtain ⟨x, hx, he⟩ := he; cases he; simp [pn, pend, List.count_append] <;> omega; done)
      | (obtain ⟨x, hx, y, hy, he⟩ := he; cases he; simp [pn, pend]; done)
      | (split at he <;> cases he <;> simp [pn, pend]; done)
      | (cases he; split <;> simp [pn, pend]; done)
      | (obtain ⟨x, hx, he⟩ := he; cases he; split <;> simp [pn, pend])
  omega

theorem reach_calls [DecidableEq α] (v : α) (h : Reach s ags) : s.calls.count v = s.done.count v + tot (pn v) ags := by
  induction h with
  | new _ => rw [tot_zero fun x hx => by rw [(List.mem_replicate.1 hx).2]; rfl]; rfl
  | step _ hi _ he ih => exact calls_step v hi he ih

/-! ## Theorems -/

/-- Whatever the number of threads and however their steps interleave: the values returned by `Pop`, in the order in which the pops took effect, are the
first of the values pushed, in the order in which the pushes took effect.  Nothing is lost, duplicated, invented or overtaken. -/
theorem C43_fifo (h : Reach s ags) : s.rets <+: s.done := by
  obtain ⟨_, _, vs, I⟩ := reach_inv h
  exact ⟨vs, I.vals.symm⟩

/-- The pushes that took effect are exactly the calls of `Push`, each once, apart from those still under way. -/
theorem C43_pushed [DecidableEq α] (h : Reach s ags) (v : α) : s.calls.count v = s.done.count v + tot (fun pc => (pend pc).count v) ags :=
  reach_calls v h

/-- When no call of `Push` is under way, what has been popped and what is still to come are exactly what has been pushed. -/
theorem C43_once [DecidableEq α] (h : Reach s ags) (hq : ∀ pc ∈ ags, pend pc = []) : ∃ vs, s.done = s.rets ++ vs ∧ (s.rets ++ vs).Perm s.calls := by
  obtain ⟨_, _, vs, I⟩ := reach_inv h
  refine ⟨vs, I.vals, List.perm_iff_count.2 fun v => ?_⟩
  have h1 := reach_calls v h
  rw [tot_zero (f := pn v) fun x hx => by rw [pn, hq x hx]; rfl] at h1
  rw [← I.vals]; omega

/-- No thread touches a node that was given back (except for the unguarded test at the beginning of `Pop`): every thread can always go on. -/
theorem C43_no_ub (h : Reach s ags) (hi : ags[i]? = some pc) (hne : pc ≠ .idle) (junk : Nat) : ∃ r, step1 (.go junk) pc s = some r := by
  obtain ⟨D, tail, vs, I⟩ := reach_inv h
  obtain ⟨o1, o2, o3⟩ := I.owns i pc hi
  cases pc with
  | idle => exact absurd rfl hne
  | pHave n v => simp only [step1]; split <;> exact ⟨_, rfl⟩
  | pLink n v =>
    have o2 : s.last = tail := o2
    obtain ⟨x, hx, -⟩ := I.stop
    simp [step1, o2, hx]
  | pSet n => exact ⟨_, rfl⟩
  | pUnl => exact ⟨_, rfl⟩
  | peek d k => exact ⟨_, rfl⟩
  | cWait => simp only [step1]; split <;> exact ⟨_, rfl⟩
  | cRead =>
    obtain ⟨x, hx⟩ := Option.ne_none_iff_exists'.1 (I.alive s.div (by simp))
    simp [step1, hx]
  | cItem r n =>
    obtain ⟨hmv, rfl, D', rfl⟩ := o3
    have hr := I.rest
    unfold restOk at hr
    rw [hmv] at hr
    cases hr with
    | cons h1 h2 =>
      obtain ⟨k, e1, e2⟩ := h1
      simp [step1, e1, e2]
  | cSet r n v => exact ⟨_, rfl⟩
  | cUnl r v => exact ⟨_, rfl⟩
  | cDel r v =>
    obtain ⟨x, hx⟩ := Option.ne_none_iff_exists'.1 (show s.heap r ≠ none from o1)
    simp [step1, hx]
  | cUnlE => exact ⟨_, rfl⟩

/-- At most one thread is between taking and clearing each of the two flags. -/
theorem C43_exclusive (h : Reach s ags) {j : Nat} {q : PC α} (hi : ags[i]? = some pc) (hj : ags[j]? = some q) (hne : i ≠ j) :
    ¬(holdsP pc = true ∧ holdsP q = true) ∧ ¬(holdsC pc = true ∧ holdsC q = true) := by
  obtain ⟨D, tail, vs, I⟩ := reach_inv h
  constructor
  · rintro ⟨h1, h2⟩
    rw [excl I.pflag hi h1 hj hne] at h2; cases h2
  · rintro ⟨h1, h2⟩
    rw [excl I.cflag hi h1 hj hne] at h2; cases h2

/-- A call of `Pop` that is past the first test and has the flag to itself returns the oldest value if there is one. -/
theorem C43_pop (h : Reach s ags) (hi : ags[i]? = some .cRead) (hne : s.rets ≠ s.done) :
    ∃ v s1 s2 r n, step1 (.go 0) .cRead s = some (.cItem r n, s1) ∧ step1 (.go 0) (.cItem r n) s1 = some (.cSet r n v, s2) ∧
      s.done[s.rets.length]? = some v := by
  obtain ⟨D, tail, vs, I⟩ := reach_inv h
  have hmv : s.mv = none := (I.owns i _ hi).2.2
  have hr := I.rest
  unfold restOk at hr
  rw [hmv] at hr
  have hq := I.queue
  cases hr with
  | nil => exact absurd (by simp [I.vals]) hne
  | @cons x D v vs h1 h2 =>
    obtain ⟨k, e1, e2⟩ := h1
    obtain ⟨⟨k0, f1, f2⟩, -⟩ := hq
    have hx := I.pos x (by simp)
    refine ⟨v, s, { s with heap := setN s.heap x (some { k with item := none }), mv := some v }, s.div, x, ?_, ?_, ?_⟩
    · simp [step1, f1, f2, hx]
    · simp [step1, e1, e2]
    · rw [I.vals]; simp

theorem seen_mono (h : seen s pc) (hr : s'.rets = s.rets ∧ s'.div = s.div ∨ s.rets.length < s'.rets.length) : seen s' pc := by
  cases pc with
  | peek d k =>
    obtain ⟨h1, h2⟩ := h
    rcases hr with ⟨e1, e2⟩ | hr
    · exact ⟨by rw [e1]; exact h1, fun e => by rw [e2]; exact h2 (by rw [← e1]; exact e)⟩
    · exact ⟨by omega, fun e => by omega⟩
  | _ => trivial

theorem seen_step {a : Act α} (he : step1 a pc s = some (pc', s')) : seen s' pc' ∧ (s'.rets = s.rets ∧ s'.div = s.div ∨ s.rets.length < s'.rets.length) := by
  cases a <;> cases pc <;> simp only [step1, Option.map_eq_some_iff, Option.bind_eq_some_iff] at he <;> try contradiction
  all_goals first
    | (cases he; simp [seen]; done)
    | (obtain ⟨x, hx, he⟩ := he; cases he; simp [seen]; done)
    | (obtain ⟨x, hx, y, hy, he⟩ := he; cases he; simp [seen]; done)
    | (split at he <;> cases he <;> simp [seen]; done)
    | (cases he; split <;> simp [seen]; done)
    | (obtain ⟨x, hx, he⟩ := he; cases he; split <;> simp [seen])

theorem reach_seen (h : Reach s ags) : ∀ (i : Nat) (pc : PC α), ags[i]? = some pc → seen s pc := by
  induction h with
  | new _ =>
    intro i pc hi
    rw [List.getElem?_replicate] at hi
    split at hi
    · cases hi; trivial
    · cases hi
  | step _ hi _ he ih =>
    intro j q hj
    rcases set_get hj with ⟨-, rfl⟩ | ⟨-, hj⟩
    · exact (seen_step he).1
    · exact seen_mono (ih j q hj) (seen_step he).2

theorem Inv.empty (I : Inv s ags D tail vs) {x : Node α} (hx : s.heap s.div = some x) (h0 : x.next = 0) : s.rets = s.done := by
  have hq := I.queue
  have hr := I.rest
  cases D with
  | nil =>
    unfold restOk at hr
    split at hr
    · cases hr; simp [I.vals]
    · obtain ⟨_, _, _, e, -⟩ := hr; cases e
  | cons y D =>
    obtain ⟨⟨k, e1, e2⟩, -⟩ := hq
    rw [hx] at e1; cases e1
    exact absurd (e2.symm.trans h0) (I.pos y (by simp))

/-- `Pop` reports an empty queue only when the queue is empty at that moment, or when, at the first test, another pop took effect since that test began. -/
theorem C43_empty (h : Reach s ags) :
    (∀ (i d k junk : Nat) (s' : Sh α), ags[i]? = some (.peek d k) → step1 (.go junk) (.peek d k) s = some (.idle, s') → s.rets = s.done ∨ k < s.rets.length) ∧
    (∀ (i junk : Nat) (s' : Sh α), ags[i]? = some .cRead → step1 (.go junk) .cRead s = some (.cUnlE, s') → s.rets = s.done) := by
  obtain ⟨D, tail, vs, I⟩ := reach_inv h
  obtain ⟨x, hx⟩ := Option.ne_none_iff_exists'.1 (I.alive s.div (by simp))
  constructor
  · intro i d k junk s' hi he
    obtain ⟨h1, h2⟩ := reach_seen h i _ hi
    rcases Nat.lt_or_eq_of_le h1 with h1 | h1
    · exact .inr h1
    · have hd := h2 h1
      subst hd
      simp only [step1, hx, Option.map_some, Option.getD_some] at he
      split at he
      · next h0 => exact .inl (I.empty hx h0)
      · cases he
  · intro i junk s' hi he
    simp only [step1, hx, Option.map_some] at he
    split at he
    · next h0 => exact I.empty hx h0
    · cases he

/-! ## Schedules: examples and a counterexample -/

/-- The allocator returns an address that is not in use. -/
def fresh (s : Sh α) : Act α → Bool
  | .push n _ => decide (0 < n) && (s.heap n).isNone
  | _ => true

/-- Run a schedule: (thread, action). -/
def sched : List (Nat × Act α) → Sh α × List (PC α) → Option (Sh α × List (PC α))
  | [], x => some x
  | (i, a) :: l, (s, ags) => (ags[i]?).bind fun pc =>
      if fresh s a then (step1 a pc s).bind fun r => sched l (r.2, ags.set i r.1) else none

theorem sched_reach {x : Sh α × List (PC α)} : ∀ {l : List (Nat × Act α)} {s : Sh α} {ags : List (PC α)}, Reach s ags → sched l (s, ags) = some x → Reach x.1 x.2
  | [], _, _, h, e => by cases e; exact h
  | (i, a) :: l, s, ags, h, e => by
    simp only [sched, Option.bind_eq_some_iff] at e
    obtain ⟨pc, hpc, e⟩ := e
    split at e
    · next hok =>
      rw [Option.bind_eq_some_iff] at e
      obtain ⟨⟨pc', s'⟩, h1, h2⟩ := e
      refine sched_reach (Reach.step h hpc (fun n v ea => ?_) h1) h2
      subst ea
      simpa [fresh] using hok
    · cases e

/-- Two producers and two consumers; an address is used twice. -/
def demo : List (Nat × Act Nat) :=
  [(0, .push 2 10), (1, .push 3 11), (1, .go 0), (0, .go 0), (1, .go 0), (1, .go 0), (1, .go 0), (0, .go 0), (0, .go 0), (0, .go 0), (0, .go 0),
   (2, .pop), (3, .pop), (2, .go 0), (2, .go 0), (2, .go 0), (2, .go 0), (2, .go 0), (2, .go 0), (2, .go 0),
   (0, .push 1 12)]

example : ∃ (s : Sh Nat) (ags : List (PC Nat)), Reach s ags ∧ s.rets = [11] ∧ s.done = [11, 10] ∧ s.calls = [10, 11, 12] := by
  have h : (sched demo (new 1, List.replicate 4 .idle)).map (fun x => (x.1.rets, x.1.done, x.1.calls)) = some ([11], [11, 10], [10, 11, 12]) := by decide +kernel
  rw [Option.map_eq_some_iff] at h
  obtain ⟨x, h1, h2⟩ := h
  simp only [Prod.mk.injEq] at h2
  exact ⟨x.1, x.2, sched_reach (.new (by omega)) h1, h2.1, h2.2.1, h2.2.2⟩

/-- The first test of `Pop` reads `_div` and `_div->next` without the flag (`LocklessQueue.h:171`).  In this execution thread 3 reads `_div`, thread 2 pops and gives
the node back, thread 0 gets the same memory for a new node, and thread 3 then sees "no next node": its `Pop` reports an empty queue although from before
its beginning to its end a pushed value was waiting. -/
theorem C43_spurious_empty_counterexample : ∃ (l1 l2 : List (Nat × Act Nat)) (x y : Sh Nat × List (PC Nat)),
    sched l1 (new 1, List.replicate 4 .idle) = some x ∧ x.2[3]? = some .idle ∧ x.1.done = [11, 10] ∧ x.1.rets = [] ∧
    sched l2 x = some y ∧ l2.filter (fun p => p.1 == 3) = [(3, .pop), (3, .go 0)] ∧ y.2[3]? = some .idle ∧ y.1.done = [11, 10] ∧ y.1.rets = [11] := by
  have h : (sched (demo.take 11) (new 1, List.replicate 4 .idle)).bind (fun x => (sched (demo.drop 11 ++ [(3, .go 0)]) x).map fun y =>
      (((match x.2[3]? with | some .idle => true | _ => false), x.1.done, x.1.rets), ((match y.2[3]? with | some .idle => true | _ => false), y.1.done, y.1.rets))) =
      some ((true, [11, 10], []), (true, [11, 10], [11])) := by decide +kernel
  rw [Option.bind_eq_some_iff] at h
  obtain ⟨x, h1, h⟩ := h
  rw [Option.map_eq_some_iff] at h
  obtain ⟨y, h2, h⟩ := h
  simp only [Prod.mk.injEq] at h
  obtain ⟨⟨a1, a2, a3⟩, a4, a5, a6⟩ := h
  refine ⟨_, _, x, y, h1, ?_, a2, a3, h2, rfl, ?_, a5, a6⟩
  · split at a1
    · assumption
    · cases a1
  · split at a4
    · assumption
    · cases a4

/-- The hypotheses of `C43_once` are met after a push and a pop. -/
example : ∃ (s : Sh Nat) (ags : List (PC Nat)), Reach s ags ∧ (∀ pc ∈ ags, pend pc = []) ∧ s.rets = [11] ∧ s.calls = [10, 11] := by
  have h : (sched (demo.take 20) (new 1, List.replicate 4 .idle)).map (fun x => (x.2.map pend, x.1.rets, x.1.calls)) = some ([[], [], [], []], [11], [10, 11]) := by
    decide +kernel
  rw [Option.map_eq_some_iff] at h
  obtain ⟨x, h1, h2⟩ := h
  simp only [Prod.mk.injEq] at h2
  refine ⟨x.1, x.2, sched_reach (.new (by omega)) h1, fun pc hpc => ?_, h2.2.1, h2.2.2⟩
  have : pend pc ∈ x.2.map pend := List.mem_map_of_mem hpc
  rw [h2.1] at this
  simpa using this

/-- The hypotheses of `C43_pop` are met: thread 2 has just taken the flag. -/
example : ∃ (s : Sh Nat) (ags : List (PC Nat)), Reach s ags ∧ ags[2]? = some .cRead ∧ s.rets ≠ s.done := by
  have h : (sched (demo.take 15) (new 1, List.replicate 4 .idle)).map (fun x => ((match x.2[2]? with | some .cRead => true | _ => false), x.1.rets, x.1.done)) =
      some (true, [], [11, 10]) := by decide +kernel
  rw [Option.map_eq_some_iff] at h
  obtain ⟨x, h1, h2⟩ := h
  simp only [Prod.mk.injEq] at h2
  obtain ⟨a1, a2, a3⟩ := h2
  refine ⟨x.1, x.2, sched_reach (.new (by omega)) h1, ?_, by rw [a2, a3]; decide⟩
  split at a1
  · assumption
  · cases a1

end Verif.Sync.MLQ
