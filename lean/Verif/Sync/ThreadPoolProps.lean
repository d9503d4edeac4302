import Verif.Sync.ThreadPool

/-! # C44: theorems about `ThreadPool` -/

namespace Verif.Sync.TP

theorem tot_set {f : PC → Nat} : ∀ {l : List PC} {i : Nat} {x y : PC}, l[i]? = some x → tot f (l.set i y) + f x = tot f l + f y
  | [], _, _, _, h => by simp at h
  | z :: l, 0, x, y, h => by
    simp at h; subst h
    simp [tot]; omega
  | z :: l, i + 1, x, y, h => by
    simp at h
    have := tot_set (f := f) (y := y) h
    simp [tot]; omega

theorem tot_ge {f : PC → Nat} : ∀ {l : List PC} {i : Nat} {x : PC}, l[i]? = some x → f x ≤ tot f l
  | [], _, _, h => by simp at h
  | z :: l, 0, x, h => by simp at h; subst h; simp [tot]
  | z :: l, i + 1, x, h => by
    simp at h
    have := tot_ge (f := f) h
    simp [tot]; omega

theorem tot_two {f : PC → Nat} : ∀ {l : List PC} {i j : Nat} {x y : PC}, l[i]? = some x → l[j]? = some y → i ≠ j → f x + f y ≤ tot f l
  | [], _, _, _, _, h, _, _ => by simp at h
  | z :: l, 0, 0, _, _, _, _, hne => absurd rfl hne
  | z :: l, 0, j + 1, x, y, h, h', _ => by
    simp at h h'; subst h
    have := tot_ge (f := f) h'
    simp [tot]; omega
  | z :: l, i + 1, 0, x, y, h, h', _ => by
    simp at h h'; subst h'
    have := tot_ge (f := f) h
    simp [tot]; omega
  | z :: l, i + 1, j + 1, x, y, h, h', hne => by
    simp at h h'
    have := tot_two (f := f) h h' (by omega)
    simp [tot]; omega

theorem tot_zero {f : PC → Nat} : ∀ {l : List PC}, (∀ x ∈ l, f x = 0) → tot f l = 0
  | [], _ => rfl
  | z :: l, h => by
    have := tot_zero (l := l) fun x hx => h x (by simp [hx])
    simp [tot, h z (by simp), this]

theorem tot_append {f : PC → Nat} : ∀ {l m : List PC}, tot f (l ++ m) = tot f l + tot f m
  | [], _ => by simp [tot]
  | z :: l, m => by simp [tot, tot_append (l := l)]; omega

theorem tot_le {f g : PC → Nat} (h : ∀ x, f x ≤ g x) : ∀ l : List PC, tot f l ≤ tot g l
  | [] => Nat.le_refl _
  | z :: l => Nat.add_le_add (h z) (tot_le h l)

theorem tot_pos {f : PC → Nat} : ∀ {l : List PC}, 0 < tot f l → ∃ (i : Nat) (x : PC), l[i]? = some x ∧ 0 < f x
  | [], h => by simp [tot] at h
  | z :: l, h => by
    by_cases hz : 0 < f z
    · exact ⟨0, z, rfl, hz⟩
    · obtain ⟨i, x, h1, h2⟩ := tot_pos (f := f) (l := l) (by simp [tot] at h; omega)
      exact ⟨i + 1, x, h1, h2⟩

theorem set_get {l : List PC} {i j : Nat} {y z : PC} (h : (l.set i y)[j]? = some z) : (i = j ∧ z = y) ∨ (i ≠ j ∧ l[j]? = some z) := by
  rw [List.getElem?_set] at h
  split at h
  · next e =>
    split at h
    · exact .inl ⟨e, (Option.some.inj h).symm⟩
    · cases h
  · next e => exact .inr ⟨e, h⟩

variable {s s' : Sh} {ags : List PC} {i : Nat} {pc pc' : PC}

/-- All steps, spelled out. -/
theorem step_cases {P : Act → PC → Sh → PC → Sh → Prop}
    (h1 : ∀ t n s, P (.addTask t n) .idle s (begin s t n .user).1 (begin s t n .user).2)
    (h2 : ∀ t n u r s, P (.addTask t n) (.exec u r) s (begin s t n (.task u r)).1 (begin s t n (.task u r)).2)
    (h3 : ∀ t l k c (s : Sh), P .go (.add t (l + 1) k c) s (.add t l k c) { s with queue := s.queue ++ [t] })
    (h4 : ∀ t k c s, P .go (.add t 0 k c) s (.ntf k c) s)
    (h5 : ∀ l c (s : Sh), P .go (.ntf (l + 1) c) s (.ntf l c) { s with sem := s.sem + 1 })
    (h6 : ∀ c s, P .go (.ntf 0 c) s (back c) s)
    (h7 : ∀ s, P .wait .idle s (.test .wait) s)
    (h8 : ∀ r (s : Sh), 0 < s.run → P .go (.test r) s (.pop r) s)
    (h9 : ∀ r (s : Sh), ¬0 < s.run → P .go (.test r) s (.spin r) s)
    (h9b : ∀ r (s : Sh), P .go (.pop r) s (.pop2 r s.begun.length) s)
    (h10 : ∀ r n (s : Sh), s.queue = [] → P .go (.pop2 r n) s (failed r) s)
    (h11 : ∀ r n t q (s : Sh), s.queue = t :: q → P .go (.pop2 r n) s (.exec t r) { s with queue := q, begun := s.begun ++ [t] })
    (h12 : ∀ r n (s : Sh), n < s.begun.length → P .fail (.pop2 r n) s (failed r) s)
    (h13 : ∀ t r (s : Sh), P .go (.exec t r) s (.sub t r) { s with finished := s.finished ++ [t] })
    (h14 : ∀ t (s : Sh), P .go (.sub t .work) s (.pop .work) { s with tasks := s.tasks - 1 })
    (h15 : ∀ t r (s : Sh), r ≠ .work → P .go (.sub t r) s (.test r) { s with tasks := s.tasks - 1 })
    (h16 : ∀ r (s : Sh), 0 < s.tasks → P .go (.spin r) s (.spin r) s)
    (h17 : ∀ s : Sh, s.tasks = 0 → P .go (.spin .dtor) s .dLoad s)
    (h18 : ∀ r (s : Sh), s.tasks = 0 → r ≠ .dtor → P .go (.spin r) s .idle s)
    (h19 : ∀ s : Sh, 0 < s.run → P .go .wTest s .wSem s)
    (h20 : ∀ s : Sh, ¬0 < s.run → P .go .wTest s .wInc s)
    (h21 : ∀ s : Sh, 0 < s.sem → P .go .wSem s (.pop .work) { s with sem := s.sem - 1 })
    (h22 : ∀ s : Sh, P .go .wInc s .gone { s with run := s.run + 1 })
    (h23 : ∀ s : Sh, s.closing = false → P .del .idle s (.test .dtor) { s with closing := true })
    (h24 : ∀ s : Sh, P .go .dLoad s (.dStore s.run) s)
    (h25 : ∀ v (s : Sh), P .go (.dStore v) s (.dNtf s.threads) { s with run := -v, neg := true })
    (h26 : ∀ l (s : Sh), P .go (.dNtf (l + 1)) s (.dNtf l) { s with sem := s.sem + 1 })
    (h27 : ∀ s : Sh, P .go (.dNtf 0) s .dSpin s)
    (h28 : ∀ s : Sh, s.run < 0 → P .go .dSpin s .dSpin s)
    (h29 : ∀ s : Sh, ¬s.run < 0 → P .go .dSpin s .dEnd s)
    {a : Act} (he : step1 a pc s = some (pc', s')) : P a pc s pc' s' := by
  unfold step1 at he
  split at he <;> try contradiction
  · cases he; exact h1 ..
  · cases he; exact h2 ..
  · cases he; exact h3 ..
  · cases he; exact h4 ..
  · cases he; exact h5 ..
  · cases he; exact h6 ..
  · cases he; exact h7 ..
  · cases he; split
    · exact h8 _ _ (by assumption)
    · exact h9 _ _ (by assumption)
  · cases he; exact h9b ..
  · simp only [popQ] at he
    split at he
    · cases he; exact h10 _ _ _ (by assumption)
    · cases he; exact h11 _ _ _ _ _ (by assumption)
  · split at he
    · cases he; exact h12 _ _ _ (by assumption)
    · cases he
  · cases he; exact h13 ..
  · cases he; split
    · next e => subst e; exact h14 ..
    · exact h15 _ _ _ (by assumption)
  · cases he; split
    · exact h16 _ _ (by assumption)
    · split
      · next h e => subst e; exact h17 _ (by omega)
      · next h e => exact h18 _ _ (by omega) e
  · cases he; split
    · exact h19 _ (by assumption)
    · exact h20 _ (by assumption)
  · split at he
    · cases he
    · next h => cases he; exact h21 _ (by omega)
  · cases he; exact h22 ..
  · split at he
    · cases he
    · next h => cases he; exact h23 _ (by simpa using h)
  · cases he; exact h24 ..
  · cases he; exact h25 ..
  · cases he; exact h26 ..
  · cases he; exact h27 ..
  · cases he; split
    · exact h28 _ (by assumption)
    · exact h29 _ (by assumption)

/-! ## Tasks -/

/-- How often instances of `t` are with the thread. -/
def nPend (t : Nat) (pc : PC) : Nat := pc.pending.count t
def nRun (t : Nat) (pc : PC) : Nat := pc.running.count t
def lPend (pc : PC) : Nat := pc.pending.length
def lRun (pc : PC) : Nat := pc.running.length
def lEnd (pc : PC) : Nat := pc.ended.length

theorem running_back (c : Cont) : (back c).running = c.held := by cases c <;> rfl
theorem pending_back (c : Cont) : (back c).pending = [] := by cases c <;> rfl
theorem ended_back (c : Cont) : (back c).ended = [] := by cases c <;> rfl
theorem running_failed (r : Role) : (failed r).running = [] := by cases r <;> rfl
theorem pending_failed (r : Role) : (failed r).pending = [] := by cases r <;> rfl
theorem ended_failed (r : Role) : (failed r).ended = [] := by cases r <;> rfl

structure Tasks (s : Sh) (ags : List PC) : Prop where
  all : ∀ t, s.added.count t = s.queue.count t + tot (nPend t) ags + tot (nRun t) ags + s.finished.count t
  begun : ∀ t, s.begun.count t = tot (nRun t) ags + s.finished.count t
  count : s.tasks = s.queue.length + tot lPend ags + tot lRun ags + tot lEnd ags

theorem task_key (t : Nat) {a : Act} (he : step1 a pc s = some (pc', s')) :
    s'.added.count t + s.queue.count t + nPend t pc + nRun t pc + s.finished.count t =
      s.added.count t + s'.queue.count t + nPend t pc' + nRun t pc' + s'.finished.count t ∧
    s'.begun.count t + nRun t pc + s.finished.count t = s.begun.count t + nRun t pc' + s'.finished.count t := by
  refine step_cases (P := fun _ pc s pc' s' => s'.added.count t + s.queue.count t + nPend t pc + nRun t pc + s.finished.count t =
      s.added.count t + s'.queue.count t + nPend t pc' + nRun t pc' + s'.finished.count t ∧
    s'.begun.count t + nRun t pc + s.finished.count t = s.begun.count t + nRun t pc' + s'.finished.count t)
    ?_ ?_ ?_ ?_ ?_ ?_ ?_ ?_ ?_ ?_ ?_ ?_ ?_ ?_ ?_ ?_ ?_ ?_ ?_ ?_ ?_ ?_ ?_ ?_ ?_ ?_ ?_ ?_ ?_ ?_ he <;> intros <;>
    (try simp only [nPend, nRun, running_back, pending_back, running_failed, pending_failed]) <;>
    simp_all [begin, nPend, nRun, PC.pending, PC.running, Cont.held, running_back, pending_back, running_failed, pending_failed, List.count_append,
      List.replicate_succ, List.count_cons, List.count_replicate] <;> omega

theorem count_key {a : Act} (he : step1 a pc s = some (pc', s')) (hpos : lEnd pc ≤ s.tasks) :
    s'.tasks + s.queue.length + lPend pc + lRun pc + lEnd pc = s.tasks + s'.queue.length + lPend pc' + lRun pc' + lEnd pc' := by
  revert hpos
  refine step_cases (P := fun _ pc s pc' s' => lEnd pc ≤ s.tasks →
    s'.tasks + s.queue.length + lPend pc + lRun pc + lEnd pc = s.tasks + s'.queue.length + lPend pc' + lRun pc' + lEnd pc')
    ?_ ?_ ?_ ?_ ?_ ?_ ?_ ?_ ?_ ?_ ?_ ?_ ?_ ?_ ?_ ?_ ?_ ?_ ?_ ?_ ?_ ?_ ?_ ?_ ?_ ?_ ?_ ?_ ?_ ?_ he <;> intros <;>
    (try simp only [lPend, lRun, lEnd, running_back, pending_back, ended_back, running_failed, pending_failed, ended_failed]) <;>
    simp_all [begin, lPend, lRun, lEnd, PC.pending, PC.running, PC.ended, Cont.held, running_back, pending_back, ended_back, running_failed, pending_failed,
      ended_failed] <;> omega

theorem reach_tasks (h : Reach s ags) : Tasks s ags := by
  induction h with
  | new =>
    have hz : ∀ (f : PC → Nat) k, f .idle = 0 → tot f (List.replicate k .idle) = 0 := fun f k hf => tot_zero fun x hx => by
      rw [(List.mem_replicate.1 hx).2, hf]
    constructor
    · intro t; rw [hz _ _ rfl, hz _ _ rfl]; rfl
    · intro t; rw [hz _ _ rfl]; rfl
    · rw [hz _ _ rfl, hz _ _ rfl, hz _ _ rfl]; rfl
  | spawn _ _ ih =>
    constructor
    · intro t; rw [tot_append, tot_append]; exact ih.all t
    · intro t; rw [tot_append]; exact ih.begun t
    · rw [tot_append, tot_append, tot_append]; exact ih.count
  | @step s ags i a pc pc' s' _ hi he ih =>
    constructor
    · intro t
      have h0 := (task_key t he).1
      have h1 := ih.all t
      have h2 := tot_set (f := nPend t) (y := pc') hi
      have h3 := tot_set (f := nRun t) (y := pc') hi
      omega
    · intro t
      have h0 := (task_key t he).2
      have h1 := ih.begun t
      have h3 := tot_set (f := nRun t) (y := pc') hi
      omega
    · have h1 := ih.count
      have h4 := tot_ge (f := lEnd) hi
      have h0 := count_key he (by omega)
      have h2 := tot_set (f := lPend) (y := pc') hi
      have h3 := tot_set (f := lRun) (y := pc') hi
      have h4 := tot_set (f := lEnd) (y := pc') hi
      omega

/-- Every instance of a task that was added is begun at most once, and each is waiting to be pushed, in the queue, running, or finished: exactly one of these. -/
theorem C44_once (h : Reach s ags) (t : Nat) :
    s.added.count t = s.queue.count t + tot (fun pc => pc.pending.count t) ags + tot (fun pc => pc.running.count t) ags + s.finished.count t ∧
    s.begun.count t = tot (fun pc => pc.running.count t) ags + s.finished.count t := ⟨(reach_tasks h).all t, (reach_tasks h).begun t⟩

theorem count_le_length_tot {t : Nat} : tot (nPend t) ags ≤ tot lPend ags ∧ tot (nRun t) ags ≤ tot lRun ags :=
  ⟨tot_le (fun _ => List.count_le_length) _, tot_le (fun _ => List.count_le_length) _⟩

/-- When `_tasks` is zero, all that was added has been begun once and is finished. -/
theorem all_finished (h : Reach s ags) (hz : s.tasks = 0) : s.finished.Perm s.added ∧ s.begun.Perm s.added := by
  have T := reach_tasks h
  have key : ∀ t, s.queue.count t = 0 ∧ tot (nPend t) ags = 0 ∧ tot (nRun t) ags = 0 := fun t => by
    have h1 := T.count
    have h2 := count_le_length_tot (ags := ags) (t := t)
    have h3 : s.queue.count t ≤ s.queue.length := List.count_le_length
    omega
  refine ⟨List.perm_iff_count.2 fun t => ?_, List.perm_iff_count.2 fun t => ?_⟩
  · have h1 := T.all t
    have h2 := key t
    omega
  · have h1 := T.all t
    have h2 := key t
    have h3 := T.begun t
    omega

/-- `Wait` leaves its loop only in a moment in which every instance of every task added so far (by anybody) has been run exactly once and has returned. -/
theorem C44_wait (h : Reach s ags) {r : Role} (_hi : ags[i]? = some (.spin r)) (he : step1 .go (.spin r) s = some (pc', s')) (hout : pc' ≠ .spin r) :
    s.finished.Perm s.added ∧ s.begun.Perm s.added := by
  refine all_finished h (Decidable.byContradiction fun hz => hout ?_)
  simp only [step1] at he
  rw [if_pos (by omega)] at he
  cases he; rfl

/-! ## Workers -/

def nWork (pc : PC) : Nat := one pc.worker
def nClose (pc : PC) : Nat := one pc.closer
def nSleep (pc : PC) : Nat := one pc.sleeps

structure Life (s : Sh) (ags : List PC) : Prop where
  ok : ∀ (i : Nat) (pc : PC), ags[i]? = some pc → pcOk s pc
  pre : ∀ (i : Nat) (pc : PC), ags[i]? = some pc → pc.early = true → s.neg = false
  close : tot nClose ags = one s.closing
  early : s.closing = false → s.neg = false
  run : s.run = if s.neg then -(tot nWork ags : Int) else (tot nWork ags : Int)
  threads : tot nWork ags ≤ s.threads
  full : s.neg = false → tot nWork ags = s.threads
  wake : s.neg = true → tot nSleep ags ≤ s.sem + tot PC.dleft ags

theorem role_back (c : Cont) : (back c).role = c.role := by cases c <;> rfl
theorem role_failed (r : Role) : (failed r).role = some r := by cases r <;> rfl
theorem sleeps_back (c : Cont) : (back c).sleeps = false := by cases c <;> rfl
theorem sleeps_failed (r : Role) : (failed r).sleeps = false := by cases r <;> rfl
theorem dleft_back (c : Cont) : (back c).dleft = 0 := by cases c <;> rfl
theorem dleft_failed (r : Role) : (failed r).dleft = 0 := by cases r <;> rfl
theorem pcOk_back (c : Cont) : pcOk s (back c) := by cases c <;> trivial
theorem pcOk_failed (r : Role) : pcOk s (failed r) := by cases r <;> simp [failed, pcOk]

theorem early_closer (h : pc.early = true) : nClose pc = 1 := by
  have : pc.closer = true := by cases pc <;> simp_all [PC.early]
  simp [nClose, this, one]

theorem early_back (c : Cont) : (back c).early = (PC.ntf 0 c).early := by cases c <;> rfl
theorem early_failed (r : Role) : (failed r).early = (PC.pop2 r 0).early := by cases r <;> rfl

theorem nWork_back (c : Cont) : nWork (.ntf 0 c) = nWork (back c) := by cases c <;> rfl
theorem nClose_back (c : Cont) : nClose (.ntf 0 c) = nClose (back c) := by cases c <;> rfl
theorem nSleep_back (c : Cont) : nSleep (back c) = 0 := by cases c <;> rfl
theorem nWork_failed (r : Role) : nWork (.pop2 r 0) = nWork (failed r) := by cases r <;> rfl
theorem nClose_failed (r : Role) : nClose (.pop2 r 0) = nClose (failed r) := by cases r <;> rfl
theorem nSleep_failed (r : Role) : nSleep (failed r) = 0 := by cases r <;> rfl

theorem pcOk_congr (h : pcOk s pc) (hp : pc.early = true → s.neg = false) (e1 : s'.run = s.run ∨ s.neg = true) (e2 : s'.neg = s.neg) : pcOk s' pc := by
  cases pc with
  | dStore v =>
    rcases e1 with e1 | e1
    · exact h.trans e1.symm
    · rw [hp rfl] at e1; cases e1
  | _ => simp_all [pcOk]

theorem pcOk_other (h : pcOk s pc) (hc : nClose pc = 0) (e2 : s.neg = true → s'.neg = true) : pcOk s' pc := by
  cases pc <;> simp_all [pcOk, nClose, PC.closer, PC.role, one]

/-- General step. -/
theorem Life.upd (L : Life s ags) (hi : ags[i]? = some pc) (ok' : pcOk s' pc') (pre' : pc'.early = true → s'.neg = false)
    (hother : (s'.run = s.run ∨ s.neg = true) ∧ s'.neg = s.neg ∨ nClose pc = 1 ∧ (s.neg = true → s'.neg = true))
    (hclose : nClose pc + one s'.closing = nClose pc' + one s.closing) (early : s'.closing = false → s'.neg = false)
    (hrun : ∀ W W' : Int, s.run = (if s.neg then -W else W) → W' + nWork pc = W + nWork pc' → s'.run = if s'.neg then -W' else W')
    (hthr : s'.threads = s.threads) (hwork : nWork pc' ≤ nWork pc)
    (hfull : s'.neg = false → s.neg = false ∧ nWork pc' = nWork pc)
    (hwake : s'.neg = true → (s.neg = true ∧ s.sem + pc.dleft + nSleep pc' ≤ s'.sem + pc'.dleft + nSleep pc) ∨ (s.neg = false ∧ s.threads ≤ pc'.dleft ∧ nSleep pc' = 0)) :
    Life s' (ags.set i pc') := by
  have w := tot_set (f := nWork) (y := pc') hi
  have sl := tot_set (f := nSleep) (y := pc') hi
  have dl := tot_set (f := PC.dleft) (y := pc') hi
  refine ⟨fun j q hj => ?_, fun j q hj he => ?_, ?_, early, hrun _ _ L.run (by omega), ?_, fun hn => ?_, fun hn => ?_⟩
  · rcases set_get hj with ⟨-, rfl⟩ | ⟨hij, hj⟩
    · exact ok'
    · rcases hother with ⟨h1, h2⟩ | ⟨h1, h2⟩
      · exact pcOk_congr (L.ok j q hj) (L.pre j q hj) h1 h2
      · refine pcOk_other (L.ok j q hj) ?_ h2
        have h3 := tot_two (f := nClose) hi hj hij
        have h4 := L.close
        have : one s.closing ≤ 1 := by unfold one; split <;> omega
        omega
  · rcases set_get hj with ⟨-, rfl⟩ | ⟨hij, hj⟩
    · exact pre' he
    · rcases hother with ⟨h1, h2⟩ | ⟨h1, h2⟩
      · rw [h2]; exact L.pre j q hj he
      · have h3 := tot_two (f := nClose) hi hj hij
        have h4 := L.close
        have : one s.closing ≤ 1 := by unfold one; split <;> omega
        have := early_closer he
        omega
  · have h1 := tot_set (f := nClose) (y := pc') hi
    have h2 := L.close
    omega
  · have := L.threads
    omega
  · have h1 := L.full (hfull hn).1
    have h2 := (hfull hn).2
    omega
  · rcases hwake hn with ⟨h1, h2⟩ | ⟨h1, h2, h3⟩
    · have h4 := L.wake h1
      omega
    · have h4 := L.threads
      have h5 := tot_le (f := nSleep) (g := nWork) (fun x => by cases x <;> simp [nSleep, nWork, PC.sleeps, one, PC.worker, PC.role]) (ags.set i pc')
      have h6 := tot_ge (f := PC.dleft) (l := ags.set i pc') (i := i) (x := pc') (by
        rw [List.getElem?_set_self]
        exact (List.getElem?_eq_some_iff.1 hi).1)
      omega

theorem Life.step (L : Life s ags) (hi : ags[i]? = some pc) {a : Act} (he : step1 a pc s = some (pc', s')) : Life s' (ags.set i pc') := by
  have ok := L.ok i pc hi
  have pre := L.pre i pc hi
  revert L hi ok pre
  have rg : ∀ (r : Int) (n n' : Bool) (x y : Nat) , n' = n → x = y → ∀ W W' : Int, r = (if n then -W else W) → W' + x = W + y → r = if n' then -W' else W' := by
    intro r n n' x y e1 e2 W W' h1 h2
    subst e1 e2
    have : W' = W := by omega
    rw [this]; exact h1
  refine step_cases (P := fun _ pc s pc' s' => Life s ags → ags[i]? = some pc → pcOk s pc → (pc.early = true → s.neg = false) → Life s' (ags.set i pc'))
    ?_ ?_ ?_ ?_ ?_ ?_ ?_ ?_ ?_ ?_ ?_ ?_ ?_ ?_ ?_ ?_ ?_ ?_ ?_ ?_ ?_ ?_ ?_ ?_ ?_ ?_ ?_ ?_ ?_ ?_ he
  · intro t n s L hi ok pre
    exact L.upd hi (by simp [begin, pcOk]) pre (.inl ⟨.inl rfl, rfl⟩) rfl L.early (rg _ _ _ _ _ rfl rfl) rfl (Nat.le_refl _) (fun h => ⟨h, rfl⟩) (fun h => .inl ⟨h, Nat.le_refl _⟩)
  · intro t n u r s L hi ok pre
    exact L.upd hi (by simp [begin, pcOk]) pre (.inl ⟨.inl rfl, rfl⟩) rfl L.early (rg _ _ _ _ _ rfl rfl) rfl (Nat.le_refl _) (fun h => ⟨h, rfl⟩) (fun h => .inl ⟨h, Nat.le_refl _⟩)
  · intro t l k c s L hi ok pre
    exact L.upd hi (by simp [pcOk] at ok ⊢; omega) pre (.inl ⟨.inl rfl, rfl⟩) rfl L.early (rg _ _ _ _ _ rfl rfl) rfl (Nat.le_refl _) (fun h => ⟨h, rfl⟩) (fun h => .inl ⟨h, Nat.le_refl _⟩)
  · intro t k c s L hi ok pre
    exact L.upd hi trivial pre (.inl ⟨.inl rfl, rfl⟩) rfl L.early (rg _ _ _ _ _ rfl rfl) rfl (Nat.le_refl _) (fun h => ⟨h, rfl⟩) (fun h => .inl ⟨h, Nat.le_refl _⟩)
  · intro l c s L hi ok pre
    exact L.upd hi trivial pre (.inl ⟨.inl rfl, rfl⟩) rfl L.early (rg _ _ _ _ _ rfl rfl) rfl (Nat.le_refl _) (fun h => ⟨h, rfl⟩) (fun h => .inl ⟨h, by show s.sem + 0 + 0 ≤ s.sem + 1 + 0 + 0; omega⟩)
  · intro c s L hi ok pre
    have e1 : nWork (.ntf 0 c) = nWork (back c) := nWork_back c
    exact L.upd hi (pcOk_back c) (by rw [early_back]; exact pre) (.inl ⟨.inl rfl, rfl⟩) (by rw [nClose_back]) L.early (rg _ _ _ _ _ rfl e1)
      rfl (by omega) (fun h => ⟨h, e1.symm⟩) (fun h => .inl ⟨h, by rw [nSleep_back, dleft_back]; simp [PC.dleft]⟩)
  · intro s L hi ok pre
    exact L.upd hi (by simp [pcOk]) pre (.inl ⟨.inl rfl, rfl⟩) rfl L.early (rg _ _ _ _ _ rfl rfl) rfl (Nat.le_refl _) (fun h => ⟨h, rfl⟩) (fun h => .inl ⟨h, Nat.le_refl _⟩)
  · intro r s _ L hi ok pre
    exact L.upd hi trivial pre (.inl ⟨.inl rfl, rfl⟩) rfl L.early (rg _ _ _ _ _ rfl rfl) rfl (Nat.le_refl _) (fun h => ⟨h, rfl⟩) (fun h => .inl ⟨h, Nat.le_refl _⟩)
  · intro r s _ L hi ok pre
    exact L.upd hi ok pre (.inl ⟨.inl rfl, rfl⟩) rfl L.early (rg _ _ _ _ _ rfl rfl) rfl (Nat.le_refl _) (fun h => ⟨h, rfl⟩) (fun h => .inl ⟨h, Nat.le_refl _⟩)
  · intro r s L hi ok pre
    exact L.upd hi trivial pre (.inl ⟨.inl rfl, rfl⟩) rfl L.early (rg _ _ _ _ _ rfl rfl) rfl (Nat.le_refl _) (fun h => ⟨h, rfl⟩) (fun h => .inl ⟨h, Nat.le_refl _⟩)
  · intro r n s _ L hi ok pre
    have e1 : nWork (.pop2 r n) = nWork (failed r) := nWork_failed r
    exact L.upd hi (pcOk_failed r) (by rw [early_failed]; exact pre) (.inl ⟨.inl rfl, rfl⟩) (by rw [← nClose_failed]; rfl) L.early (rg _ _ _ _ _ rfl e1)
      rfl (by omega) (fun h => ⟨h, e1.symm⟩) (fun h => .inl ⟨h, by rw [nSleep_failed, dleft_failed]; simp [PC.dleft]⟩)
  · intro r n t q s _ L hi ok pre
    exact L.upd hi trivial pre (.inl ⟨.inl rfl, rfl⟩) rfl L.early (rg _ _ _ _ _ rfl rfl) rfl (Nat.le_refl _) (fun h => ⟨h, rfl⟩) (fun h => .inl ⟨h, Nat.le_refl _⟩)
  · intro r n s _ L hi ok pre
    have e1 : nWork (.pop2 r n) = nWork (failed r) := nWork_failed r
    exact L.upd hi (pcOk_failed r) (by rw [early_failed]; exact pre) (.inl ⟨.inl rfl, rfl⟩) (by rw [← nClose_failed]; rfl) L.early (rg _ _ _ _ _ rfl e1)
      rfl (by omega) (fun h => ⟨h, e1.symm⟩) (fun h => .inl ⟨h, by rw [nSleep_failed, dleft_failed]; simp [PC.dleft]⟩)
  · intro t r s L hi ok pre
    exact L.upd hi trivial pre (.inl ⟨.inl rfl, rfl⟩) rfl L.early (rg _ _ _ _ _ rfl rfl) rfl (Nat.le_refl _) (fun h => ⟨h, rfl⟩) (fun h => .inl ⟨h, Nat.le_refl _⟩)
  · intro t s L hi ok pre
    exact L.upd hi trivial pre (.inl ⟨.inl rfl, rfl⟩) rfl L.early (rg _ _ _ _ _ rfl rfl) rfl (Nat.le_refl _) (fun h => ⟨h, rfl⟩) (fun h => .inl ⟨h, Nat.le_refl _⟩)
  · intro t r s hr L hi ok pre
    exact L.upd hi hr pre (.inl ⟨.inl rfl, rfl⟩) rfl L.early (rg _ _ _ _ _ rfl rfl) rfl (Nat.le_refl _) (fun h => ⟨h, rfl⟩) (fun h => .inl ⟨h, Nat.le_refl _⟩)
  · intro r s _ L hi ok pre
    exact L.upd hi ok pre (.inl ⟨.inl rfl, rfl⟩) rfl L.early (rg _ _ _ _ _ rfl rfl) rfl (Nat.le_refl _) (fun h => ⟨h, rfl⟩) (fun h => .inl ⟨h, Nat.le_refl _⟩)
  · intro s _ L hi ok pre
    exact L.upd hi trivial pre (.inl ⟨.inl rfl, rfl⟩) rfl L.early (rg _ _ _ _ _ rfl rfl) rfl (Nat.le_refl _) (fun h => ⟨h, rfl⟩) (fun h => .inl ⟨h, Nat.le_refl _⟩)
  · intro r s _ hr L hi ok pre
    have hr' : r = .wait := by cases r <;> simp_all [pcOk]
    subst hr'
    exact L.upd hi trivial pre (.inl ⟨.inl rfl, rfl⟩) rfl L.early (rg _ _ _ _ _ rfl rfl) rfl (Nat.le_refl _) (fun h => ⟨h, rfl⟩) (fun h => .inl ⟨h, Nat.le_refl _⟩)
  · intro s hrun L hi ok pre
    refine L.upd hi trivial pre (.inl ⟨.inl rfl, rfl⟩) rfl L.early (rg _ _ _ _ _ rfl rfl) rfl (Nat.le_refl _) (fun h => ⟨h, rfl⟩) (fun h => ?_)
    have := L.run
    rw [if_pos h] at this
    omega
  · intro s hrun L hi ok pre
    have hw := tot_ge (f := nWork) hi
    have : nWork .wTest = 1 := rfl
    have hr := L.run
    have hn : s.neg = true := by
      cases hn : s.neg with
      | true => rfl
      | false => rw [hn] at hr; simp at hr; omega
    exact L.upd hi hn pre (.inl ⟨.inl rfl, rfl⟩) rfl L.early (rg _ _ _ _ _ rfl rfl) rfl (Nat.le_refl _) (fun h => ⟨h, rfl⟩) (fun h => .inl ⟨h, Nat.le_refl _⟩)
  · intro s hs L hi ok pre
    exact L.upd hi trivial pre (.inl ⟨.inl rfl, rfl⟩) rfl L.early (rg _ _ _ _ _ rfl rfl) rfl (Nat.le_refl _) (fun h => ⟨h, rfl⟩) (fun h => .inl ⟨h, by show s.sem + 0 + 0 ≤ s.sem - 1 + 0 + 1; omega⟩)
  · intro s L hi ok pre
    have hn : s.neg = true := ok
    refine L.upd hi ok pre (.inl ⟨.inr hn, rfl⟩) rfl L.early (fun W W' h1 h2 => ?_) rfl (by decide) (fun h => (by have h : s.neg = false := h; rw [hn] at h; cases h)) (fun h => .inl ⟨h, Nat.le_refl _⟩)
    have e1 : nWork .wInc = 1 := rfl
    have e2 : nWork .gone = 0 := rfl
    rw [if_pos hn] at h1
    show s.run + 1 = if s.neg then _ else _
    rw [if_pos hn]
    omega
  · intro s hc L hi ok pre
    exact L.upd hi (by simp [pcOk]) (fun _ => L.early hc) (.inl ⟨.inl rfl, rfl⟩) (by simp [hc, one, nClose, PC.closer, PC.role]) (fun h => nomatch h) (rg _ _ _ _ _ rfl rfl) rfl (Nat.le_refl _) (fun h => ⟨h, rfl⟩)
      (fun h => .inl ⟨h, Nat.le_refl _⟩)
  · intro s L hi ok pre
    exact L.upd hi rfl pre (.inl ⟨.inl rfl, rfl⟩) rfl L.early (rg _ _ _ _ _ rfl rfl) rfl (Nat.le_refl _) (fun h => ⟨h, rfl⟩) (fun h => .inl ⟨h, Nat.le_refl _⟩)
  · intro v s L hi ok pre
    have hv : v = s.run := ok
    have hn := pre rfl
    refine L.upd hi rfl (fun h => nomatch h) (.inr ⟨rfl, fun _ => rfl⟩) rfl (fun h => ?_) (fun W W' h1 h2 => ?_) rfl (Nat.le_refl _) (fun h => nomatch h) (fun _ => .inr ⟨hn, Nat.le_refl _, rfl⟩)
    · have h1 := tot_ge (f := nClose) hi
      have h2 := L.close
      have h : s.closing = false := h
      rw [h] at h2
      have h3 : nClose (.dStore v) = 1 := rfl
      have h4 : one false = 0 := rfl
      omega
    · have e1 : nWork (.dStore v) = 0 := rfl
      have e2 : nWork (.dNtf s.threads) = 0 := rfl
      rw [hn] at h1
      simp at h1 ⊢
      omega
  · intro l s L hi ok pre
    exact L.upd hi ok pre (.inl ⟨.inl rfl, rfl⟩) rfl L.early (rg _ _ _ _ _ rfl rfl) rfl (Nat.le_refl _) (fun h => ⟨h, rfl⟩) (fun h => .inl ⟨h, by show s.sem + (l + 1) + 0 ≤ s.sem + 1 + l + 0; omega⟩)
  · intro s L hi ok pre
    exact L.upd hi ok pre (.inl ⟨.inl rfl, rfl⟩) rfl L.early (rg _ _ _ _ _ rfl rfl) rfl (Nat.le_refl _) (fun h => ⟨h, rfl⟩) (fun h => .inl ⟨h, Nat.le_refl _⟩)
  · intro s _ L hi ok pre
    exact L.upd hi ok pre (.inl ⟨.inl rfl, rfl⟩) rfl L.early (rg _ _ _ _ _ rfl rfl) rfl (Nat.le_refl _) (fun h => ⟨h, rfl⟩) (fun h => .inl ⟨h, Nat.le_refl _⟩)
  · intro s _ L hi ok pre
    exact L.upd hi ok pre (.inl ⟨.inl rfl, rfl⟩) rfl L.early (rg _ _ _ _ _ rfl rfl) rfl (Nat.le_refl _) (fun h => ⟨h, rfl⟩) (fun h => .inl ⟨h, Nat.le_refl _⟩)

theorem get_append {x : PC} {j : Nat} {q : PC} (h : (ags ++ [x])[j]? = some q) : ags[j]? = some q ∨ (j = ags.length ∧ q = x) := by
  rw [List.getElem?_append] at h
  split at h
  · exact .inl h
  · next hl =>
    rw [List.getElem?_singleton] at h
    split at h
    · exact .inr ⟨by omega, (Option.some.inj h).symm⟩
    · cases h

theorem Life.spawn (L : Life s ags) (hc : s.closing = false) : Life (spawn s) (ags ++ [.wTest]) := by
  have hn := L.early hc
  have w : tot nWork (ags ++ [.wTest]) = tot nWork ags + 1 := tot_append
  have c : tot nClose (ags ++ [.wTest]) = tot nClose ags := tot_append
  have hcl : tot nClose ags = 0 := by rw [L.close, hc]; rfl
  refine ⟨fun j q hj => ?_, fun j q hj he => hn, by rw [c]; exact L.close, L.early, ?_, ?_, fun _ => ?_, fun h => ?_⟩
  · rcases get_append hj with hj | ⟨-, rfl⟩
    · refine pcOk_other (L.ok j q hj) ?_ (fun h => h)
      have := tot_ge (f := nClose) hj
      omega
    · trivial
  · have h1 := L.run
    rw [hn] at h1
    show s.run + 1 = if s.neg then _ else _
    rw [hn, w]
    simp at h1 ⊢
    exact h1
  · rw [w]; exact Nat.succ_le_succ L.threads
  · rw [w, L.full hn]; rfl
  · have h : s.neg = true := h
    rw [hn] at h; cases h

theorem reach_life (h : Reach s ags) : Life s ags := by
  induction h with
  | new =>
    have hz : ∀ (f : PC → Nat) k, f .idle = 0 → tot f (List.replicate k .idle) = 0 := fun f k hf => tot_zero fun x hx => by
      rw [(List.mem_replicate.1 hx).2, hf]
    have hp : ∀ (k i : Nat) (pc : PC), (List.replicate k PC.idle)[i]? = some pc → pc = .idle := fun k i pc h => by
      rw [List.getElem?_replicate] at h
      split at h
      · exact (Option.some.inj h).symm
      · cases h
    refine ⟨fun i pc h => by rw [hp _ i pc h]; trivial, fun i pc h he => rfl, by rw [hz _ _ rfl]; rfl, fun _ => rfl, ?_, ?_, ?_, fun h => nomatch h⟩
    · rw [hz _ _ rfl]; rfl
    · rw [hz _ _ rfl]; exact Nat.zero_le _
    · intro _; rw [hz _ _ rfl]; rfl
  | spawn _ hc ih => exact ih.spawn hc
  | step _ hi he ih => exact ih.step hi he

/-- The destructor returns only when every worker has left its loop for good. -/
theorem C44_dtor (h : Reach s ags) (_hi : ags[i]? = some .dSpin) (he : step1 .go .dSpin s = some (.dEnd, s')) :
    ∀ (j : Nat) (q : PC), ags[j]? = some q → q.worker = false := by
  have L := reach_life h
  have hn : s.neg = true := L.ok i _ _hi
  have hr : ¬s.run < 0 := by
    intro hr
    simp [step1, hr] at he
  intro j q hj
  have h1 := L.run
  rw [if_pos hn] at h1
  have h2 := tot_ge (f := nWork) hj
  cases hw : q.worker with
  | false => rfl
  | true =>
    have : nWork q = 1 := by simp [nWork, hw, one]
    omega

/-! ## Nobody waits in vain -/

def nAdd (pc : PC) : Nat := one pc.adds

structure Watch (s : Sh) (ags : List PC) : Prop where
  noThr : s.threads = 0 → s.queue = [] ∨ 0 < s.sem ∨ 0 < tot nAdd ags
  hasThr : s.neg = false → s.queue = [] ∨ 0 < s.sem ∨ ∃ (i : Nat) (pc : PC), ags[i]? = some pc ∧ pc.watch s.begun.length = true

theorem set_self (hi : ags[i]? = some pc) : (ags.set i pc')[i]? = some pc' := by
  rw [List.getElem?_set_self]
  exact (List.getElem?_eq_some_iff.1 hi).1

theorem adds_watch {n : Nat} (h : pc.adds = true) : pc.watch n = true := by
  cases pc <;> simp_all [PC.adds, PC.watch]

/-- General step. -/
theorem Watch.upd (w : Watch s ags) (hi : ags[i]? = some pc) (ht : s'.threads = s.threads) (hn : s'.neg = false → s.neg = false)
    (h : s'.queue = [] ∨ 0 < s'.sem ∨ pc'.adds = true ∨
      ((s.queue = [] → s'.queue = []) ∧ (s.threads = 0 → s.sem ≤ s'.sem) ∧ (s.sem ≤ s'.sem ∨ pc'.watch s'.begun.length = true) ∧ (pc.adds = true → pc'.adds = true) ∧
        (pc'.watch s'.begun.length = true ∨
          (s'.begun = s.begun ∧ (pc.watch s.begun.length = true → s.neg = false → s.queue = [] ∨ 0 < s.sem))))) : Watch s' (ags.set i pc') := by
  rcases h with h | h | h | ⟨h1, h2, h2', h3, h4⟩
  · exact ⟨fun _ => .inl h, fun _ => .inl h⟩
  · exact ⟨fun _ => .inr (.inl h), fun _ => .inr (.inl h)⟩
  · refine ⟨fun _ => .inr (.inr ?_), fun _ => .inr (.inr ⟨i, pc', set_self hi, adds_watch h⟩)⟩
    have := tot_ge (f := nAdd) (set_self (pc' := pc') hi)
    have e : nAdd pc' = 1 := by simp [nAdd, h, one]
    omega
  · constructor
    · intro h0
      rw [ht] at h0
      rcases w.noThr h0 with h | h | h
      · exact .inl (h1 h)
      · exact .inr (.inl (Nat.lt_of_lt_of_le h (h2 h0)))
      · refine .inr (.inr ?_)
        have e := tot_set (f := nAdd) (y := pc') hi
        have e2 : nAdd pc ≤ nAdd pc' := by
          unfold nAdd
          cases hp : pc.adds with
          | false => simp [one]
          | true => rw [h3 hp]; exact Nat.le_refl _
        omega
    · intro h0
      rcases h4 with h4 | ⟨h4, h5⟩
      · exact .inr (.inr ⟨i, pc', set_self hi, h4⟩)
      · rcases w.hasThr (hn h0) with h | h | ⟨j, q, hj, hq⟩
        · exact .inl (h1 h)
        · rcases h2' with h2' | h2'
          · exact .inr (.inl (by omega))
          · exact .inr (.inr ⟨i, pc', set_self hi, h2'⟩)
        · by_cases hij : i = j
          · subst hij
            rw [hi] at hj; cases hj
            rcases h5 hq (hn h0) with h | h
            · exact .inl (h1 h)
            · rcases h2' with h2' | h2'
              · exact .inr (.inl (by omega))
              · exact .inr (.inr ⟨i, pc', set_self hi, h2'⟩)
          · exact .inr (.inr ⟨j, q, by rw [List.getElem?_set_ne hij]; exact hj, by rw [h4]; exact hq⟩)

theorem Watch.step (w : Watch s ags) (L : Life s ags) (hi : ags[i]? = some pc) {a : Act} (he : step1 a pc s = some (pc', s')) : Watch s' (ags.set i pc') := by
  have ok := L.ok i pc hi
  revert w L hi ok
  refine step_cases (P := fun _ pc s pc' s' => Watch s ags → Life s ags → ags[i]? = some pc → pcOk s pc → Watch s' (ags.set i pc'))
    ?_ ?_ ?_ ?_ ?_ ?_ ?_ ?_ ?_ ?_ ?_ ?_ ?_ ?_ ?_ ?_ ?_ ?_ ?_ ?_ ?_ ?_ ?_ ?_ ?_ ?_ ?_ ?_ ?_ ?_ he
  · intro t n s w L hi ok
    refine w.upd hi rfl id (.inr (.inr (.inr ⟨id, fun _ => Nat.le_refl _, .inl (Nat.le_refl _), (fun h => nomatch h), .inr ⟨rfl, fun h => nomatch h⟩⟩)))
  · intro t n u r s w L hi ok
    refine w.upd hi rfl id (.inr (.inr (.inr ⟨id, fun _ => Nat.le_refl _, .inl (Nat.le_refl _), (fun h => nomatch h), .inl ?_⟩)))
    simp [begin, PC.watch, Cont.inTask]
  · intro t l k c s w L hi ok
    refine w.upd hi rfl id (.inr (.inr (.inl ?_)))
    simp [pcOk] at ok
    simp [PC.adds]; omega
  · intro t k c s w L hi ok
    refine w.upd hi rfl id (.inr (.inr (.inr ⟨id, fun _ => Nat.le_refl _, .inl (Nat.le_refl _), fun h => h, ?_⟩)))
    cases hw : (PC.ntf k c).watch s.begun.length with
    | true => exact .inl rfl
    | false => exact .inr ⟨rfl, fun h => by rw [show (PC.add t 0 k c).watch s.begun.length = (PC.ntf k c).watch s.begun.length from rfl, hw] at h; cases h⟩
  · intro l c s w L hi ok
    exact w.upd hi rfl id (.inr (.inl (Nat.succ_pos _)))
  · intro c s w L hi ok
    refine w.upd hi rfl id (.inr (.inr (.inr ⟨id, fun _ => Nat.le_refl _, .inl (Nat.le_refl _), (fun h => nomatch h), ?_⟩)))
    cases c with
    | user => exact .inr ⟨rfl, fun h => nomatch h⟩
    | task t r => exact .inl rfl
  · intro s w L hi ok
    exact w.upd hi rfl id (.inr (.inr (.inr ⟨id, fun _ => Nat.le_refl _, .inl (Nat.le_refl _), (fun h => nomatch h), .inl rfl⟩)))
  · intro r s _ w L hi ok
    exact w.upd hi rfl id (.inr (.inr (.inr ⟨id, fun _ => Nat.le_refl _, .inl (Nat.le_refl _), (fun h => nomatch h), .inl rfl⟩)))
  · intro r s hr w L hi ok
    have key : s.neg = false → s.threads = 0 := fun hn => by
      have h1 := L.run
      rw [hn] at h1
      have h2 := L.full hn
      simp at h1
      omega
    by_cases hn : s.neg = false
    · -- no workers
      have h0 := key hn
      rcases w.noThr h0 with h | h | h
      · exact w.upd hi rfl id (.inl h)
      · exact w.upd hi rfl id (.inr (.inl h))
      · obtain ⟨j, q, hj, hq⟩ := tot_pos h
        have hqa : q.adds = true := by
          cases e : q.adds with
          | true => rfl
          | false => simp [nAdd, e, one] at hq
        have hij : i ≠ j := by
          intro e
          subst e
          rw [hi] at hj; cases hj
          cases hqa
        have hj' : (ags.set i (.spin r))[j]? = some q := by rw [List.getElem?_set_ne hij]; exact hj
        refine ⟨fun _ => .inr (.inr ?_), fun _ => .inr (.inr ⟨j, q, hj', adds_watch hqa⟩)⟩
        have := tot_ge (f := nAdd) hj'
        omega
    · exact w.upd hi rfl id (.inr (.inr (.inr ⟨id, fun _ => Nat.le_refl _, .inl (Nat.le_refl _), (fun h => nomatch h), .inr ⟨rfl, fun _ h => absurd h hn⟩⟩)))
  · intro r s w L hi ok
    exact w.upd hi rfl id (.inr (.inr (.inr ⟨id, fun _ => Nat.le_refl _, .inl (Nat.le_refl _), (fun h => nomatch h), .inl (by simp [PC.watch])⟩)))
  · intro r n s hq w L hi ok
    exact w.upd hi rfl id (.inl hq)
  · intro r n t q s hq w L hi ok
    exact w.upd hi rfl id (.inr (.inr (.inr ⟨(fun h => by rw [hq] at h; cases h), fun _ => Nat.le_refl _, .inl (Nat.le_refl _), (fun h => nomatch h), .inl rfl⟩)))
  · intro r n s hlt w L hi ok
    refine w.upd hi rfl id (.inr (.inr (.inr ⟨id, fun _ => Nat.le_refl _, .inl (Nat.le_refl _), (fun h => nomatch h), .inr ⟨rfl, fun h => ?_⟩⟩)))
    simp [PC.watch] at h
    omega
  · intro t r s w L hi ok
    exact w.upd hi rfl id (.inr (.inr (.inr ⟨id, fun _ => Nat.le_refl _, .inl (Nat.le_refl _), (fun h => nomatch h), .inl rfl⟩)))
  · intro t s w L hi ok
    exact w.upd hi rfl id (.inr (.inr (.inr ⟨id, fun _ => Nat.le_refl _, .inl (Nat.le_refl _), (fun h => nomatch h), .inl rfl⟩)))
  · intro t r s _ w L hi ok
    exact w.upd hi rfl id (.inr (.inr (.inr ⟨id, fun _ => Nat.le_refl _, .inl (Nat.le_refl _), (fun h => nomatch h), .inl rfl⟩)))
  · intro r s _ w L hi ok
    exact w.upd hi rfl id (.inr (.inr (.inr ⟨id, fun _ => Nat.le_refl _, .inl (Nat.le_refl _), (fun h => nomatch h), .inr ⟨rfl, fun h => nomatch h⟩⟩)))
  · intro s _ w L hi ok
    exact w.upd hi rfl id (.inr (.inr (.inr ⟨id, fun _ => Nat.le_refl _, .inl (Nat.le_refl _), (fun h => nomatch h), .inr ⟨rfl, fun h => nomatch h⟩⟩)))
  · intro r s _ _ w L hi ok
    exact w.upd hi rfl id (.inr (.inr (.inr ⟨id, fun _ => Nat.le_refl _, .inl (Nat.le_refl _), (fun h => nomatch h), .inr ⟨rfl, fun h => nomatch h⟩⟩)))
  · intro s _ w L hi ok
    exact w.upd hi rfl id (.inr (.inr (.inr ⟨id, fun _ => Nat.le_refl _, .inl (Nat.le_refl _), (fun h => nomatch h), .inr ⟨rfl, fun h => nomatch h⟩⟩)))
  · intro s _ w L hi ok
    exact w.upd hi rfl id (.inr (.inr (.inr ⟨id, fun _ => Nat.le_refl _, .inl (Nat.le_refl _), (fun h => nomatch h), .inr ⟨rfl, fun h => nomatch h⟩⟩)))
  · intro s _ w L hi ok
    refine w.upd hi rfl id (.inr (.inr (.inr ⟨id, fun h0 => ?_, .inr rfl, (fun h => nomatch h), .inl rfl⟩)))
    have h1 := tot_ge (f := nWork) hi
    have h2 := L.threads
    have h3 : nWork .wSem = 1 := rfl
    omega
  · intro s w L hi ok
    exact w.upd hi rfl id (.inr (.inr (.inr ⟨id, fun _ => Nat.le_refl _, .inl (Nat.le_refl _), (fun h => nomatch h), .inr ⟨rfl, fun h => nomatch h⟩⟩)))
  · intro s _ w L hi ok
    exact w.upd hi rfl id (.inr (.inr (.inr ⟨id, fun _ => Nat.le_refl _, .inl (Nat.le_refl _), (fun h => nomatch h), .inl rfl⟩)))
  · intro s w L hi ok
    exact w.upd hi rfl id (.inr (.inr (.inr ⟨id, fun _ => Nat.le_refl _, .inl (Nat.le_refl _), (fun h => nomatch h), .inr ⟨rfl, fun h => nomatch h⟩⟩)))
  · intro v s w L hi ok
    exact w.upd hi rfl (fun h => nomatch h) (.inr (.inr (.inr ⟨id, fun _ => Nat.le_refl _, .inl (Nat.le_refl _), (fun h => nomatch h), .inr ⟨rfl, fun h => nomatch h⟩⟩)))
  · intro l s w L hi ok
    exact w.upd hi rfl id (.inr (.inl (Nat.succ_pos _)))
  · intro s w L hi ok
    exact w.upd hi rfl id (.inr (.inr (.inr ⟨id, fun _ => Nat.le_refl _, .inl (Nat.le_refl _), (fun h => nomatch h), .inr ⟨rfl, fun h => nomatch h⟩⟩)))
  · intro s _ w L hi ok
    exact w.upd hi rfl id (.inr (.inr (.inr ⟨id, fun _ => Nat.le_refl _, .inl (Nat.le_refl _), (fun h => nomatch h), .inr ⟨rfl, fun h => nomatch h⟩⟩)))
  · intro s _ w L hi ok
    exact w.upd hi rfl id (.inr (.inr (.inr ⟨id, fun _ => Nat.le_refl _, .inl (Nat.le_refl _), (fun h => nomatch h), .inr ⟨rfl, fun h => nomatch h⟩⟩)))

theorem reach_watch (h : Reach s ags) : Watch s ags := by
  induction h with
  | new => exact ⟨fun _ => .inl rfl, fun _ => .inl rfl⟩
  | @spawn s ags hr hc ih =>
    refine ⟨fun h => absurd h (Nat.succ_ne_zero _), fun hn => ?_⟩
    rcases ih.hasThr hn with h | h | ⟨j, q, hj, hq⟩
    · exact .inl h
    · exact .inr (.inl h)
    · exact .inr (.inr ⟨j, q, by rw [List.getElem?_append_left (List.getElem?_eq_some_iff.1 hj).1]; exact hj, hq⟩)
  | step hr hi he ih => exact ih.step (reach_life hr) hi he

theorem weight_back (c : Cont) (n : Nat) : (back c).weight n = c.weight := by cases c <;> rfl

theorem weight_failed (r : Role) (n : Nat) : (failed r).weight n ≤ 2 := by cases r <;> simp [failed, PC.weight]

/-- While tasks are outstanding, going on is either waiting (nothing changes) or brings all threads together closer to the end. -/
theorem step_measure (hi : ags[i]? = some pc) (ht : 0 < s.tasks) {a : Act} (ha : a = .go ∨ a = .fail) (he : step1 a pc s = some (pc', s')) :
    (pc' = pc ∧ s' = s) ∨ measure s' (ags.set i pc') < measure s ags := by
  have key : (pc' = pc ∧ s' = s) ∨ (s'.threads = s.threads ∧
      5 * s'.queue.length + 5 * s'.sem + pc'.weight s.threads < 5 * s.queue.length + 5 * s.sem + pc.weight s.threads) := by
    revert ht ha
    refine step_cases (P := fun a pc s pc' s' => 0 < s.tasks → (a = .go ∨ a = .fail) → (pc' = pc ∧ s' = s) ∨ (s'.threads = s.threads ∧
      5 * s'.queue.length + 5 * s'.sem + pc'.weight s.threads < 5 * s.queue.length + 5 * s.sem + pc.weight s.threads))
      ?_ ?_ ?_ ?_ ?_ ?_ ?_ ?_ ?_ ?_ ?_ ?_ ?_ ?_ ?_ ?_ ?_ ?_ ?_ ?_ ?_ ?_ ?_ ?_ ?_ ?_ ?_ ?_ ?_ ?_ he
    all_goals intros
    all_goals first
      | (next h => rcases h with h | h <;> cases h; done)
      | (exact .inl ⟨rfl, rfl⟩)
      | (refine .inr ⟨rfl, ?_⟩; simp_all [PC.weight, weight_back]; omega)
      | (refine .inr ⟨rfl, ?_⟩; simp_all [PC.weight, weight_back]; done)
      | (refine .inr ⟨rfl, ?_⟩; rw [weight_back]; simp [PC.weight]; done)
      | (refine .inr ⟨rfl, ?_⟩; next r n s _ _ _ => have h1 := weight_failed r s.threads; have h2 : (PC.pop2 r n).weight s.threads = 3 := rfl; omega)
      | (exfalso; omega)
  rcases key with h | ⟨h1, h2⟩
  · exact .inl h
  · refine .inr ?_
    have e := tot_set (f := PC.weight s.threads) (y := pc') hi
    unfold measure
    rw [h1]
    omega

/-- In a call of `AddTask`, or in a loop that looks for tasks. -/
def PC.active : PC → Bool
  | .add .. | .ntf .. | .pop _ | .pop2 .. | .exec .. | .sub .. => true
  | _ => false

theorem active_step (h : pc.active = true) : ∃ pc' s', step1 .go pc s = some (pc', s') ∧ pc' ≠ pc ∧ s'.run = s.run ∧ s'.added = s.added := by
  cases pc <;> simp only [PC.active] at h <;> try contradiction
  · next t l k c => cases l with
    | zero => exact ⟨_, _, rfl, by simp, rfl, rfl⟩
    | succ l => exact ⟨_, _, rfl, by simp, rfl, rfl⟩
  · next l c => cases l with
    | zero => exact ⟨_, _, rfl, by cases c <;> simp [back], rfl, rfl⟩
    | succ l => exact ⟨_, _, rfl, by simp, rfl, rfl⟩
  · exact ⟨_, _, rfl, by simp, rfl, rfl⟩
  · next r n =>
    simp only [step1, popQ]
    split
    · exact ⟨_, _, rfl, by cases r <;> simp [failed], rfl, rfl⟩
    · exact ⟨_, _, rfl, by simp, rfl, rfl⟩
  · exact ⟨_, _, rfl, by simp, rfl, rfl⟩
  · exact ⟨_, _, rfl, by split <;> simp, rfl, rfl⟩

theorem watch_active {n : Nat} (h : pc.watch n = true) : pc.active = true ∨ ∃ r, pc = .test r := by
  cases pc <;> simp_all [PC.watch, PC.active]

theorem worker_cases (hx : pc.worker = true) (ha : ¬pc.active = true) (ok : pcOk s pc) : pc = .wTest ∨ pc = .wSem ∨ pc = .wInc := by
  cases pc <;> simp_all [PC.worker, PC.active, PC.role, pcOk]

/-- As long as there are workers and tasks are outstanding, some thread can do something other than waiting, and it brings the end closer. -/
theorem C44_progress (h : Reach s ags) (hr : 0 < s.run) (ht : 0 < s.tasks) :
    ∃ (i : Nat) (pc pc' : PC) (s' : Sh), ags[i]? = some pc ∧ step1 .go pc s = some (pc', s') ∧ pc' ≠ pc ∧ s'.run = s.run ∧ s'.added = s.added ∧
      measure s' (ags.set i pc') < measure s ags := by
  have T := reach_tasks h
  have L := reach_life h
  have hn : s.neg = false := by
    cases e : s.neg with
    | false => rfl
    | true =>
      have := L.run
      rw [e] at this
      simp at this
      omega
  suffices H : ∃ (i : Nat) (pc pc' : PC) (s' : Sh), ags[i]? = some pc ∧ step1 .go pc s = some (pc', s') ∧ pc' ≠ pc ∧ s'.run = s.run ∧ s'.added = s.added by
    obtain ⟨i, pc, pc', s', h1, h2, h3, h4, h5⟩ := H
    refine ⟨i, pc, pc', s', h1, h2, h3, h4, h5, ?_⟩
    rcases step_measure h1 ht (.inl rfl) h2 with ⟨h, -⟩ | h
    · exact absurd h h3
    · exact h
  have act : ∀ (i : Nat) (pc : PC), ags[i]? = some pc → pc.active = true →
      ∃ (i : Nat) (pc pc' : PC) (s' : Sh), ags[i]? = some pc ∧ step1 .go pc s = some (pc', s') ∧ pc' ≠ pc ∧ s'.run = s.run ∧ s'.added = s.added := fun i pc hi ha => by
    obtain ⟨pc', s', h1, h2, h3, h4⟩ := active_step (s := s) ha
    exact ⟨i, pc, pc', s', hi, h1, h2, h3, h4⟩
  by_cases hp : 0 < tot lPend ags
  · obtain ⟨i, pc, hi, hx⟩ := tot_pos hp
    exact act i pc hi (by cases pc <;> simp_all [lPend, PC.pending, PC.active])
  by_cases hp : 0 < tot lRun ags
  · obtain ⟨i, pc, hi, hx⟩ := tot_pos hp
    exact act i pc hi (by cases pc <;> simp_all [lRun, PC.running, PC.active])
  by_cases hp : 0 < tot lEnd ags
  · obtain ⟨i, pc, hi, hx⟩ := tot_pos hp
    exact act i pc hi (by cases pc <;> simp_all [lEnd, PC.ended, PC.active])
  have hq : s.queue ≠ [] := fun e => by
    have := T.count
    simp only [e, List.length_nil] at this
    omega
  rcases (reach_watch h).hasThr hn with h | hs | ⟨i, pc, hi, hw⟩
  · exact absurd h hq
  · -- a worker takes the notification
    have hw : 0 < tot nWork ags := by
      have := L.run
      rw [hn] at this
      simp at this
      omega
    obtain ⟨i, pc, hi, hx⟩ := tot_pos hw
    have hx : pc.worker = true := by
      cases e : pc.worker with
      | true => rfl
      | false => simp [nWork, e, one] at hx
    by_cases ha : pc.active = true
    · exact act i pc hi ha
    have ok := L.ok i pc hi
    rcases worker_cases hx ha ok with rfl | rfl | rfl
    · exact ⟨i, _, _, _, hi, rfl, by rw [if_pos hr]; simp, rfl, rfl⟩
    · refine ⟨i, _, .pop .work, { s with sem := s.sem - 1 }, hi, ?_, by simp, rfl, rfl⟩
      simp only [step1]
      rw [if_neg (by omega)]
    · have : s.neg = true := ok
      rw [hn] at this; cases this
  · rcases watch_active hw with ha | ⟨r, rfl⟩
    · exact act i pc hi ha
    · exact ⟨i, _, _, _, hi, rfl, by rw [if_pos hr]; simp, rfl, rfl⟩

/-- The outstanding tasks take a bounded number of such steps, however the threads are scheduled. -/
theorem C44_bounded {n : Nat} {s2 : Sh} {ags2 : List PC} (h : Goes n s ags s2 ags2) : n ≤ measure s ags := by
  induction h with
  | zero => exact Nat.zero_le _
  | step ht hi ha he hne _ ih =>
    rcases step_measure hi ht ha he with h | h
    · exact absurd h hne
    · omega

/-- From any reachable state of a pool that has workers and is not being destroyed, everything that has been added can be brought to an end: a run of such steps can
only stop when every task has been run once and has returned. -/
theorem C44_completes (h : Reach s ags) (hr : 0 < s.run) :
    ∃ n s2 ags2, Goes n s ags s2 ags2 ∧ s2.tasks = 0 ∧ s2.added = s.added ∧ s2.finished.Perm s.added ∧ s2.begun.Perm s.added := by
  generalize hm : measure s ags = m
  induction m using Nat.strongRecOn generalizing s ags with
  | ind m ih =>
    by_cases ht : s.tasks = 0
    · obtain ⟨h1, h2⟩ := all_finished h ht
      exact ⟨0, s, ags, .zero, ht, rfl, h1, h2⟩
    · obtain ⟨i, pc, pc', s', h1, h2, h3, h4, h5, h6⟩ := C44_progress h hr (by omega)
      obtain ⟨n, s2, ags2, g1, g2, g3, g4, g5⟩ := ih _ (hm ▸ h6) (h.step h1 h2) (by rw [h4]; exact hr) rfl
      exact ⟨n + 1, s2, ags2, .step (by omega) h1 (.inl rfl) h2 (fun e => h3 e.1) g1, g2, by rw [g3, h5], by rw [← h5]; exact g4, by rw [← h5]; exact g5⟩

/-- The destructor does not wait in vain either: as long as a worker has not left, some thread can do something other than waiting. -/
theorem C44_shutdown (h : Reach s ags) (hi : ags[i]? = some .dSpin) (hr : s.run < 0) :
    ∃ (j : Nat) (pc pc' : PC) (s' : Sh), ags[j]? = some pc ∧ pc.worker = true ∧ step1 .go pc s = some (pc', s') ∧ pc' ≠ pc := by
  have L := reach_life h
  have hn : s.neg = true := L.ok i _ hi
  have hw : 0 < tot nWork ags := by
    have := L.run
    rw [if_pos hn] at this
    omega
  obtain ⟨j, pc, hj, hx⟩ := tot_pos hw
  have hx : pc.worker = true := by
    cases e : pc.worker with
    | true => rfl
    | false => simp [nWork, e, one] at hx
  by_cases ha : pc.active = true
  · obtain ⟨pc', s', h1, h2, -, -⟩ := active_step (s := s) ha
    exact ⟨j, pc, pc', s', hj, hx, h1, h2⟩
  have ok := L.ok j pc hj
  have hd : tot PC.dleft ags = 0 := by
    refine tot_zero fun q hq => ?_
    obtain ⟨k, hk⟩ := List.mem_iff_getElem?.1 hq
    by_cases hki : i = k
    · subst hki
      rw [hi] at hk; cases hk; rfl
    · have h1 := tot_two (f := nClose) hi hk hki
      have h2 := L.close
      have h3 : one s.closing ≤ 1 := by unfold one; split <;> omega
      have h4 : nClose .dSpin = 1 := rfl
      have h5 : nClose q = 0 := by omega
      cases q <;> first | rfl | (simp [nClose, PC.closer, PC.role, one] at h5)
  rcases worker_cases hx ha ok with rfl | rfl | rfl
  · exact ⟨j, _, _, _, hj, rfl, rfl, by split <;> simp⟩
  · have h1 := L.wake hn
    have h2 := tot_ge (f := nSleep) hj
    have h3 : nSleep .wSem = 1 := rfl
    refine ⟨j, _, .pop .work, { s with sem := s.sem - 1 }, hj, rfl, ?_, by simp⟩
    simp only [step1]
    rw [if_neg (by omega)]
  · exact ⟨j, _, _, _, hj, rfl, rfl, by simp⟩

/-! ## A pool without workers -/

/-- Has passed the test of `_run`. -/
def PC.inLoop : PC → Bool
  | .pop _ | .pop2 .. | .exec .. | .sub .. => true
  | .add _ _ _ c | .ntf _ c => c.inTask
  | _ => false

theorem reach_no_workers (h : Reach s ags) : s.threads = 0 → s.begun = [] ∧ ∀ (i : Nat) (pc : PC), ags[i]? = some pc → pc.inLoop = false := by
  induction h with
  | new =>
    intro _
    refine ⟨rfl, fun i pc h => ?_⟩
    rw [List.getElem?_replicate] at h
    split at h
    · cases h; rfl
    · cases h
  | spawn _ _ _ => exact fun h => absurd h (Nat.succ_ne_zero _)
  | @step s ags i a pc pc' s' hr hi he ih =>
    have L := reach_life hr
    have key : s.threads = 0 → pc.inLoop = false → s'.threads = 0 ∧ s'.begun = s.begun ∧ pc'.inLoop = false := by
      intro h0
      have hrun : ¬0 < s.run := by
        have h1 := L.run
        have h2 := L.threads
        split at h1 <;> omega
      have hw : pc.worker = false := by
        have h1 := tot_ge (f := nWork) hi
        have h2 := L.threads
        cases e : pc.worker with
        | false => rfl
        | true =>
          have : nWork pc = 1 := by simp [nWork, e, one]
          omega
      revert h0 hrun hw
      refine step_cases (P := fun _ pc s pc' s' => s.threads = 0 → ¬0 < s.run → pc.worker = false → pc.inLoop = false →
        s'.threads = 0 ∧ s'.begun = s.begun ∧ pc'.inLoop = false)
        ?_ ?_ ?_ ?_ ?_ ?_ ?_ ?_ ?_ ?_ ?_ ?_ ?_ ?_ ?_ ?_ ?_ ?_ ?_ ?_ ?_ ?_ ?_ ?_ ?_ ?_ ?_ ?_ ?_ ?_ he
      all_goals intros
      all_goals first
        | (simp_all [PC.inLoop, begin, Cont.inTask, PC.worker, PC.role]; done)
        | (next c _ _ _ _ _ => cases c <;> simp_all [PC.inLoop, back, Cont.inTask])
    intro h0
    have hth : s.threads = 0 := by
      revert h0
      refine step_cases (P := fun _ _ s _ s' => s'.threads = 0 → s.threads = 0)
        ?_ ?_ ?_ ?_ ?_ ?_ ?_ ?_ ?_ ?_ ?_ ?_ ?_ ?_ ?_ ?_ ?_ ?_ ?_ ?_ ?_ ?_ ?_ ?_ ?_ ?_ ?_ ?_ ?_ ?_ he
      all_goals intros
      all_goals assumption
    obtain ⟨h1, h2⟩ := ih hth
    obtain ⟨k1, k2, k3⟩ := key hth (h2 i pc hi)
    refine ⟨by rw [k2, h1], fun j q hj => ?_⟩
    rcases set_get hj with ⟨-, rfl⟩ | ⟨-, hj⟩
    · exact k3
    · exact h2 j q hj

/-- In a pool without workers nothing is ever run, not even by `Wait`, because `Wait` only takes tasks while `_run > 0` (`ThreadPool.h:81`); once a task has been added
`Wait` (and the destructor) never returns. -/
theorem C44_no_workers_counterexample (h : Reach s ags) (h0 : s.threads = 0) : s.begun = [] ∧ s.finished = [] ∧ s.tasks = s.added.length ∧
    ∀ (r : Role), s.added ≠ [] → step1 .go (.spin r) s = some (.spin r, s) := by
  have hb := (reach_no_workers h h0).1
  have T := reach_tasks h
  have hf : s.finished = [] := by
    refine List.eq_nil_iff_forall_not_mem.2 fun t ht => ?_
    have h1 := T.begun t
    have h2 : 0 < s.finished.count t := List.count_pos_iff.2 ht
    simp [hb] at h1
    omega
  have hlen : s.added.length = s.tasks := by
    have hr : ∀ (i : Nat) (pc : PC), ags[i]? = some pc → pc.running = [] ∧ pc.ended = [] := fun i pc hi => by
      have := (reach_no_workers h h0).2 i pc hi
      cases pc with
      | add t l k c => cases c <;> simp_all [PC.inLoop, PC.running, PC.ended, Cont.held, Cont.inTask]
      | ntf l c => cases c <;> simp_all [PC.inLoop, PC.running, PC.ended, Cont.held, Cont.inTask]
      | _ => simp_all [PC.inLoop, PC.running, PC.ended]
    have hz : tot lRun ags = 0 ∧ tot lEnd ags = 0 := by
      constructor
      · refine tot_zero fun x hx => ?_
        obtain ⟨j, hj⟩ := List.mem_iff_getElem?.1 hx
        simp [lRun, (hr j x hj).1]
      · refine tot_zero fun x hx => ?_
        obtain ⟨j, hj⟩ := List.mem_iff_getElem?.1 hx
        simp [lEnd, (hr j x hj).2]
    have hc := T.count
    have hperm : s.added.Perm (s.queue ++ ags.flatMap PC.pending) := by
      refine List.perm_iff_count.2 fun t => ?_
      have h1 := T.all t
      have h2 : tot (nRun t) ags = 0 := tot_zero fun x hx => by
        obtain ⟨j, hj⟩ := List.mem_iff_getElem?.1 hx
        simp [nRun, (hr j x hj).1]
      have h3 : ∀ l : List PC, tot (nPend t) l = (l.flatMap PC.pending).count t := fun l => by
        induction l with
        | nil => rfl
        | cons x l ih => simp [tot, ih, nPend, List.count_append]
      rw [List.count_append, ← h3]
      simp [hf] at h1
      omega
    have h4 : ∀ l : List PC, tot lPend l = (l.flatMap PC.pending).length := fun l => by
      induction l with
      | nil => rfl
      | cons x l ih => simp [tot, ih, lPend]
    rw [hperm.length_eq, List.length_append, ← h4]
    omega
  refine ⟨hb, hf, hlen.symm, fun r hne => ?_⟩
  have : 0 < s.added.length := List.length_pos_iff.2 hne
  simp only [step1]
  rw [if_pos (by omega)]

/-! ## Examples -/

/-- Run a schedule: (thread, action). -/
def sched : List (Nat × Act) → Sh × List PC → Option (Sh × List PC)
  | [], x => some x
  | (i, a) :: l, (s, ags) => (ags[i]?).bind fun pc => (step1 a pc s).bind fun r => sched l (r.2, ags.set i r.1)

theorem sched_reach {x : Sh × List PC} : ∀ {l : List (Nat × Act)} {s : Sh} {ags : List PC}, Reach s ags → sched l (s, ags) = some x → Reach x.1 x.2
  | [], _, _, h, e => by cases e; exact h
  | (i, a) :: l, s, ags, h, e => by
    simp only [sched, Option.bind_eq_some_iff] at e
    obtain ⟨pc, hpc, ⟨pc', s'⟩, h1, h2⟩ := e
    exact sched_reach (Reach.step h hpc h1) h2

/-- One user thread and two workers; the task 7 is added twice, and its first instance adds the task 8 while it runs (in
`Wait`); a worker begins the second instance. -/
def demo : List (Nat × Act) :=
  [(0, .addTask 7 2), (0, .go), (0, .go), (0, .go), (0, .go), (0, .go), (0, .go), (0, .wait), (0, .go), (0, .go), (0, .go), (0, .addTask 8 1), (0, .go),
   (1, .go), (1, .go), (1, .go), (1, .go)]

theorem demo_start : Reach (spawn (spawn new)) [.idle, .wTest, .wTest] := by
  have := ((Reach.new (k := 1)).spawn rfl).spawn rfl
  exact this

example : ∃ (s : Sh) (ags : List PC), Reach s ags ∧ 0 < s.run ∧ s.tasks = 3 ∧ s.added = [7, 7, 8] ∧ s.begun = [7, 7] ∧ s.queue = [8] := by
  have h : (sched demo (spawn (spawn new), [.idle, .wTest, .wTest])).map (fun x => (x.1.run, x.1.tasks, x.1.added, x.1.begun, x.1.queue)) =
      some (2, 3, [7, 7, 8], [7, 7], [8]) := by decide +kernel
  rw [Option.map_eq_some_iff] at h
  obtain ⟨x, h1, h2⟩ := h
  simp only [Prod.mk.injEq] at h2
  exact ⟨x.1, x.2, sched_reach demo_start h1, by omega, h2.2.1, h2.2.2.1, h2.2.2.2.1, h2.2.2.2.2⟩

/-- The hypotheses of `C44_wait` are met by a `Wait` that returns, those of `C44_dtor` and `C44_shutdown` by a destructor. -/
example : ∃ (s : Sh) (ags : List PC), Reach s ags ∧ ags[0]? = some (.spin .wait) ∧ step1 .go (.spin .wait) s = some (.idle, s) ∧ s.added = [7] := by
  have h : (sched [(0, .addTask 7 1), (0, .go), (0, .go), (0, .go), (0, .go), (0, .wait), (0, .go), (0, .go), (0, .go), (0, .go), (0, .go), (0, .go), (0, .go), (0, .go)]
      (spawn (spawn new), [.idle, .wTest, .wTest])).map (fun x => (x.2[0]?, x.1.tasks, x.1.added)) = some (some (.spin .wait), 0, [7]) := by decide +kernel
  rw [Option.map_eq_some_iff] at h
  obtain ⟨x, h1, h2⟩ := h
  simp only [Prod.mk.injEq] at h2
  refine ⟨x.1, x.2, sched_reach demo_start h1, h2.1, ?_, h2.2.2⟩
  simp [step1, h2.2.1]

example : ∃ (s : Sh) (ags : List PC), Reach s ags ∧ ags[0]? = some .dSpin ∧ s.run = -1 := by
  have h : (sched [(0, .del), (0, .go), (1, .go), (0, .go), (0, .go), (0, .go), (0, .go), (0, .go), (0, .go), (0, .go), (0, .go), (1, .go), (1, .go), (1, .go), (1, .go), (1, .go)]
      (spawn (spawn new), [.idle, .wTest, .wTest])).map (fun x => (x.2[0]?, x.1.run)) = some (some .dSpin, -1) := by decide +kernel
  rw [Option.map_eq_some_iff] at h
  obtain ⟨x, h1, h2⟩ := h
  simp only [Prod.mk.injEq] at h2
  exact ⟨x.1, x.2, sched_reach demo_start h1, h2.1, h2.2⟩

/-- The hypotheses of `C44_no_workers_counterexample` are met with a task. -/
example : ∃ (s : Sh) (ags : List PC), Reach s ags ∧ s.threads = 0 ∧ s.added = [7] := by
  have h : (sched [(0, .addTask 7 1)] (new, [.idle])).map (fun x => (x.1.threads, x.1.added)) = some (0, [7]) := by decide +kernel
  rw [Option.map_eq_some_iff] at h
  obtain ⟨x, h1, h2⟩ := h
  simp only [Prod.mk.injEq] at h2
  exact ⟨x.1, x.2, sched_reach (Reach.new (k := 1)) h1, h2.1, h2.2⟩

end Verif.Sync.TP
