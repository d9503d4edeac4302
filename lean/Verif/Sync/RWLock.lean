/-!
# C38–C40: `RWLock` (`include/bss-util/RWLock.h`)

The lock is one word `l` of 64 bits.  Any number of agents use it, in any interleaving of their accesses to the word; an agent is a thread
between the beginning of one of its calls and the release that ends what the call acquired, so a thread that holds several locks is several
agents.  Every access to the word is one atomic step and steps are sequentially consistent (the weaker memory orders of the code are not
modelled).
-/

namespace Verif.Sync.RWLock

/-- `RWLock.h:138` `WFLAG`, with `size_t` of 64 bits. -/
def WFLAG : Nat := 2 ^ 63

/-- `l & WFLAG` is not zero. -/
def flagged (l : Nat) : Bool := decide (WFLAG ≤ l)

/-- `l & WMASK` -/
def readers (l : Nat) : Nat := l % WFLAG

/-- `asmbts(&l, WBIT)`: the word after it; it returns `flagged l`. -/
def bts (l : Nat) : Nat := if flagged l then l else l + WFLAG

/-- `l.fetch_and(WMASK)` -/
def clear (l : Nat) : Nat := l % WFLAG

/-- `l.fetch_add(ONE_READER)` -/
def inc (l : Nat) : Nat := (l + 1) % 2 ^ 64

/-- `l.fetch_sub(ONE_READER)` -/
def dec (l : Nat) : Nat := (l + (2 ^ 64 - 1)) % 2 ^ 64

/-- Where an agent is. -/
inductive PC
  /-- outside of all calls, holding nothing -/
  | idle
  /-- `:36`, in `Lock` -/
  | lockTry
  /-- `:37` and `:47`, in `Lock` or `AttemptLock`: waiting for readers -/
  | lockWait
  /-- `:43`, in `AttemptLock` -/
  | alockTry
  /-- `:55`, in `AttemptStrictLock` -/
  | strictTry
  /-- has the write lock -/
  | W
  /-- `:72`, in `RLock` -/
  | rTry
  /-- `:74`, in `RLock`, after the flag was seen -/
  | rBack
  /-- `:75`, in `RLock`: waiting for the flag to be cleared -/
  | rWait
  /-- `:82`, in `AttemptRLock` -/
  | arTry
  /-- `:84`, in `AttemptRLock`, after the flag was seen -/
  | arBack
  /-- has a read lock -/
  | R
  /-- `:103`, in `Upgrade`, the first time -/
  | upTry
  /-- `:105`, in `Upgrade`, after the flag was seen -/
  | upBack
  /-- `:106`, in `Upgrade`: waiting for the flag to be cleared -/
  | upSpin
  /-- `:107`, in `Upgrade` -/
  | upAgain
  /-- `:103`, in `Upgrade`, not the first time -/
  | upRetry
  /-- `:109`, in `Upgrade`: waiting for other readers -/
  | upWait
  /-- `:116`, in `AttemptUpgrade` -/
  | aupTry
  /-- `:120`, in `AttemptUpgrade`: waiting for other readers -/
  | aupWait
  /-- has an upgraded lock -/
  | U
deriving DecidableEq, Repr

/-- What an agent may do: begin a call, or continue the one it is in. -/
inductive Act
  | lock | attemptLock | attemptStrictLock | unlock | rlock | attemptRLock | runlock | upgrade | attemptUpgrade | downgrade | cont
deriving DecidableEq, Repr

/-- One step of an agent: where it is after it and the word after it.  Calls may only be begun by agents that hold what the call needs.
`RWLock.h:32-130`. -/
def step1 : Act → PC → Nat → Option (PC × Nat)
  | .lock, .idle, l => some (.lockTry, l)
  | .attemptLock, .idle, l => some (.alockTry, l)
  | .attemptStrictLock, .idle, l => some (.strictTry, l)
  | .rlock, .idle, l => some (.rTry, l)
  | .attemptRLock, .idle, l => some (.arTry, l)
  -- `:65`
  | .unlock, .W, l => some (.idle, clear l)
  -- `:95`
  | .runlock, .R, l => some (.idle, dec l)
  | .upgrade, .R, l => some (.upTry, l)
  | .attemptUpgrade, .R, l => some (.aupTry, l)
  -- `:129`
  | .downgrade, .U, l => some (.R, clear l)
  -- `Lock`
  | .cont, .lockTry, l => some (if flagged l then .lockTry else .lockWait, bts l)
  | .cont, .lockWait, l => some (if readers l > 0 then .lockWait else .W, l)
  -- `AttemptLock`
  | .cont, .alockTry, l => some (if flagged l then .idle else .lockWait, bts l)
  -- `AttemptStrictLock`
  | .cont, .strictTry, l => some (if l = 0 then (.W, WFLAG) else (.idle, l))
  -- `RLock`
  | .cont, .rTry, l => some (if flagged l then .rBack else .R, inc l)
  | .cont, .rBack, l => some (if flagged l then .rWait else .rTry, dec l)
  | .cont, .rWait, l => some (if flagged l then .rWait else .rTry, l)
  -- `AttemptRLock`
  | .cont, .arTry, l => some (if flagged l then .arBack else .R, inc l)
  | .cont, .arBack, l => some (.idle, dec l)
  -- `Upgrade`
  | .cont, .upTry, l => some (if flagged l then .upBack else .upWait, bts l)
  | .cont, .upBack, l => some (.upSpin, dec l)
  | .cont, .upSpin, l => some (if flagged l then .upSpin else .upAgain, l)
  | .cont, .upAgain, l => some (.upRetry, inc l)
  | .cont, .upRetry, l => some (if flagged l then .upBack else .upWait, bts l)
  | .cont, .upWait, l => some (if readers l > 1 then .upWait else .U, l)
  -- `AttemptUpgrade`
  | .cont, .aupTry, l => some (if flagged l then .R else .aupWait, bts l)
  | .cont, .aupWait, l => some (if readers l > 1 then .aupWait else .U, l)
  | _, _, _ => none

/-- The word and all agents. -/
structure Conf where
  l : Nat
  pcs : List PC
deriving DecidableEq, Repr

/-- Agent `i` does `a`. -/
def step (i : Nat) (a : Act) (c : Conf) : Option Conf :=
  (c.pcs[i]?).bind fun pc => (step1 a pc c.l).map fun r => ⟨r.2, c.pcs.set i r.1⟩

/-- A schedule. -/
def run : List (Nat × Act) → Conf → Option Conf
  | [], c => some c
  | e :: es, c => (step e.1 e.2 c).bind (run es)

/-- The new lock (`RWLock.h:22`), with `n` agents. -/
def init (n : Nat) : Conf := ⟨0, List.replicate n .idle⟩

/-- Configurations of `n` agents that can occur. -/
def Reachable (n : Nat) (c : Conf) : Prop := ∃ es, run es (init n) = some c

/-! ## Invariant -/

/-- Agents counted as readers in the word. -/
def counted : PC → Bool
  | .rBack | .arBack | .R | .upTry | .upBack | .upRetry | .upWait | .aupTry | .aupWait | .U => true
  | _ => false

/-- Agents that have set the flag. -/
def owner : PC → Bool
  | .lockWait | .W | .upWait | .aupWait | .U => true
  | _ => false

/-- Agents that may write. -/
def holdsW : PC → Bool
  | .W | .U => true
  | _ => false

/-- Agents that may only read. -/
def holdsR : PC → Bool
  | .R | .upTry | .aupTry => true
  | _ => false

structure Inv (l : Nat) (pcs : List PC) : Prop where
  few : pcs.length < WFLAG
  word : l = WFLAG * pcs.countP owner + pcs.countP counted
  one : pcs.countP owner ≤ 1
  excl : 0 < pcs.countP holdsW → pcs.countP holdsR = 0

theorem countP_set' {p : PC → Bool} {l : List PC} {i : Nat} {a : PC} (h : l[i]? = some a) (b : PC) :
    (l.set i b).countP p + (if p a then 1 else 0) = l.countP p + if p b then 1 else 0 := by
  obtain ⟨hl, rfl⟩ := List.getElem?_eq_some_iff.1 h
  rw [List.countP_set hl]
  have : p l[i] = true → 0 < l.countP p := fun e => List.countP_pos_iff.2 ⟨_, List.getElem_mem hl, e⟩
  cases hp : p l[i]
  · simp
  · have := this hp
    simp only [if_true]
    omega

/-- Readers other than agent `i` are counted besides it, if it is counted and not a mere reader. -/
theorem readers_le {l : List PC} {i : Nat} {a : PC} (h : l[i]? = some a) :
    l.countP holdsR + (if counted a && !holdsR a then 1 else 0) ≤ l.countP counted := by
  have hs : l.countP holdsR + l.countP (fun a => counted a && !holdsR a) = l.countP counted := by
    clear h
    induction l with
    | nil => rfl
    | cons b l ih =>
      simp only [List.countP_cons]
      cases b <;> simp [counted, holdsR] at * <;> omega
  have hm : a ∈ l := List.mem_of_getElem? h
  split
  · next e =>
    have : 0 < l.countP (fun a => counted a && !holdsR a) := List.countP_pos_iff.2 ⟨a, hm, e⟩
    omega
  · omega

theorem owners_le (l : List PC) : l.countP holdsW ≤ l.countP owner := by
  induction l with
  | nil => exact Nat.le_refl _
  | cons b l ih =>
    simp only [List.countP_cons]
    cases b <;> simp [owner, holdsW] <;> omega

theorem step1_inv {l : Nat} {pcs : List PC} (hi : Inv l pcs) {i : Nat} {a : Act} {pc : PC} (hp : pcs[i]? = some pc) {r : PC × Nat}
    (h : step1 a pc l = some r) : Inv r.2 (pcs.set i r.1) := by
  have h1 := readers_le hp
  have h2 := countP_set' (p := counted) hp r.1
  have h3 := countP_set' (p := owner) hp r.1
  have h4 := countP_set' (p := holdsW) hp r.1
  have h5 := countP_set' (p := holdsR) hp r.1
  have h6 := owners_le pcs
  have h7 : pcs.countP counted ≤ pcs.length := List.countP_le_length
  have h8 : (pcs.set i r.1).countP counted ≤ (pcs.set i r.1).length := List.countP_le_length
  have hpos : (if counted pc then 1 else 0) ≤ pcs.countP counted := by
    split
    · next e => exact List.countP_pos_iff.2 ⟨pc, List.mem_of_getElem? hp, e⟩
    · exact Nat.zero_le _
  have hposO : (if owner pc then 1 else 0) ≤ pcs.countP owner := by
    split
    · next e => exact List.countP_pos_iff.2 ⟨pc, List.mem_of_getElem? hp, e⟩
    · exact Nat.zero_le _
  have hposW : (if holdsW pc then 1 else 0) ≤ pcs.countP holdsW := by
    split
    · next e => exact List.countP_pos_iff.2 ⟨pc, List.mem_of_getElem? hp, e⟩
    · exact Nat.zero_le _
  obtain ⟨few, word, one, excl⟩ := hi
  rw [List.length_set] at h8
  generalize hC : pcs.countP counted = C at *
  generalize hO : pcs.countP owner = O at *
  generalize hW : pcs.countP holdsW = W at *
  generalize hR : pcs.countP holdsR = R at *
  generalize hC' : (pcs.set i r.1).countP counted = C' at *
  generalize hO' : (pcs.set i r.1).countP owner = O' at *
  generalize hW' : (pcs.set i r.1).countP holdsW = W' at *
  generalize hR' : (pcs.set i r.1).countP holdsR = R' at *
  have key : r.2 = WFLAG * O' + C' ∧ O' ≤ 1 ∧ (0 < W' → R' = 0) := by
    clear hC hO hW hR hC' hO' hW' hR' hp
    have hflag : flagged l = true → O = 1 := by
      unfold flagged WFLAG at *
      simp only [decide_eq_true_eq]
      omega
    have hflag' : flagged l = false → O = 0 := by
      unfold flagged WFLAG at *
      simp only [decide_eq_false_iff_not]
      omega
    have hrd : readers l = C := by
      unfold readers WFLAG at *
      omega
    have hbts : flagged l = false → bts l = WFLAG + C := by
      intro h
      have := hflag' h
      unfold bts
      rw [h, word, this]
      simp only [Bool.false_eq_true, if_false]
      omega
    have hbts' : flagged l = true → bts l = l := by
      intro h
      unfold bts
      rw [if_pos h]
    have hclear : clear l = C := hrd
    have hinc : C + 1 < WFLAG → inc l = l + 1 := by
      unfold inc WFLAG at *
      omega
    have hdec : 0 < C → dec l = l - 1 := by
      unfold dec WFLAG at *
      omega
    have h0 : l = 0 → O = 0 := by
      unfold WFLAG at *
      omega
    have hWF : 0 < WFLAG := by decide
    have hO : O = 0 ∧ WFLAG * O = 0 ∨ O = 1 ∧ WFLAG * O = WFLAG := by
      rcases (show O = 0 ∨ O = 1 by omega) with e | e <;> simp [e]
    have hO' : O' = 0 ∧ WFLAG * O' = 0 ∨ O' = 1 ∧ WFLAG * O' = WFLAG ∨ 1 < O' := by
      rcases (show O' = 0 ∨ O' = 1 ∨ 1 < O' by omega) with e | e | e
      · simp [e]
      · simp [e]
      · exact Or.inr (Or.inr e)
    generalize WFLAG * O = X at *
    generalize WFLAG * O' = X' at *
    cases hff : flagged l <;> rw [hff] at hflag hflag' hbts hbts' <;>
      simp only [true_implies, reduceCtorEq, false_implies] at hflag hflag' hbts hbts' <;>
      cases a <;> cases pc <;> simp only [step1, Option.some.injEq, reduceCtorEq, hff, if_true, Bool.false_eq_true, if_false, hrd] at h <;>
      (repeat' split at h) <;> subst h <;>
      simp only [counted, owner, holdsW, holdsR, if_true, if_false, Bool.false_eq_true, Bool.and_true, Bool.true_and, Bool.not_false,
        Bool.not_true, Bool.and_false, Bool.false_and, hclear] at * <;> (try rw [hbts] at *) <;> (try rw [hbts'] at *) <;> omega
  exact ⟨by rw [List.length_set]; exact few, by rw [hC', hO']; exact key.1, by rw [hO']; exact key.2.1, by rw [hW', hR']; exact key.2.2⟩

theorem step_inv {c c' : Conf} (hi : Inv c.l c.pcs) {i : Nat} {a : Act} (h : step i a c = some c') :
    Inv c'.l c'.pcs ∧ c'.pcs.length = c.pcs.length := by
  simp only [step, Option.bind_eq_some_iff, Option.map_eq_some_iff] at h
  obtain ⟨pc, hp, r, hr, rfl⟩ := h
  exact ⟨step1_inv hi hp hr, List.length_set⟩

theorem run_inv : ∀ (es : List (Nat × Act)) {c c' : Conf}, Inv c.l c.pcs → run es c = some c' →
    Inv c'.l c'.pcs ∧ c'.pcs.length = c.pcs.length := by
  intro es
  induction es with
  | nil =>
    intro c c' hi h
    simp only [run, Option.some.injEq] at h
    subst h
    exact ⟨hi, rfl⟩
  | cons e es ih =>
    intro c c' hi h
    simp only [run, Option.bind_eq_some_iff] at h
    obtain ⟨c1, h1, h2⟩ := h
    obtain ⟨i1, l1⟩ := step_inv hi h1
    obtain ⟨i2, l2⟩ := ih i1 h2
    exact ⟨i2, l2.trans l1⟩

theorem init_inv {n : Nat} (hn : n < 2 ^ 63) : Inv (init n).l (init n).pcs := by
  have h0 : ∀ p : PC → Bool, p .idle = false → (init n).pcs.countP p = 0 := fun p hp => by
    rw [List.countP_eq_zero]
    intro a ha
    rw [(List.mem_replicate.1 ha).2, hp]
    exact Bool.false_ne_true
  refine ⟨by simpa [init, WFLAG] using hn, ?_, ?_, ?_⟩
  · rw [h0 _ rfl, h0 _ rfl]
    rfl
  · rw [h0 _ rfl]
    exact Nat.zero_le _
  · intro _
    rw [h0 _ rfl]

theorem reach_inv {n : Nat} (hn : n < 2 ^ 63) {c : Conf} (h : Reachable n c) : Inv c.l c.pcs ∧ c.pcs.length = n := by
  obtain ⟨es, h⟩ := h
  have := run_inv es (init_inv hn) h
  exact ⟨this.1, by rw [this.2]; simp [init]⟩

/-- Two different agents of a kind are two. -/
theorem two_le {p : PC → Bool} {l : List PC} {i j : Nat} {a b : PC} (hi : l[i]? = some a) (hj : l[j]? = some b) (hne : i ≠ j)
    (ha : p a = true) (hb : p b = true) (hidle : p .idle = false) : 2 ≤ l.countP p := by
  have h1 := countP_set' (p := p) hi .idle
  have h2 : 0 < (l.set i .idle).countP p :=
    List.countP_pos_iff.2 ⟨b, List.mem_of_getElem? (by rw [List.getElem?_set_ne hne]; exact hj), hb⟩
  rw [ha, hidle] at h1
  simp at h1
  omega

theorem pos_of {p : PC → Bool} {l : List PC} {i : Nat} {a : PC} (hi : l[i]? = some a) (ha : p a = true) : 0 < l.countP p :=
  List.countP_pos_iff.2 ⟨a, List.mem_of_getElem? hi, ha⟩

/-! ## C38 -/

/-- **C38**: in every interleaving of any number (below 2^63) of agents, while one of them has the write lock or an upgraded lock, no other
has a write lock, an upgraded lock or a read lock (an agent keeps its read lock when it begins to upgrade it). -/
theorem C38_mutual_exclusion {n : Nat} (hn : n < 2 ^ 63) {c : Conf} (h : Reachable n c) {i j : Nat} (hij : i ≠ j) {p q : PC}
    (hp : c.pcs[i]? = some p) (hq : c.pcs[j]? = some q) (hw : p = .W ∨ p = .U) :
    q ≠ .W ∧ q ≠ .U ∧ q ≠ .R ∧ q ≠ .upTry ∧ q ≠ .aupTry := by
  obtain ⟨hi, -⟩ := reach_inv hn h
  have hpo : owner p = true := by rcases hw with e | e <;> rw [e] <;> rfl
  have hpw : holdsW p = true := by rcases hw with e | e <;> rw [e] <;> rfl
  have h1 : owner q = true → False := fun e => by
    have := two_le (p := owner) hp hq hij hpo e rfl
    have := hi.one
    omega
  have h2 : holdsR q = true → False := fun e => by
    have := pos_of (p := holdsR) hq e
    have := hi.excl (pos_of hp hpw)
    omega
  refine ⟨?_, ?_, ?_, ?_, ?_⟩ <;> rintro rfl
  · exact h1 rfl
  · exact h1 rfl
  · exact h2 rfl
  · exact h2 rfl
  · exact h2 rfl

/-! ## C39 -/

/-- **C39**: when no agent is inside a call, the word is made up exactly of the locks that are held. -/
theorem C39_word {n : Nat} (hn : n < 2 ^ 63) {c : Conf} (h : Reachable n c)
    (hq : ∀ p ∈ c.pcs, p = .idle ∨ p = .R ∨ p = .W ∨ p = .U) :
    c.l = 2 ^ 63 * (c.pcs.count .W + c.pcs.count .U) + (c.pcs.count .R + c.pcs.count .U) := by
  obtain ⟨hi, -⟩ := reach_inv hn h
  rw [hi.word]
  have : ∀ l : List PC, (∀ p ∈ l, p = .idle ∨ p = .R ∨ p = .W ∨ p = .U) →
      l.countP owner = l.count .W + l.count .U ∧ l.countP counted = l.count .R + l.count .U := by
    intro l hl
    induction l with
    | nil => exact ⟨rfl, rfl⟩
    | cons a l ih =>
      obtain ⟨h1, h2⟩ := ih fun p hp => hl p (List.mem_cons_of_mem _ hp)
      simp only [List.countP_cons, List.count_cons, h1, h2]
      rcases hl a List.mem_cons_self with e | e | e | e <;> rw [e] <;> simp [owner, counted] <;> omega
  rw [(this _ hq).1, (this _ hq).2]
  rfl

/-- **C39**: when no agent is inside a call or holds a lock, the lock is free. -/
theorem C39_free {n : Nat} (hn : n < 2 ^ 63) {c : Conf} (h : Reachable n c) (hq : ∀ p ∈ c.pcs, p = .idle) : c.l = 0 := by
  rw [C39_word hn h fun p hp => Or.inl (hq p hp)]
  have : ∀ q : PC, q ≠ .idle → c.pcs.count q = 0 := fun q hne => by
    rw [List.count_eq_zero]
    intro hm
    exact hne (hq q hm)
  rw [this _ (by decide), this _ (by decide), this _ (by decide)]

/-- **C39**: the word depends only on where the agents are: whatever attempts have failed before, nothing of them is left. -/
theorem C39_no_residue {n : Nat} (hn : n < 2 ^ 63) {c c' : Conf} (h : Reachable n c) (h' : Reachable n c') (he : c.pcs = c'.pcs) :
    c = c' := by
  obtain ⟨l, pcs⟩ := c
  obtain ⟨l', pcs'⟩ := c'
  obtain ⟨hi, -⟩ := reach_inv hn h
  obtain ⟨hi', -⟩ := reach_inv hn h'
  simp only at he
  subst he
  have := hi.word.trans hi'.word.symm
  simp only at this
  rw [this]

/-- **C39**: whenever all agents are idle, every way to lock succeeds at once for an agent that is not interrupted. -/
theorem C39_free_succeeds {n : Nat} (hn : n < 2 ^ 63) {c : Conf} (h : Reachable n c) (hq : ∀ p ∈ c.pcs, p = .idle) {i : Nat} (hi : i < n) :
    run [(i, .lock), (i, .cont), (i, .cont)] c = some ⟨2 ^ 63, c.pcs.set i .W⟩ ∧
    run [(i, .attemptLock), (i, .cont), (i, .cont)] c = some ⟨2 ^ 63, c.pcs.set i .W⟩ ∧
    run [(i, .attemptStrictLock), (i, .cont)] c = some ⟨2 ^ 63, c.pcs.set i .W⟩ ∧
    run [(i, .rlock), (i, .cont)] c = some ⟨1, c.pcs.set i .R⟩ ∧
    run [(i, .attemptRLock), (i, .cont)] c = some ⟨1, c.pcs.set i .R⟩ := by
  have h0 := C39_free hn h hq
  obtain ⟨-, hl⟩ := reach_inv hn h
  obtain ⟨l, pcs⟩ := c
  simp only at h0 hl hq
  subst h0
  have hi' : i < pcs.length := by omega
  have hp : pcs[i]? = some .idle := by
    rw [List.getElem?_eq_getElem hi', hq _ (List.getElem_mem hi')]
  have hs : ∀ a : PC, (pcs.set i a)[i]? = some a := fun a => by simp [hi']
  have hf : flagged 0 = false := by decide
  have hb : bts 0 = 2 ^ 63 := by decide
  have hr : readers (2 ^ 63) = 0 := by decide
  have hn : inc 0 = 1 := by decide
  refine ⟨?_, ?_, ?_, ?_, ?_⟩ <;>
    simp [run, step, hp, hs, step1, List.set_set, hf, hb, hr, hn, -List.getElem?_set_self, -List.getElem?_eq_getElem] <;> rfl

/-! ## C40 -/

/-- **C40**: while an agent is in `AttemptUpgrade`, and after it as long as it has the upgraded lock, no other agent has the write lock or
an upgraded lock, so none can have had it in between. -/
theorem C40_no_writer_between {n : Nat} (hn : n < 2 ^ 63) {c : Conf} (h : Reachable n c) {i j : Nat} (hij : i ≠ j) {p q : PC}
    (hp : c.pcs[i]? = some p) (hq : c.pcs[j]? = some q) (hw : p = .aupTry ∨ p = .aupWait ∨ p = .U) : q ≠ .W ∧ q ≠ .U := by
  rcases hw with rfl | rfl | rfl
  · constructor <;> rintro rfl
    · exact (C38_mutual_exclusion hn h (Ne.symm hij) hq hp (Or.inl rfl)).2.2.2.2 rfl
    · exact (C38_mutual_exclusion hn h (Ne.symm hij) hq hp (Or.inr rfl)).2.2.2.2 rfl
  · obtain ⟨hi, -⟩ := reach_inv hn h
    have h1 : owner q = true → False := fun e => by
      have := two_le (p := owner) hp hq hij rfl e rfl
      have := hi.one
      omega
    constructor <;> rintro rfl <;> exact h1 rfl
  · have := C38_mutual_exclusion hn h hij hp hq (Or.inr rfl)
    exact ⟨this.1, this.2.1⟩

/-- **C40**: `AttemptUpgrade` always ends with the upgraded lock or, in its first step and without changing anything, with the read lock the
agent had; it succeeds if and only if no other agent has set the flag. -/
theorem C40_attempt {n : Nat} (hn : n < 2 ^ 63) {c c' : Conf} (h : Reachable n c) {i : Nat} (hp : c.pcs[i]? = some .aupTry)
    (hs : step i .cont c = some c') :
    (c' = ⟨c.l, c.pcs.set i .R⟩ ∧ ∃ j q, j ≠ i ∧ c.pcs[j]? = some q ∧ (q = .lockWait ∨ q = .upWait ∨ q = .aupWait)) ∨
    (c'.pcs = c.pcs.set i .aupWait ∧ ∀ (j : Nat) (q : PC), c.pcs[j]? = some q → ¬ (q = .lockWait ∨ q = .upWait ∨ q = .aupWait)) := by
  obtain ⟨hi, -⟩ := reach_inv hn h
  simp only [step, hp, Option.bind_some, step1, Option.map_some, Option.some.injEq] at hs
  have hw := hi.word
  have hc : c.pcs.countP counted ≤ c.pcs.length := List.countP_le_length
  have hf := hi.few
  cases hfl : flagged c.l
  · right
    rw [hfl] at hs
    simp only [Bool.false_eq_true, if_false] at hs
    refine ⟨by rw [← hs], fun j q hq e => ?_⟩
    have ho : owner q = true := by rcases e with rfl | rfl | rfl <;> rfl
    have := pos_of hq ho
    have h1 : c.pcs.countP owner = 1 := by have := hi.one; omega
    rw [h1] at hw
    simp only [flagged, decide_eq_false_iff_not] at hfl
    omega
  · left
    rw [hfl] at hs
    simp only [if_true] at hs
    refine ⟨by rw [← hs, bts, if_pos hfl], ?_⟩
    have h1 : 0 < c.pcs.countP owner := by
      rcases Nat.eq_zero_or_pos (c.pcs.countP owner) with e | e
      · rw [e] at hw
        simp only [flagged, decide_eq_true_eq] at hfl
        omega
      · exact e
    obtain ⟨q, hq, ho⟩ := List.countP_pos_iff.1 h1
    obtain ⟨j, hj⟩ := List.mem_iff_getElem?.1 hq
    have hne : j ≠ i := by
      rintro rfl
      rw [hp] at hj
      cases hj
      cases ho
    refine ⟨j, q, hne, hj, ?_⟩
    have hnw := C40_no_writer_between hn h (Ne.symm hne) hp hj (Or.inl rfl)
    cases q <;> simp [owner] at ho hnw ⊢

/-- **C40**: once an attempt to upgrade has taken effect, every other attempt fails until the winner downgrades. -/
theorem C40_at_most_one {n : Nat} (hn : n < 2 ^ 63) {c c' : Conf} (h : Reachable n c) {i j : Nat} (hij : i ≠ j) {p : PC}
    (hp : c.pcs[i]? = some p) (hw : p = .aupWait ∨ p = .U) (hq : c.pcs[j]? = some .aupTry) (hs : step j .cont c = some c') :
    c'.pcs[j]? = some .R ∧ c'.pcs[i]? = some p := by
  rcases C40_attempt hn h hq hs with ⟨h1, -⟩ | ⟨-, h2⟩
  · rw [h1]
    have := (List.getElem?_eq_some_iff.1 hq).1
    refine ⟨by simp [this], ?_⟩
    rw [List.getElem?_set_ne (Ne.symm hij)]
    exact hp
  · rcases hw with rfl | rfl
    · exact absurd (Or.inr (Or.inr rfl)) (h2 i _ hp)
    · exact absurd rfl ((C38_mutual_exclusion hn h hij hp hq (Or.inr rfl)).2.2.2.2)

/-- The waiting part of a successful attempt ends only with the upgraded lock, and does end as soon as no other reader is left. -/
theorem C40_wait {n : Nat} (hn : n < 2 ^ 63) {c c' : Conf} (h : Reachable n c) {i : Nat} (hp : c.pcs[i]? = some .aupWait)
    (hs : step i .cont c = some c') :
    (c' = c ∨ c' = ⟨c.l, c.pcs.set i .U⟩) ∧
    ((∀ (j : Nat) (q : PC), j ≠ i → c.pcs[j]? = some q → q = .idle) → c' = ⟨c.l, c.pcs.set i .U⟩) := by
  obtain ⟨hi, -⟩ := reach_inv hn h
  have hlt := (List.getElem?_eq_some_iff.1 hp).1
  have hself : c.pcs.set i .aupWait = c.pcs := by
    refine List.ext_getElem? fun j => ?_
    rw [List.getElem?_set]
    split
    · next e =>
      subst e
      first | rw [if_pos hlt, hp] | rw [hp]
    · rfl
  simp only [step, hp, Option.bind_some, step1, Option.map_some, Option.some.injEq] at hs
  constructor
  · split at hs
    · left
      rw [← hs, hself]
    · right
      rw [← hs]
  · intro hall
    have hone : c.pcs.countP counted = 1 := by
      have h1 := countP_set' (p := counted) hp .idle
      have h2 : (c.pcs.set i .idle).countP counted = 0 := by
        rw [List.countP_eq_zero]
        intro q hq
        obtain ⟨j, hj⟩ := List.mem_iff_getElem?.1 hq
        by_cases hji : j = i
        · subst hji
          rw [List.getElem?_set] at hj
          simp [hlt] at hj
          subst hj
          exact Bool.false_ne_true
        · rw [List.getElem?_set_ne (Ne.symm hji)] at hj
          rw [hall j q hji hj]
          exact Bool.false_ne_true
      rw [h2] at h1
      simp [counted] at h1
      exact h1.symm
    have hr : readers c.l = 1 := by
      have := hi.word
      have := hi.one
      rw [hone] at *
      unfold readers WFLAG at *
      omega
    rw [hr] at hs
    rw [← hs]
    rfl

/-- What the comment on `Upgrade` says does not hold for it: after two agents with read locks begin to upgrade, one of them with `Upgrade`
(both are in their first step after `e1`), the other has the upgraded lock (after `e1 ++ e2`) before `Upgrade` returns successfully
(after `e1 ++ e2 ++ e3`). -/
theorem C40_blocking_upgrade_counterexample : ∃ e1 e2 e3 : List (Nat × Act),
    (run e1 (init 2)).map (·.pcs) = some [.upTry, .aupTry] ∧ (run (e1 ++ e2) (init 2)).map (·.pcs) = some [.upSpin, .U] ∧
    (run (e1 ++ e2 ++ e3) (init 2)).map (·.pcs) = some [.U, .idle] :=
  ⟨[(0, .rlock), (1, .rlock), (0, .cont), (1, .cont), (0, .upgrade), (1, .attemptUpgrade)],
    [(1, .cont), (0, .cont), (0, .cont), (1, .cont)],
    [(1, .downgrade), (1, .runlock), (0, .cont), (0, .cont), (0, .cont), (0, .cont)], by decide +kernel⟩

/-! ## The hypotheses are met -/

theorem reach_of {n : Nat} (es : List (Nat × Act)) {pcs : List PC} (h : (run es (init n)).map (·.pcs) = some pcs) :
    ∃ c, Reachable n c ∧ c.pcs = pcs := by
  rw [Option.map_eq_some_iff] at h
  obtain ⟨c, h1, h2⟩ := h
  exact ⟨c, ⟨es, h1⟩, h2⟩

/-- Three agents: one has the write lock while the others are inside calls. -/
example : ∃ c, Reachable 3 c ∧ c.pcs = [.W, .rWait, .lockTry] :=
  reach_of [(0, .rlock), (0, .cont), (0, .runlock), (0, .lock), (1, .rlock), (0, .cont), (1, .cont), (2, .lock), (2, .cont), (1, .cont),
    (0, .cont)] (by decide +kernel)

/-- Several agents attempt to upgrade. -/
example : ∃ c, Reachable 3 c ∧ c.pcs = [.aupWait, .aupTry, .aupTry] :=
  reach_of [(0, .rlock), (0, .cont), (1, .rlock), (1, .cont), (2, .attemptRLock), (2, .cont), (0, .attemptUpgrade), (1, .attemptUpgrade),
    (2, .attemptUpgrade), (0, .cont)] (by decide +kernel)

end Verif.Sync.RWLock
