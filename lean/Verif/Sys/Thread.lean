/-!
# `Thread::join` with a timeout (C164) and `Semaphore` (C165), `/repo/include/bss-util/Thread.h`

Times are nanoseconds since the epoch. The functions of the operating systems are modelled by their documentation; `pthread_timedjoin_np` refuses a time whose nanoseconds are not below 10^9 if it has to wait (as in glibc).
-/

namespace Verif.Sys.Thr

/-! ## Joining -/

/-- Nanoseconds in a second, and in a millisecond. -/
def sec : Nat := 1000000000
def msec : Nat := 1000000

/-- A `Thread`: whether it is joinable, when its function ends (`none`: never), and what it returns. -/
structure Thread where
  joinable : Bool
  ends : Option Nat
  code : Nat

/-- `(size_t)~0`. -/
def fail : Nat := 2 ^ 64 - 1

def Thread.ended (t : Thread) (now : Nat) : Bool := match t.ends with | some e => decide (e ≤ now) | none => false

/-- `pthread_timedjoin_np` (trusted): whether the thread was joined, and when the call returns. -/
def timedJoin (t : Thread) (now : Nat) (tv_sec tv_nsec : Nat) : Bool × Nat :=
  if t.ended now then (true, now)
  else if tv_nsec ≥ sec then (false, now)
  else
    let limit := tv_sec * sec + tv_nsec
    match t.ends with
    | some e => if e ≤ limit then (true, max now e) else (false, max now limit)
    | none => (false, max now limit)

/-- `join(mstimeout)` on POSIX, `Thread.h:74-108`: the result, when it returns, and the thread afterwards. `clock` tells whether `clock_gettime` works. -/
def joinPosix (t : Thread) (clock : Bool) (now ms : Nat) : Nat × Nat × Thread :=
  if !t.joinable then (fail, now, t)
  else if ms = 0 ∨ !clock then
    if t.ended now then (t.code, now, { t with joinable := false }) else (fail, now, t)
  else
    let tv_sec := now / sec + ms / 1000
    let tv_nsec := now % sec + ms % 1000 * msec
    match timedJoin t now tv_sec tv_nsec with
    | (true, time) => (t.code, time, { t with joinable := false })
    | (false, time) => (fail, time, t)

/-- `join(mstimeout)` on Windows with 64 bits, `Thread.h:74-82` and `108`: `GetExitCodeThread` writes 32 bits into `ret`. -/
def joinWindows (t : Thread) (now ms : Nat) : Nat × Nat × Thread :=
  if !t.joinable then (fail, now, t)
  else
    let dw := ms % 2 ^ 32
    let forever := dw = 2 ^ 32 - 1
    match t.ends with
    | some e =>
      if e ≤ now + dw * msec ∨ forever then ((fail / 2 ^ 32) * 2 ^ 32 + t.code % 2 ^ 32, max now e, { t with joinable := false })
      else (fail, now + dw * msec, t)
    | none => (fail, now + dw * msec, t)

/-- Specification: the thread is joined as soon as it has ended, if that is within the time; otherwise the call fails when the time is over. -/
def joinSpec (t : Thread) (now ms : Nat) : Nat × Nat × Thread :=
  match t.ends with
  | some e => if e ≤ now + ms * msec then (t.code, max now e, { t with joinable := false }) else (fail, now + ms * msec, t)
  | none => (fail, now + ms * msec, t)

/-- C164: if the milliseconds of the timeout beyond whole seconds do not go into the next second, or the thread has ended, or the timeout is 0, the call waits until the thread has ended, but not longer than the timeout. -/
theorem C164_wait_partial (t : Thread) (now ms : Nat) (hj : t.joinable = true) (h : t.ended now = true ∨ ms = 0 ∨ now % sec + ms % 1000 * msec < sec) :
    joinPosix t true now ms = joinSpec t now ms := by
  have hms : (now / sec + ms / 1000) * sec + (now % sec + ms % 1000 * msec) = now + ms * msec := by
    have e1 := Nat.div_add_mod now sec
    have e2 := Nat.div_add_mod ms 1000
    unfold sec msec at *
    omega
  unfold joinPosix joinSpec
  simp only [hj, Bool.not_true, Bool.false_eq_true, if_false, or_false]
  cases he : t.ends with
  | none =>
    have hn : t.ended now = false := by simp [Thread.ended, he]
    rw [hn] at h
    by_cases h0 : ms = 0
    · simp [h0, hn]
    · have h' : ¬ now % sec + ms % 1000 * msec ≥ sec := by
        rcases h with h | h | h
        · cases h
        · exact absurd h h0
        · omega
      rw [if_neg h0]
      simp only [timedJoin, hn, Bool.false_eq_true, if_false, if_neg h', he, hms]
      rw [Nat.max_eq_right (by omega)]
  | some e =>
    dsimp only
    by_cases h0 : ms = 0
    · by_cases hn : e ≤ now
      · have hE : t.ended now = true := by simp [Thread.ended, he, hn]
        rw [if_pos h0, if_pos hE, if_pos (by omega), Nat.max_eq_left hn]
      · have hE : t.ended now = false := by simp [Thread.ended, he, hn]
        rw [if_pos h0, hE, if_neg (by simp), h0, Nat.zero_mul, if_neg (by omega)]
        rfl
    · rw [if_neg h0]
      by_cases hn : e ≤ now
      · have hE : t.ended now = true := by simp [Thread.ended, he, hn]
        simp only [timedJoin, hE, if_true]
        rw [if_pos (by omega), Nat.max_eq_left hn]
      · have hE : t.ended now = false := by simp [Thread.ended, he, hn]
        rw [hE] at h
        have h' : ¬ now % sec + ms % 1000 * msec ≥ sec := by
          rcases h with h | h | h
          · cases h
          · exact absurd h h0
          · omega
        simp only [timedJoin, hE, Bool.false_eq_true, if_false, if_neg h', he, hms]
        by_cases hl : e ≤ now + ms * msec
        · simp only [if_pos hl]
        · simp only [if_neg hl]
          rw [Nat.max_eq_right (by omega)]

example : (joinPosix ⟨true, some (5 * sec + 300), 0⟩ true (5 * sec) 20).1 = 0 ∧ (5 * sec) % sec + 20 % 1000 * msec < sec := by decide

/-- C164 fails otherwise: the call does not wait at all, however long the timeout is and even if the thread ends in time. -/
theorem C164_wait_false (t : Thread) (now ms : Nat) (hj : t.joinable = true) (hn : t.ended now = false) (h0 : ms ≠ 0) (h : sec ≤ now % sec + ms % 1000 * msec) :
    joinPosix t true now ms = (fail, now, t) := by
  unfold joinPosix
  simp only [hj, Bool.not_true, Bool.false_eq_true, if_false, or_false]
  rw [if_neg h0]
  simp only [timedJoin, hn, Bool.false_eq_true, if_false, if_pos (show now % sec + ms % 1000 * msec ≥ sec from h)]

example : (joinPosix ⟨true, some (5 * sec + 999999999), 0⟩ true (5 * sec + 500000000) 60500).1 = fail := by decide

/-- Several calls one after the other; each begins when the one before has returned, or later. -/
def joins : Thread → Nat → List (Bool × Nat × Nat) → List (Nat × Nat) × Thread
  | t, _, [] => ([], t)
  | t, now, (clock, pause, ms) :: calls =>
    let (r, time, t') := joinPosix t clock (now + pause) ms
    let (rs, t'') := joins t' time calls
    ((r, time) :: rs, t'')

theorem join_cases (t : Thread) (clock : Bool) (now ms : Nat) :
    (joinPosix t clock now ms = (fail, (joinPosix t clock now ms).2.1, t)) ∨
    (t.joinable = true ∧ (joinPosix t clock now ms).1 = t.code ∧ (∃ e, t.ends = some e ∧ e ≤ (joinPosix t clock now ms).2.1) ∧ (joinPosix t clock now ms).2.2 = { t with joinable := false }) := by
  have ended : ∀ n, t.ended n = true → ∃ e, t.ends = some e ∧ e ≤ n := by
    intro n h
    unfold Thread.ended at h
    cases he : t.ends with
    | none => rw [he] at h; cases h
    | some e => rw [he] at h; exact ⟨e, rfl, by simpa using h⟩
  unfold joinPosix
  cases hj : t.joinable with
  | false => left; simp
  | true =>
    simp only [Bool.not_true, Bool.false_eq_true, if_false]
    split
    · split
      · next h => right; exact ⟨trivial, rfl, ended now h, rfl⟩
      · left; rfl
    · generalize now / sec + ms / 1000 = a
      generalize now % sec + ms % 1000 * msec = b
      unfold timedJoin
      by_cases h1 : t.ended now = true
      · simp only [h1, if_true]; right; exact ⟨trivial, trivial, ended now h1, trivial⟩
      · simp only [h1, Bool.false_eq_true, if_false]
        by_cases h2 : b ≥ sec
        · simp only [h2, if_true]; left; trivial
        · simp only [h2, if_false]
          cases he : t.ends with
          | none => left; rfl
          | some e =>
            dsimp only
            by_cases h3 : e ≤ a * sec + b
            · simp only [h3, if_true]; right; exact ⟨trivial, trivial, ⟨e, rfl, by omega⟩, trivial⟩
            · simp only [h3, if_false]; left; trivial

/-- C164: whatever calls are made, a call that succeeds returns after the thread has ended, with its code, and at most one of them succeeds; the thread is joinable as long as none has. -/
theorem C164_once (t : Thread) (now : Nat) (calls : List (Bool × Nat × Nat)) (hc : t.code ≠ fail) (hj : t.joinable = true) :
    (∀ r ∈ (joins t now calls).1, r.1 ≠ fail → r.1 = t.code ∧ ∃ e, t.ends = some e ∧ e ≤ r.2) ∧
    (((joins t now calls).1.filter (·.1 ≠ fail)).length + (if (joins t now calls).2.joinable then 1 else 0) = 1) := by
  have dead : ∀ (calls : List (Bool × Nat × Nat)) (t : Thread) (now : Nat), t.joinable = false → (∀ r ∈ (joins t now calls).1, r.1 = fail) ∧ (joins t now calls).2.joinable = false := by
    intro calls
    induction calls with
    | nil => intro t now h; exact ⟨by simp [joins], h⟩
    | cons c calls ih =>
      intro t now h
      obtain ⟨clock, pause, ms⟩ := c
      have e : joinPosix t clock (now + pause) ms = (fail, now + pause, t) := by simp [joinPosix, h]
      simp only [joins, e]
      obtain ⟨h1, h2⟩ := ih t (now + pause) h
      refine ⟨?_, h2⟩
      intro r hr
      rcases List.mem_cons.1 hr with rfl | hr
      · rfl
      · exact h1 r hr
  induction calls generalizing now with
  | nil => simp [joins, hj]
  | cons c calls ih =>
    obtain ⟨clock, pause, ms⟩ := c
    rcases join_cases t clock (now + pause) ms with h | ⟨-, h1, h2, h3⟩
    · generalize hg : (joinPosix t clock (now + pause) ms).2.1 = time at h
      simp only [joins, h]
      obtain ⟨i1, i2⟩ := ih time
      refine ⟨?_, ?_⟩
      · intro r hr
        rcases List.mem_cons.1 hr with rfl | hr
        · intro hf; exact absurd rfl hf
        · exact i1 r hr
      · rw [List.filter_cons_of_neg (by simp)]
        exact i2
    · rcases hx : joinPosix t clock (now + pause) ms with ⟨r, time, t'⟩
      rw [hx] at h1 h2 h3
      dsimp only at h1 h2 h3
      subst h1 h3
      simp only [joins, hx]
      obtain ⟨d1, d2⟩ := dead calls { t with joinable := false } time rfl
      refine ⟨?_, ?_⟩
      · intro r hr
        rcases List.mem_cons.1 hr with rfl | hr
        · intro _; exact ⟨rfl, h2⟩
        · intro hf; exact absurd (d1 r hr) hf
      · rw [List.filter_cons_of_pos (by simpa using hc), d2]
        have : (joins { t with joinable := false } time calls).1.filter (fun r => decide (r.1 ≠ fail)) = [] := by
          rw [List.filter_eq_nil_iff]
          intro r hr
          simp [d1 r hr]
        rw [List.length_cons, this]
        rfl

/-- C164 fails on Windows: whatever the code of the thread, the result is not this code, and the code 2^32 - 1 cannot be told from a timeout. -/
theorem C164_windows_false (t : Thread) (now ms : Nat) (hj : t.joinable = true) {e : Nat} (he : t.ends = some e) (hl : e ≤ now + ms % 2 ^ 32 * msec) (hc : t.code < 2 ^ 32) :
    (joinWindows t now ms).1 = 2 ^ 64 - 2 ^ 32 + t.code ∧ (joinWindows t now ms).1 ≠ t.code ∧ (t.code = 2 ^ 32 - 1 → (joinWindows t now ms).1 = fail) := by
  have : (joinWindows t now ms).1 = 2 ^ 64 - 2 ^ 32 + t.code := by
    unfold joinWindows
    simp only [hj, Bool.not_true, Bool.false_eq_true, if_false, he]
    rw [if_pos (Or.inl hl)]
    dsimp only
    rw [Nat.mod_eq_of_lt hc]
    rfl
  rw [this]
  unfold fail
  omega

example : (joinWindows ⟨true, some 7, 3⟩ 5 1).1 = 0xFFFFFFFF00000003 := by decide

/-! ## Semaphores -/

/-- The greatest value of a semaphore: `SEM_VALUE_MAX` on Linux, and the one given in `Thread.h:27` on Windows. -/
def semMaxPosix : Nat := 2 ^ 31 - 1
def semMaxWindows : Nat := 65535

/-- `Notify(count)` on POSIX, `Thread.h:46-51`: `sem_post` fails at the greatest value. -/
def notifyPosix : Nat → Nat → Bool × Nat
  | v, 0 => (true, v)
  | v, n + 1 => if v = semMaxPosix then (false, v) else notifyPosix (v + 1) n

/-- `Notify(count)` on Windows, `Thread.h:30-34`: `ReleaseSemaphore` wants a positive number and changes nothing if it fails. -/
def notifyWindows (v n : Nat) : Bool × Nat :=
  let c := n % 2 ^ 32
  if 0 < c ∧ c < 2 ^ 31 ∧ v + c ≤ semMaxWindows then (true, v + c) else (false, v)

inductive Op where
  | notify (n : Nat)
  | wait

/-- Completed calls: a `Wait`, `Thread.h:36` and `52`, completes only if the value is positive. `none` if this order of calls is not possible. -/
def step (notify : Nat → Nat → Bool × Nat) (v : Nat) : Op → Option (Bool × Nat)
  | .notify n => some (notify v n)
  | .wait => if 0 < v then some (true, v - 1) else none

/-- A history of calls that all report success. -/
def run (notify : Nat → Nat → Bool × Nat) : Nat → List Op → Option Nat
  | v, [] => some v
  | v, op :: ops =>
    match step notify v op with
    | some (true, v') => run notify v' ops
    | _ => none

/-- Specification. -/
def notified : List Op → Nat
  | [] => 0
  | .notify n :: ops => n + notified ops
  | .wait :: ops => notified ops
def waited : List Op → Nat
  | [] => 0
  | .notify _ :: ops => waited ops
  | .wait :: ops => waited ops + 1

/-- C165: on POSIX `Notify(n)` adds exactly `n` and reports success if there is room for it; otherwise the value is the greatest possible. -/
theorem C165_notify_partial {v n : Nat} (hv : v ≤ semMaxPosix) : notifyPosix v n = if v + n ≤ semMaxPosix then (true, v + n) else (false, semMaxPosix) := by
  induction n generalizing v with
  | zero => rw [notifyPosix, if_pos (by omega)]; rfl
  | succ n ih =>
    rw [notifyPosix]
    by_cases h : v = semMaxPosix
    · rw [if_pos h, if_neg (by omega), h]
    · rw [if_neg h, ih (by omega)]
      by_cases h2 : v + 1 + n ≤ semMaxPosix
      · rw [if_pos h2, if_pos (by omega)]; congr 1; omega
      · rw [if_neg h2, if_neg (by omega)]

/-- C165: on both systems, as long as calls succeed with counts below 2^31, as many waits pass as were notified: no history has more, and while there are less the next one passes. -/
theorem C165_count (win : Bool) (ops : List Op) (hn : ∀ n, Op.notify n ∈ ops → n < 2 ^ 31) {v : Nat} (h : run (if win then notifyWindows else notifyPosix) 0 ops = some v) :
    v + waited ops = notified ops ∧ (waited ops < notified ops ↔ (step (if win then notifyWindows else notifyPosix) v .wait).isSome) := by
  have key : ∀ (ops : List Op) (u v : Nat), (∀ n, Op.notify n ∈ ops → n < 2 ^ 31) → u ≤ semMaxPosix → run (if win then notifyWindows else notifyPosix) u ops = some v → v + waited ops = u + notified ops := by
    intro ops
    induction ops with
    | nil => intro u v _ _ h; cases h; simp [waited, notified]
    | cons op ops ih =>
      intro u v hn hu h
      rw [run] at h
      cases op with
      | wait =>
        simp only [step] at h
        by_cases h0 : 0 < u
        · rw [if_pos h0] at h
          have := ih (u - 1) v (fun n hm => hn n (by simp [hm])) (by omega) h
          rw [waited, notified]; omega
        · rw [if_neg h0] at h; cases h
      | notify n =>
        simp only [step] at h
        have hlt := hn n (by simp)
        rw [waited, notified]
        cases win with
        | true =>
          simp only [if_true, notifyWindows] at h
          rw [Nat.mod_eq_of_lt (by omega)] at h
          split at h
          · next w v' hs =>
            split at hs
            · next hc =>
              cases hs
              simp only [semMaxWindows] at hc
              have := ih (u + n) v (fun n hm => hn n (by simp [hm])) (by simp only [semMaxPosix]; omega) h
              omega
            · cases hs
          · cases h
        | false =>
          simp only [Bool.false_eq_true, if_false] at h
          rw [C165_notify_partial hu] at h
          split at h
          · next w v' hs =>
            split at hs
            · next hc =>
              cases hs
              have := ih (u + n) v (fun n hm => hn n (by simp [hm])) hc h
              omega
            · cases hs
          · cases h
  have := key ops 0 v hn (by decide) h
  refine ⟨by omega, ?_⟩
  simp only [step]
  split
  · simp; omega
  · simp; omega

example : run notifyPosix 0 [.notify 2, .wait, .wait, .notify 1] = some 1 ∧ run notifyWindows 0 [.notify 2, .wait, .wait, .notify 1] = some 1 := by decide

/-- C165 fails: on POSIX a call that fails may have let some waits pass; on Windows a count of 2^32 + 1 reports success and lets one wait pass, and a count of 0 fails. -/
theorem C165_counterexample : notifyPosix (2 ^ 31 - 2) 2 = (false, 2 ^ 31 - 1) ∧ notifyWindows 0 (2 ^ 32 + 1) = (true, 1) ∧ notifyWindows 0 0 = (false, 0) := by decide

end Verif.Sys.Thr
