import Mathlib.Algebra.Order.Floor.Semiring
import Mathlib.Data.Rat.Floor
import Mathlib.Tactic.Ring
import Mathlib.Tactic.Linarith
import Mathlib.Tactic.FieldSimp
import Mathlib.Tactic.NormNum

/-!
# High precision timers

Models `/repo/include/bss-util/HighPrecisionTimer.h` and `/repo/bss-util/HighPrecisionTimer.cpp`. Values of type `double` are rational numbers, so that rounding is not modelled; integers have 64 bits. The readings of the clock are arguments.
-/

namespace Verif.Sys

/-- The members, `HighPrecisionTimer.h:91-95`. -/
structure Timer where
  delta : ℚ
  time : ℚ
  cur : Nat
  nsTime : Nat
  nsDelta : Nat
deriving Repr, DecidableEq

/-- A clock of POSIX, in nanoseconds, or one of Windows, in ticks with their frequency in Hertz. -/
inductive Clock where
  | posix
  | windows (freq : Nat)
deriving Repr, DecidableEq

/-- Calls, with the reading of the clock that they get. -/
inductive TimerOp where
  | update (now : Nat)
  | warp (now : Nat) (timewarp : ℚ)
  | overrideNS (now : Nat) (nsdelta : Nat)
  | overrideMS (now : Nat) (delta : ℚ)
  | resetTime
  | resetDelta (now : Nat)
deriving Repr, DecidableEq

/-- The constructor, `HighPrecisionTimer.cpp:16-19`; `ResetDelta`, `HighPrecisionTimer.h:55-60`, sets the rest. -/
def newTimer (now : Nat) : Timer := ⟨0, 0, now, 0, 0⟩

/-- The common end of all updates, `HighPrecisionTimer.cpp:33-35`, `HighPrecisionTimer.cpp:53-55`, `HighPrecisionTimer.cpp:63-64`, `HighPrecisionTimer.cpp:71-72`. -/
def advance (t : Timer) (cur : Nat) (delta : ℚ) (nsDelta : Nat) : Timer :=
  let ns : Nat := (t.nsTime + nsDelta) % 2 ^ 64
  ⟨delta, (ns : ℚ) / 1000000, cur, ns, nsDelta⟩

/-- `Update()`, `HighPrecisionTimer.cpp:21-37`. -/
def update (c : Clock) (t : Timer) (now : Nat) : Timer :=
  let new := if now < t.cur then t.cur else now
  match c with
  | .posix => advance t new ((new - t.cur : Nat) / 1000000) (new - t.cur)
  | .windows f => advance t new ((((new - t.cur) * 1000 % 2 ^ 64 : Nat) : ℚ) / f) ((new - t.cur) * 1000000000 % 2 ^ 64 / f)

/-- One call; `none` is a conversion of a `double` out of range or a division by zero. `Update(double)`, `HighPrecisionTimer.cpp:39-57`; `Override`, `HighPrecisionTimer.cpp:58-73`; `ResetTime` and `ResetDelta`, `HighPrecisionTimer.h:53-60`. -/
def timerStep (c : Clock) (t : Timer) : TimerOp → Option Timer
  | .update now => some (update c t now)
  | .warp now w =>
    if w = 1 then some (update c t now)
    else
      let new := if now < t.cur then t.cur else now
      match c with
      | .posix =>
        let d : ℚ := (new - t.cur : Nat) * w
        if d < 0 ∨ d ≥ 2 ^ 64 then none else some (advance t new ((new - t.cur : Nat) / (1000000 * w)) ⌊d⌋₊)
      | .windows f =>
        let wf : ℚ := f * w
        if wf < 1 ∨ wf ≥ 2 ^ 64 then none
        else some (advance t new ((((new - t.cur) * 1000 % 2 ^ 64 : Nat) : ℚ) / wf) ((new - t.cur) * 1000000000 % 2 ^ 64 / ⌊wf⌋₊))
  | .overrideNS now d => some (advance t now (d / 1000000) d)
  | .overrideMS now d => if d < 0 ∨ d * 1000000 ≥ 2 ^ 64 then none else some (advance t now d ⌊d * 1000000⌋₊)
  | .resetTime => some { t with time := 0, nsTime := 0 }
  | .resetDelta now => some { t with cur := now, delta := 0, nsDelta := 0 }

/-- A sequence of calls, with the timers after each of them. -/
def timerRun (c : Clock) (t : Timer) : List TimerOp → Option (List Timer)
  | [] => some []
  | o :: l => do
    let t' ← timerStep c t o
    let r ← timerRun c t' l
    return t' :: r

/-! ## Specification -/

/-- The latest reading so far. -/
def latest (now : Nat) (rs : List Nat) : Nat := rs.foldl max now

/-- The sum of the increments since the last reset of the time; `ts` are the timers after each of the calls. -/
def total : Nat → List (TimerOp × Timer) → Nat
  | s, [] => s
  | _, (.resetTime, _) :: l => total 0 l
  | s, (.resetDelta _, _) :: l => total s l
  | s, (_, t) :: l => total (s + t.nsDelta) l

/-- The timer after several readings. -/
def updates (c : Clock) (t : Timer) (rs : List Nat) : Timer := rs.foldl (update c) t

/-! ## Proofs -/

theorem le_latest (rs : List Nat) : ∀ now, now ≤ latest now rs := by
  induction rs with
  | nil => intro now; exact Nat.le_refl _
  | cons r rs ih => intro now; exact Nat.le_trans (Nat.le_max_left _ _) (ih (max now r))

theorem latest_lt (rs : List Nat) (b : Nat) : ∀ now, now < b → (∀ r ∈ rs, r < b) → latest now rs < b := by
  induction rs with
  | nil => intro now h _; exact h
  | cons r rs ih =>
    intro now h hr
    exact ih (max now r) (Nat.max_lt.2 ⟨h, hr r (List.mem_cons_self ..)⟩) fun x hx => hr x (List.mem_cons_of_mem _ hx)

theorem new_eq (now cur : Nat) : (if now < cur then cur else now) = max cur now := by split <;> omega

theorem posix_updates (rs : List Nat) : ∀ t : Timer, t.nsTime ≤ t.cur → (∀ r ∈ rs, r < 2 ^ 64) → t.cur < 2 ^ 64 →
    (updates .posix t rs).cur = latest t.cur rs ∧ (updates .posix t rs).nsTime = t.nsTime + (latest t.cur rs - t.cur) := by
  induction rs with
  | nil => intro t _ _ _; exact ⟨rfl, by simp [updates, latest]⟩
  | cons r rs ih =>
    intro t h hr hc
    have hr0 := hr r (List.mem_cons_self ..)
    have e : update .posix t r = advance t (max t.cur r) ((max t.cur r - t.cur : Nat) / 1000000) (max t.cur r - t.cur) := by
      unfold update; dsimp only; rw [new_eq]
    have hmod : (t.nsTime + (max t.cur r - t.cur)) % 2 ^ 64 = t.nsTime + (max t.cur r - t.cur) := Nat.mod_eq_of_lt (by omega)
    have e2 : (update .posix t r).cur = max t.cur r := by rw [e]; rfl
    have e3 : (update .posix t r).nsTime = t.nsTime + (max t.cur r - t.cur) := by rw [e]; exact hmod
    obtain ⟨h1, h2⟩ := ih (update .posix t r) (by rw [e2, e3]; omega) (fun x hx => hr x (List.mem_cons_of_mem _ hx)) (by rw [e2]; omega)
    have el : latest t.cur (r :: rs) = latest (max t.cur r) rs := rfl
    have eu : updates .posix t (r :: rs) = updates .posix (update .posix t r) rs := rfl
    rw [eu, el, h1, h2, e2, e3]
    refine ⟨rfl, ?_⟩
    have := le_latest rs (max t.cur r)
    omega

/-- **C146**: on POSIX, after any number of updates at any readings, also of a clock that runs backwards, the time is the difference between the latest reading and that at the start: it neither drifts nor decreases. -/
theorem C146_posix (start : Nat) (rs : List Nat) (hs : start < 2 ^ 64) (hr : ∀ r ∈ rs, r < 2 ^ 64) : (updates .posix (newTimer start) rs).nsTime = latest start rs - start := by
  have := (posix_updates rs (newTimer start) (Nat.zero_le _) hr hs).2
  rw [this]; simp [newTimer]

/-- **C146**: each update returns, and keeps as the delta, the time since the one before it. -/
theorem C146_posix_delta (start : Nat) (rs : List Nat) (r : Nat) (hs : start < 2 ^ 64) (hr : ∀ x ∈ rs, x < 2 ^ 64) :
    (updates .posix (newTimer start) (rs ++ [r])).nsDelta = latest start (rs ++ [r]) - latest start rs ∧ (updates .posix (newTimer start) (rs ++ [r])).delta = ((latest start (rs ++ [r]) - latest start rs : Nat) : ℚ) / 1000000 := by
  have h := (posix_updates rs (newTimer start) (Nat.zero_le _) hr hs).1
  have e1 : updates .posix (newTimer start) (rs ++ [r]) = update .posix (updates .posix (newTimer start) rs) r := by simp [updates]
  have e2 : latest start (rs ++ [r]) = max (latest start rs) r := by simp [latest]
  rw [e1, e2]
  unfold update; dsimp only
  rw [new_eq, h]
  exact ⟨rfl, rfl⟩

/-- With readings in order the latest is the last. -/
theorem latest_sorted (rs : List Nat) : ∀ start, (start :: rs).Pairwise (· ≤ ·) → latest start rs = (start :: rs).getLast (by simp) := by
  induction rs with
  | nil => intro _ _; rfl
  | cons r rs ih =>
    intro start h
    have h1 := List.pairwise_cons.1 h
    have : max start r = r := Nat.max_eq_right (h1.1 r (List.mem_cons_self ..))
    show latest (max start r) rs = _
    rw [this, ih r h1.2]; rfl

/-- **C146**: with a clock that does not run backwards the time is that since the start. -/
theorem C146_posix_monotone (start last : Nat) (rs : List Nat) (h : (start :: (rs ++ [last])).Pairwise (· ≤ ·)) (hl : last < 2 ^ 64) : (updates .posix (newTimer start) (rs ++ [last])).nsTime = last - start := by
  have hp := List.pairwise_cons.1 h
  have hq := List.pairwise_append.1 hp.2
  have hlast : ∀ r ∈ rs ++ [last], r ≤ last := by
    intro r hr
    rcases List.mem_append.1 hr with hr | hr
    · exact hq.2.2 r hr last (by simp)
    · rw [List.mem_singleton.1 hr]
  rw [C146_posix start _ (lt_of_le_of_lt (hp.1 last (by simp)) hl) (fun r hr => lt_of_le_of_lt (hlast r hr) hl), latest_sorted _ _ h]
  simp

/-- **C146** (partial: at most `2 ^ 64 / 10 ^ 9` ticks between updates). On Windows the time is at most that since the start, and less by at most a nanosecond for each update. -/
theorem C146_windows_partial (f : Nat) (hf : 0 < f) (rs : List Nat) : ∀ (t : Timer), (∀ pre r post, rs = pre ++ r :: post → (r - latest t.cur pre) * 1000000000 < 2 ^ 64) → t.nsTime + (latest t.cur rs - t.cur) * 1000000000 / f < 2 ^ 64 →
    (updates (.windows f) t rs).nsTime ≤ t.nsTime + (latest t.cur rs - t.cur) * 1000000000 / f ∧ t.nsTime + (latest t.cur rs - t.cur) * 1000000000 / f ≤ (updates (.windows f) t rs).nsTime + rs.length := by
  induction rs with
  | nil => intro t _ _; simp [updates, latest]
  | cons r rs ih =>
    intro t h hb
    have el : latest t.cur (r :: rs) = latest (max t.cur r) rs := rfl
    have eu : updates (.windows f) t (r :: rs) = updates (.windows f) (update (.windows f) t r) rs := rfl
    have hd : (max t.cur r - t.cur) * 1000000000 < 2 ^ 64 := by
      have h1 : (r - t.cur) * 1000000000 < 2 ^ 64 := h [] r rs rfl
      rcases Nat.le_total t.cur r with hh | hh
      · rw [Nat.max_eq_right hh]; exact h1
      · rw [Nat.max_eq_left hh]; simp
    have hll := le_latest rs (max t.cur r)
    rw [el] at hb
    -- the two parts of the time
    have key : ∀ a b : Nat, (a + b) / f ≤ a / f + b / f + 1 ∧ a / f + b / f ≤ (a + b) / f := by
      intro a b
      have := Nat.add_div (a := a) (b := b) hf
      rw [this]; split <;> omega
    have hsplit : (latest (max t.cur r) rs - t.cur) * 1000000000 = (max t.cur r - t.cur) * 1000000000 + (latest (max t.cur r) rs - max t.cur r) * 1000000000 := by
      rw [← Nat.add_mul]; congr 1; omega
    obtain ⟨k1, k2⟩ := key ((max t.cur r - t.cur) * 1000000000) ((latest (max t.cur r) rs - max t.cur r) * 1000000000)
    rw [hsplit] at hb
    have e2 : (update (.windows f) t r).cur = max t.cur r := by unfold update; dsimp only; rw [new_eq]; rfl
    have e3 : (update (.windows f) t r).nsTime = t.nsTime + (max t.cur r - t.cur) * 1000000000 / f := by
      have hm : (t.nsTime + (max t.cur r - t.cur) * 1000000000 / f) % 2 ^ 64 = t.nsTime + (max t.cur r - t.cur) * 1000000000 / f :=
        Nat.mod_eq_of_lt (Nat.lt_of_le_of_lt (Nat.add_le_add_left (Nat.le_trans (Nat.le_add_right _ _) k2) _) hb)
      unfold update; dsimp only; rw [new_eq, Nat.mod_eq_of_lt hd]
      exact hm
    obtain ⟨i1, i2⟩ := ih (update (.windows f) t r) (fun pre x post e => by rw [e2]; exact h (r :: pre) x post (by rw [e]; rfl)) (by rw [e2, e3]; omega)
    rw [e2, e3] at i1 i2
    rw [eu, el, hsplit]
    simp only [List.length_cons]
    omega

/-- **C146** counterexample: with ticks of 100 nanoseconds, an update after 31 minutes without one advances the time by 15 seconds only. -/
theorem C146_windows_overflow_counterexample : (updates (.windows 10000000) (newTimer 0) [18600000000]).nsTime = 15325592629 := by decide

/-- The invariant of the two times. -/
def Timer.Ok (t : Timer) : Prop := t.time = (t.nsTime : ℚ) / 1000000 ∧ t.nsTime < 2 ^ 64

theorem advance_ok (t : Timer) (cur : Nat) (d : ℚ) (n : Nat) : (advance t cur d n).Ok ∧ (advance t cur d n).nsTime = (t.nsTime + (advance t cur d n).nsDelta) % 2 ^ 64 :=
  ⟨⟨rfl, Nat.mod_lt _ (by decide)⟩, rfl⟩

theorem update_ok (c : Clock) (t : Timer) (now : Nat) : (update c t now).Ok ∧ (update c t now).nsTime = (t.nsTime + (update c t now).nsDelta) % 2 ^ 64 := by
  cases c <;> exact advance_ok _ _ _ _

theorem step_ok (c : Clock) (t t' : Timer) (o : TimerOp) (h : t.Ok) (hs : timerStep c t o = some t') : t'.Ok ∧ ∀ l s, s % 2 ^ 64 = t.nsTime → ∃ s', total s ((o, t') :: l) = total s' l ∧ s' % 2 ^ 64 = t'.nsTime := by
  have gen : (∀ l s, total s ((o, t') :: l) = total (s + t'.nsDelta) l) → t'.Ok ∧ t'.nsTime = (t.nsTime + t'.nsDelta) % 2 ^ 64 → t'.Ok ∧ ∀ l s, s % 2 ^ 64 = t.nsTime → ∃ s', total s ((o, t') :: l) = total s' l ∧ s' % 2 ^ 64 = t'.nsTime := by
    rintro hg ⟨h1, h2⟩
    refine ⟨h1, fun l s e => ⟨_, hg l s, ?_⟩⟩
    rw [h2, ← e, Nat.mod_add_mod]
  cases o with
  | update now =>
    have e : update c t now = t' := Option.some.inj hs
    exact gen (fun l s => rfl) (e ▸ update_ok c t now)
  | warp now w =>
    refine gen (fun l s => rfl) ?_
    unfold timerStep at hs
    by_cases h1 : w = 1
    · simp only [if_pos h1] at hs
      have e : update c t now = t' := Option.some.inj hs
      exact e ▸ update_ok c t now
    · simp only [if_neg h1] at hs
      cases c with
      | posix =>
        dsimp only at hs
        rw [new_eq] at hs
        split at hs
        · cases hs
        · have e := Option.some.inj hs
          exact e ▸ advance_ok _ _ _ _
      | windows f =>
        dsimp only at hs
        rw [new_eq] at hs
        split at hs
        · cases hs
        · have e := Option.some.inj hs
          exact e ▸ advance_ok _ _ _ _
  | overrideNS now d =>
    have e := Option.some.inj hs
    exact gen (fun l s => rfl) (e ▸ advance_ok _ _ _ _)
  | overrideMS now d =>
    refine gen (fun l s => rfl) ?_
    unfold timerStep at hs
    dsimp only at hs
    split at hs
    · cases hs
    · have e := Option.some.inj hs
      exact e ▸ advance_ok _ _ _ _
  | resetTime =>
    have e : ({ t with time := 0, nsTime := 0 } : Timer) = t' := Option.some.inj hs
    subst e
    exact ⟨⟨by simp, by simp⟩, fun l s _ => ⟨0, rfl, rfl⟩⟩
  | resetDelta now =>
    have e : ({ t with cur := now, delta := 0, nsDelta := 0 } : Timer) = t' := Option.some.inj hs
    subst e
    exact ⟨h, fun l s hs => ⟨s, rfl, hs⟩⟩

theorem run_ok (c : Clock) (ops : List TimerOp) : ∀ (t : Timer) (ts : List Timer) (s : Nat), t.Ok → s % 2 ^ 64 = t.nsTime → timerRun c t ops = some ts →
    ((t :: ts).getLast (by simp)).Ok ∧ ((t :: ts).getLast (by simp)).nsTime = total s (ops.zip ts) % 2 ^ 64 := by
  induction ops with
  | nil =>
    intro t ts s h hs hr
    have e : [] = ts := Option.some.inj hr
    subst e
    exact ⟨h, hs.symm⟩
  | cons o ops ih =>
    intro t ts s h hs hr
    unfold timerRun at hr
    rcases hq : timerStep c t o with _ | t'
    · rw [hq] at hr; simp at hr
    · rw [hq] at hr
      rcases hq2 : timerRun c t' ops with _ | r
      · simp [hq2] at hr
      · simp only [hq2, Option.bind_eq_bind, Option.bind_some] at hr
        have e : t' :: r = ts := Option.some.inj hr
        subst e
        obtain ⟨h1, h2⟩ := step_ok c t t' o h hq
        obtain ⟨s', e1, e2⟩ := h2 (ops.zip r) s hs
        rw [List.getLast_cons (by simp), List.zip_cons_cons, e1]
        exact ih t' r s' h1 e2 hq2

/-- **C146**: whatever is called, the time in nanoseconds is the sum of the deltas since its reset, within 64 bits, and the time in milliseconds is the same time. -/
theorem C146_sum (c : Clock) (start : Nat) (ops : List TimerOp) (ts : List Timer) (h : timerRun c (newTimer start) ops = some ts) :
    ((newTimer start :: ts).getLast (by simp)).nsTime = total 0 (ops.zip ts) % 2 ^ 64 ∧ ((newTimer start :: ts).getLast (by simp)).time = (((newTimer start :: ts).getLast (by simp)).nsTime : ℚ) / 1000000 := by
  obtain ⟨h1, h2⟩ := run_ok c ops (newTimer start) ts 0 ⟨by simp [newTimer], by simp [newTimer]⟩ rfl h
  exact ⟨h2, h1.1⟩

/-- **C146** counterexample: an update with a time warp of 2 on POSIX, a millisecond after the start, gives a delta of two million nanoseconds and at the same time of half a millisecond. -/
theorem C146_warp_counterexample : timerStep .posix (newTimer 0) (.warp 1000000 2) = some ⟨1 / 2, 2, 1000000, 2000000, 2000000⟩ := by decide +kernel

/-- **C146** counterexample: on Windows the same call takes half as long instead of twice as long. -/
theorem C146_warp_platform_counterexample : timerStep (.windows 1000000000) (newTimer 0) (.warp 1000000 2) = some ⟨1 / 2, 1 / 2, 1000000, 500000, 500000⟩ := by decide +kernel

/-- The clock runs backwards once. -/
example : (updates .posix (newTimer 5) [10, 8, 9, 20]).nsTime = 15 := by
  rw [C146_posix 5 _ (by decide) (by decide)]; decide

/-- Three updates with a frequency of 3 Hertz lose two nanoseconds. -/
example : (updates (.windows 3) (newTimer 0) [1, 2, 4]).nsTime = 1333333332 ∧ 4 * 1000000000 / 3 = 1333333333 := by decide

/-- A run with all calls. -/
example : (timerRun .posix (newTimer 0) [.update 5, .overrideNS 7 100, .resetTime, .warp 9 3, .overrideMS 10 (1 / 2), .resetDelta 12, .update 13]).map (fun ts => ts.map Timer.nsTime) = some [5, 105, 0, 6, 500006, 500006, 500007] := by decide +kernel

end Verif.Sys
