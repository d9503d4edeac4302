import Verif.Heap.Model

/-!
# Model of `Scheduler` (`/repo/include/bss-util/Scheduler.h`)

Times are integers (the code has doubles: rounding is not modelled). An event is its due time and an identifier. What a callback returns is an input: the answer
to the `k`-th call of an update. Callbacks that use the scheduler themselves are not modelled. Looking at the top of an empty heap is undefined behaviour (`none`).
-/

namespace Verif.Heap

/-- `CompTFirst<double, F, CompTInv<double>>`, `Scheduler.h:13`: the heap is upside down, by due time. -/
def dueCmp (x y : Int × Nat) : Int := y.1 - x.1

/-- A scheduler: `_time` and the heap. -/
structure Sched where
  now : Int
  heap : List (Int × Nat)
  deriving DecidableEq

/-- `Add`, `:29-30`. -/
def Sched.add (s : Sched) (t : Int) (id : Nat) : Option Sched := (insert dueCmp s.heap (t + s.now, id)).map fun h => { s with heap := h }

/-- The loop of `Update`, `:36-44`, for at most `fuel` calls: the events called and the heap. -/
def fire (now : Int) (ans : Nat → Int) : Nat → Nat → List (Int × Nat) → Option (List (Int × Nat) × List (Int × Nat))
  | 0, _, _ => none
  | fuel + 1, k, a => (peek a).bind fun top =>
    if top.1 ≤ now then
      (if ans k = 0 then remove dueCmp a 0 else set dueCmp a 0 (ans k + now, top.2)).bind fun a' =>
        (fire now ans fuel (k + 1) a'.1).map fun r => (top :: r.1, r.2)
    else some ([], a)

/-- `Update`, `:32-45`, when the timer has advanced by `dt`; `fuel` bounds the number of calls. -/
def Sched.update (fuel : Nat) (s : Sched) (dt : Int) (ans : Nat → Int) : Option (Sched × List (Int × Nat)) :=
  (fire (s.now + dt) ans fuel 0 s.heap).map fun r => (⟨s.now + dt, r.2⟩, r.1)

end Verif.Heap
