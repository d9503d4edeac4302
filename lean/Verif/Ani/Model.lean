import Mathlib.Algebra.Order.Floor.Ring
import Mathlib.Algebra.Order.Field.Basic
import Mathlib.Tactic.Linarith
import Verif.Heap.Model
import Verif.Sorted.Model

/-!
# Model of animations (`Animation.h`)

Times are elements of an ordered field: rounding is not modelled. A track (one of the `Args...` of `AniState`) is a state machine whose events are the calls of the destination; several tracks
are combined with `Track.seq`. `none` is an access outside of an array, a time that is not a number, or a recursion deeper than the fuel.
-/

namespace Verif.Ani

variable {K : Type} [Field K] [LinearOrder K] [IsStrictOrderedRing K] [FloorRing K]

/-- `AniFrame`, `Animation.h:14-33` and `:35-52`; `data` is ignored by tracks that have none. -/
structure Frame (K α δ : Type) where
  time : K
  value : α
  data : δ

/-- What `AniState` does with one of its states: `Reset` and `Interpolate`, with the calls of the destination. -/
structure Track (K σ ε : Type) where
  reset : σ → σ × List ε
  interp : σ → K → Option (σ × List ε)

/-- The fold expressions of `_interpolate` and `_reset`, `Animation.h:121-122`, for two (groups of) states. -/
def Track.seq {σ τ ε : Type} (a : Track K σ ε) (b : Track K τ ε) : Track K (σ × τ) ε where
  reset s := ((((a.reset s.1).1, (b.reset s.2).1)), (a.reset s.1).2 ++ (b.reset s.2).2)
  interp s t := (a.interp s.1 t).bind fun x => (b.interp s.2 t).map fun y => ((x.1, y.1), x.2 ++ y.2)

/-! ## `AniState` -/

/-- `AniState`: `_time` and `_states`. -/
structure St (K σ : Type) where
  time : K
  states : σ

/-- `fmod` of the C library: the remainder of the division rounded towards zero. -/
def fmod (x y : K) : K := if 0 ≤ x / y then x - y * (⌊x / y⌋ : ℤ) else x - y * (⌈x / y⌉ : ℤ)

/-- `AniState::Interpolate`, `Animation.h:93-111`, with the length and loop of the animation; the number is the depth of recursion that is allowed. -/
def interpolate {σ ε : Type} (tr : Track K σ ε) (length loop : K) : ℕ → St K σ → K → Option (St K σ × List ε × Bool)
  | 0, _, _ => none
  | fuel + 1, s, delta =>
    if s.time ≥ length ∧ loop < 0 then some (s, [], false)
    else
      let time := s.time + delta
      (tr.interp s.states time).bind fun x =>
        if time ≥ length ∧ loop ≥ 0 then
          let y := tr.reset x.1
          if length - loop = 0 then none
          else (interpolate tr length loop fuel ⟨fmod (time - length) (length - loop), y.1⟩ loop).map fun z => (z.1, x.2 ++ y.2 ++ z.2.1, z.2.2)
        else some (⟨time, x.1⟩, x.2, decide (time < length))

/-- `AniState::Reset`, `Animation.h:88-92`, and the destructor, `:87`. -/
def reset {σ ε : Type} (tr : Track K σ ε) (s : St K σ) : St K σ × List ε := (⟨0, (tr.reset s.states).1⟩, (tr.reset s.states).2)

/-- `AniStateBase::SetTime`, `Animation.h:63-68`. -/
def setTime {σ ε : Type} (tr : Track K σ ε) (s : St K σ) (time : K) : St K σ × List ε :=
  if s.time > time then (⟨time, (reset tr s).1.states⟩, (reset tr s).2) else (⟨time, s.states⟩, [])

/-! ## Discrete tracks -/

variable {α δ : Type}

/-- The loop in `AniStateDiscrete::Interpolate`, `Animation.h:171-172`: the new `_cur` and the values the destination is called with. -/
def discreteLoop (frames : List (Frame K α δ)) (t : K) (cur : ℕ) : ℕ × List α :=
  match h : frames[cur]? with
  | some f => if f.time ≤ t then ((discreteLoop frames t (cur + 1)).1, f.value :: (discreteLoop frames t (cur + 1)).2) else (cur, [])
  | none => (cur, [])
termination_by frames.length - cur
decreasing_by all_goals (have := (List.getElem?_eq_some_iff.1 h).1; omega)

/-- `AniStateDiscrete`, `Animation.h:156-177`. -/
def discrete (frames : List (Frame K α δ)) : Track K ℕ α where
  reset _ := (0, [])
  interp cur t := some (discreteLoop frames t cur)

/-! ## Smooth tracks -/

/-- The loop in `AniStateSmooth::Interpolate`, `Animation.h:198-199`. -/
def advance (frames : List (Frame K α δ)) (t : K) (cur : ℕ) : ℕ :=
  match h : frames[cur]? with
  | some f => if f.time ≤ t then advance frames t (cur + 1) else cur
  | none => cur
termination_by frames.length - cur
decreasing_by all_goals (have := (List.getElem?_eq_some_iff.1 h).1; omega)

/-- `AniStateSmooth`, `Animation.h:179-220`, with the interpolation function and the initial value. -/
def smooth (frames : List (Frame K α δ)) (f : List (Frame K α δ) → ℕ → K → α → Option α) (init : α) : Track K ℕ α where
  reset _ := (0, [])
  interp cur t :=
    let cur := advance frames t cur
    match frames[cur]? with
    | none => if frames.length > 1 then (f frames (frames.length - 1) 1 init).map fun v => (cur, [v]) else some (cur, [])
    | some fr =>
      (if cur = 0 then some 0 else (frames[cur - 1]?).map (·.time)).bind fun hold =>
        (f frames cur ((t - hold) / (fr.time - hold)) init).map fun v => (cur, [v])

/-- `NoInterpolate`, `Animation.h:339`. -/
def noInterpolate (v : List (Frame K α δ)) (cur : ℕ) (t : K) (init : α) : Option α :=
  let i : ℤ := cur - (if t ≠ 1 then 1 else 0)
  if i < 0 then some init else (v[i.toNat]?).map (·.value)

/-- `lerp`, `bss_util.h:1002-1006`, for numbers; the conversion of the fraction to `float` is not modelled. -/
def lerp (a b t : K) : K := (1 - t) * a + t * b

/-- `LerpInterpolate`, `Animation.h:341`, for numbers. -/
def lerpInterpolate (v : List (Frame K K δ)) (cur : ℕ) (t : K) (init : K) : Option K :=
  (if cur = 0 then some init else (v[cur - 1]?).map (·.value)).bind fun a => (v[cur]?).map fun b => lerp a b.value t

/-- `NoInterpolateRel`, `Animation.h:340`: an index of -1 is outside of the array. -/
def noInterpolateRel (v : List (Frame K K δ)) (cur : ℕ) (t : K) (init : K) : Option K :=
  let i : ℤ := cur - (if t ≠ 1 then 1 else 0)
  if i < 0 then none else (v[i.toNat]?).map fun f => init + f.value

/-- `LerpInterpolateRel`, `Animation.h:342`. -/
def lerpInterpolateRel (v : List (Frame K K δ)) (cur : ℕ) (t : K) (init : K) : Option K :=
  if cur = 0 then none else (v[cur - 1]?).bind fun a => (v[cur]?).map fun b => init + lerp a.value b.value t

/-! ## Interval tracks -/

/-- What an interval track does to the destination: `FN` with a value, which returns a handle, and `REMOVE` with a handle. Handles are numbered in the order of the calls of `FN`. -/
inductive Ev (α : Type) where
  | add (handle : ℕ) (value : α)
  | remove (handle : ℕ)
deriving DecidableEq

/-- `AniStateInterval`: the queue, `_cur`, and the number of handles given out by the destination. -/
structure IState (K : Type) where
  queue : List (K × ℕ)
  cur : ℕ
  next : ℕ

/-- `CompTFirst` with `CompT<double>`, `compare.h:16` and `:33-34`. -/
def keyCmp (a b : K × ℕ) : Int := (if a.1 > b.1 then 1 else 0) - (if a.1 < b.1 then 1 else 0)

/-- The first loop of `AniStateInterval::Interpolate`, `Animation.h:237-238`, with `_addToQueue`, `:245`; `Push` is that of `PriorityQueue`, the model of C03. -/
def addLoop (frames : List (Frame K α K)) (t : K) (s : IState K) : Option (IState K × List (Ev α)) :=
  match h : frames[s.cur]? with
  | some f =>
    if f.time ≤ t then
      (Heap.insert keyCmp s.queue (f.data, s.next)).bind fun q =>
        (addLoop frames t ⟨q, s.cur + 1, s.next + 1⟩).map fun r => (r.1, .add s.next f.value :: r.2)
    else some (s, [])
  | none => some (s, [])
termination_by frames.length - s.cur
decreasing_by all_goals (have := (List.getElem?_eq_some_iff.1 h).1; omega)

/-- The second loop of `AniStateInterval::Interpolate`, `Animation.h:240-241`; the number bounds the rounds. -/
def removeLoop (t : K) : ℕ → List (K × ℕ) → Option (List (K × ℕ) × List (Ev α))
  | 0, q => some (q, [])
  | n + 1, q =>
    match q[0]? with
    | none => some (q, [])
    | some p =>
      if p.1 ≤ t then (Heap.pop keyCmp q).bind fun r => (removeLoop t n r.1).map fun r' => (r'.1, .remove r.2.2 :: r'.2)
      else some (q, [])

/-- `_clearQueue`, `Animation.h:247-251`; the number bounds the rounds. -/
def clearLoop : ℕ → List (K × ℕ) → Option (List (K × ℕ) × List (Ev α))
  | 0, q => some (q, [])
  | n + 1, q =>
    match q[0]? with
    | none => some (q, [])
    | some _ => (Heap.pop keyCmp q).bind fun r => (clearLoop n r.1).map fun r' => (r'.1, .remove r.2.2 :: r'.2)

/-- `AniStateInterval`, `Animation.h:222-255`. -/
def interval (frames : List (Frame K α K)) : Track K (IState K) (Ev α) where
  reset s := match clearLoop s.queue.length s.queue with
    | some r => (⟨r.1, 0, s.next⟩, r.2)
    | none => (⟨s.queue, 0, s.next⟩, [])
  interp s t := (addLoop frames t s).bind fun r =>
    (removeLoop t r.1.queue.length r.1.queue).map fun q => (⟨q.1, r.1.cur, r.1.next⟩, r.2 ++ q.2)

/-! ## Histories -/

/-- The calls of a user. -/
inductive Op (K : Type) where
  | interpolate (delta : K)
  | setTime (time : K)
  | reset

/-- One call, with its result if it is `Interpolate`. -/
def step {σ ε : Type} (tr : Track K σ ε) (length loop : K) (fuel : ℕ) (s : St K σ) : Op K → Option (St K σ × List ε)
  | .interpolate d => (interpolate tr length loop fuel s d).map fun r => (r.1, r.2.1)
  | .setTime t => some (setTime tr s t)
  | .reset => some (reset tr s)

/-- A history of calls. -/
def run {σ ε : Type} (tr : Track K σ ε) (length loop : K) (fuel : ℕ) : St K σ → List (Op K) → Option (St K σ × List ε)
  | s, [] => some (s, [])
  | s, o :: os => (step tr length loop fuel s o).bind fun r => (run tr length loop fuel r.1 os).map fun q => (q.1, r.2 ++ q.2)

end Verif.Ani
