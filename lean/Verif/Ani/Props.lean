import Verif.Ani.Model
import Mathlib.Tactic.FieldSimp
import Mathlib.Tactic.Ring
import Mathlib.Data.Rat.Floor
import Mathlib.Data.List.Induction
import Mathlib.Algebra.Order.BigOperators.Group.List

/-!
# Playing an animation: time, and discrete tracks (C117)
-/

namespace Verif.Ani

variable {K : Type} [Field K] [LinearOrder K] [IsStrictOrderedRing K] [FloorRing K] {α δ σ ε : Type}

/-! ## Specification -/

/-- Where an animation that loops is after the time `τ`: past the end it repeats the part from `loop` to `length`. -/
def Spec.position (length loop τ : K) : K :=
  if τ < length then τ else loop + ((τ - length) - (length - loop) * (⌊(τ - length) / (length - loop)⌋ : ℤ))

/-- How often the end of the animation has been reached after the time `τ`. -/
def Spec.passes (length loop τ : K) : ℕ := if τ < length then 0 else ⌊(τ - length) / (length - loop)⌋.toNat + 1

/-- The values of the frames up to the time `t`, in the order of the frames. -/
def Spec.upTo (frames : List (Frame K α δ)) (t : K) : List α := (frames.filter fun f => decide (f.time ≤ t)).map (·.value)

/-- Frames in the order of their times. -/
def Spec.SortedFrames (frames : List (Frame K α δ)) : Prop := frames.Pairwise fun a b => a.time ≤ b.time

/-! ## Lemmas -/

theorem discreteLoop_eq (frames : List (Frame K α δ)) (t : K) : ∀ n cur, n = frames.length - cur →
    discreteLoop frames t cur = (cur + ((frames.drop cur).takeWhile fun f => decide (f.time ≤ t)).length,
      ((frames.drop cur).takeWhile fun f => decide (f.time ≤ t)).map (·.value)) := by
  intro n
  induction n with
  | zero =>
    intro cur h
    have hd : frames.drop cur = [] := List.drop_eq_nil_of_le (by omega)
    have hn : frames[cur]? = none := List.getElem?_eq_none (by omega)
    rw [discreteLoop, hd]
    split
    · next h' => rw [hn] at h'; simp at h'
    · simp
  | succ n ih =>
    intro cur h
    have hlt : cur < frames.length := by omega
    rw [discreteLoop, List.drop_eq_getElem_cons hlt]
    split
    · next f h' =>
      obtain ⟨_, rfl⟩ := List.getElem?_eq_some_iff.1 h'
      by_cases hc : (frames[cur]).time ≤ t
      · rw [if_pos hc, ih (cur + 1) (by omega)]
        rw [List.takeWhile_cons, if_pos (by simpa using hc)]
        simp only [List.length_cons, List.map_cons, Prod.mk.injEq, and_true]
        omega
      · rw [if_neg hc, List.takeWhile_cons, if_neg (by simpa using hc)]
        rfl
    · next h' => rw [List.getElem?_eq_getElem hlt] at h'; simp at h'

theorem takeWhile_extend {β : Type} {p q : β → Bool} (hpq : ∀ x, p x = true → q x = true) : ∀ l : List β,
    l.takeWhile q = l.takeWhile p ++ (l.drop (l.takeWhile p).length).takeWhile q := by
  intro l
  induction l with
  | nil => simp
  | cons a l ih =>
    by_cases hp : p a = true
    · simp [hp, hpq a hp, ih]
    · simp [hp]

theorem upTo_eq {frames : List (Frame K α δ)} (hs : Spec.SortedFrames frames) (t : K) :
    Spec.upTo frames t = (frames.takeWhile fun f => decide (f.time ≤ t)).map (·.value) := by
  unfold Spec.upTo
  congr 1
  induction frames with
  | nil => rfl
  | cons f l ih =>
    have h := List.pairwise_cons.1 hs
    by_cases hc : f.time ≤ t
    · simp [hc, ih h.2]
    · simp only [List.takeWhile_cons, List.filter_cons, hc, decide_false]
      simp only [Bool.false_eq_true, if_false, List.filter_eq_nil_iff, decide_eq_true_eq]
      intro x hx
      have := h.1 x hx
      intro h2
      exact hc (this.trans h2)

/-- The number of frames at the front of the list up to the time `t`. -/
def front (frames : List (Frame K α δ)) (t : K) : ℕ := (frames.takeWhile fun f => decide (f.time ≤ t)).length

theorem discreteLoop_next {frames : List (Frame K α δ)} (hs : Spec.SortedFrames frames) {s t : K} (h : s ≤ t) :
    ∃ e, discreteLoop frames t (front frames s) = (front frames t, e) ∧ Spec.upTo frames s ++ e = Spec.upTo frames t := by
  have hx := takeWhile_extend (p := fun f : Frame K α δ => decide (f.time ≤ s)) (q := fun f => decide (f.time ≤ t))
    (by intro x; simp only [decide_eq_true_eq]; intro h'; exact h'.trans h) frames
  refine ⟨_, (discreteLoop_eq frames t _ _ rfl).trans (Prod.ext ?_ rfl), ?_⟩
  · simp only [front]
    conv_rhs => rw [hx]
    rw [List.length_append]
  · rw [upTo_eq hs, upTo_eq hs, hx, List.map_append]
    rfl

theorem discreteLoop_zero {frames : List (Frame K α δ)} (hs : Spec.SortedFrames frames) (t : K) :
    discreteLoop frames t 0 = (front frames t, Spec.upTo frames t) := by
  rw [discreteLoop_eq frames t _ 0 rfl, upTo_eq hs]
  simp [front]

theorem fmod_nonneg_eq {x y : K} (hx : 0 ≤ x) (hy : 0 < y) : fmod x y = x - y * (⌊x / y⌋ : ℤ) := by
  unfold fmod
  rw [if_pos (div_nonneg hx hy.le)]

theorem fmod_bounds {x y : K} (hy : 0 < y) : 0 ≤ x - y * (⌊x / y⌋ : ℤ) ∧ x - y * (⌊x / y⌋ : ℤ) < y := by
  have h1 := Int.floor_le (x / y)
  have h2 := Int.lt_floor_add_one (x / y)
  have hm : y * (x / y) = x := by rw [mul_comm]; exact div_mul_cancel₀ _ hy.ne'
  constructor
  · have := mul_le_mul_of_nonneg_left h1 hy.le
    linarith
  · have := mul_lt_mul_of_pos_left h2 hy
    linarith

theorem floor_shift {x y : K} {r : K} {q : ℤ} (hy : 0 < y) (h : x = y * q + r) (h0 : 0 ≤ r) (h1 : r < y) : ⌊x / y⌋ = q := by
  rw [Int.floor_eq_iff, le_div_iff₀ hy, div_lt_iff₀ hy]
  constructor
  · rw [h]; linarith
  · rw [h]; linarith

/-- One call that does not reach the end. -/
theorem interpolate_inside (tr : Track K σ ε) {length loop : K} (fuel : ℕ) (s : St K σ) (d : K) (h1 : ¬(s.time ≥ length ∧ loop < 0))
    (h2 : ¬(s.time + d ≥ length ∧ loop ≥ 0)) : interpolate tr length loop (fuel + 1) s d =
      (tr.interp s.states (s.time + d)).map fun x => (⟨s.time + d, x.1⟩, x.2, decide (s.time + d < length)) := by
  show (if _ then _ else _) = _
  rw [if_neg h1]
  cases h : tr.interp s.states (s.time + d) with
  | none => simp [h]
  | some x => simp only [h, Option.bind_some, Option.map_some]; rw [if_neg h2]

/-- One call that reaches the end of an animation that loops. -/
theorem interpolate_around (tr : Track K σ ε) {length loop : K} (hl : 0 ≤ loop) (hll : loop < length) (fuel : ℕ) (s : St K σ) (d : K)
    (h2 : s.time + d ≥ length) : interpolate tr length loop (fuel + 2) s d =
      (tr.interp s.states (s.time + d)).bind fun x =>
        (tr.interp (tr.reset x.1).1 (fmod (s.time + d - length) (length - loop) + loop)).map fun y =>
          (⟨fmod (s.time + d - length) (length - loop) + loop, y.1⟩, x.2 ++ (tr.reset x.1).2 ++ y.2, true) := by
  have hy : 0 < length - loop := by linarith
  have hf := fmod_nonneg_eq (x := s.time + d - length) (by linarith) hy
  have hb := fmod_bounds (x := s.time + d - length) hy
  rw [← hf] at hb
  show (if _ then _ else _) = _
  rw [if_neg (by rintro ⟨-, h⟩; linarith)]
  cases h : tr.interp s.states (s.time + d) with
  | none => simp [h]
  | some x =>
    simp only [h, Option.bind_some]
    rw [if_pos ⟨h2, hl⟩, if_neg hy.ne', interpolate_inside tr fuel _ _ (by rintro ⟨-, h⟩; linarith) (by rintro ⟨h, -⟩; simp only at h; linarith)]
    cases h' : tr.interp (tr.reset x.1).1 (fmod (s.time + d - length) (length - loop) + loop) with
    | none => simp [h']
    | some y =>
      simp only [h', Option.map_some]
      rw [decide_eq_true]
      linarith

theorem run_append (tr : Track K σ ε) (length loop : K) (fuel : ℕ) : ∀ (a b : List (Op K)) (s : St K σ),
    run tr length loop fuel s (a ++ b) = (run tr length loop fuel s a).bind fun r => (run tr length loop fuel r.1 b).map fun q => (q.1, r.2 ++ q.2) := by
  intro a
  induction a with
  | nil => intro b s; cases h : run tr length loop fuel s b <;> simp [run, h]
  | cons o a ih =>
    intro b s
    simp only [List.cons_append, run]
    cases step tr length loop fuel s o with
    | none => rfl
    | some r =>
      simp only [Option.bind_some, ih]
      cases run tr length loop fuel r.1 a with
      | none => rfl
      | some q =>
        simp only [Option.bind_some, Option.map_some, Option.map_map]
        congr 1
        funext z
        simp

/-- A step in the position of a looping animation. -/
theorem position_step {length loop : K} (hl : 0 ≤ loop) (hll : loop < length) {τ d : K} (h0 : 0 ≤ τ) (hd : 0 ≤ d) :
    (Spec.position length loop τ < length ∧ 0 ≤ Spec.position length loop τ) ∧
    (Spec.position length loop τ + d < length → Spec.position length loop (τ + d) = Spec.position length loop τ + d ∧
      Spec.passes length loop (τ + d) = Spec.passes length loop τ) ∧
    (length ≤ Spec.position length loop τ + d →
      Spec.position length loop (τ + d) = fmod (Spec.position length loop τ + d - length) (length - loop) + loop ∧
      (d ≤ length - loop → Spec.passes length loop (τ + d) = Spec.passes length loop τ + 1)) := by
  have hy : 0 < length - loop := by linarith
  unfold Spec.position Spec.passes
  by_cases h : τ < length
  · simp only [if_pos h]
    refine ⟨⟨h, h0⟩, fun h1 => by simp [if_pos h1], fun h1 => ?_⟩
    simp only [if_neg (not_lt.2 h1)]
    refine ⟨by rw [fmod_nonneg_eq (by linarith) hy]; ring, fun h2 => ?_⟩
    rw [floor_shift (q := 0) (r := τ + d - length) hy (by simp) (by linarith) (by linarith)]
    rfl
  · have h' : length ≤ τ := not_lt.1 h
    simp only [if_neg h]
    obtain ⟨b1, b2⟩ := fmod_bounds (x := τ - length) hy
    have hq : 0 ≤ ⌊(τ - length) / (length - loop)⌋ := Int.floor_nonneg.2 (div_nonneg (by linarith) hy.le)
    generalize hqq : ⌊(τ - length) / (length - loop)⌋ = q at *
    have hge : ¬ (τ + d < length) := by linarith
    simp only [if_neg hge]
    refine ⟨⟨by linarith, by linarith⟩, fun h1 => ?_, fun h1 => ?_⟩
    · have e : ⌊(τ + d - length) / (length - loop)⌋ = q :=
        floor_shift (r := τ - length - (length - loop) * q + d) hy (by ring) (by linarith) (by linarith)
      rw [e]
      exact ⟨by ring, rfl⟩
    · rw [fmod_nonneg_eq (by linarith) hy]
      constructor
      · have e : (loop + (τ - length - (length - loop) * q) + d - length) / (length - loop) = (τ + d - length) / (length - loop) - ((q + 1 : ℤ) : K) := by
          rw [eq_sub_iff_add_eq, ← sub_eq_zero]
          field_simp
          push_cast
          ring
        rw [e, Int.floor_sub_intCast]
        push_cast
        ring
      · intro h2
        have e : ⌊(τ + d - length) / (length - loop)⌋ = q + 1 :=
          floor_shift (r := τ - length - (length - loop) * q + d - (length - loop)) hy (by push_cast; ring) (by linarith) (by linarith)
        rw [e]
        omega

/-- The steps of a history of `Interpolate` only. -/
def steps (ds : List K) : List (Op K) := ds.map .interpolate

/-! ## Theorems -/

/-- The time of an animation that loops (`0 ≤ loop < length`) after any steps forward, whatever the tracks, as long as the tracks themselves do not fail. -/
theorem C117_time (tr : Track K σ ε) (ht : ∀ s t, (tr.interp s t).isSome) {length loop : K} (hl : 0 ≤ loop) (hll : loop < length) (fuel : ℕ) (s0 : σ)
    (ds : List K) (hd : ∀ d ∈ ds, 0 ≤ d) :
    ∃ r, run tr length loop (fuel + 2) ⟨0, s0⟩ (steps ds) = some r ∧ r.1.time = Spec.position length loop ds.sum := by
  induction ds using List.reverseRecOn with
  | nil =>
    refine ⟨_, rfl, ?_⟩
    simp [Spec.position, lt_of_le_of_lt hl hll]
  | append_singleton ds d ih =>
    obtain ⟨r, hr, hp⟩ := ih fun x hx => hd x (by simp [hx])
    have h0 : 0 ≤ ds.sum := List.sum_nonneg fun x hx => hd x (by simp [hx])
    have hd0 : 0 ≤ d := hd d (by simp)
    obtain ⟨⟨p1, p2⟩, p3, p4⟩ := position_step hl hll h0 hd0
    rw [← hp] at p1 p2 p3 p4
    rw [steps, List.map_append, run_append, ← steps, hr, Option.bind_some, List.sum_append, List.sum_singleton]
    simp only [List.map_cons, List.map_nil, run, step]
    by_cases hc : r.1.time + d < length
    · rw [interpolate_inside tr _ _ _ (by rintro ⟨h, -⟩; linarith) (by rintro ⟨h, -⟩; linarith)]
      obtain ⟨x, hx⟩ := Option.isSome_iff_exists.1 (ht r.1.states (r.1.time + d))
      simp only [hx, Option.map_some, Option.bind_some]
      exact ⟨_, rfl, (p3 hc).1.symm⟩
    · rw [interpolate_around tr hl hll _ _ _ (not_lt.1 hc)]
      obtain ⟨x, hx⟩ := Option.isSome_iff_exists.1 (ht r.1.states (r.1.time + d))
      simp only [hx, Option.bind_some]
      obtain ⟨y, hy⟩ := Option.isSome_iff_exists.1 (ht (tr.reset x.1).1 (fmod (r.1.time + d - length) (length - loop) + loop))
      simp only [hy, Option.map_some, Option.bind_some]
      exact ⟨_, rfl, (p4 (not_lt.1 hc)).1.symm⟩

example : (0 : ℚ) ≤ 1 ∧ (1 : ℚ) < 3 ∧ (∀ d ∈ [(1 : ℚ), 0, 7 / 2], 0 ≤ d) ∧ Spec.position (3 : ℚ) 1 (9 / 2) = 5 / 2 ∧ Spec.passes (3 : ℚ) 1 (9 / 2) = 1 := by
  refine ⟨by norm_num, by norm_num, ?_, ?_, ?_⟩ <;> decide +kernel

/-- Without a loop: after any steps forward the destination has been called with exactly the values of the frames up to now, once each and in order. -/
theorem C117_discrete_once {frames : List (Frame K α δ)} (hs : Spec.SortedFrames frames) {length loop : K} (hloop : loop < 0) (hlen : 0 < length)
    (hf : ∀ f ∈ frames, f.time ≤ length) (fuel : ℕ) (ds : List K) (hne : ds ≠ []) (hd : ∀ d ∈ ds, 0 ≤ d) :
    (run (discrete frames) length loop (fuel + 1) ⟨0, 0⟩ (steps ds)).map Prod.snd = some (Spec.upTo frames ds.sum) := by
  suffices h : ∀ ds : List K, ds ≠ [] → (∀ d ∈ ds, 0 ≤ d) → ∃ r, run (discrete frames) length loop (fuel + 1) ⟨0, 0⟩ (steps ds) = some r ∧
      0 ≤ r.1.time ∧ r.1.time ≤ ds.sum ∧ (r.1.time = ds.sum ∨ length ≤ r.1.time) ∧ r.1.states = front frames r.1.time ∧ r.2 = Spec.upTo frames ds.sum by
    obtain ⟨r, hr, -, -, -, -, h⟩ := h ds hne hd
    rw [hr, Option.map_some, h]
  have hfull : ∀ t, length ≤ t → Spec.upTo frames t = frames.map (·.value) := by
    intro t ht
    unfold Spec.upTo
    congr 1
    rw [List.filter_eq_self]
    intro f hfm
    simpa using (hf f hfm).trans ht
  intro ds
  induction ds using List.reverseRecOn with
  | nil => intro h; exact absurd rfl h
  | append_singleton ds d ih =>
    intro _ hd
    have hd0 : 0 ≤ d := hd d (by simp)
    rw [steps, List.map_append, run_append, ← steps, List.sum_append, List.sum_singleton]
    by_cases hne : ds = []
    · subst hne
      simp only [steps, List.map_nil, List.map_cons, run, step, Option.bind_some, List.sum_nil, zero_add]
      rw [interpolate_inside _ _ _ _ (by rintro ⟨h, -⟩; simp only at h; linarith) (by rintro ⟨-, h⟩; linarith)]
      simp only [discrete, Option.map_some, zero_add, Option.bind_some, discreteLoop_zero hs]
      exact ⟨_, rfl, hd0, le_refl _, Or.inl rfl, rfl, by simp⟩
    · obtain ⟨r, hr, h0, h1, h2, h3, h4⟩ := ih hne fun x hx => hd x (by simp [hx])
      rw [hr]
      simp only [Option.bind_some, List.map_cons, List.map_nil, run, step]
      by_cases hc : length ≤ r.1.time
      · rw [interpolate, if_pos ⟨hc, hloop⟩]
        simp only [Option.map_some, Option.bind_some]
        refine ⟨_, rfl, h0, by simp only; linarith, Or.inr hc, h3, ?_⟩
        simp only [List.append_nil, h4]
        rw [hfull _ (hc.trans h1), hfull _ (by linarith)]
      · rw [interpolate_inside _ _ _ _ (by rintro ⟨h, -⟩; exact hc h) (by rintro ⟨-, h⟩; linarith)]
        have ht : r.1.time = ds.sum := h2.resolve_right hc
        obtain ⟨e, he, he'⟩ := discreteLoop_next hs (s := r.1.time) (t := r.1.time + d) (by linarith)
        simp only [discrete, h3, he, Option.map_some, Option.bind_some]
        refine ⟨_, rfl, by simp only; linarith, by simp only; linarith, Or.inl (by simp only [ht]), rfl, ?_⟩
        simp only [List.append_nil, h4]
        rw [← ht]
        exact he'

/-- With a loop and steps no longer than the looped part: every pass calls all the frames, and the last one those up to the position. -/
theorem C117_discrete_loop_partial {frames : List (Frame K α δ)} (hs : Spec.SortedFrames frames) {length loop : K} (hl : 0 ≤ loop) (hll : loop < length)
    (hf : ∀ f ∈ frames, f.time ≤ length) (fuel : ℕ) (ds : List K) (hne : ds ≠ []) (hd : ∀ d ∈ ds, 0 ≤ d ∧ d ≤ length - loop) :
    (run (discrete frames) length loop (fuel + 2) ⟨0, 0⟩ (steps ds)).map Prod.snd =
      some ((List.replicate (Spec.passes length loop ds.sum) (frames.map (·.value))).flatten ++ Spec.upTo frames (Spec.position length loop ds.sum)) := by
  suffices h : ∀ ds : List K, ds ≠ [] → (∀ d ∈ ds, 0 ≤ d ∧ d ≤ length - loop) → ∃ r, run (discrete frames) length loop (fuel + 2) ⟨0, 0⟩ (steps ds) = some r ∧
      r.1.time = Spec.position length loop ds.sum ∧ r.1.states = front frames r.1.time ∧
      r.2 = (List.replicate (Spec.passes length loop ds.sum) (frames.map (·.value))).flatten ++ Spec.upTo frames r.1.time by
    obtain ⟨r, hr, h1, -, h⟩ := h ds hne hd
    rw [hr, Option.map_some, h, h1]
  have hfull : ∀ t, length ≤ t → Spec.upTo frames t = frames.map (·.value) := by
    intro t ht
    unfold Spec.upTo
    congr 1
    rw [List.filter_eq_self]
    intro f hfm
    simpa using (hf f hfm).trans ht
  have hlen : 0 < length := lt_of_le_of_lt hl hll
  intro ds
  induction ds using List.reverseRecOn with
  | nil => intro h; exact absurd rfl h
  | append_singleton ds d ih =>
    intro _ hd
    obtain ⟨hd0, hdl⟩ : 0 ≤ d ∧ d ≤ length - loop := hd d (by simp)
    have h0 : 0 ≤ ds.sum := List.sum_nonneg fun x hx => (hd x (by simp [hx])).1
    rw [steps, List.map_append, run_append, ← steps, List.sum_append, List.sum_singleton]
    obtain ⟨⟨p1, p2⟩, p3, p4⟩ := position_step hl hll h0 hd0
    have key : ∃ r, run (discrete frames) length loop (fuel + 2) ⟨0, 0⟩ (steps ds) = some r ∧ r.1.time = Spec.position length loop ds.sum ∧
        ∀ t, r.1.time ≤ t → ∃ e, discreteLoop frames t r.1.states = (front frames t, e) ∧
          r.2 ++ e = (List.replicate (Spec.passes length loop ds.sum) (frames.map (·.value))).flatten ++ Spec.upTo frames t := by
      by_cases hne : ds = []
      · subst hne
        refine ⟨_, rfl, by simp [Spec.position, hlen], fun t _ => ⟨_, discreteLoop_zero hs t, ?_⟩⟩
        simp [Spec.passes, hlen]
      · obtain ⟨r, hr, h1, h2, h3⟩ := ih hne fun x hx => hd x (by simp [hx])
        refine ⟨r, hr, h1, fun t ht => ?_⟩
        obtain ⟨e, he, he'⟩ := discreteLoop_next hs ht
        exact ⟨e, by rw [h2, he], by rw [h3, List.append_assoc, he']⟩
    obtain ⟨r, hr, h1, h2⟩ := key
    rw [← h1] at p1 p2 p3 p4
    rw [hr]
    simp only [Option.bind_some, List.map_cons, List.map_nil, run, step]
    obtain ⟨e, he, he'⟩ := h2 (r.1.time + d) (by linarith)
    by_cases hc : r.1.time + d < length
    · rw [interpolate_inside _ _ _ _ (by rintro ⟨h, -⟩; linarith) (by rintro ⟨h, -⟩; linarith)]
      simp only [discrete, he, Option.map_some, Option.bind_some]
      obtain ⟨q1, q2⟩ := p3 hc
      refine ⟨_, rfl, q1.symm, rfl, ?_⟩
      simp only [List.append_nil, he', q2]
    · rw [interpolate_around _ hl hll _ _ _ (not_lt.1 hc)]
      obtain ⟨q1, q2⟩ := p4 (not_lt.1 hc)
      simp only [discrete, he, Option.map_some, Option.bind_some, discreteLoop_zero hs]
      refine ⟨_, rfl, q1.symm, rfl, ?_⟩
      simp only [List.append_nil, q2 hdl, ← List.append_assoc, he', hfull _ (not_lt.1 hc)]
      rw [List.replicate_succ', List.flatten_append]
      simp

/-- The frames of the examples: at 0, 1 and 2 (twice). -/
def exFrames : List (Frame ℚ ℕ Unit) := [⟨0, 10, ()⟩, ⟨1, 11, ()⟩, ⟨2, 12, ()⟩, ⟨2, 13, ()⟩]

example : Spec.SortedFrames exFrames ∧ (∀ f ∈ exFrames, f.time ≤ 2) ∧ Spec.upTo exFrames (3 / 2) = [10, 11] ∧
    (run (discrete exFrames) 2 (-1) 1 ⟨0, 0⟩ (steps [1 / 2, 1])).map Prod.snd = some [10, 11] ∧
    (run (discrete exFrames) 2 1 2 ⟨0, 0⟩ (steps [1, 1, 1 / 2, 1])).map Prod.snd = some [10, 11, 12, 13, 10, 11, 12, 13, 10, 11] := by
  refine ⟨by unfold Spec.SortedFrames; decide +kernel, ?_, ?_, ?_, ?_⟩ <;> decide +kernel

/-- A step longer than the animation skips whole passes: two ends are passed, but only one set of calls is made before the last one. -/
theorem C117_long_step_counterexample : Spec.passes (2 : ℚ) 0 5 = 2 ∧ Spec.position (2 : ℚ) 0 5 = 1 ∧
    ∀ fuel, (run (discrete exFrames) 2 0 (fuel + 2) ⟨0, 0⟩ (steps [5])).map Prod.snd = some [10, 11, 12, 13, 10, 11] := by
  refine ⟨by decide +kernel, by decide +kernel, fun fuel => ?_⟩
  simp only [steps, List.map_cons, List.map_nil, run, step]
  rw [interpolate_around _ (by norm_num) (by norm_num) _ _ _ (by norm_num)]
  decide +kernel

/-- An animation of length zero that does not loop never calls anything: the frame at time 0 is lost. -/
theorem C117_zero_length_counterexample (v : α) (d : δ) {loop : K} (hloop : loop < 0) (fuel : ℕ) (ds : List K) :
    run (discrete [⟨0, v, d⟩]) 0 loop (fuel + 1) ⟨0, 0⟩ (steps ds) = some (⟨0, 0⟩, []) ∧ Spec.upTo [(⟨0, v, d⟩ : Frame K α δ)] 0 = [v] := by
  refine ⟨?_, by simp [Spec.upTo]⟩
  induction ds with
  | nil => rfl
  | cons x ds ih =>
    have : steps (x :: ds) = .interpolate x :: steps ds := rfl
    rw [this, run, step, interpolate, if_pos ⟨le_refl _, hloop⟩]
    simp [ih]

/-- A loop point at or after the end: the first call that reaches the end recurses for ever (or computes a time that is not a number). -/
theorem C117_loop_past_end_counterexample (tr : Track K σ ε) {length loop : K} (hlen : 0 ≤ length) (hl : length ≤ loop) (fuel : ℕ) (s : St K σ) (d : K)
    (h : length ≤ s.time + d) : interpolate tr length loop fuel s d = none := by
  induction fuel generalizing s d with
  | zero => rfl
  | succ fuel ih =>
    rw [interpolate, if_neg (by rintro ⟨-, h⟩; linarith)]
    cases hx : tr.interp s.states (s.time + d) with
    | none => simp [hx]
    | some x =>
      simp only [hx, Option.bind_some]
      rw [if_pos ⟨h, hlen.trans hl⟩]
      split
      · rfl
      · next hne =>
        have hneg : length - loop < 0 := lt_of_le_of_ne (by linarith) hne
        rw [ih]
        · rfl
        · simp only
          have hdiv : (s.time + d - length) / (length - loop) ≤ 0 := div_nonpos_of_nonneg_of_nonpos (by linarith) hneg.le
          have hm : (length - loop) * ((s.time + d - length) / (length - loop)) = s.time + d - length := by rw [mul_comm]; exact div_mul_cancel₀ _ hne
          unfold fmod
          split
          · next h0 =>
            have e : (s.time + d - length) / (length - loop) = 0 := le_antisymm hdiv h0
            rw [e, Int.floor_zero]
            simp only [Int.cast_zero, mul_zero]
            linarith
          · have h1 := Int.ceil_lt_add_one ((s.time + d - length) / (length - loop))
            have h2 := Int.le_ceil ((s.time + d - length) / (length - loop))
            have h3 := mul_le_mul_of_nonpos_left h2 hneg.le
            linarith

end Verif.Ani
