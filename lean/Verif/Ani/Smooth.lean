import Verif.Ani.Props

/-!
# Smooth tracks (C118)
-/

namespace Verif.Ani

variable {K : Type} [Field K] [LinearOrder K] [IsStrictOrderedRing K] [FloorRing K] {α δ σ ε : Type}

/-! ## Specification -/

/-- The curve of straight lines through `(t0, v0)` and the frames, constant after the last frame. -/
def Spec.lerpCurve : K → K → List (Frame K K δ) → K → K
  | _, v0, [], _ => v0
  | t0, v0, f :: fs, t => if f.time ≤ t then Spec.lerpCurve f.time f.value fs t else v0 + (f.value - v0) * ((t - t0) / (f.time - t0))

/-- The value of the last frame up to the time `t`, or the initial value. -/
def Spec.stepCurve (init : α) (frames : List (Frame K α δ)) (t : K) : α := ((Spec.upTo frames t).getLast?).getD init

/-! ## Lemmas -/

theorem advance_eq (frames : List (Frame K α δ)) (t : K) : ∀ n cur, n = frames.length - cur → advance frames t cur = (discreteLoop frames t cur).1 := by
  intro n
  induction n with
  | zero =>
    intro cur h
    have hn : frames[cur]? = none := List.getElem?_eq_none (by omega)
    rw [advance, discreteLoop]
    split
    · next h' => rw [hn] at h'; simp at h'
    · rfl
  | succ n ih =>
    intro cur h
    rw [advance, discreteLoop]
    split
    · next f h' =>
      by_cases hc : f.time ≤ t
      · rw [if_pos hc, if_pos hc, ih _ (by omega)]
      · rw [if_neg hc, if_neg hc]
    · rfl

theorem front_spec (frames : List (Frame K α δ)) (t : K) : front frames t ≤ frames.length ∧ (∀ i (h : i < frames.length), i < front frames t → (frames[i]).time ≤ t) ∧
    ∀ h : front frames t < frames.length, t < (frames[front frames t]).time := by
  unfold front
  induction frames with
  | nil => simp
  | cons f l ih =>
    by_cases hc : f.time ≤ t
    · simp only [List.takeWhile_cons, hc, decide_true, if_true, List.length_cons]
      refine ⟨by omega, ?_, ?_⟩
      · intro i h h2
        cases i with
        | zero => simpa using hc
        | succ i => simpa using ih.2.1 i (by omega) (by omega)
      · intro h
        simpa using ih.2.2 (by omega)
    · simp only [List.takeWhile_cons, hc, decide_false, Bool.false_eq_true, if_false, List.length_nil, List.length_cons]
      exact ⟨by omega, fun i h h2 => absurd h2 (by omega), fun _ => by simpa using hc⟩

/-- Where the state of a smooth track may be at the time `t`. -/
def Behind (frames : List (Frame K α δ)) (cur : ℕ) (t : K) : Prop := cur = 0 ∨ ∃ s ≤ t, cur = front frames s

theorem advance_front {frames : List (Frame K α δ)} (hs : Spec.SortedFrames frames) {cur : ℕ} {t : K} (h : Behind frames cur t) : advance frames t cur = front frames t := by
  rw [advance_eq _ _ _ _ rfl]
  rcases h with rfl | ⟨s, hst, rfl⟩
  · rw [discreteLoop_zero hs]
  · obtain ⟨e, he, -⟩ := discreteLoop_next hs hst
    rw [he]

/-- What a smooth track sets at the time `t`. -/
def Sets (frames : List (Frame K α δ)) (f : List (Frame K α δ) → ℕ → K → α → Option α) (init : α) (t : K) (v : α) : Prop :=
  ∀ cur, Behind frames cur t → (smooth frames f init).interp cur t = some (front frames t, [v])

theorem step_last {frames : List (Frame K α δ)} (hs : Spec.SortedFrames frames) (init : α) (t : K) :
    Spec.stepCurve init frames t = if front frames t = 0 then init else ((frames[front frames t - 1]?).map (·.value)).getD init := by
  unfold Spec.stepCurve
  rw [upTo_eq hs, List.getLast?_eq_getElem?, List.getElem?_map, List.length_map]
  have hp : (frames.takeWhile fun f => decide (f.time ≤ t)) <+: frames := List.takeWhile_prefix _
  by_cases h0 : front frames t = 0
  · rw [if_pos h0]
    have : (frames.takeWhile fun f => decide (f.time ≤ t)) = [] := List.length_eq_zero_iff.1 h0
    simp [this]
  · rw [if_neg h0]
    have hlt : front frames t - 1 < front frames t := by omega
    unfold front at hlt ⊢
    rw [List.prefix_iff_getElem?.1 hp _ hlt, List.getElem?_eq_getElem hlt]

theorem lerpCurve_eq (frames : List (Frame K K δ)) (t : K) : ∀ t0 v0 : K, Spec.lerpCurve t0 v0 frames t =
    match frames[front frames t]? with
    | none => if front frames t = 0 then v0 else ((frames[front frames t - 1]?).map (·.value)).getD v0
    | some fr => if front frames t = 0 then v0 + (fr.value - v0) * ((t - t0) / (fr.time - t0))
        else match frames[front frames t - 1]? with
          | none => 0
          | some p => p.value + (fr.value - p.value) * ((t - p.time) / (fr.time - p.time)) := by
  induction frames with
  | nil => intro t0 v0; simp [Spec.lerpCurve, front]
  | cons f l ih =>
    intro t0 v0
    rw [Spec.lerpCurve]
    by_cases hc : f.time ≤ t
    · have hf : front (f :: l) t = front l t + 1 := by simp [front, hc]
      rw [if_pos hc, ih, hf]
      simp only [List.getElem?_cons_succ, Nat.add_sub_cancel, Nat.add_eq_zero_iff, one_ne_zero, and_false, if_false]
      by_cases h0 : front l t = 0
      · rw [h0]
        cases h : l[0]? with
        | none => simp
        | some fr => simp
      · obtain ⟨k, hk⟩ := Nat.exists_eq_succ_of_ne_zero h0
        rw [hk]
        simp only [Nat.succ_eq_add_one, List.getElem?_cons_succ, Nat.add_sub_cancel, Nat.add_eq_zero_iff, one_ne_zero, and_false, if_false]
        cases h : l[k + 1]? with
        | none =>
          have : k + 1 ≤ l.length := by have := (front_spec l t).1; omega
          rw [List.getElem?_eq_getElem (by omega)]
          rfl
        | some fr => rfl
    · have hf : front (f :: l) t = 0 := by simp [front, hc]
      rw [if_neg hc, hf]
      simp

/-! ## What is set at the time `t` -/

theorem noInterpolate_sets {frames : List (Frame K α δ)} (hs : Spec.SortedFrames frames) (h1 : 1 < frames.length) (init : α) (t : K) :
    Sets frames noInterpolate init t (Spec.stepCurve init frames t) := by
  intro cur hb
  simp only [smooth, advance_front hs hb]
  rw [step_last hs]
  obtain ⟨c1, c2, c3⟩ := front_spec frames t
  by_cases hc : front frames t < frames.length
  · rw [List.getElem?_eq_getElem hc]
    have hgt := c3 hc
    by_cases h0 : front frames t = 0
    · simp only [h0, if_true, Option.bind_some] at hgt ⊢
      have hne : t / (frames[0]).time ≠ 1 := by
        intro h
        by_cases hz : (frames[0]).time = 0
        · rw [hz, div_zero] at h; exact zero_ne_one h
        · rw [div_eq_one_iff_eq hz] at h; exact hgt.ne h
      simp [noInterpolate, hne]
    · have hp : front frames t - 1 < frames.length := by omega
      have hle := c2 _ hp (by omega)
      simp only [if_neg h0, List.getElem?_eq_getElem hp, Option.map_some, Option.bind_some, Option.getD_some]
      have hne : (t - (frames[front frames t - 1]).time) / ((frames[front frames t]).time - (frames[front frames t - 1]).time) ≠ 1 := by
        have : (frames[front frames t]).time - (frames[front frames t - 1]).time ≠ 0 := by linarith
        rw [Ne, div_eq_one_iff_eq this]
        intro h
        linarith
      have hi : ((front frames t : ℤ) - 1).toNat = front frames t - 1 := by omega
      have hi' : ¬ ((front frames t : ℤ) - 1 < 0) := by omega
      simp [noInterpolate, hne, hi, hi', h0, hp]
  · have he : front frames t = frames.length := by omega
    have h0 : frames.length ≠ 0 := by omega
    have hp : frames.length - 1 < frames.length := by omega
    rw [he, List.getElem?_eq_none (le_refl _)]
    simp [noInterpolate, h1, h0, hp]

theorem lerpInterpolate_sets {frames : List (Frame K K δ)} (hs : Spec.SortedFrames frames) (h1 : 1 < frames.length) (init : K) (t : K) :
    Sets frames lerpInterpolate init t (Spec.lerpCurve 0 init frames t) := by
  intro cur hb
  simp only [smooth, advance_front hs hb]
  rw [lerpCurve_eq]
  obtain ⟨c1, c2, c3⟩ := front_spec frames t
  by_cases hc : front frames t < frames.length
  · simp only [List.getElem?_eq_getElem hc]
    by_cases h0 : front frames t = 0
    · simp only [h0, if_true, Option.bind_some]
      simp [lerpInterpolate, h0 ▸ hc, lerp]
      ring
    · have hp : front frames t - 1 < frames.length := by omega
      simp only [if_neg h0, List.getElem?_eq_getElem hp, Option.map_some, Option.bind_some]
      simp [lerpInterpolate, hc, lerp, h0, hp]
      ring
  · have he : front frames t = frames.length := by omega
    have h0 : frames.length ≠ 0 := by omega
    have hp : frames.length - 1 < frames.length := by omega
    have hp2 : frames.length - 1 - 1 < frames.length := by omega
    have hne : frames.length - 1 ≠ 0 := by omega
    rw [he, List.getElem?_eq_none (le_refl _)]
    simp [lerpInterpolate, h1, h0, hp, lerp, hne, hp2]

theorem noInterpolateRel_sets {frames : List (Frame K K δ)} (hs : Spec.SortedFrames frames) (h1 : 1 < frames.length) (init : K) (t : K)
    (hf : ∃ f, frames[0]? = some f ∧ f.time ≤ t) : Sets frames noInterpolateRel init t (init + Spec.stepCurve 0 frames t) := by
  intro cur hb
  simp only [smooth, advance_front hs hb]
  rw [step_last hs]
  obtain ⟨c1, c2, c3⟩ := front_spec frames t
  have h0 : front frames t ≠ 0 := by
    obtain ⟨f, hf, hft⟩ := hf
    intro h
    have hl : 0 < frames.length := by omega
    have := c3 (by omega)
    simp only [h] at this
    rw [List.getElem?_eq_getElem hl] at hf
    rw [Option.some.inj hf] at this
    linarith
  by_cases hc : front frames t < frames.length
  · rw [List.getElem?_eq_getElem hc]
    have hgt := c3 hc
    have hp : front frames t - 1 < frames.length := by omega
    have hle := c2 _ hp (by omega)
    simp only [if_neg h0, List.getElem?_eq_getElem hp, Option.map_some, Option.bind_some, Option.getD_some]
    have hne : (t - (frames[front frames t - 1]).time) / ((frames[front frames t]).time - (frames[front frames t - 1]).time) ≠ 1 := by
      have : (frames[front frames t]).time - (frames[front frames t - 1]).time ≠ 0 := by linarith
      rw [Ne, div_eq_one_iff_eq this]
      intro h
      linarith
    have hi : ((front frames t : ℤ) - 1).toNat = front frames t - 1 := by omega
    have hi' : ¬ ((front frames t : ℤ) - 1 < 0) := by omega
    simp [noInterpolateRel, hne, hi, hi', h0, hp]
  · have he : front frames t = frames.length := by omega
    have h0 : frames.length ≠ 0 := by omega
    have hp : frames.length - 1 < frames.length := by omega
    rw [he, List.getElem?_eq_none (le_refl _)]
    simp [noInterpolateRel, h1, h0, hp]

theorem lerpInterpolateRel_sets {frames : List (Frame K K δ)} (hs : Spec.SortedFrames frames) (h1 : 1 < frames.length) (init : K) (t : K)
    (hf : ∃ f, frames[0]? = some f ∧ f.time ≤ t) : Sets frames lerpInterpolateRel init t (init + Spec.lerpCurve 0 0 frames t) := by
  intro cur hb
  simp only [smooth, advance_front hs hb]
  rw [lerpCurve_eq]
  obtain ⟨c1, c2, c3⟩ := front_spec frames t
  have h0 : front frames t ≠ 0 := by
    obtain ⟨f, hf, hft⟩ := hf
    intro h
    have hl : 0 < frames.length := by omega
    have := c3 (by omega)
    simp only [h] at this
    rw [List.getElem?_eq_getElem hl] at hf
    rw [Option.some.inj hf] at this
    linarith
  by_cases hc : front frames t < frames.length
  · simp only [List.getElem?_eq_getElem hc]
    have hp : front frames t - 1 < frames.length := by omega
    simp only [if_neg h0, List.getElem?_eq_getElem hp, Option.map_some, Option.bind_some]
    simp [lerpInterpolateRel, hc, lerp, h0, hp]
    ring
  · have he : front frames t = frames.length := by omega
    have h0 : frames.length ≠ 0 := by omega
    have hp : frames.length - 1 < frames.length := by omega
    have hp2 : frames.length - 1 - 1 < frames.length := by omega
    have hne : frames.length - 1 ≠ 0 := by omega
    rw [he, List.getElem?_eq_none (le_refl _)]
    simp [lerpInterpolateRel, h1, h0, hp, lerp, hne, hp2]

/-! ## Histories -/

/-- Steps go forward and times are not negative. -/
def Op.Ok : Op K → Prop
  | .interpolate d => 0 ≤ d
  | .setTime t => 0 ≤ t
  | .reset => True

/-- One call of `Interpolate` with a smooth track that sets the value of a curve. -/
theorem smooth_interpolate {frames : List (Frame K α δ)} {f : List (Frame K α δ) → ℕ → K → α → Option α} {init : α} {curve : K → α}
    (hc : ∀ t, 0 ≤ t → Sets frames f init t (curve t)) {length loop : K} (hl : loop < 0 ∨ loop < length) (fuel : ℕ) {s : St K ℕ}
    (h0 : 0 ≤ s.time) (hb : Behind frames s.states s.time) {d : K} (hd : 0 ≤ d) :
    ∃ s' vs b, interpolate (smooth frames f init) length loop (fuel + 2) s d = some (s', vs, b) ∧ 0 ≤ s'.time ∧ Behind frames s'.states s'.time ∧
      (loop < 0 → b = decide (s'.time < length)) ∧
      ((loop < 0 ∧ length ≤ s.time ∧ s' = s ∧ vs = []) ∨ (s'.time = s.time + d ∧ vs = [curve s'.time]) ∨
        (0 ≤ loop ∧ length ≤ s.time + d ∧ loop ≤ s'.time ∧ s'.time < length ∧ vs = [curve (s.time + d), curve s'.time])) := by
  have hb' : Behind frames s.states (s.time + d) := by
    rcases hb with h | ⟨x, hx, h⟩
    · exact Or.inl h
    · exact Or.inr ⟨x, by linarith, h⟩
  by_cases ho : s.time ≥ length ∧ loop < 0
  · refine ⟨s, [], false, ?_, h0, hb, ?_, Or.inl ⟨ho.2, ho.1, rfl, rfl⟩⟩
    · rw [interpolate, if_pos ho]
    · intro _
      rw [decide_eq_false (not_lt.2 ho.1)]
  · by_cases hr : s.time + d ≥ length ∧ loop ≥ 0
    · have hll : loop < length := hl.resolve_left (not_lt.2 hr.2)
      have hy : 0 < length - loop := by linarith
      have hf := fmod_nonneg_eq (x := s.time + d - length) (by linarith [hr.1]) hy
      have hbd := fmod_bounds (x := s.time + d - length) hy
      rw [← hf] at hbd
      have hpos : 0 ≤ fmod (s.time + d - length) (length - loop) + loop := by linarith [hr.2]
      rw [interpolate_around _ hr.2 hll _ _ _ hr.1, hc _ (by linarith) _ hb']
      have hz : ((smooth frames f init).reset (front frames (s.time + d))) = (0, []) := rfl
      simp only [Option.bind_some, hz]
      rw [hc _ hpos 0 (Or.inl rfl)]
      refine ⟨_, _, _, rfl, hpos, Or.inr ⟨_, le_refl _, rfl⟩, fun h => absurd h (not_lt.2 hr.2), Or.inr (Or.inr ⟨hr.2, hr.1, ?_, ?_, rfl⟩)⟩
      · simp only; linarith
      · simp only; linarith
    · rw [interpolate_inside _ _ _ _ ho hr, hc _ (by linarith) _ hb']
      exact ⟨_, _, _, rfl, by simp only; linarith, Or.inr ⟨_, le_refl _, rfl⟩, fun _ => rfl, Or.inr (Or.inl ⟨rfl, rfl⟩)⟩

theorem smooth_run {frames : List (Frame K α δ)} {f : List (Frame K α δ) → ℕ → K → α → Option α} {init : α} {curve : K → α}
    (hc : ∀ t, 0 ≤ t → Sets frames f init t (curve t)) {length loop : K} (hl : loop < 0 ∨ loop < length) (fuel : ℕ) : ∀ (os : List (Op K)), (∀ o ∈ os, o.Ok) →
    ∀ s : St K ℕ, 0 ≤ s.time → Behind frames s.states s.time → ∃ r, run (smooth frames f init) length loop (fuel + 2) s os = some r ∧
      0 ≤ r.1.time ∧ Behind frames r.1.states r.1.time := by
  intro os
  induction os with
  | nil => intro _ s h0 hb; exact ⟨_, rfl, h0, hb⟩
  | cons o os ih =>
    intro ho s h0 hb
    have hos : ∀ o ∈ os, o.Ok := fun x hx => ho x (by simp [hx])
    have key : ∃ s' e, step (smooth frames f init) length loop (fuel + 2) s o = some (s', e) ∧ 0 ≤ s'.time ∧ Behind frames s'.states s'.time := by
      have h := ho o (by simp)
      cases o with
      | interpolate d =>
        obtain ⟨s', vs, b, h1, h2, h3, -⟩ := smooth_interpolate hc hl fuel h0 hb (d := d) h
        exact ⟨s', vs, by simp [step, h1], h2, h3⟩
      | setTime t =>
        by_cases hg : s.time > t
        · exact ⟨⟨t, 0⟩, [], by simp [step, setTime, hg, reset, smooth], h, Or.inl rfl⟩
        · refine ⟨⟨t, s.states⟩, [], by simp [step, setTime, hg], h, ?_⟩
          rcases hb with hb | ⟨x, hx, hb⟩
          · exact Or.inl hb
          · exact Or.inr ⟨x, hx.trans (not_lt.1 hg), hb⟩
      | reset => exact ⟨⟨0, 0⟩, [], by simp [step, reset, smooth], le_refl _, Or.inl rfl⟩
    obtain ⟨s', e, h1, h2, h3⟩ := key
    obtain ⟨r, hr, h4⟩ := ih hos s' h2 h3
    refine ⟨(r.1, e ++ r.2), ?_, h4⟩
    rw [run, h1, Option.bind_some, hr, Option.map_some]

/-! ## Theorems -/

/-- What `Interpolate` does after any history, for a track that follows `curve`: nothing once a non-looping animation has ended; otherwise the value that is set last is
that of the curve at the new time. In a step that reaches the end of a looping animation, the value at the end of the step is set first. -/
def Spec.Follows (tr : Track K ℕ α) (curve : K → α) (length loop : K) : Prop :=
  ∀ (fuel : ℕ) (os : List (Op K)) (d : K), (∀ o ∈ os, o.Ok) → 0 ≤ d →
    ∃ s e s' vs b, run tr length loop (fuel + 2) ⟨0, 0⟩ os = some (s, e) ∧ interpolate tr length loop (fuel + 2) s d = some (s', vs, b) ∧
      ((loop < 0 ∧ length ≤ s.time ∧ s'.time = s.time ∧ vs = [] ∧ b = false) ∨
       (s'.time = s.time + d ∧ vs = [curve s'.time] ∧ (loop < 0 → (b = true ↔ s'.time < length))) ∨
       (0 ≤ loop ∧ length ≤ s.time + d ∧ loop ≤ s'.time ∧ s'.time < length ∧ vs = [curve (s.time + d), curve s'.time]))

theorem follows {frames : List (Frame K α δ)} {f : List (Frame K α δ) → ℕ → K → α → Option α} {init : α} {curve : K → α}
    (hc : ∀ t, 0 ≤ t → Sets frames f init t (curve t)) {length loop : K} (hl : loop < 0 ∨ loop < length) :
    Spec.Follows (smooth frames f init) curve length loop := by
  intro fuel os d ho hd
  obtain ⟨r, hr, h0, hb⟩ := smooth_run hc hl fuel os ho ⟨0, 0⟩ (le_refl _) (Or.inl rfl)
  obtain ⟨s', vs, b, h1, h2, h3, h4, h5⟩ := smooth_interpolate hc hl fuel h0 hb hd
  refine ⟨r.1, r.2, s', vs, b, hr, h1, ?_⟩
  rcases h5 with ⟨a1, a2, a3, a4⟩ | ⟨a1, a2⟩ | h
  · refine Or.inl ⟨a1, a2, by rw [a3], a4, ?_⟩
    rw [h4 a1, a3, decide_eq_false (not_lt.2 a2)]
  · exact Or.inr (Or.inl ⟨a1, a2, fun h => by rw [h4 h, decide_eq_true_iff]⟩)
  · exact Or.inr (Or.inr h)

/-- Linear interpolation with at least two frames follows the straight lines from the initial value through the frames, after any history of steps forward, `SetTime` and `Reset`. -/
theorem C118_lerp_partial {frames : List (Frame K K δ)} (hs : Spec.SortedFrames frames) (h1 : 1 < frames.length) (init : K) {length loop : K} (hl : loop < 0 ∨ loop < length) :
    Spec.Follows (smooth frames lerpInterpolate init) (Spec.lerpCurve 0 init frames) length loop := follows (fun t _ => lerpInterpolate_sets hs h1 init t) hl

/-- Without interpolation a track with at least two frames holds the value of the last frame up to now. -/
theorem C118_hold_partial {frames : List (Frame K α δ)} (hs : Spec.SortedFrames frames) (h1 : 1 < frames.length) (init : α) {length loop : K} (hl : loop < 0 ∨ loop < length) :
    Spec.Follows (smooth frames noInterpolate init) (Spec.stepCurve init frames) length loop := follows (fun t _ => noInterpolate_sets hs h1 init t) hl

/-- The relative kinds, if there is a frame at (or before) time 0: the initial value plus the curve through the frames. -/
theorem C118_relative_partial {frames : List (Frame K K δ)} (hs : Spec.SortedFrames frames) (h1 : 1 < frames.length) (hz : ∃ f, frames[0]? = some f ∧ f.time ≤ 0) (init : K)
    {length loop : K} (hl : loop < 0 ∨ loop < length) :
    Spec.Follows (smooth frames lerpInterpolateRel init) (fun t => init + Spec.lerpCurve 0 0 frames t) length loop ∧
    Spec.Follows (smooth frames noInterpolateRel init) (fun t => init + Spec.stepCurve 0 frames t) length loop := by
  have h : ∀ t : K, 0 ≤ t → ∃ f, frames[0]? = some f ∧ f.time ≤ t := fun t ht => by
    obtain ⟨f, hf, hf'⟩ := hz
    exact ⟨f, hf, hf'.trans ht⟩
  exact ⟨follows (fun t ht => lerpInterpolateRel_sets hs h1 init t (h t ht)) hl, follows (fun t ht => noInterpolateRel_sets hs h1 init t (h t ht)) hl⟩

/-- The curve of linear interpolation passes through the frames (the last one of those with the same time) and between two frames stays between their values. -/
theorem C118_lerp_curve (frames : List (Frame K K δ)) (hs : Spec.SortedFrames frames) (init : K) :
    (∀ i (h : i < frames.length), (∀ j (h' : j < frames.length), i < j → (frames[i]).time < (frames[j]).time) →
      Spec.lerpCurve 0 init frames (frames[i]).time = (frames[i]).value) ∧
    (∀ i (h : i + 1 < frames.length) t, (frames[i]).time ≤ t → t < (frames[i + 1]).time →
      ∃ u, 0 ≤ u ∧ u < 1 ∧ (frames[i]).time + u * ((frames[i + 1]).time - (frames[i]).time) = t ∧
        Spec.lerpCurve 0 init frames t = (frames[i]).value + u * ((frames[i + 1]).value - (frames[i]).value)) := by
  have hmono : ∀ i j (h : i < frames.length) (h' : j < frames.length), i ≤ j → (frames[i]).time ≤ (frames[j]).time := by
    intro i j h h' hij
    rcases Nat.lt_or_eq_of_le hij with hlt | rfl
    · exact List.pairwise_iff_getElem.1 hs i j h h' hlt
    · exact le_refl _
  have hfront : ∀ i (h : i < frames.length) t, (frames[i]).time ≤ t → (∀ h' : i + 1 < frames.length, t < (frames[i + 1]).time) → front frames t = i + 1 := by
    intro i h t h1 h2
    obtain ⟨c1, c2, c3⟩ := front_spec frames t
    by_contra hne
    rcases Nat.lt_or_gt_of_ne hne with hlt | hgt
    · have hc := c3 (by omega)
      have := hmono (front frames t) i (by omega) h (by omega)
      linarith
    · have hc := c2 (i + 1) (by omega) hgt
      have := h2 (by omega)
      linarith
  have heq : ∀ i (h : i < frames.length) (h' : i + 1 < frames.length) t, front frames t = i + 1 → Spec.lerpCurve 0 init frames t =
      (frames[i]).value + ((frames[i + 1]).value - (frames[i]).value) * ((t - (frames[i]).time) / ((frames[i + 1]).time - (frames[i]).time)) := by
    intro i h h' t hf
    rw [lerpCurve_eq, hf]
    simp [h, h']
  constructor
  · intro i h hlast
    have hf := hfront i h (frames[i]).time (le_refl _) fun h' => hlast _ h' (by omega)
    by_cases h' : i + 1 < frames.length
    · rw [heq i h h' _ hf]
      simp
    · rw [lerpCurve_eq, hf, List.getElem?_eq_none (by omega)]
      simp [h]
  · intro i h t h1 h2
    have hf := hfront i (by omega) t h1 fun _ => h2
    have hpos : 0 < (frames[i + 1]).time - (frames[i]).time := by linarith
    refine ⟨(t - (frames[i]).time) / ((frames[i + 1]).time - (frames[i]).time), div_nonneg (by linarith) hpos.le, ?_, ?_, ?_⟩
    · rw [div_lt_one hpos]; linarith
    · rw [div_mul_cancel₀ _ hpos.ne']; ring
    · rw [heq i (by omega) h t hf]; ring

/-- The frames of the examples. -/
def exSmooth : List (Frame ℚ ℚ Unit) := [⟨0, 2, ()⟩, ⟨1, 4, ()⟩, ⟨3, 0, ()⟩]

example : Spec.SortedFrames exSmooth ∧ 1 < exSmooth.length ∧ (∃ f, exSmooth[0]? = some f ∧ f.time ≤ 0) ∧ Spec.lerpCurve 0 7 exSmooth 2 = 2 ∧ Spec.stepCurve 7 exSmooth 2 = 4 ∧
    Spec.lerpCurve 0 7 exSmooth 9 = 0 ∧
    (run (smooth exSmooth lerpInterpolate 7) 3 (-1) 2 ⟨0, 0⟩ [.interpolate (1 / 2), .setTime 2, .interpolate 0, .setTime 1, .interpolate 5]).map Prod.snd = some [3, 2, 0] := by
  refine ⟨by unfold Spec.SortedFrames; decide +kernel, by decide, ⟨_, rfl, le_refl _⟩, ?_, ?_, ?_, ?_⟩ <;> decide +kernel

/-- A track with one frame is not set to the value of that frame when the animation ends. -/
theorem C118_one_frame_counterexample (init v t : K) (d : δ) (h0 : 0 < t) (loop : K) (hloop : loop < 0) (fuel : ℕ) (x : K) (hx : t ≤ x) :
    (interpolate (smooth [⟨t, v, d⟩] lerpInterpolate init) t loop (fuel + 1) ⟨0, 0⟩ x) = some (⟨x, 1⟩, [], false) ∧
    Spec.lerpCurve 0 init [⟨t, v, d⟩] x = v := by
  constructor
  · have ha : advance [(⟨t, v, d⟩ : Frame K K δ)] x 0 = 1 := by
      rw [advance_front (by simp [Spec.SortedFrames]) (Or.inl rfl)]
      simp [front, hx]
    rw [interpolate_inside _ _ _ _ (by rintro ⟨h, -⟩; simp only at h; linarith) (by rintro ⟨-, h⟩; linarith)]
    simp [smooth, ha, hx]
  · simp [Spec.lerpCurve, hx]

/-- The relative kinds read in front of the array when there is no frame up to the current time. -/
theorem C118_relative_counterexample {frames : List (Frame K K δ)} (f : Frame K K δ) (hf : frames[0]? = some f) (init t : K) (ht : t < f.time) :
    (smooth frames lerpInterpolateRel init).interp 0 t = none ∧ (smooth frames noInterpolateRel init).interp 0 t = none := by
  have ha : advance frames t 0 = 0 := by
    rw [advance]
    split
    · next g h => rw [hf] at h; rw [← Option.some.inj h, if_neg (not_le.2 ht)]
    · rfl
  have hne : t / f.time ≠ 1 := by
    intro h
    by_cases hz : f.time = 0
    · rw [hz, div_zero] at h; exact zero_ne_one h
    · rw [div_eq_one_iff_eq hz] at h; exact ht.ne h
  simp [smooth, ha, hf, lerpInterpolateRel, noInterpolateRel, hne]

end Verif.Ani
