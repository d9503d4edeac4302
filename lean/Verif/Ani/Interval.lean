import Verif.Ani.Props
import Verif.Heap.Lemmas2
import Mathlib.Data.List.Perm.Basic
import Mathlib.Data.List.Nodup

/-!
# Interval tracks (C119)
-/

namespace Verif.Ani

variable {K : Type} [Field K] [LinearOrder K] [IsStrictOrderedRing K] [FloorRing K] {α δ σ ε : Type}

/-! ## Specification -/

/-- Every `REMOVE` is of a handle that `FN` returned before and that has not been removed yet. -/
def Spec.Valid (evs : List (Ev α)) : Prop :=
  ∀ p h, p ++ [.remove h] <+: evs → (∃ v, .add h v ∈ p) ∧ .remove h ∉ p

/-- The handles returned by `FN`, in order. -/
def Spec.added (evs : List (Ev α)) : List ℕ := evs.filterMap fun | .add h _ => some h | .remove _ => none

/-- The values `FN` was called with, in order. -/
def Spec.values (evs : List (Ev α)) : List α := evs.filterMap fun | .add _ v => some v | .remove _ => none

/-- The handles passed to `REMOVE`, in order. -/
def Spec.removed (evs : List (Ev α)) : List ℕ := evs.filterMap fun | .add _ _ => none | .remove h => some h

/-! ## Invariants of tracks -/

/-- An invariant of the state of the tracks and of the calls so far, kept by every `Reset` and every evaluation, is kept by any history of calls. -/
theorem run_inv (tr : Track K σ ε) (P : σ → List ε → Prop) (hr : ∀ s evs, P s evs → P (tr.reset s).1 (evs ++ (tr.reset s).2))
    (hi : ∀ s evs t, P s evs → ∃ s' e, tr.interp s t = some (s', e) ∧ P s' (evs ++ e)) {length loop : K} (hl : loop < 0 ∨ loop < length) (fuel : ℕ) :
    ∀ (os : List (Op K)) (s : St K σ) (evs : List ε), P s.states evs → ∃ r, run tr length loop (fuel + 2) s os = some r ∧ P r.1.states (evs ++ r.2) := by
  intro os
  induction os with
  | nil => intro s evs h; exact ⟨_, rfl, by simpa using h⟩
  | cons o os ih =>
    intro s evs h
    have key : ∃ s' e, step tr length loop (fuel + 2) s o = some (s', e) ∧ P s'.states (evs ++ e) := by
      cases o with
      | interpolate d =>
        by_cases ho : s.time ≥ length ∧ loop < 0
        · exact ⟨s, [], by simp [step, interpolate, ho.1, ho.2], by simpa using h⟩
        · obtain ⟨s1, e1, h1, h2⟩ := hi s.states evs (s.time + d) h
          by_cases hc : s.time + d ≥ length ∧ loop ≥ 0
          · have h3 := hr s1 _ h2
            obtain ⟨s4, e4, h5, h6⟩ := hi (tr.reset s1).1 _ (fmod (s.time + d - length) (length - loop) + loop) h3
            simp only [step]
            rw [interpolate_around tr hc.2 (hl.resolve_left (not_lt.2 hc.2)) _ _ _ hc.1, h1, Option.bind_some, h5]
            exact ⟨_, _, rfl, by simpa [List.append_assoc] using h6⟩
          · simp only [step]
            rw [interpolate_inside tr _ _ _ ho hc, h1]
            exact ⟨_, _, rfl, h2⟩
      | setTime t =>
        by_cases hg : s.time > t
        · exact ⟨⟨t, (tr.reset s.states).1⟩, (tr.reset s.states).2, by simp [step, setTime, hg, reset], hr _ _ h⟩
        · exact ⟨⟨t, s.states⟩, [], by simp [step, setTime, hg], by simpa using h⟩
      | reset => exact ⟨_, _, rfl, by simpa [reset] using hr _ _ h⟩
    obtain ⟨s', e, h1, h2⟩ := key
    obtain ⟨r, hr', h4⟩ := ih s' _ h2
    refine ⟨(r.1, e ++ r.2), ?_, by rw [← List.append_assoc]; exact h4⟩
    rw [run, h1, Option.bind_some, hr', Option.map_some]

/-! ## Lemmas -/

theorem keyCmp_ord : CmpOrd (keyCmp (K := K)) where
  sym a b := by
    unfold keyCmp
    rcases lt_trichotomy a.1 b.1 with h | h | h
    · simp [h, not_lt.2 h.le]
    · simp [h]
    · simp [h, not_lt.2 h.le]
  trans a b c := by
    unfold keyCmp
    have key : ∀ x y : K, ((if x > y then (1 : Int) else 0) - (if x < y then 1 else 0) ≤ 0) ↔ x ≤ y := by
      intro x y
      rcases lt_trichotomy x y with h | h | h
      · simp [h, not_lt.2 h.le, h.le]
      · simp [h]
      · simp [h, not_lt.2 h.le]
    simp only [key]
    exact le_trans

theorem keyCmp_le {a b : K × ℕ} : keyCmp a b ≤ 0 ↔ a.1 ≤ b.1 := by
  unfold keyCmp
  rcases lt_trichotomy a.1 b.1 with h | h | h
  · simp [h, not_lt.2 h.le, h.le]
  · simp [h]
  · simp [h, not_lt.2 h.le]

theorem valid_add {evs : List (Ev α)} (h : Spec.Valid evs) (k : ℕ) (v : α) : Spec.Valid (evs ++ [.add k v]) := by
  intro p x hp
  rw [List.prefix_concat_iff] at hp
  rcases hp with hp | hp
  · have := List.append_inj_right' hp rfl
    simp at this
  · exact h p x hp

theorem valid_remove {evs : List (Ev α)} (h : Spec.Valid evs) (k : ℕ) (h1 : ∃ v, .add k v ∈ evs) (h2 : .remove k ∉ evs) : Spec.Valid (evs ++ [.remove k]) := by
  intro p x hp
  rw [List.prefix_concat_iff] at hp
  rcases hp with hp | hp
  · have e1 := List.append_inj_right' hp rfl
    have e2 := List.append_inj_left' hp rfl
    simp only [List.cons.injEq, Ev.remove.injEq, and_true] at e1
    subst e1 e2
    exact ⟨h1, h2⟩
  · exact h p x hp

theorem mem_added {evs : List (Ev α)} {h : ℕ} : h ∈ Spec.added evs ↔ ∃ v, .add h v ∈ evs := by
  unfold Spec.added
  rw [List.mem_filterMap]
  constructor
  · rintro ⟨e, he, h1⟩
    cases e with
    | add h' v => exact ⟨v, by simp at h1; exact h1 ▸ he⟩
    | remove h' => simp at h1
  · rintro ⟨v, hv⟩
    exact ⟨_, hv, rfl⟩

theorem mem_removed {evs : List (Ev α)} {h : ℕ} : h ∈ Spec.removed evs ↔ .remove h ∈ evs := by
  unfold Spec.removed
  rw [List.mem_filterMap]
  constructor
  · rintro ⟨e, he, h1⟩
    cases e with
    | add h' v => simp at h1
    | remove h' => simp at h1; exact h1 ▸ he
  · intro hv
    exact ⟨_, hv, rfl⟩

/-- The invariant of an interval track. -/
structure Inv (frames : List (Frame K α K)) (s : IState K) (evs : List (Ev α)) : Prop where
  heap : Heap.Spec.IsHeap keyCmp s.queue
  valid : Spec.Valid evs
  adds : Spec.added evs = List.range s.next
  live : (Spec.removed evs ++ s.queue.map Prod.snd).Perm (List.range s.next)
  keys : ∀ p ∈ s.queue, ∃ f ∈ frames, f.data = p.1

theorem Inv.cur {frames : List (Frame K α K)} {s : IState K} {evs : List (Ev α)} (h : Inv frames s evs) (c : ℕ) : Inv frames ⟨s.queue, c, s.next⟩ evs := ⟨h.heap, h.valid, h.adds, h.live, h.keys⟩

theorem Inv.pop {frames : List (Frame K α K)} {s : IState K} {evs : List (Ev α)} (h : Inv frames s evs) (hne : 0 < s.queue.length) :
    ∃ q, Heap.pop keyCmp s.queue = some (q, s.queue[0]) ∧ q.length + 1 = s.queue.length ∧ Inv frames ⟨q, s.cur, s.next⟩ (evs ++ [.remove (s.queue[0]).2]) := by
  obtain ⟨q, h1, h2, h3⟩ := Heap.pop_spec keyCmp_ord h.heap hne
  refine ⟨q, h1, by simpa using h3.length_eq.symm, h2, ?_, ?_, ?_, ?_⟩
  · have hm : (s.queue[0]).2 ∈ s.queue.map Prod.snd := List.mem_map_of_mem (List.getElem_mem _)
    have hnd : (Spec.removed evs ++ s.queue.map Prod.snd).Nodup := h.live.nodup_iff.2 List.nodup_range
    refine valid_remove h.valid _ ?_ ?_
    · rw [← mem_added, h.adds, ← h.live.mem_iff]
      exact List.mem_append_right _ hm
    · rw [← mem_removed]
      intro hr
      exact (List.nodup_append.1 hnd).2.2 _ hr _ hm rfl
  · simpa [Spec.added] using h.adds
  · refine List.Perm.trans ?_ h.live
    have e : Spec.removed (evs ++ [Ev.remove (s.queue[0]).2]) = Spec.removed evs ++ [(s.queue[0]).2] := by simp [Spec.removed]
    rw [e, List.append_assoc]
    exact List.Perm.append_left _ (by simpa using (h3.map Prod.snd).symm)
  · intro p hp
    exact h.keys p (h3.mem_iff.2 (List.mem_cons_of_mem _ hp))

theorem discreteLoop_none {frames : List (Frame K α δ)} {t : K} {cur : ℕ} (h : frames[cur]? = none) : discreteLoop frames t cur = (cur, []) := by
  rw [discreteLoop]
  split
  · next h' => rw [h] at h'; simp at h'
  · rfl

theorem discreteLoop_some {frames : List (Frame K α δ)} {t : K} {cur : ℕ} {f : Frame K α δ} (h : frames[cur]? = some f) : discreteLoop frames t cur =
    if f.time ≤ t then ((discreteLoop frames t (cur + 1)).1, f.value :: (discreteLoop frames t (cur + 1)).2) else (cur, []) := by
  rw [discreteLoop]
  split
  · next h' => rw [h] at h'; rw [Option.some.inj h']
  · next h' => rw [h] at h'; simp at h'

theorem addLoop_spec (frames : List (Frame K α K)) (t : K) : ∀ n (s : IState K) evs, n = frames.length - s.cur → Inv frames s evs →
    ∃ s' e, addLoop frames t s = some (s', e) ∧ Inv frames s' (evs ++ e) ∧ discreteLoop frames t s.cur = (s'.cur, Spec.values e) := by
  intro n
  induction n with
  | zero =>
    intro s evs hn h
    have hx : frames[s.cur]? = none := List.getElem?_eq_none (by omega)
    rw [addLoop]
    split
    · next h' => rw [hx] at h'; simp at h'
    · exact ⟨_, _, rfl, by simpa using h, discreteLoop_none hx⟩
  | succ n ih =>
    intro s evs hn h
    rw [addLoop]
    split
    · next f h' =>
      rw [discreteLoop_some h']
      by_cases hc : f.time ≤ t
      · obtain ⟨q, h1, h2, h3⟩ := Heap.insert_spec keyCmp_ord h.heap (f.data, s.next)
        have hI : Inv frames ⟨q, s.cur + 1, s.next + 1⟩ (evs ++ [.add s.next f.value]) := by
          refine ⟨h2, valid_add h.valid _ _, ?_, ?_, ?_⟩
          · have : Spec.added (evs ++ [Ev.add s.next f.value]) = Spec.added evs ++ [s.next] := by simp [Spec.added]
            rw [this, h.adds, List.range_succ]
          · have : Spec.removed (evs ++ [Ev.add s.next f.value]) = Spec.removed evs := by simp [Spec.removed]
            rw [this, List.range_succ]
            refine (List.Perm.append_left _ (h3.map Prod.snd)).trans ?_
            simp only [List.map_cons]
            refine List.perm_middle.trans ?_
            refine (List.Perm.cons _ h.live).trans ?_
            exact (List.perm_append_singleton _ _).symm
          · intro p hp
            rcases List.mem_cons.1 (h3.mem_iff.1 hp) with rfl | hp
            · exact ⟨f, List.mem_of_getElem? h', rfl⟩
            · exact h.keys p hp
        obtain ⟨s', e, h4, h5, h6⟩ := ih ⟨q, s.cur + 1, s.next + 1⟩ _ (by simp only; omega) hI
        rw [if_pos hc, if_pos hc, h1, Option.bind_some, h4, Option.map_some]
        refine ⟨_, _, rfl, by simpa using h5, ?_⟩
        simp only at h6
        rw [h6]
        simp [Spec.values]
      · rw [if_neg hc, if_neg hc]
        exact ⟨_, _, rfl, by simpa using h, by simp [Spec.values]⟩
    · next h' => exact ⟨_, _, rfl, by simpa using h, discreteLoop_none h'⟩

theorem removeLoop_spec (frames : List (Frame K α K)) (t : K) : ∀ n (s : IState K) evs, s.queue.length ≤ n → Inv frames s evs →
    ∃ q e, removeLoop t n s.queue = some (q, e) ∧ Inv frames ⟨q, s.cur, s.next⟩ (evs ++ e) ∧ Spec.values e = [] ∧ ∀ p, q[0]? = some p → t < p.1 := by
  intro n
  induction n with
  | zero =>
    intro s evs hn h
    have : s.queue = [] := List.length_eq_zero_iff.1 (by omega)
    exact ⟨_, _, rfl, by simpa using h, rfl, by simp [this]⟩
  | succ n ih =>
    intro s evs hn h
    rw [removeLoop]
    cases hq : s.queue[0]? with
    | none => exact ⟨_, _, rfl, by simpa using h, rfl, by simp [hq]⟩
    | some p =>
      obtain ⟨hlt, hp⟩ := List.getElem?_eq_some_iff.1 hq
      simp only
      by_cases hc : p.1 ≤ t
      · obtain ⟨q, h1, h2, h3⟩ := h.pop hlt
        obtain ⟨q', e, h4, h5, h6, h7⟩ := ih ⟨q, s.cur, s.next⟩ _ (by simp only; omega) h3
        simp only at h4
        rw [if_pos hc, h1, Option.bind_some, h4, Option.map_some]
        exact ⟨_, _, rfl, by simpa using h5, by simpa [Spec.values] using h6, h7⟩
      · rw [if_neg hc]
        refine ⟨_, _, rfl, by simpa using h, rfl, ?_⟩
        intro p' hp'
        rw [hq] at hp'
        rw [← Option.some.inj hp']
        exact not_le.1 hc

theorem clearLoop_spec (frames : List (Frame K α K)) : ∀ n (s : IState K) evs, s.queue.length ≤ n → Inv frames s evs →
    ∃ e, clearLoop n s.queue = some ([], e) ∧ Inv frames ⟨[], s.cur, s.next⟩ (evs ++ e) ∧ Spec.values e = [] := by
  intro n
  induction n with
  | zero =>
    intro s evs hn h
    have hs : s.queue = [] := List.length_eq_zero_iff.1 (by omega)
    rw [hs]
    refine ⟨_, rfl, ?_, rfl⟩
    have := h.cur s.cur
    rw [hs] at this
    simpa using this
  | succ n ih =>
    intro s evs hn h
    rw [clearLoop]
    cases hq : s.queue[0]? with
    | none =>
      have hs : s.queue = [] := by
        rw [List.getElem?_eq_none_iff] at hq
        exact List.length_eq_zero_iff.1 (by omega)
      simp only [hs]
      refine ⟨_, rfl, ?_, rfl⟩
      have := h.cur s.cur
      rw [hs] at this
      simpa using this
    | some p =>
      obtain ⟨hlt, hp⟩ := List.getElem?_eq_some_iff.1 hq
      obtain ⟨q, h1, h2, h3⟩ := h.pop hlt
      obtain ⟨e, h4, h5, h6⟩ := ih ⟨q, s.cur, s.next⟩ _ (by simp only; omega) h3
      simp only at h4 ⊢
      rw [h1, Option.bind_some, h4, Option.map_some]
      exact ⟨_, rfl, by simpa using h5, by simpa [Spec.values] using h6⟩

theorem values_append (a b : List (Ev α)) : Spec.values (a ++ b) = Spec.values a ++ Spec.values b := by simp [Spec.values]

theorem interval_interp (frames : List (Frame K α K)) (s : IState K) (evs : List (Ev α)) (t : K) (h : Inv frames s evs) :
    ∃ s' e, (interval frames).interp s t = some (s', e) ∧ Inv frames s' (evs ++ e) ∧ discreteLoop frames t s.cur = (s'.cur, Spec.values e) ∧
      ∀ p, s'.queue[0]? = some p → t < p.1 := by
  obtain ⟨s1, e1, h1, h2, h3⟩ := addLoop_spec frames t _ s evs rfl h
  obtain ⟨q, e2, h4, h5, h6, h7⟩ := removeLoop_spec frames t _ s1 _ (le_refl _) h2
  refine ⟨⟨q, s1.cur, s1.next⟩, e1 ++ e2, ?_, by simpa using h5, ?_, h7⟩
  · simp only [interval, h1, Option.bind_some, h4, Option.map_some]
  · rw [h3, values_append, h6, List.append_nil]

theorem interval_reset (frames : List (Frame K α K)) (s : IState K) (evs : List (Ev α)) (h : Inv frames s evs) :
    ∃ e, (interval frames).reset s = (⟨[], 0, s.next⟩, e) ∧ Inv frames ⟨[], 0, s.next⟩ (evs ++ e) ∧ Spec.values e = [] := by
  obtain ⟨e, h1, h2, h3⟩ := clearLoop_spec frames _ s evs (le_refl _) h
  exact ⟨e, by simp [interval, h1], h2.cur 0, h3⟩

theorem inv_new (frames : List (Frame K α K)) : Inv frames ⟨[], 0, 0⟩ [] := by
  refine ⟨by intro i x y _ hx; simp at hx, ?_, rfl, by simp [Spec.removed], by simp⟩
  intro p h hp
  simp at hp

/-! ## Theorems -/

/-- Any history never fails, a handle is only removed after it was returned and only once, and the handles that were returned and not removed are those in the queue. -/
theorem C119_handles (frames : List (Frame K α K)) {length loop : K} (hl : loop < 0 ∨ loop < length) (fuel : ℕ) (os : List (Op K)) :
    ∃ s evs, run (interval frames) length loop (fuel + 2) ⟨0, ⟨[], 0, 0⟩⟩ os = some (s, evs) ∧ Spec.Valid evs ∧ (Spec.added evs).Nodup ∧
      (Spec.removed evs ++ s.states.queue.map Prod.snd).Perm (Spec.added evs) := by
  obtain ⟨r, h1, h2⟩ := run_inv (interval frames) (Inv frames)
    (fun s evs h => by obtain ⟨e, h1, h2, -⟩ := interval_reset frames s evs h; rw [h1]; exact h2)
    (fun s evs t h => by obtain ⟨s', e, h1, h2, -⟩ := interval_interp frames s evs t h; exact ⟨s', e, h1, h2⟩)
    hl fuel os ⟨0, ⟨[], 0, 0⟩⟩ [] (inv_new frames)
  rw [List.nil_append] at h2
  exact ⟨r.1, r.2, h1, h2.valid, h2.adds ▸ List.nodup_range, h2.adds ▸ h2.live⟩

/-- After a history that ends with `Reset` (or the destruction of the animation state), every handle has been removed exactly once. -/
theorem C119_all_removed (frames : List (Frame K α K)) {length loop : K} (hl : loop < 0 ∨ loop < length) (fuel : ℕ) (os : List (Op K)) :
    ∃ s evs, run (interval frames) length loop (fuel + 2) ⟨0, ⟨[], 0, 0⟩⟩ (os ++ [.reset]) = some (s, evs) ∧ Spec.Valid evs ∧
      (Spec.removed evs).Perm (Spec.added evs) ∧ (Spec.removed evs).Nodup := by
  obtain ⟨r, h1, h2⟩ := run_inv (interval frames) (Inv frames)
    (fun s evs h => by obtain ⟨e, h1, h2, -⟩ := interval_reset frames s evs h; rw [h1]; exact h2)
    (fun s evs t h => by obtain ⟨s', e, h1, h2, -⟩ := interval_interp frames s evs t h; exact ⟨s', e, h1, h2⟩)
    hl fuel os ⟨0, ⟨[], 0, 0⟩⟩ [] (inv_new frames)
  rw [List.nil_append] at h2
  obtain ⟨e, h3, h4, -⟩ := interval_reset frames _ _ h2
  rw [run_append, h1]
  have hp : (Spec.removed (r.2 ++ e)).Perm (Spec.added (r.2 ++ e)) := by simpa [h4.adds] using h4.live
  refine ⟨⟨0, ⟨[], 0, r.1.states.next⟩⟩, r.2 ++ e, ?_, h4.valid, hp, hp.nodup_iff.2 (h4.adds ▸ List.nodup_range)⟩
  simp [run, step, reset, h3]

/-- The calls of `FN` are those of a discrete track with the same frames, after any history: in particular C117 applies to them. -/
theorem C119_adds_like_discrete (frames : List (Frame K α K)) {length loop : K} (hl : loop < 0 ∨ loop < length) (fuel : ℕ) (os : List (Op K)) :
    ∃ s evs, run (interval frames) length loop (fuel + 2) ⟨0, ⟨[], 0, 0⟩⟩ os = some (s, evs) ∧
      run (discrete frames) length loop (fuel + 2) ⟨0, 0⟩ os = some (⟨s.time, s.states.cur⟩, Spec.values evs) := by
  suffices h : ∀ (os : List (Op K)) (s : St K (IState K)) evs, Inv frames s.states evs →
      ∃ s' e, run (interval frames) length loop (fuel + 2) s os = some (s', e) ∧
        run (discrete frames) length loop (fuel + 2) ⟨s.time, s.states.cur⟩ os = some (⟨s'.time, s'.states.cur⟩, Spec.values e) by
    exact h os _ [] (inv_new frames)
  intro os
  induction os with
  | nil => intro s evs _; exact ⟨s, [], rfl, rfl⟩
  | cons o os ih =>
    intro s evs h
    have key : ∃ s' e, step (interval frames) length loop (fuel + 2) s o = some (s', e) ∧ Inv frames s'.states (evs ++ e) ∧
        step (discrete frames) length loop (fuel + 2) ⟨s.time, s.states.cur⟩ o = some (⟨s'.time, s'.states.cur⟩, Spec.values e) := by
      cases o with
      | interpolate d =>
        by_cases ho : s.time ≥ length ∧ loop < 0
        · refine ⟨s, [], ?_, by simpa using h, ?_⟩
          · simp only [step]; rw [interpolate, if_pos ho]; rfl
          · simp only [step]; rw [interpolate, if_pos ho]; rfl
        · obtain ⟨s1, e1, h1, h2, h3, -⟩ := interval_interp frames s.states evs (s.time + d) h
          by_cases hc : s.time + d ≥ length ∧ loop ≥ 0
          · obtain ⟨e2, r1, r2, r3⟩ := interval_reset frames s1 _ h2
            obtain ⟨s4, e4, h5, h6, h7, -⟩ := interval_interp frames ⟨[], 0, s1.next⟩ _ (fmod (s.time + d - length) (length - loop) + loop) r2
            have hll := hl.resolve_left (not_lt.2 hc.2)
            simp only [step]
            rw [interpolate_around (interval frames) hc.2 hll _ _ _ hc.1, interpolate_around (discrete frames) hc.2 hll _ ⟨s.time, s.states.cur⟩ _ hc.1, h1, Option.bind_some, r1, h5]
            refine ⟨_, _, rfl, by simpa [List.append_assoc] using h6, ?_⟩
            simp only at h7
            simp [discrete, h3, h7, values_append, r3]
          · simp only [step]
            rw [interpolate_inside (interval frames) _ _ _ ho hc, interpolate_inside (discrete frames) _ ⟨s.time, s.states.cur⟩ _ ho hc, h1]
            exact ⟨_, _, rfl, h2, by simp [discrete, h3]⟩
      | setTime t =>
        by_cases hg : s.time > t
        · obtain ⟨e2, r1, r2, r3⟩ := interval_reset frames s.states _ h
          exact ⟨_, _, by simp [step, setTime, hg, reset, r1]; exact ⟨rfl, rfl⟩, r2, by simp [step, setTime, hg, reset, discrete, r3]⟩
        · exact ⟨⟨t, s.states⟩, [], by simp [step, setTime, hg], by simpa using h, by simp [step, setTime, hg, Spec.values]⟩
      | reset =>
        obtain ⟨e2, r1, r2, r3⟩ := interval_reset frames s.states _ h
        exact ⟨_, _, by simp [step, reset, r1]; exact ⟨rfl, rfl⟩, r2, by simp [step, reset, discrete, r3]⟩
    obtain ⟨s', e, h1, h2, h3⟩ := key
    obtain ⟨s'', e', h4, h5⟩ := ih s' _ h2
    refine ⟨s'', e ++ e', ?_, ?_⟩
    · rw [run, h1, Option.bind_some, h4, Option.map_some]
    · rw [run, h3, Option.bind_some, h5, Option.map_some, values_append]

/-- What the code does about the ends of the intervals: when an evaluation is at a time that is at least the `data` of every frame, nothing remains. Missing is that each interval is
removed when its own end, its time plus its length, has come, and not before: see the counterexamples. -/
theorem C119_ends_partial (frames : List (Frame K α K)) {length loop : K} (hl : loop < 0 ∨ loop < length) (fuel : ℕ) (os : List (Op K)) (d : K) :
    ∃ s evs, run (interval frames) length loop (fuel + 2) ⟨0, ⟨[], 0, 0⟩⟩ os = some (s, evs) ∧
      (¬(length ≤ s.time ∧ loop < 0) → ¬(length ≤ s.time + d ∧ 0 ≤ loop) → (∀ f ∈ frames, f.data ≤ s.time + d) →
        ∃ s' evs', run (interval frames) length loop (fuel + 2) ⟨0, ⟨[], 0, 0⟩⟩ (os ++ [.interpolate d]) = some (s', evs') ∧ (Spec.removed evs').Perm (Spec.added evs')) := by
  obtain ⟨r, h1, h2⟩ := run_inv (interval frames) (Inv frames)
    (fun s evs h => by obtain ⟨e, h1, h2, -⟩ := interval_reset frames s evs h; rw [h1]; exact h2)
    (fun s evs t h => by obtain ⟨s', e, h1, h2, -⟩ := interval_interp frames s evs t h; exact ⟨s', e, h1, h2⟩)
    hl fuel os ⟨0, ⟨[], 0, 0⟩⟩ [] (inv_new frames)
  rw [List.nil_append] at h2
  refine ⟨r.1, r.2, h1, fun ho hc hf => ?_⟩
  obtain ⟨s', e, h3, h4, -, h5⟩ := interval_interp frames _ _ (r.1.time + d) h2
  have hq : s'.queue = [] := by
    cases hq : s'.queue with
    | nil => rfl
    | cons p q =>
      have hlt := h5 p (by simp [hq])
      obtain ⟨f, hfm, hfd⟩ := h4.keys p (by simp [hq])
      have := hf f hfm
      rw [hfd] at this
      exact absurd hlt (not_lt.2 this)
  rw [run_append, h1]
  refine ⟨⟨r.1.time + d, s'⟩, r.2 ++ e, ?_, ?_⟩
  · simp only [Option.bind_some, run, step]
    rw [interpolate_inside _ _ _ _ ho hc, h3]
    simp
  · have := h4.live
    rw [hq] at this
    simpa [h4.adds] using this

/-- The frames of the examples: the second interval lasts from 5 to 7, the first from 0 to 20. -/
def exInterval : List (Frame ℚ ℕ ℚ) := [⟨0, 10, 20⟩, ⟨5, 11, 2⟩]

example : (run (interval exInterval) 30 (-1) 2 ⟨0, ⟨[], 0, 0⟩⟩ ([.interpolate 1, .interpolate 5] ++ [.reset])).map Prod.snd =
    some [.add 0 10, .add 1 11, .remove 0, .remove 1] := by decide +kernel

/-- An interval at time 5 that lasts 2 is removed in the very call that starts it, because the queue compares the length with the time. -/
theorem C119_early_counterexample : (run (interval [(⟨5, 11, 2⟩ : Frame ℚ ℕ ℚ)]) 7 (-1) 2 ⟨0, ⟨[], 0, 0⟩⟩ [.interpolate 5]).map Prod.snd =
    some [.add 0 11, .remove 0] := by decide +kernel

/-- An interval that ended long ago stays while a longer one is running: from 0 to 1, not removed at 10. -/
theorem C119_late_counterexample : (run (interval [(⟨0, 10, 1⟩ : Frame ℚ ℕ ℚ), ⟨0, 11, 20⟩]) 30 (-1) 2 ⟨0, ⟨[], 0, 0⟩⟩ [.interpolate 10]).map Prod.snd =
    some [.add 0 10, .add 1 11] := by decide +kernel

end Verif.Ani
