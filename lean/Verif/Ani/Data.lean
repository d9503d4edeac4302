import Verif.Ani.Model
import Verif.Sorted.Props
import Mathlib.Data.Rat.Floor

/-!
# The frames of an animation and its length (C120)

A track of an `Animation` is an `AniData` (also the base of `AniDataSmooth`, which adds nothing but the interpolation function) or an `AniDataInterval`. Frames without `data` have an
arbitrary one that is not looked at.
-/

namespace Verif.Ani

variable {K : Type} [Field K] [LinearOrder K] [IsStrictOrderedRing K] [FloorRing K] {α : Type}

/-! ## Model -/

/-- `AniData` or `AniDataInterval`: the frames, and `_end`, which only the latter has. -/
structure DTrack (K α : Type) where
  interval : Bool
  frames : List (Frame K α K)
  stored : K

/-- `AniData::CompAniFrame`, `Animation.h:297`. -/
def frameCmp (l r : Frame K α K) : Int := (if l.time > r.time then 1 else 0) - (if l.time < r.time then 1 else 0)

/-- `AniDataInterval::_checkIndex`, `Animation.h:411-416`. -/
def checkIndex (frames : List (Frame K α K)) (e : K) (i : ℕ) : Option K := (frames[i]?).map fun f => if f.time + f.data > e then f.time + f.data else e

/-- The loop in `AniDataInterval::_recalcLength`, `Animation.h:408-409`. -/
def recalcLoop (frames : List (Frame K α K)) (e : K) (i : ℕ) : Option K :=
  if h : i < frames.length then (checkIndex frames e i).bind fun e' => recalcLoop frames e' (i + 1) else some e
termination_by frames.length - i

/-- `AniData::End`, `Animation.h:268`, and `AniDataInterval::End`, `:359`. -/
def DTrack.fin (d : DTrack K α) : K := if d.interval then d.stored else match d.frames.getLast? with | none => 0 | some f => f.time

/-- `AniData::Add`, `Animation.h:270`, and `AniDataInterval::Add`, `:361-366`; the insertion is that of `ArraySort`, the model of C05. -/
def DTrack.add (d : DTrack K α) (f : Frame K α K) : Option (DTrack K α × ℕ) :=
  (Sorted.insert frameCmp d.frames f).bind fun r =>
    if d.interval then (checkIndex r.1 d.stored r.2).map fun e => (⟨true, r.1, e⟩, r.2) else some (⟨false, r.1, d.stored⟩, r.2)

/-- `AniData::Remove`, `Animation.h:284`, and `AniDataInterval::Remove`, `:382-388`. -/
def DTrack.remove (d : DTrack K α) (i : ℕ) : Option (DTrack K α × Bool) :=
  let r := Sorted.remove d.frames i
  if r.2 = false then some (d, false)
  else if d.interval then (recalcLoop r.1 0 0).map fun e => (⟨true, r.1, e⟩, true) else some (⟨false, r.1, d.stored⟩, true)

/-- `Animation`: `_length`, `_calc` (`known`), `_loop` and the tracks. -/
structure Animation (K α : Type) where
  length : K
  known : K
  loop : K
  tracks : List (DTrack K α)

/-- `AnimationBase::GetLength`, `Animation.h:430`. -/
def Animation.getLength (a : Animation K α) : K := if a.length < 0 then a.known else a.length

/-- `Animation::_calclength`, `Animation.h:539`, with `std::max` of a list that is not empty. -/
def calcLength (ts : List (DTrack K α)) : Option K := (ts.map DTrack.fin).head?.map fun e => (ts.map DTrack.fin).tail.foldl max e

/-- `Animation::Add`, `Animation.h:478-485`, to the track of that index, with `_checklength`, `:540`. -/
def Animation.add (a : Animation K α) (i : ℕ) (f : Frame K α K) : Option (Animation K α × ℕ) :=
  (a.tracks[i]?).bind fun t => (t.add f).map fun r => ({ a with known := max a.known r.1.fin, tracks := a.tracks.set i r.1 }, r.2)

/-- `Animation::Remove`, `Animation.h:494-502`. -/
def Animation.remove (a : Animation K α) (i : ℕ) (k : ℕ) : Option (Animation K α × Bool) :=
  (a.tracks[i]?).bind fun t => (t.remove k).bind fun r =>
    if r.2 = false then some (a, false) else (calcLength (a.tracks.set i r.1)).map fun c => ({ a with known := c, tracks := a.tracks.set i r.1 }, true)

/-- `Animation::SetLength`, `Animation.h:469-473`. -/
def Animation.setLength (a : Animation K α) (l : K) : Option (Animation K α) := (calcLength a.tracks).map fun c => { a with length := l, known := c }

/-- `AnimationBase::SetLoop`, `Animation.h:431`. -/
def Animation.setLoop (a : Animation K α) (l : K) : Animation K α := { a with loop := l }

/-- `Animation(length, loop)`, `Animation.h:466` and `:425`, with the kinds of its tracks (`AniDataInterval()`, `:355`). -/
def Animation.new (length loop : K) (kinds : List Bool) : Animation K α := ⟨length, 0, loop, kinds.map fun b => ⟨b, [], 0⟩⟩

/-- `AniDataInterval(src, len)`, `Animation.h:358`, after `AniData(src, len)`, `:266` and `:276-283`: `_end` is not initialised, `garbage` is what happens to be there. -/
def DTrack.ofFrames (interval : Bool) (src : List (Frame K α K)) (garbage : K) : DTrack K α := ⟨interval, src, garbage⟩

/-- Calls of a user of `Animation`. -/
inductive DOp (K α : Type) where
  | add (track : ℕ) (f : Frame K α K)
  | remove (track : ℕ) (index : ℕ)
  | setLength (l : K)
  | setLoop (l : K)

/-- One call. -/
def Animation.step (a : Animation K α) : DOp K α → Option (Animation K α)
  | .add i f => (a.add i f).map Prod.fst
  | .remove i k => (a.remove i k).map Prod.fst
  | .setLength l => a.setLength l
  | .setLoop l => some (a.setLoop l)

/-- A history of calls. -/
def Animation.run (a : Animation K α) : List (DOp K α) → Option (Animation K α)
  | [] => some a
  | o :: os => (a.step o).bind fun b => b.run os

/-! ## Specification -/

/-- When a frame ends. -/
def Spec.frameEnd (interval : Bool) (f : Frame K α K) : K := if interval then f.time + f.data else f.time

/-- `e` is the largest end of the frames, or 0 if that is larger (in particular if there are none). -/
def Spec.IsEnd (interval : Bool) (frames : List (Frame K α K)) (e : K) : Prop :=
  0 ≤ e ∧ (∀ f ∈ frames, Spec.frameEnd interval f ≤ e) ∧ (e = 0 ∨ ∃ f ∈ frames, e = Spec.frameEnd interval f)

/-- `l` is the largest end of all the frames of all the tracks, or 0. -/
def Spec.IsLength (ts : List (DTrack K α)) (l : K) : Prop :=
  0 ≤ l ∧ (∀ t ∈ ts, ∀ f ∈ t.frames, Spec.frameEnd t.interval f ≤ l) ∧ (l = 0 ∨ ∃ t ∈ ts, ∃ f ∈ t.frames, l = Spec.frameEnd t.interval f)

/-- The length given by the last `SetLength`, or at construction. -/
def Spec.lastLength (init : K) (os : List (DOp K α)) : K := os.foldl (fun l o => match o with | .setLength x => x | _ => l) init

/-- The loop given by the last `SetLoop`, or at construction. -/
def Spec.lastLoop (init : K) (os : List (DOp K α)) : K := os.foldl (fun l o => match o with | .setLoop x => x | _ => l) init

/-- The track exists, and no frame has a negative time. -/
def DOp.Ok (n : ℕ) : DOp K α → Prop
  | .add i f => i < n ∧ 0 ≤ f.time
  | .remove i _ => i < n
  | _ => True

/-! ## Lemmas -/

theorem frameCmp_le {a b : Frame K α K} : frameCmp a b ≤ 0 ↔ a.time ≤ b.time := by
  unfold frameCmp
  rcases lt_trichotomy a.time b.time with h | h | h
  · simp [h, not_lt.2 h.le, h.le]
  · simp [h]
  · simp [h, not_lt.2 h.le]

theorem frameCmp_ord : CmpOrd (frameCmp (K := K) (α := α)) where
  sym a b := by
    unfold frameCmp
    rcases lt_trichotomy a.time b.time with h | h | h
    · simp [h, not_lt.2 h.le]
    · simp [h]
    · simp [h, not_lt.2 h.le]
  trans a b c h1 h2 := by
    rw [frameCmp_le] at *
    exact h1.trans h2

theorem frameCmp_sgn : Sorted.Spec.Sgn (frameCmp (K := K) (α := α)) := by
  intro a b
  unfold frameCmp
  rcases lt_trichotomy a.time b.time with h | h | h
  · simp [h, not_lt.2 h.le]
  · simp [h]
  · simp [h, not_lt.2 h.le]

theorem recalcLoop_spec (frames : List (Frame K α K)) : ∀ n e i, n = frames.length - i → ∃ r, recalcLoop frames e i = some r ∧ e ≤ r ∧
    (∀ f ∈ frames.drop i, f.time + f.data ≤ r) ∧ (r = e ∨ ∃ f ∈ frames.drop i, r = f.time + f.data) := by
  intro n
  induction n with
  | zero =>
    intro e i h
    rw [recalcLoop, dif_neg (by omega), List.drop_eq_nil_of_le (by omega)]
    exact ⟨e, rfl, le_refl _, by simp, Or.inl rfl⟩
  | succ n ih =>
    intro e i h
    have hlt : i < frames.length := by omega
    rw [recalcLoop, dif_pos hlt, List.drop_eq_getElem_cons hlt]
    simp only [checkIndex, List.getElem?_eq_getElem hlt, Option.map_some, Option.bind_some]
    obtain ⟨r, h1, h2, h3, h4⟩ := ih (if (frames[i]).time + (frames[i]).data > e then (frames[i]).time + (frames[i]).data else e) (i + 1) (by omega)
    refine ⟨r, h1, ?_, ?_, ?_⟩
    · split at h2
      · next hg => exact (le_of_lt hg).trans h2
      · exact h2
    · intro f hf
      rcases List.mem_cons.1 hf with rfl | hf
      · split at h2
        · exact h2
        · next hg => exact (not_lt.1 hg).trans h2
      · exact h3 f hf
    · rcases h4 with h4 | ⟨f, hf, h4⟩
      · split at h4
        · exact Or.inr ⟨_, List.mem_cons_self, h4⟩
        · exact Or.inl h4
      · exact Or.inr ⟨f, List.mem_cons_of_mem _ hf, h4⟩

theorem IsEnd.unique {b : Bool} {frames : List (Frame K α K)} {x y : K} (hx : Spec.IsEnd b frames x) (hy : Spec.IsEnd b frames y) : x = y := by
  have key : ∀ {x y : K}, Spec.IsEnd b frames x → Spec.IsEnd b frames y → x ≤ y := by
    rintro x y ⟨-, -, h | ⟨f, hf, h⟩⟩ ⟨h0, h1, -⟩
    · rw [h]; exact h0
    · rw [h]; exact h1 f hf
  exact le_antisymm (key hx hy) (key hy hx)

/-- The invariant of a track. -/
structure DTrack.Inv (d : DTrack K α) : Prop where
  sorted : Sorted.Spec.Sorted frameCmp d.frames
  nonneg : ∀ f ∈ d.frames, 0 ≤ f.time
  fin : Spec.IsEnd d.interval d.frames d.fin

theorem plain_fin {frames : List (Frame K α K)} (hs : Sorted.Spec.Sorted frameCmp frames) (hn : ∀ f ∈ frames, 0 ≤ f.time) (e : K) :
    Spec.IsEnd false frames (DTrack.fin ⟨false, frames, e⟩) := by
  unfold DTrack.fin
  simp only [Bool.false_eq_true, if_false]
  cases hl : frames.getLast? with
  | none =>
    rw [List.getLast?_eq_none_iff] at hl
    subst hl
    exact ⟨le_refl _, by simp, Or.inl rfl⟩
  | some x =>
    have hx := List.mem_of_getLast? hl
    refine ⟨hn x hx, ?_, Or.inr ⟨x, hx, rfl⟩⟩
    intro f hf
    simp only [Spec.frameEnd, Bool.false_eq_true, if_false]
    obtain ⟨l, rfl⟩ := List.getLast?_eq_some_iff.1 hl
    rcases List.mem_append.1 hf with hf | hf
    · exact frameCmp_le.1 ((List.pairwise_append.1 hs).2.2 f hf x (by simp))
    · simp at hf; rw [hf]

theorem DTrack.add_spec {d : DTrack K α} (h : d.Inv) (f : Frame K α K) (hf : 0 ≤ f.time) :
    ∃ d' i, d.add f = some (d', i) ∧ d'.Inv ∧ d'.interval = d.interval ∧ d'.frames[i]? = some f ∧ d'.frames.Perm (f :: d.frames) := by
  obtain ⟨a', loc, h1, h2, h3, h4⟩ := Sorted.C05_insert_index frameCmp_ord frameCmp_sgn h.sorted f
  have hn : ∀ x ∈ a', 0 ≤ x.time := by
    intro x hx
    rcases List.mem_cons.1 (h3.mem_iff.1 hx) with rfl | hx
    · exact hf
    · exact h.nonneg x hx
  obtain ⟨b, fr, e⟩ := d
  cases b with
  | false => exact ⟨_, loc, by simp only [DTrack.add, h1, Option.bind_some]; rfl, ⟨h4, hn, plain_fin h4 hn _⟩, rfl, h2, h3⟩
  | true =>
    refine ⟨⟨true, a', _⟩, loc, by simp only [DTrack.add, h1, Option.bind_some, checkIndex, h2, Option.map_some]; rfl, ⟨h4, hn, ?_⟩, rfl, h2, h3⟩
    have hfin := h.fin
    simp only [DTrack.fin, if_true] at hfin ⊢
    obtain ⟨p1, p2, p3⟩ := hfin
    have hmem : ∀ x, x ∈ a' ↔ x = f ∨ x ∈ fr := fun x => by rw [h3.mem_iff, List.mem_cons]
    by_cases hg : f.time + f.data > e
    · rw [if_pos hg]
      refine ⟨p1.trans hg.le, ?_, Or.inr ⟨f, (hmem f).2 (Or.inl rfl), rfl⟩⟩
      intro x hx
      rcases (hmem x).1 hx with rfl | hx
      · exact le_refl _
      · exact (p2 x hx).trans hg.le
    · rw [if_neg hg]
      refine ⟨p1, ?_, ?_⟩
      · intro x hx
        rcases (hmem x).1 hx with rfl | hx
        · exact not_lt.1 hg
        · exact p2 x hx
      · rcases p3 with p3 | ⟨x, hx, p3⟩
        · exact Or.inl p3
        · exact Or.inr ⟨x, (hmem x).2 (Or.inr hx), p3⟩

theorem DTrack.remove_spec {d : DTrack K α} (h : d.Inv) (i : ℕ) :
    ∃ d', d.remove i = some (d', decide (i < d.frames.length)) ∧ d'.Inv ∧ d'.interval = d.interval ∧ d'.frames = d.frames.eraseIdx i := by
  obtain ⟨b, fr, e⟩ := d
  by_cases hi : i < fr.length
  · have he : fr.take i ++ fr.drop (i + 1) = fr.eraseIdx i := (List.eraseIdx_eq_take_drop_succ ..).symm
    have hs : Sorted.Spec.Sorted frameCmp (fr.eraseIdx i) := List.Pairwise.sublist (List.eraseIdx_sublist ..) h.sorted
    have hn : ∀ f ∈ fr.eraseIdx i, 0 ≤ f.time := fun f hf => h.nonneg f (List.mem_of_mem_eraseIdx hf)
    simp only [DTrack.remove, Sorted.remove, if_neg (not_le.2 hi), he, hi, decide_true]
    cases b with
    | false => exact ⟨_, rfl, ⟨hs, hn, plain_fin hs hn _⟩, rfl, rfl⟩
    | true =>
      obtain ⟨r, h1, h2, h3, h4⟩ := recalcLoop_spec (fr.eraseIdx i) _ 0 0 rfl
      refine ⟨⟨true, fr.eraseIdx i, r⟩, by simp [h1], ⟨hs, hn, ?_⟩, rfl, rfl⟩
      simp only [DTrack.fin, if_true]
      rw [List.drop_zero] at h3 h4
      exact ⟨h2, h3, h4⟩
  · refine ⟨⟨b, fr, e⟩, ?_, h, rfl, (List.eraseIdx_of_length_le (not_lt.1 hi)).symm⟩
    simp [DTrack.remove, Sorted.remove, not_lt.1 hi]

theorem calcLength_spec {ts : List (DTrack K α)} (hne : ts ≠ []) (h : ∀ t ∈ ts, t.Inv) : ∃ l, calcLength ts = some l ∧ Spec.IsLength ts l := by
  have fold : ∀ (l : List K) (e : K), e ≤ l.foldl max e ∧ (∀ x ∈ l, x ≤ l.foldl max e) ∧ (l.foldl max e = e ∨ l.foldl max e ∈ l) := by
    intro l
    induction l with
    | nil => intro e; exact ⟨le_refl _, by simp, Or.inl rfl⟩
    | cons a l ih =>
      intro e
      obtain ⟨i1, i2, i3⟩ := ih (max e a)
      simp only [List.foldl_cons]
      refine ⟨(le_max_left _ _).trans i1, ?_, ?_⟩
      · intro x hx
        rcases List.mem_cons.1 hx with rfl | hx
        · exact (le_max_right _ _).trans i1
        · exact i2 x hx
      · rcases i3 with i3 | i3
        · rcases max_choice e a with hm | hm
          · exact Or.inl (i3.trans hm)
          · exact Or.inr (by rw [i3, hm]; exact List.mem_cons_self)
        · exact Or.inr (List.mem_cons_of_mem _ i3)
  cases ts with
  | nil => exact absurd rfl hne
  | cons t ts =>
    obtain ⟨f1, f2, f3⟩ := fold (ts.map DTrack.fin) t.fin
    refine ⟨(ts.map DTrack.fin).foldl max t.fin, rfl, ?_, ?_, ?_⟩
    · exact (h t (by simp)).fin.1.trans f1
    · intro u hu f hf
      refine ((h u hu).fin.2.1 f hf).trans ?_
      rcases List.mem_cons.1 hu with rfl | hu
      · exact f1
      · exact f2 _ (List.mem_map_of_mem hu)
    · have key : ∀ u ∈ t :: ts, (ts.map DTrack.fin).foldl max t.fin = u.fin → (ts.map DTrack.fin).foldl max t.fin = 0 ∨
          ∃ t' ∈ t :: ts, ∃ f ∈ t'.frames, (ts.map DTrack.fin).foldl max t.fin = Spec.frameEnd t'.interval f := by
        intro u hu he
        rcases (h u hu).fin.2.2 with h0 | ⟨f, hf, h0⟩
        · exact Or.inl (he.trans h0)
        · exact Or.inr ⟨u, hu, f, hf, he.trans h0⟩
      rcases f3 with f3 | f3
      · exact key t (by simp) f3
      · obtain ⟨u, hu, he⟩ := List.mem_map.1 f3
        exact key u (by simp [hu]) he.symm

/-- The invariant of an animation. -/
structure Animation.Inv (a : Animation K α) : Prop where
  ne : a.tracks ≠ []
  tracks : ∀ t ∈ a.tracks, t.Inv
  calced : Spec.IsLength a.tracks a.known

theorem set_inv {ts : List (DTrack K α)} (h : ∀ t ∈ ts, t.Inv) {i : ℕ} {d : DTrack K α} (hd : d.Inv) : ∀ t ∈ ts.set i d, t.Inv := by
  intro t ht
  rcases List.mem_or_eq_of_mem_set ht with ht | rfl
  · exact h t ht
  · exact hd

theorem mem_set_of {ts : List (DTrack K α)} {i : ℕ} {t0 d u : DTrack K α} (h0 : ts[i]? = some t0) (hu : u ∈ ts) : u = t0 ∨ u ∈ ts.set i d := by
  obtain ⟨j, hj, rfl⟩ := List.mem_iff_getElem.1 hu
  by_cases hij : i = j
  · subst hij
    rw [List.getElem?_eq_getElem hj] at h0
    exact Or.inl (Option.some.inj h0)
  · exact Or.inr (List.mem_iff_getElem.2 ⟨j, by simpa using hj, by rw [List.getElem_set_ne hij]⟩)

theorem Animation.add_spec {a : Animation K α} (h : a.Inv) (i : ℕ) (f : Frame K α K) (hi : i < a.tracks.length) (hf : 0 ≤ f.time) :
    ∃ d k, a.add i f = some ({ a with known := max a.known d.fin, tracks := a.tracks.set i d }, k) ∧ Animation.Inv { a with known := max a.known d.fin, tracks := a.tracks.set i d } ∧
      d.interval = (a.tracks[i]).interval ∧ d.frames[k]? = some f ∧ d.frames.Perm (f :: (a.tracks[i]).frames) := by
  obtain ⟨d, k, h1, h2, h3, h4, h5⟩ := DTrack.add_spec (h.tracks _ (List.getElem_mem hi)) f hf
  refine ⟨d, k, by simp [Animation.add, hi, h1], ⟨?_, set_inv h.tracks h2, ?_⟩, h3, h4, h5⟩
  · intro he
    have := congrArg List.length he
    simp at this
    exact h.ne this
  · obtain ⟨c1, c2, c3⟩ := h.calced
    have hd : d ∈ a.tracks.set i d := List.mem_iff_getElem.2 ⟨i, by simpa using hi, by simp⟩
    refine ⟨c1.trans (le_max_left _ _), ?_, ?_⟩
    · intro t ht x hx
      rcases List.mem_or_eq_of_mem_set ht with ht | rfl
      · exact (c2 t ht x hx).trans (le_max_left _ _)
      · exact (h2.fin.2.1 x hx).trans (le_max_right _ _)
    · simp only
      rcases max_choice a.known d.fin with hm | hm
      · rw [hm]
        rcases c3 with c3 | ⟨t, ht, x, hx, c3⟩
        · exact Or.inl c3
        · rcases mem_set_of (d := d) (List.getElem?_eq_getElem hi) ht with rfl | ht
          · exact Or.inr ⟨d, hd, x, h5.mem_iff.2 (List.mem_cons_of_mem _ hx), by rw [h3]; exact c3⟩
          · exact Or.inr ⟨t, ht, x, hx, c3⟩
      · rw [hm]
        rcases h2.fin.2.2 with h0 | ⟨x, hx, h0⟩
        · exact Or.inl h0
        · exact Or.inr ⟨d, hd, x, hx, h0⟩

theorem Animation.remove_spec {a : Animation K α} (h : a.Inv) (i k : ℕ) (hi : i < a.tracks.length) :
    ∃ b, a.remove i k = some (b, decide (k < (a.tracks[i]).frames.length)) ∧ b.Inv ∧ b.length = a.length ∧ b.loop = a.loop ∧
      ∃ d, b.tracks = a.tracks.set i d ∧ d.interval = (a.tracks[i]).interval ∧ d.frames = (a.tracks[i]).frames.eraseIdx k := by
  obtain ⟨d, h1, h2, h3, h4⟩ := DTrack.remove_spec (h.tracks _ (List.getElem_mem hi)) k
  by_cases hk : k < (a.tracks[i]).frames.length
  · have hne : a.tracks.set i d ≠ [] := by
      intro he
      have := congrArg List.length he
      simp at this
      exact h.ne this
    obtain ⟨l, hl, hl'⟩ := calcLength_spec hne (set_inv h.tracks h2)
    exact ⟨{ a with known := l, tracks := a.tracks.set i d }, by simp [Animation.remove, hi, h1, hk, hl], ⟨hne, set_inv h.tracks h2, hl'⟩, rfl, rfl, d, rfl, h3, h4⟩
  · refine ⟨a, by simp [Animation.remove, hi, h1, hk], h, rfl, rfl, a.tracks[i], by simp, rfl, ?_⟩
    rw [List.eraseIdx_of_length_le (not_lt.1 hk)]

theorem new_inv (length loop : K) {kinds : List Bool} (h : kinds ≠ []) : (Animation.new length loop kinds : Animation K α).Inv := by
  refine ⟨by simpa [Animation.new] using h, ?_, le_refl _, ?_, Or.inl rfl⟩
  · intro t ht
    obtain ⟨b, -, rfl⟩ := List.mem_map.1 ht
    refine ⟨List.Pairwise.nil, by simp, ?_⟩
    cases b <;> exact ⟨le_refl _, by simp, Or.inl rfl⟩
  · intro t ht f hf
    obtain ⟨b, -, rfl⟩ := List.mem_map.1 ht
    simp at hf

theorem Animation.run_spec : ∀ (os : List (DOp K α)) (a : Animation K α), a.Inv → (∀ o ∈ os, o.Ok a.tracks.length) → ∃ b, a.run os = some b ∧ b.Inv ∧
    b.tracks.length = a.tracks.length ∧ b.length = Spec.lastLength a.length os ∧ b.loop = Spec.lastLoop a.loop os := by
  intro os
  induction os with
  | nil => intro a h _; exact ⟨a, rfl, h, rfl, rfl, rfl⟩
  | cons o os ih =>
    intro a h ho
    have key : ∃ b, a.step o = some b ∧ b.Inv ∧ b.tracks.length = a.tracks.length ∧ b.length = Spec.lastLength a.length [o] ∧ b.loop = Spec.lastLoop a.loop [o] := by
      have h0 := ho o (by simp)
      cases o with
      | add i f =>
        obtain ⟨d, k, h1, h2, -⟩ := Animation.add_spec h i f h0.1 h0.2
        exact ⟨_, by rw [Animation.step, h1]; rfl, h2, by simp, rfl, rfl⟩
      | remove i k =>
        obtain ⟨b, h1, h2, h3, h4, d, h5, -⟩ := Animation.remove_spec h i k h0
        exact ⟨b, by rw [Animation.step, h1]; rfl, h2, by simp [h5], h3, h4⟩
      | setLength l =>
        obtain ⟨c, hc, hc'⟩ := calcLength_spec h.ne h.tracks
        exact ⟨{ a with length := l, known := c }, by rw [Animation.step, Animation.setLength, hc]; rfl, ⟨h.ne, h.tracks, hc'⟩, rfl, rfl, rfl⟩
      | setLoop l => exact ⟨_, rfl, ⟨h.ne, h.tracks, h.calced⟩, rfl, rfl, rfl⟩
    obtain ⟨b, h1, h2, h3, h4, h5⟩ := key
    obtain ⟨c, k1, k2, k3, k4, k5⟩ := ih b h2 (fun o' ho' => h3.symm ▸ ho o' (by simp [ho']))
    refine ⟨c, by rw [Animation.run, h1]; exact k1, k2, k3.trans h3, ?_, ?_⟩
    · rw [k4, h4]; rfl
    · rw [k5, h5]; rfl

/-! ## Theorems -/

/-- After any history of additions, removals and settings the frames of every track are in order of time, and the length is the one last set or, if that is negative, the largest end
of all frames (0 without frames). -/
theorem C120_history (length loop : K) {kinds : List Bool} (hk : kinds ≠ []) (os : List (DOp K α)) (ho : ∀ o ∈ os, o.Ok kinds.length) :
    ∃ a, (Animation.new length loop kinds).run os = some a ∧ (∀ t ∈ a.tracks, t.frames.Pairwise fun x y => x.time ≤ y.time) ∧
      (Spec.lastLength length os < 0 → Spec.IsLength a.tracks a.getLength) ∧ (0 ≤ Spec.lastLength length os → a.getLength = Spec.lastLength length os) ∧
      a.loop = Spec.lastLoop loop os := by
  obtain ⟨a, h1, h2, h3, h4, h5⟩ := Animation.run_spec os (Animation.new length loop kinds) (new_inv length loop hk) (by simpa [Animation.new] using ho)
  have hl : (Animation.new length loop kinds : Animation K α).length = length := rfl
  rw [hl] at h4
  refine ⟨a, h1, ?_, ?_, ?_, h5⟩
  · intro t ht
    exact (h2.tracks t ht).sorted.imp fun h => frameCmp_le.1 h
  · intro hlt
    rw [Animation.getLength, h4, if_pos hlt]
    exact h2.calced
  · intro hge
    rw [Animation.getLength, h4, if_neg (not_lt.2 hge)]

/-- What one `Add` and one `Remove` do to the frames after any history: the new frame is at the returned index and the others are kept; the frame of the index is removed, and nothing if there is none. -/
theorem C120_add_remove (length loop : K) {kinds : List Bool} (hk : kinds ≠ []) (os : List (DOp K α)) (ho : ∀ o ∈ os, o.Ok kinds.length) (i : ℕ) (hi : i < kinds.length) :
    ∃ a t, (Animation.new length loop kinds).run os = some a ∧ a.tracks[i]? = some t ∧
      (∀ f : Frame K α K, 0 ≤ f.time → ∃ b k t', a.add i f = some (b, k) ∧ b.tracks = a.tracks.set i t' ∧ t'.frames[k]? = some f ∧ t'.frames.Perm (f :: t.frames)) ∧
      (∀ k, ∃ b t', a.remove i k = some (b, decide (k < t.frames.length)) ∧ b.tracks = a.tracks.set i t' ∧ t'.frames = t.frames.eraseIdx k) := by
  obtain ⟨a, h1, h2, h3, -⟩ := Animation.run_spec os (Animation.new length loop kinds) (new_inv length loop hk) (by simpa [Animation.new] using ho)
  have hi' : i < a.tracks.length := by rw [h3]; simpa [Animation.new] using hi
  refine ⟨a, a.tracks[i], h1, List.getElem?_eq_getElem hi', ?_, ?_⟩
  · intro f hf
    obtain ⟨d, k, k1, -, -, k2, k3⟩ := Animation.add_spec h2 i f hi' hf
    exact ⟨_, k, d, k1, rfl, k2, k3⟩
  · intro k
    obtain ⟨b, k1, -, -, -, d, k2, -, k3⟩ := Animation.remove_spec h2 i k hi'
    exact ⟨b, d, k1, k2, k3⟩

/-- The history of the example. -/
def exHistory : List (DOp ℚ ℕ) := [.add 0 ⟨3, 1, 0⟩, .add 1 ⟨2, 5, 4⟩, .add 0 ⟨1, 2, 0⟩, .add 1 ⟨5, 6, 0⟩, .remove 1 0, .remove 1 7, .setLength (-1)]

example : (∀ o ∈ exHistory, o.Ok 2) ∧ Spec.lastLength (-1 : ℚ) exHistory < 0 ∧
    ((Animation.new (-1) (-1) [false, true]).run exHistory).map (fun a => (a.getLength, a.tracks.map fun t => t.frames.map (·.value))) = some (5, [[2, 1], [6]]) := by
  refine ⟨?_, by decide +kernel, by decide +kernel⟩
  simp [exHistory, DOp.Ok]

/-- An interval track constructed from an array of frames has no end of its own: it is whatever was in memory. -/
theorem C120_interval_constructor_counterexample (src : List (Frame K α K)) (e : K) (he : ¬ Spec.IsEnd true src e) :
    ∃ garbage, ¬ Spec.IsEnd true src (DTrack.ofFrames true src garbage).fin := ⟨e, by simpa [DTrack.ofFrames, DTrack.fin] using he⟩

example : ¬ Spec.IsEnd true [(⟨1, 7, 2⟩ : Frame ℚ ℕ ℚ)] 0 := by
  rintro ⟨-, h, -⟩
  have := h ⟨1, 7, 2⟩ (by simp)
  simp [Spec.frameEnd] at this
  exact absurd this (by decide +kernel)

end Verif.Ani
