import Verif.Log.Entry

/-! # Loggers behave as described -/

namespace Verif.Log

/-- Delivery to targets that have buffers of their own. -/
theorem deliver_own (f : Sys → Nat → Option Sys) (t : Txt) (hf : ∀ io s, io.buf s = .own → f io s = some { io with sink := fun x => if x = s then io.sink x ++ t else io.sink x }) (targets : List Nat) :
    ∀ (io : Sys), (∀ s ∈ targets, io.buf s = .own) → targets.Nodup →
    targets.foldlM f io = some { io with sink := fun x => if x ∈ targets then io.sink x ++ t else io.sink x } := by
  induction targets with
  | nil => intro io _ _; simp
  | cons s ss ih =>
    intro io h hn
    obtain ⟨hs, hn⟩ := List.nodup_cons.mp hn
    rw [List.foldlM_cons, hf io s (h s (by simp))]
    simp only [Option.bind_some, Option.bind_eq_bind]
    rw [ih { io with sink := fun x => if x = s then io.sink x ++ t else io.sink x } (fun x hx => h x (by simp [hx])) hn]
    congr 1
    simp only [Sys.mk.injEq, and_true]
    funext x
    by_cases e1 : x = s
    · subst e1; simp [hs]
    · simp [e1]

theorem sync_own (fuel k : Nat) (io : Sys) (sp : Split) (hk : io.split k = some sp) (h : ∀ s ∈ sp.targets, io.buf s = .own) (hn : sp.targets.Nodup) :
    sync (fuel + 1) k io = some { io.put k (some ⟨[], sp.targets⟩) with sink := fun x => if x ∈ sp.targets then io.sink x ++ sp.pending else io.sink x } := by
  rw [sync, hk, Option.bind_some, deliver_own _ sp.pending _ _ _ h hn, Option.bind_some]
  · simp only [hk, Option.map_some]
    rfl
  · intro io s hs
    simp [Sys.write, Sys.writeTo, hs]

theorem put_split (io : Sys) (k : Nat) (sp : Option Split) (j : Nat) : (io.put k sp).split j = if j = k then sp else io.split j := rfl

/-- What is said about one logger `i` with splitter `k`. -/
structure Live (io : Sys) (s : Spec) (i : Nat) (c : Conf) (l : Logger) (k : Nat) (sp : Split) : Prop where
  split : l.split = some k
  buf : l.buf = some k
  get : io.split k = some sp
  conf : l.is c
  targets : ∀ x, x ∈ sp.targets ↔ s.target x = some i
  nodup : sp.targets.Nodup
  backup : ∀ x b, (x, b) ∈ l.backup ↔ s.redir x = some i ∧ b = .own
  redir : ∀ x, s.redir x = some i → io.buf x = .split k
  text : ∀ x, s.target x = some i → s.text x = io.sink x ++ sp.pending
  lt : k < io.next

/-- A world and its description. -/
structure Good (w : World) (s : Spec) : Prop where
  count : w.count = s.count
  live : ∀ i c, s.conf i = some c → ∃ l k sp, w.log i = some l ∧ Live w.io s i c l k sp
  moved : ∀ i, s.moved i = true → s.conf i = none ∧ ∃ l, w.log i = some l ∧ l.split = none ∧ l.backup = []
  gone : ∀ i, s.conf i = none → s.moved i = false → w.log i = none
  lt : ∀ i, (s.conf i ≠ none ∨ s.moved i = true) → i < s.count
  own : ∀ x, s.redir x = none → w.io.buf x = .own
  plain : ∀ x, s.target x = none → s.text x = w.io.sink x
  target : ∀ x i, s.target x = some i → s.conf i ≠ none ∧ s.redir x = none
  redir : ∀ x i, s.redir x = some i → s.conf i ≠ none
  inj : ∀ i j l m k, w.log i = some l → w.log j = some m → l.split = some k → m.split = some k → i = j
  used : ∀ k, w.io.split k ≠ none → ∃ i l, w.log i = some l ∧ l.split = some k
  fresh : ∀ k, w.io.next ≤ k → w.io.split k = none

theorem Good.owns {w : World} {s : Spec} (hg : Good w s) {i k : Nat} {c : Conf} {l : Logger} {sp : Split} (hl : Live w.io s i c l k sp) : ∀ x ∈ sp.targets, w.io.buf x = .own :=
  fun x hx => hg.own x (hg.target x i ((hl.targets x).mp hx)).2

/-- Settings change. -/
theorem Good.conf {w : World} {s : Spec} (hg : Good w s) {i : Nat} {c c' : Conf} {l l' : Logger} (hc : s.conf i = some c) (hl : w.log i = some l) (h1 : l'.split = l.split) (h2 : l'.buf = l.buf)
    (h3 : l'.backup = l.backup) (h4 : l'.is c') : Good (w.upd i (some l')) (s.set i (some c')) := by
  obtain ⟨_, k0, sp0, hl0, hL0⟩ := hg.live i c hc
  rw [hl] at hl0; cases hl0
  refine ⟨hg.count, ?_, ?_, ?_, ?_, hg.own, hg.plain, ?_, ?_, ?_, ?_, hg.fresh⟩
  · intro j d hd
    simp only [Spec.set] at hd
    by_cases e : j = i
    · subst e
      rw [if_pos rfl] at hd; cases hd
      exact ⟨l', k0, sp0, by simp [World.upd], ⟨by rw [h1]; exact hL0.split, by rw [h2]; exact hL0.buf, hL0.get, h4, hL0.targets, hL0.nodup, by rw [h3]; exact hL0.backup, hL0.redir, hL0.text, hL0.lt⟩⟩
    · rw [if_neg e] at hd
      obtain ⟨m, k, sp, hm, hM⟩ := hg.live j d hd
      exact ⟨m, k, sp, by simp [World.upd, e, hm], ⟨hM.split, hM.buf, hM.get, hM.conf, hM.targets, hM.nodup, hM.backup, hM.redir, hM.text, hM.lt⟩⟩
  · intro j hj
    have hj := hg.moved j hj
    have e : j ≠ i := by intro e; rw [e] at hj; rw [hj.1] at hc; cases hc
    exact ⟨by simp only [Spec.set, if_neg e]; exact hj.1, by simpa [World.upd, e] using hj.2⟩
  · intro j h5 h6
    simp only [Spec.set] at h5
    by_cases e : j = i
    · rw [if_pos e] at h5; cases h5
    · rw [if_neg e] at h5
      simp only [World.upd, if_neg e]
      exact hg.gone j h5 h6
  · intro j hj
    by_cases e : j = i
    · subst e; exact hg.lt j (.inl (by rw [hc]; simp))
    · simp only [Spec.set, if_neg e] at hj
      exact hg.lt j hj
  · intro x j hj
    refine ⟨?_, (hg.target x j hj).2⟩
    by_cases e : j = i
    · simp [Spec.set, e]
    · simp only [Spec.set, if_neg e]; exact (hg.target x j hj).1
  · intro x j hj
    by_cases e : j = i
    · simp [Spec.set, e]
    · simp only [Spec.set, if_neg e]; exact hg.redir x j hj
  · intro a b la lb k ha hb hka hkb
    simp only [World.upd] at ha hb
    by_cases ea : a = i <;> by_cases eb : b = i
    · rw [ea, eb]
    · rw [if_pos ea] at ha; rw [if_neg eb] at hb; cases ha
      rw [ea]
      exact hg.inj i b l lb k hl hb (by rw [← h1]; exact hka) hkb
    · rw [if_neg ea] at ha; rw [if_pos eb] at hb; cases hb
      rw [eb]
      exact hg.inj a i la l k ha hl hka (by rw [← h1]; exact hkb)
    · rw [if_neg ea] at ha; rw [if_neg eb] at hb
      exact hg.inj a b la lb k ha hb hka hkb
  · intro k hk
    obtain ⟨j, m, hm, hkm⟩ := hg.used k hk
    by_cases e : j = i
    · subst e
      rw [hl] at hm; cases hm
      exact ⟨j, l', by simp [World.upd], by rw [h1]; exact hkm⟩
    · exact ⟨j, m, by simp [World.upd, e, hm], hkm⟩

/-- The splitter of a logger changes, together with the streams' own buffers. -/
theorem Good.split {w : World} {s : Spec} (hg : Good w s) {i k : Nat} {c : Conf} {l : Logger} {sp sp' : Split} {target' : Nat → Option Nat} {text' : Nat → Txt} {sink' : Nat → Txt} (hc : s.conf i = some c)
    (hl : w.log i = some l) (hL : Live w.io s i c l k sp) (ht : ∀ x, x ∈ sp'.targets ↔ target' x = some i) (hn : sp'.targets.Nodup)
    (hother : ∀ x j, j ≠ i → (target' x = some j ↔ s.target x = some j)) (hred : ∀ x, target' x = some i → s.redir x = none)
    (htext : ∀ x, target' x = some i → text' x = sink' x ++ sp'.pending) (hkeep : ∀ x j, j ≠ i → s.target x = some j → text' x = s.text x ∧ sink' x = w.io.sink x)
    (hplain : ∀ x, target' x = none → text' x = sink' x) :
    Good { w with io := { w.io.put k (some sp') with sink := sink' } } { s with target := target', text := text' } := by
  have hne : ∀ j d m kj spj, j ≠ i → w.log j = some m → Live w.io s j d m kj spj → kj ≠ k := by
    intro j d m kj spj hj hm hM e
    subst e
    exact hj (hg.inj j i m l kj hm hl hM.split hL.split)
  refine ⟨hg.count, ?_, hg.moved, hg.gone, hg.lt, hg.own, hplain, ?_, hg.redir, hg.inj, ?_, ?_⟩
  · intro j d hd
    by_cases e : j = i
    · subst e
      have hd : s.conf j = some d := hd
      rw [hc] at hd; cases hd
      exact ⟨l, k, sp', hl, ⟨hL.split, hL.buf, by simp [Sys.put], hL.conf, ht, hn, hL.backup, hL.redir, htext, hL.lt⟩⟩
    · obtain ⟨m, kj, spj, hm, hM⟩ := hg.live j d hd
      have hk := hne j d m kj spj e hm hM
      refine ⟨m, kj, spj, hm, ⟨hM.split, hM.buf, by simp [Sys.put, hk, hM.get], hM.conf, ?_, hM.nodup, hM.backup, hM.redir, ?_, hM.lt⟩⟩
      · intro x; rw [hM.targets x]; exact (hother x j e).symm
      · intro x hx
        have hx' := (hother x j e).mp hx
        obtain ⟨h1, h2⟩ := hkeep x j e hx'
        show text' x = sink' x ++ _
        rw [h1, h2]
        exact hM.text x hx'
  · intro x j hj
    by_cases e : j = i
    · subst e; exact ⟨by rw [hc]; simp, hred x hj⟩
    · exact hg.target x j ((hother x j e).mp hj)
  · intro j hj
    have hj : (w.io.put k (some sp')).split j ≠ none := hj
    rw [put_split] at hj
    by_cases e : j = k
    · exact ⟨i, l, hl, by rw [e]; exact hL.split⟩
    · rw [if_neg e] at hj; exact hg.used j hj
  · intro j hj
    have : j ≠ k := by have := hL.lt; have hj : w.io.next ≤ j := hj; omega
    show (w.io.put k (some sp')).split j = none
    rw [put_split, if_neg this]
    exact hg.fresh j hj

theorem sync_ok (fuel : Nat) {w : World} {s : Spec} (hg : Good w s) {i k : Nat} {c : Conf} {l : Logger} {sp : Split} (hc : s.conf i = some c) (hl : w.log i = some l) (hL : Live w.io s i c l k sp) :
    ∃ io', sync (fuel + 1) k w.io = some io' ∧ Good { w with io := io' } s ∧ Live io' s i c l k ⟨[], sp.targets⟩ ∧ ∀ x, s.target x = some i → io'.sink x = s.text x := by
  refine ⟨_, sync_own fuel k w.io sp hL.get (hg.owns hL) hL.nodup, ?_, ?_, ?_⟩
  · refine Good.split (target' := s.target) (text' := s.text) hg hc hl hL hL.targets hL.nodup (fun _ _ _ => Iff.rfl) (fun x hx => (hg.target x i hx).2) ?_ ?_ ?_
    · intro x hx
      rw [if_pos ((hL.targets x).mpr hx), List.append_nil]
      exact hL.text x hx
    · intro x j hj hx
      have : x ∉ sp.targets := fun h => by rw [(hL.targets x).mp h] at hx; cases hx; exact hj rfl
      exact ⟨rfl, if_neg this⟩
    · intro x hx
      have : x ∉ sp.targets := fun h => by rw [(hL.targets x).mp h] at hx; cases hx
      rw [if_neg this]
      exact hg.plain x hx
  · refine ⟨hL.split, hL.buf, by simp [Sys.put], hL.conf, hL.targets, hL.nodup, hL.backup, hL.redir, ?_, hL.lt⟩
    intro x hx
    simp only [List.append_nil]
    rw [if_pos ((hL.targets x).mpr hx)]
    exact hL.text x hx
  · intro x hx
    simp only
    rw [if_pos ((hL.targets x).mpr hx)]
    exact (hL.text x hx).symm

theorem put_ok {w : World} {s : Spec} (hg : Good w s) {i : Nat} {c : Conf} {l : Logger} (t : Txt) (hc : s.conf i = some c) (hl : w.log i = some l) {k : Nat} {sp : Split} (hL : Live w.io s i c l k sp) :
    ∃ io', w.io.writeTo 0 t (.split k) = some io' ∧ Good { w with io := io' } (s.put i t) := by
  refine ⟨_, by simp only [Sys.writeTo, hL.get, Option.map_some]; rfl, ?_⟩
  have := Good.split (target' := s.target) (text' := fun x => if s.target x = some i then s.text x ++ t else s.text x) (sink' := w.io.sink) (sp' := ⟨sp.pending ++ t, sp.targets⟩) hg hc hl hL hL.targets hL.nodup
    (fun _ _ _ => Iff.rfl) (fun x hx => (hg.target x i hx).2)
    (fun x hx => by rw [if_pos hx, hL.text x hx, List.append_assoc]) (fun x j hj hx => ⟨if_neg (by rw [hx]; intro h; cases h; exact hj rfl), rfl⟩)
    (fun x hx => by rw [if_neg (by rw [hx]; simp)]; exact hg.plain x hx)
  exact this

theorem add_ok (fuel : Nat) {w : World} {s : Spec} (hg : Good w s) {i x : Nat} {c : Conf} (hc : s.conf i = some c) (hx : s.target x = none) (hr : s.redir x = none) {l : Logger} (hl : w.log i = some l) :
    ∃ w', addTarget (fuel + 1) w l x = some w' ∧ Good w' { s with target := fun y => if y = x then some i else s.target y } := by
  obtain ⟨_, k, sp, hl', hL⟩ := hg.live i c hc
  rw [hl] at hl'; cases hl'
  obtain ⟨io', e, hg1, hL1, -⟩ := sync_ok fuel hg hc hl hL
  refine ⟨_, by simp only [addTarget, hL.split, splitAdd, e, Option.bind_some, hL1.get, Option.map_some]; rfl, ?_⟩
  have hnx : x ∉ sp.targets := fun h => by rw [(hL.targets x).mp h] at hx; cases hx
  refine Good.split (target' := fun y => if y = x then some i else s.target y) (text' := s.text) (sink' := io'.sink) (sp' := ⟨[], sp.targets ++ [x]⟩) hg1 hc hl hL1 ?_ ?_ ?_ ?_ ?_ (fun _ _ _ _ => ⟨rfl, rfl⟩) ?_
  · intro y
    by_cases e : y = x
    · simp [e]
    · simp [e, hL.targets y]
  · rw [List.nodup_append]
    refine ⟨hL.nodup, by simp, ?_⟩
    intro a ha b hb
    simp only [List.mem_singleton] at hb
    subst hb
    rintro rfl; exact hnx ha
  · intro y j hj
    by_cases e : y = x
    · subst e; rw [if_pos rfl, hx]; simp [Ne.symm hj]
    · rw [if_neg e]
  · intro y hy
    by_cases e : y = x
    · rw [e]; exact hr
    · rw [if_neg e] at hy; exact (hg.target y i hy).2
  · intro y hy
    by_cases e : y = x
    · subst e
      simp only [List.append_nil]
      exact hg1.plain y hx
    · rw [if_neg e] at hy; exact hL1.text y hy
  · intro y hy
    by_cases e : y = x
    · rw [if_pos e] at hy; cases hy
    · rw [if_neg e] at hy; exact hg1.plain y hy

theorem clear_ok (fuel : Nat) {w : World} {s : Spec} (hg : Good w s) {i : Nat} {c : Conf} (hc : s.conf i = some c) {l : Logger} (hl : w.log i = some l) :
    ∃ io', clearTargets (fuel + 1) w l = some { w with io := io' } ∧ Good { w with io := io' } { s with target := fun y => if s.target y = some i then none else s.target y } := by
  obtain ⟨_, k, sp, hl', hL⟩ := hg.live i c hc
  rw [hl] at hl'; cases hl'
  obtain ⟨io', e, hg1, hL1, htx⟩ := sync_ok fuel hg hc hl hL
  refine ⟨_, by simp only [clearTargets, hL.split, splitClear, e, Option.bind_some, hL1.get, Option.map_some]; rfl, ?_⟩
  refine Good.split (target' := fun y => if s.target y = some i then none else s.target y) (text' := s.text) (sink' := io'.sink) (sp' := ⟨[], []⟩) hg1 hc hl hL1 ?_ (by simp) ?_ ?_ ?_ (fun _ _ _ _ => ⟨rfl, rfl⟩) ?_
  · intro y
    by_cases e : s.target y = some i <;> simp [e]
  · intro y j hj
    by_cases e : s.target y = some i
    · rw [if_pos e, e]; simp [Ne.symm hj]
    · rw [if_neg e]
  · intro y hy
    by_cases e : s.target y = some i
    · rw [if_pos e] at hy; cases hy
    · rw [if_neg e] at hy; exact absurd hy e
  · intro y hy
    by_cases e : s.target y = some i
    · rw [if_pos e] at hy; cases hy
    · rw [if_neg e] at hy; exact absurd hy e
  · intro y hy
    by_cases e : s.target y = some i
    · exact (htx y e).symm
    · rw [if_neg e] at hy; exact hg1.plain y hy

theorem restore_io (l : List (Nat × Buf)) : ∀ (io : Sys), (∀ p ∈ l, p.2 = .own) →
    l.foldl (fun io (b : Nat × Buf) => { io with buf := fun x => if x = b.1 then b.2 else io.buf x }) io = { io with buf := fun x => if x ∈ l.map (·.1) then .own else io.buf x } := by
  induction l with
  | nil => intro io _; simp
  | cons p l ih =>
    intro io h
    rw [List.foldl_cons, ih _ fun q hq => h q (by simp [hq])]
    simp only [Sys.mk.injEq, and_true, true_and]
    funext x
    have hp := h p (by simp)
    by_cases e : x = p.1
    · simp [e, hp]
    · simp only [List.map_cons, List.mem_cons, e, false_or, if_false]

theorem destroy_ok (fuel : Nat) {w : World} {s : Spec} (hg : Good w s) {i : Nat} {c : Conf} (hc : s.conf i = some c) {l : Logger} (hl : w.log i = some l) :
    ∃ w', destroy (fuel + 1) w i l = some w' ∧
      Good w' { s.set i none with target := fun y => if s.target y = some i then none else s.target y, redir := fun y => if s.redir y = some i then none else s.redir y } := by
  obtain ⟨io', e, hg1⟩ := clear_ok fuel hg hc hl
  obtain ⟨_, k, sp, hl', hL⟩ := hg1.live i c hc
  have hl' : w.log i = some _ := hl'
  rw [hl] at hl'; cases hl'
  have hback : ∀ p ∈ l.backup, p.2 = .own := fun p hp => ((hL.backup p.1 p.2).mp hp).2
  have hmem : ∀ x, x ∈ l.backup.map (·.1) ↔ s.redir x = some i := by
    intro x
    constructor
    · intro h
      obtain ⟨p, hp, rfl⟩ := List.mem_map.mp h
      exact ((hL.backup p.1 p.2).mp hp).1
    · intro h
      exact List.mem_map.mpr ⟨(x, .own), (hL.backup x .own).mpr ⟨h, rfl⟩, rfl⟩
  have hmoved : s.moved i = false := by
    cases hm : s.moved i with
    | false => rfl
    | true => rw [(hg.moved i hm).1] at hc; cases hc
  refine ⟨_, by simp only [destroy, e, Option.map_some, hL.split]; rfl, ?_⟩
  rw [restore_io _ _ hback]
  have hbuf : ∀ x, (if x ∈ l.backup.map (·.1) then Buf.own else io'.buf x) = if s.redir x = some i then Buf.own else io'.buf x := by
    intro x
    by_cases e : s.redir x = some i
    · rw [if_pos e, if_pos ((hmem x).mpr e)]
    · rw [if_neg e, if_neg fun h => e ((hmem x).mp h)]
  have hne : ∀ j m, j ≠ i → w.log j = some m → m.split ≠ some k := fun j m hj hm h => hj (hg.inj j i m l k hm hl h hL.split)
  refine ⟨hg.count, ?_, ?_, ?_, ?_, ?_, ?_, ?_, ?_, ?_, ?_, ?_⟩
  · intro j d hd
    simp only [Spec.set] at hd
    by_cases e : j = i
    · rw [if_pos e] at hd; cases hd
    · rw [if_neg e] at hd
      obtain ⟨m, kj, spj, hm, hM⟩ := hg1.live j d hd
      have hm : w.log j = some m := hm
      have hk : kj ≠ k := fun h => hne j m e hm (by rw [← h]; exact hM.split)
      refine ⟨m, kj, spj, by simp [World.upd, e, hm], ⟨hM.split, hM.buf, by simp only [put_split, if_neg hk]; exact hM.get, hM.conf, hM.targets, hM.nodup, ?_, ?_, hM.text, hM.lt⟩⟩
      · intro x b
        rw [hM.backup x b]
        simp only
        by_cases e2 : s.redir x = some i
        · rw [if_pos e2, e2]; simp [Ne.symm e]
        · rw [if_neg e2]
      · intro x hx
        simp only at hx
        by_cases e2 : s.redir x = some i
        · rw [if_pos e2] at hx; cases hx
        · rw [if_neg e2] at hx
          show (if x ∈ l.backup.map (·.1) then Buf.own else io'.buf x) = _
          rw [hbuf, if_neg e2]
          exact hM.redir x hx
  · intro j hj
    have hj := hg.moved j hj
    have e : j ≠ i := by intro e; rw [e] at hj; rw [hj.1] at hc; cases hc
    exact ⟨by simp only [Spec.set, if_neg e]; exact hj.1, by simpa [World.upd, e] using hj.2⟩
  · intro j h5 h6
    simp only [Spec.set] at h5
    by_cases e : j = i
    · simp [World.upd, e]
    · rw [if_neg e] at h5
      simp only [World.upd, if_neg e]
      exact hg.gone j h5 h6
  · intro j hj
    by_cases e : j = i
    · subst e; exact hg.lt j (.inl (by rw [hc]; simp))
    · simp only [Spec.set, if_neg e] at hj
      exact hg.lt j hj
  · intro x hx
    simp only at hx
    show (if x ∈ l.backup.map (·.1) then Buf.own else io'.buf x) = _
    rw [hbuf]
    by_cases e2 : s.redir x = some i
    · rw [if_pos e2]
    · rw [if_neg e2] at hx ⊢
      exact hg1.own x hx
  · exact hg1.plain
  · intro x j hj
    obtain ⟨h1, h2⟩ := hg1.target x j hj
    have e : j ≠ i := by
      rintro rfl
      simp only at hj
      by_cases e2 : s.target x = some j
      · rw [if_pos e2] at hj; cases hj
      · rw [if_neg e2] at hj; exact e2 hj
    refine ⟨by simp only [Spec.set, if_neg e]; exact h1, ?_⟩
    simp only
    rw [if_neg (by rw [show s.redir x = none from h2]; simp)]
    exact h2
  · intro x j hj
    simp only at hj
    by_cases e2 : s.redir x = some i
    · rw [if_pos e2] at hj; cases hj
    · rw [if_neg e2] at hj
      have e : j ≠ i := by rintro rfl; exact e2 hj
      simp only [Spec.set, if_neg e]
      exact hg.redir x j hj
  · intro a b la lb ka ha hb
    simp only [World.upd] at ha hb
    by_cases ea : a = i
    · rw [if_pos ea] at ha; cases ha
    · by_cases eb : b = i
      · rw [if_pos eb] at hb; cases hb
      · rw [if_neg ea] at ha; rw [if_neg eb] at hb
        exact hg.inj a b la lb ka ha hb
  · intro j hj
    simp only [put_split] at hj
    by_cases e : j = k
    · rw [if_pos e] at hj; exact absurd rfl hj
    · rw [if_neg e] at hj
      obtain ⟨a, m, hm, hk⟩ := hg1.used j hj
      have hm : w.log a = some m := hm
      have ea : a ≠ i := by rintro rfl; rw [hl] at hm; cases hm; rw [hL.split] at hk; cases hk; exact e rfl
      exact ⟨a, m, by simp [World.upd, ea, hm], hk⟩
  · intro j hj
    simp only [put_split]
    by_cases e : j = k
    · rw [if_pos e]
    · rw [if_neg e]; exact hg1.fresh j hj

theorem destroyMoved_ok (fuel : Nat) {w : World} {s : Spec} (hg : Good w s) {i : Nat} (hi : s.moved i = true) {l : Logger} (hl : w.log i = some l) :
    ∃ w', destroy (fuel + 1) w i l = some w' ∧ Good w' { s with moved := fun j => if j = i then false else s.moved j } := by
  obtain ⟨hc, _, hl', hs, hb⟩ := hg.moved i hi
  rw [hl] at hl'; cases hl'
  refine ⟨{ w.upd i none with io := w.io }, by simp [destroy, clearTargets, hs, hb], ?_⟩
  refine ⟨hg.count, ?_, ?_, ?_, ?_, hg.own, hg.plain, hg.target, hg.redir, ?_, ?_, hg.fresh⟩
  · intro j d hd
    have e : j ≠ i := by rintro rfl; have hd : s.conf j = some d := hd; rw [hc] at hd; cases hd
    obtain ⟨m, k, sp, hm, hM⟩ := hg.live j d hd
    exact ⟨m, k, sp, by simp [World.upd, e, hm], ⟨hM.split, hM.buf, hM.get, hM.conf, hM.targets, hM.nodup, hM.backup, hM.redir, hM.text, hM.lt⟩⟩
  · intro j hj
    simp only at hj
    by_cases e : j = i
    · rw [if_pos e] at hj; cases hj
    · rw [if_neg e] at hj
      have hj := hg.moved j hj
      exact ⟨hj.1, by simpa [World.upd, e] using hj.2⟩
  · intro j h5 h6
    simp only at h6
    by_cases e : j = i
    · simp [World.upd, e]
    · rw [if_neg e] at h6
      simp only [World.upd, if_neg e]
      exact hg.gone j h5 h6
  · intro j hj
    simp only at hj
    by_cases e : j = i
    · subst e; exact hg.lt j (.inr hi)
    · rw [if_neg e] at hj; exact hg.lt j hj
  · intro a b la lb ka ha hb
    simp only [World.upd] at ha hb
    by_cases ea : a = i
    · rw [if_pos ea] at ha; cases ha
    · by_cases eb : b = i
      · rw [if_pos eb] at hb; cases hb
      · rw [if_neg ea] at ha; rw [if_neg eb] at hb
        exact hg.inj a b la lb ka ha hb
  · intro k hk
    obtain ⟨a, m, hm, hk⟩ := hg.used k hk
    have ea : a ≠ i := by rintro rfl; rw [hl] at hm; cases hm; rw [hs] at hk; cases hk
    exact ⟨a, m, by simp [World.upd, ea, hm], hk⟩

theorem setLevel_ok {c : Conf} {n : Nat} {t : Txt} (h255 : n < 255) (hn : n = c.levels.length ∨ n + 1 = c.levels.length) :
    setLevel (c.levels.map some) n t = some ((c.levels.take n ++ [t]).map some) := by
  unfold setLevel setCapacity
  have h1 : n ≤ (c.levels.map some).length := by simp; omega
  rw [if_pos h1, Nat.mod_eq_of_lt (by omega)]
  simp only [List.length_map]
  have hlen : (List.take (n + 1) (c.levels.map some) ++ List.replicate (n + 1 - c.levels.length) none).length = n + 1 := by simp; omega
  rw [if_pos (by rw [hlen]; omega)]
  congr 1
  apply List.ext_getElem?
  intro j
  rw [List.getElem?_set]
  by_cases e : n = j
  · subst e
    rw [if_pos rfl, if_pos (by rw [hlen]; omega)]
    rw [List.map_append, List.getElem?_append_right (by simp; omega)]
    have : n - (List.map some (List.take n c.levels)).length = 0 := by simp; omega
    rw [this]
    rfl
  · rw [if_neg e]
    rcases Nat.lt_or_ge j n with hj | hj
    · rw [List.getElem?_append_left (by simp; omega), List.map_append, List.getElem?_append_left (by simp; omega)]
      simp [List.getElem?_take, hj]
      omega
    · rw [List.getElem?_eq_none (by rw [hlen]; omega), List.getElem?_eq_none (by simp; omega)]

theorem levelDefaults_eq : levelDefaults = some (Conf.default.levels.map some) := by decide +kernel

theorem new_ok {w : World} {s : Spec} (hg : Good w s) :
    ∃ l io', new 0 w none = some ⟨io', w.count + 1, fun j => if j = w.count then some l else w.log j⟩ ∧
      (∀ fuel x, new fuel w (some x) = addTarget fuel ⟨io', w.count + 1, fun j => if j = w.count then some l else w.log j⟩ l x) ∧ (∀ fuel, new fuel w none = new 0 w none) ∧
      Good ⟨io', w.count + 1, fun j => if j = w.count then some l else w.log j⟩ { s with count := s.count + 1, conf := fun j => if j = s.count then some .default else s.conf j } := by
  refine ⟨⟨some w.io.next, some w.io.next, [], Conf.default.levels.map some, 127, defaultFormat, some defaultNull⟩, { w.io.put w.io.next (some ⟨[], []⟩) with next := w.io.next + 1 },
    by simp only [new, levelDefaults_eq, Option.bind_some], fun fuel x => by simp only [new, levelDefaults_eq, Option.bind_some], fun fuel => rfl, ?_⟩
  have hnc : s.conf s.count = none := by
    cases h : s.conf s.count with
    | none => rfl
    | some c => exact absurd (hg.lt s.count (.inl (by rw [h]; simp))) (Nat.lt_irrefl _)
  have hnm : s.moved s.count = false := by
    cases h : s.moved s.count with
    | false => rfl
    | true => exact absurd (hg.lt s.count (.inr h)) (Nat.lt_irrefl _)
  have hnl : w.log s.count = none := hg.gone _ hnc hnm
  have hks : ∀ i l k, w.log i = some l → l.split = some k → k < w.io.next := by
    intro i l k hl hk
    cases hc : s.conf i with
    | some c =>
      obtain ⟨l', k', sp, hl', hL⟩ := hg.live i c hc
      rw [hl] at hl'; cases hl'
      have := hL.split; rw [hk] at this; cases this
      exact hL.lt
    | none =>
      cases hm : s.moved i with
      | false => rw [hg.gone i hc hm] at hl; cases hl
      | true =>
        obtain ⟨-, l', hl', h2, -⟩ := hg.moved i hm
        rw [hl] at hl'; cases hl'
        rw [hk] at h2; cases h2
  rw [hg.count]
  refine ⟨rfl, ?_, ?_, ?_, ?_, hg.own, hg.plain, ?_, ?_, ?_, ?_, ?_⟩
  · intro i c hc
    simp only at hc
    by_cases e : i = s.count
    · rw [if_pos e] at hc; cases hc
      refine ⟨_, w.io.next, ⟨[], []⟩, if_pos e, ⟨rfl, rfl, by simp [Sys.put], ?_, ?_, by simp, ?_, ?_, ?_, Nat.lt_succ_self _⟩⟩
      · exact ⟨rfl, rfl, rfl, rfl⟩
      · intro x
        constructor
        · intro h; cases h
        · intro h; rw [e] at h; exact absurd hnc (hg.target x _ h).1
      · intro x b
        constructor
        · intro h; cases h
        · rintro ⟨h, -⟩; rw [e] at h; exact absurd hnc (hg.redir x _ h)
      · intro x h; rw [e] at h; exact absurd hnc (hg.redir x _ h)
      · intro x h; rw [e] at h; exact absurd hnc (hg.target x _ h).1
    · rw [if_neg e] at hc
      obtain ⟨m, k, sp, hm, hM⟩ := hg.live i c hc
      refine ⟨m, k, sp, by simp only [if_neg e]; exact hm, ⟨hM.split, hM.buf, ?_, hM.conf, hM.targets, hM.nodup, hM.backup, hM.redir, hM.text, Nat.lt_succ_of_lt hM.lt⟩⟩
      have := hM.lt
      simp only [put_split]
      rw [if_neg (by omega)]
      exact hM.get
  · intro i hi
    have hi := hg.moved i hi
    have e : i ≠ s.count := by intro e; obtain ⟨_, l, hl, -⟩ := hi; rw [e, hnl] at hl; cases hl
    simp only [if_neg e]
    exact hi
  · intro i h1 h2
    simp only at h1
    by_cases e : i = s.count
    · rw [if_pos e] at h1; cases h1
    · rw [if_neg e] at h1
      simp only [if_neg e]
      exact hg.gone i h1 h2
  · intro i hi
    simp only at hi ⊢
    by_cases e : i = s.count
    · omega
    · rw [if_neg e] at hi
      exact Nat.lt_succ_of_lt (hg.lt i hi)
  · intro x i hi
    obtain ⟨h1, h2⟩ := hg.target x i hi
    refine ⟨?_, h2⟩
    simp only
    split
    · simp
    · exact h1
  · intro x i hi
    have h1 := hg.redir x i hi
    simp only
    split
    · simp
    · exact h1
  · intro a b la lb k ha hb hka hkb
    simp only at ha hb
    by_cases ea : a = s.count <;> by_cases eb : b = s.count
    · rw [ea, eb]
    · rw [if_pos ea] at ha; rw [if_neg eb] at hb; cases ha
      cases hka
      exact absurd (hks b lb _ hb hkb) (Nat.lt_irrefl _)
    · rw [if_neg ea] at ha; rw [if_pos eb] at hb; cases hb
      cases hkb
      exact absurd (hks a la _ ha hka) (Nat.lt_irrefl _)
    · rw [if_neg ea] at ha; rw [if_neg eb] at hb
      exact hg.inj a b la lb k ha hb hka hkb
  · intro k hk
    simp only [put_split] at hk
    by_cases e : k = w.io.next
    · exact ⟨s.count, _, if_pos rfl, by rw [e]⟩
    · rw [if_neg e] at hk
      obtain ⟨i, l, hl, h⟩ := hg.used k hk
      have e : i ≠ s.count := by intro e; rw [e, hnl] at hl; cases hl
      exact ⟨i, l, by simp only [if_neg e]; exact hl, h⟩
  · intro k hk
    simp only at hk
    simp only [put_split]
    rw [if_neg (by omega)]
    exact hg.fresh k (by omega)

theorem moveNew_ok {w : World} {s : Spec} (hg : Good w s) {j : Nat} {c : Conf} (hc : s.conf j = some c) {m : Logger} (hm : w.log j = some m) :
    Good { w with count := w.count + 1, log := fun i => if i = w.count then some { m with buf := m.split } else (w.upd j (some { m with split := none, backup := [], levels := [] })).log i }
      { s with
        count := s.count + 1
        conf := fun i => if i = s.count then some c else if i = j then none else s.conf i
        moved := fun i => if i = j then true else s.moved i
        target := fun y => if s.target y = some j then some s.count else s.target y
        redir := fun y => if s.redir y = some j then some s.count else s.redir y } := by
  obtain ⟨_, k, sp, hm', hM⟩ := hg.live j c hc
  rw [hm] at hm'; cases hm'
  have hjc : j < s.count := hg.lt j (.inl (by rw [hc]; simp))
  have hnc : s.conf s.count = none := by
    cases h : s.conf s.count with
    | none => rfl
    | some c => exact absurd (hg.lt s.count (.inl (by rw [h]; simp))) (Nat.lt_irrefl _)
  have hnm : s.moved s.count = false := by
    cases h : s.moved s.count with
    | false => rfl
    | true => exact absurd (hg.lt s.count (.inr h)) (Nat.lt_irrefl _)
  have hnt : ∀ x, s.target x ≠ some s.count := fun x h => (hg.target x _ h).1 hnc
  have hnr : ∀ x, s.redir x ≠ some s.count := fun x h => hg.redir x _ h hnc
  have iff1 : ∀ (o : Option Nat) (i : Nat), o ≠ some s.count → i ≠ s.count → i ≠ j → ((if o = some j then some s.count else o) = some i ↔ o = some i) := by
    intro o i ho hi hj
    by_cases e : o = some j
    · rw [if_pos e, e]; simp [Ne.symm hi, Ne.symm hj]
    · rw [if_neg e]
  have iff2 : ∀ (o : Option Nat), o ≠ some s.count → ((if o = some j then some s.count else o) = some s.count ↔ o = some j) := by
    intro o ho
    by_cases e : o = some j
    · rw [if_pos e]; simp [e]
    · rw [if_neg e]; simp [e, ho]
  rw [hg.count]
  refine ⟨rfl, ?_, ?_, ?_, ?_, ?_, ?_, ?_, ?_, ?_, ?_, hg.fresh⟩
  · intro i d hd
    simp only at hd
    by_cases e : i = s.count
    · rw [if_pos e] at hd; cases hd
      subst e
      refine ⟨_, k, sp, if_pos rfl, ⟨hM.split, hM.split, hM.get, hM.conf, ?_, hM.nodup, ?_, ?_, ?_, hM.lt⟩⟩
      · intro x; rw [hM.targets x]; exact (iff2 _ (hnt x)).symm
      · intro x b
        have := hM.backup x b
        simp only
        rw [iff2 _ (hnr x)]
        exact this
      · intro x hx
        exact hM.redir x ((iff2 _ (hnr x)).mp hx)
      · intro x hx
        exact hM.text x ((iff2 _ (hnt x)).mp hx)
    · rw [if_neg e] at hd
      by_cases e2 : i = j
      · rw [if_pos e2] at hd; cases hd
      · rw [if_neg e2] at hd
        obtain ⟨l, ki, spi, hl, hL⟩ := hg.live i d hd
        refine ⟨l, ki, spi, by simp only [if_neg e, World.upd, if_neg e2]; exact hl, ⟨hL.split, hL.buf, hL.get, hL.conf, ?_, hL.nodup, ?_, ?_, ?_, hL.lt⟩⟩
        · intro x; rw [hL.targets x]; exact (iff1 _ i (hnt x) e e2).symm
        · intro x b
          simp only
          rw [iff1 _ i (hnr x) e e2]
          exact hL.backup x b
        · intro x hx
          exact hL.redir x ((iff1 _ i (hnr x) e e2).mp hx)
        · intro x hx
          exact hL.text x ((iff1 _ i (hnt x) e e2).mp hx)
  · intro i hi
    simp only at hi
    by_cases e2 : i = j
    · subst e2
      have : i ≠ s.count := by omega
      refine ⟨(if_neg this).trans (if_pos rfl), _, (if_neg this).trans (if_pos rfl), rfl, rfl⟩
    · rw [if_neg e2] at hi
      have hi' := hg.moved i hi
      have : i ≠ s.count := by have := hg.lt i (.inr hi); omega
      simp only [if_neg this, if_neg e2, World.upd]
      exact hi'
  · intro i h1 h2
    simp only at h1 h2
    by_cases e : i = s.count
    · rw [if_pos e] at h1; cases h1
    · by_cases e2 : i = j
      · rw [if_pos e2] at h2; cases h2
      · rw [if_neg e, if_neg e2] at h1; rw [if_neg e2] at h2
        simp only [if_neg e, if_neg e2, World.upd]
        exact hg.gone i h1 h2
  · intro i hi
    simp only at hi ⊢
    by_cases e : i = s.count
    · omega
    · by_cases e2 : i = j
      · omega
      · rw [if_neg e, if_neg e2, if_neg e2] at hi
        exact Nat.lt_succ_of_lt (hg.lt i hi)
  · intro x hx
    simp only at hx
    by_cases e : s.redir x = some j
    · rw [if_pos e] at hx; cases hx
    · rw [if_neg e] at hx; exact hg.own x hx
  · intro x hx
    simp only at hx
    by_cases e : s.target x = some j
    · rw [if_pos e] at hx; cases hx
    · rw [if_neg e] at hx; exact hg.plain x hx
  · intro x i hi
    simp only at hi ⊢
    by_cases e : s.target x = some j
    · rw [if_pos e] at hi; cases hi
      refine ⟨by simp, ?_⟩
      rw [(hg.target x j e).2]; simp
    · rw [if_neg e] at hi
      have e1 : i ≠ s.count := by rintro rfl; exact hnt x hi
      have e2 : i ≠ j := by rintro rfl; exact e hi
      refine ⟨by rw [if_neg e1, if_neg e2]; exact (hg.target x i hi).1, ?_⟩
      rw [(hg.target x i hi).2]; simp
  · intro x i hi
    simp only at hi ⊢
    by_cases e : s.redir x = some j
    · rw [if_pos e] at hi; cases hi
      simp
    · rw [if_neg e] at hi
      have e1 : i ≠ s.count := by rintro rfl; exact hnr x hi
      have e2 : i ≠ j := by rintro rfl; exact e hi
      rw [if_neg e1, if_neg e2]; exact hg.redir x i hi
  · intro a b la lb ka ha hb hka hkb
    -- each logger with a splitter has it from an old one
    have old : ∀ (a : Nat) (la : Logger), (if a = s.count then some { m with buf := m.split } else (w.upd j (some { m with split := none, backup := [], levels := [] })).log a) = some la → la.split = some ka →
        ∃ a' la', w.log a' = some la' ∧ la'.split = some ka ∧ (a = s.count ∧ a' = j ∨ a ≠ j ∧ a' = a ∧ a ≠ s.count) := by
      intro a la ha hka
      by_cases ea : a = s.count
      · rw [if_pos ea] at ha; cases ha
        exact ⟨j, m, hm, hka, .inl ⟨ea, rfl⟩⟩
      · rw [if_neg ea] at ha
        simp only [World.upd] at ha
        by_cases e2 : a = j
        · rw [if_pos e2] at ha; cases ha; cases hka
        · rw [if_neg e2] at ha
          exact ⟨a, la, ha, hka, .inr ⟨e2, rfl, ea⟩⟩
    obtain ⟨a', la', h1, h2, h3⟩ := old a la ha hka
    obtain ⟨b', lb', h4, h5, h6⟩ := old b lb hb hkb
    have := hg.inj a' b' la' lb' ka h1 h4 h2 h5
    omega
  · intro k' hk'
    obtain ⟨i, l, hl, hk⟩ := hg.used k' hk'
    by_cases e2 : i = j
    · subst e2
      rw [hm] at hl; cases hl
      exact ⟨s.count, _, if_pos rfl, hk⟩
    · have e : i ≠ s.count := by intro e; rw [e, hg.gone _ hnc hnm] at hl; cases hl
      exact ⟨i, l, by simp only [if_neg e, World.upd, if_neg e2]; exact hl, hk⟩

theorem assimilate_ok {w : World} {s : Spec} (hg : Good w s) {i x : Nat} {c : Conf} (hc : s.conf i = some c) (ht : s.target x = none) (hr : s.redir x = none) {l : Logger} (hl : w.log i = some l) :
    Good (assimilate w i x l) { s with redir := fun y => if y = x then some i else s.redir y } := by
  obtain ⟨_, k, sp, hl', hL⟩ := hg.live i c hc
  rw [hl] at hl'; cases hl'
  have hx := hg.own x hr
  have e : assimilate w i x l = { w.upd i (some { l with backup := l.backup ++ [(x, w.io.buf x)] }) with io := { w.io with buf := fun y => if y = x then .split k else w.io.buf y } } := by
    simp only [assimilate, hL.split]
  rw [e, hx]
  refine ⟨hg.count, ?_, ?_, ?_, hg.lt, ?_, hg.plain, ?_, ?_, ?_, ?_, hg.fresh⟩
  · intro j d hd
    by_cases e : j = i
    · subst e
      have hd : s.conf j = some d := hd
      rw [hc] at hd; cases hd
      refine ⟨_, k, sp, if_pos rfl, ⟨hL.split, hL.buf, hL.get, hL.conf, hL.targets, hL.nodup, ?_, ?_, hL.text, hL.lt⟩⟩
      · intro y b
        simp only [List.mem_append, List.mem_singleton, Prod.mk.injEq]
        rw [hL.backup y b]
        by_cases e : y = x
        · subst e; simp [hr]
        · simp [e]
      · intro y hy
        simp only at hy ⊢
        by_cases e : y = x
        · rw [if_pos e]
        · rw [if_neg e] at hy ⊢
          exact hL.redir y hy
    · obtain ⟨m, kj, spj, hm, hM⟩ := hg.live j d hd
      refine ⟨m, kj, spj, by simp only [World.upd, if_neg e]; exact hm, ⟨hM.split, hM.buf, hM.get, hM.conf, hM.targets, hM.nodup, ?_, ?_, hM.text, hM.lt⟩⟩
      · intro y b
        rw [hM.backup y b]
        simp only
        by_cases e2 : y = x
        · rw [if_pos e2, e2, hr]; simp [Ne.symm e]
        · rw [if_neg e2]
      · intro y hy
        simp only at hy ⊢
        by_cases e2 : y = x
        · rw [if_pos e2] at hy; cases hy; exact absurd rfl e
        · rw [if_neg e2] at hy ⊢
          exact hM.redir y hy
  · intro j hj
    have hj := hg.moved j hj
    have e : j ≠ i := by intro e; rw [e] at hj; rw [hj.1] at hc; cases hc
    exact ⟨hj.1, by simpa [World.upd, e] using hj.2⟩
  · intro j h1 h2
    have h1 : s.conf j = none := h1
    have e : j ≠ i := by intro e; rw [e, hc] at h1; cases h1
    simp only [World.upd, if_neg e]
    exact hg.gone j h1 h2
  · intro y hy
    simp only at hy ⊢
    by_cases e2 : y = x
    · rw [if_pos e2] at hy; cases hy
    · rw [if_neg e2] at hy ⊢
      exact hg.own y hy
  · intro y j hj
    obtain ⟨h1, h2⟩ := hg.target y j hj
    refine ⟨h1, ?_⟩
    simp only
    rw [if_neg (by rintro rfl; have hj : s.target y = some j := hj; rw [ht] at hj; cases hj)]
    exact h2
  · intro y j hj
    simp only at hj
    by_cases e2 : y = x
    · rw [if_pos e2] at hj; cases hj; show s.conf _ ≠ none; rw [hc]; simp
    · rw [if_neg e2] at hj; exact hg.redir y j hj
  · intro a b la lb ka ha hb hka hkb
    have old : ∀ (a : Nat) (la : Logger), (w.upd i (some { l with backup := l.backup ++ [(x, .own)] })).log a = some la → ∃ la', w.log a = some la' ∧ la'.split = la.split := by
      intro a la ha
      simp only [World.upd] at ha
      by_cases e2 : a = i
      · rw [if_pos e2] at ha; cases ha; exact ⟨l, by rw [e2]; exact hl, rfl⟩
      · rw [if_neg e2] at ha; exact ⟨la, ha, rfl⟩
    obtain ⟨la', h1, h2⟩ := old a la ha
    obtain ⟨lb', h3, h4⟩ := old b lb hb
    exact hg.inj a b la' lb' ka h1 h3 (by rw [h2]; exact hka) (by rw [h4]; exact hkb)
  · intro k' hk'
    obtain ⟨j, m, hm, hk⟩ := hg.used k' hk'
    by_cases e2 : j = i
    · subst e2
      rw [hl] at hm; cases hm
      exact ⟨j, _, if_pos rfl, hk⟩
    · exact ⟨j, m, by simp only [World.upd, if_neg e2]; exact hm, hk⟩

theorem print_ok {w : World} {s : Spec} (hg : Good w s) {x : Nat} (t : Txt) (ht : s.target x = none) : ∃ io', w.io.write x t = some io' ∧ Good { w with io := io' } (s.print x t) := by
  cases hr : s.redir x with
  | some i =>
    obtain ⟨c, hc⟩ := Option.ne_none_iff_exists'.mp (hg.redir x i hr)
    obtain ⟨l, k, sp, hl, hL⟩ := hg.live i c hc
    have : s.print x t = s.put i t := by simp only [Spec.print, hr]
    rw [this, Sys.write, hL.redir x hr]
    exact put_ok hg t hc hl hL
  | none =>
    have : s.print x t = { s with text := fun y => if y = x then s.text y ++ t else s.text y } := by simp only [Spec.print, hr]
    rw [this, Sys.write, hg.own x hr]
    refine ⟨_, rfl, ?_⟩
    refine ⟨hg.count, ?_, hg.moved, hg.gone, hg.lt, hg.own, ?_, hg.target, hg.redir, hg.inj, hg.used, hg.fresh⟩
    · intro i c hc
      obtain ⟨l, k, sp, hl, hL⟩ := hg.live i c hc
      refine ⟨l, k, sp, hl, ⟨hL.split, hL.buf, hL.get, hL.conf, hL.targets, hL.nodup, hL.backup, hL.redir, ?_, hL.lt⟩⟩
      intro y hy
      have hy' : s.target y = some i := hy
      have e : y ≠ x := by rintro rfl; rw [ht] at hy'; cases hy'
      simp only [if_neg e]
      exact hL.text y hy
    · intro y hy
      have := hg.plain y hy
      simp only
      split
      · rw [this]
      · exact this

theorem flush_ok (fuel : Nat) {w : World} {s : Spec} (hg : Good w s) {i : Nat} {c : Conf} (hc : s.conf i = some c) {l : Logger} (hl : w.log i = some l) :
    ∃ w', flushLog (fuel + 1) w l = some w' ∧ Good w' s ∧ ∀ x, s.target x = some i → w'.io.sink x = s.text x := by
  obtain ⟨_, k, sp, hl', hL⟩ := hg.live i c hc
  rw [hl] at hl'; cases hl'
  obtain ⟨io', e, hg', -, ht⟩ := sync_ok fuel hg hc hl hL
  exact ⟨_, by simp only [flushLog, hL.buf, Option.bind_some, e, Option.map_some], hg', ht⟩

theorem step_ok (fuel : Nat) {tz : Int} (htz : -1440 ≤ tz) {w : World} {s s' : Spec} {op : Op} (hg : Good w s) (h : Step tz s op s') : ∃ w', step (fuel + 1) tz w op = some w' ∧ Good w' s' := by
  cases h with
  | new =>
    obtain ⟨l, io', h1, -, h3, h4⟩ := new_ok hg
    exact ⟨_, by rw [step, h3, h1], h4⟩
  | newTarget x ht hr =>
    obtain ⟨l, io', h1, h2, h3, h4⟩ := new_ok hg
    rw [step, h2]
    refine add_ok fuel h4 (i := s.count) (c := .default) (by simp) ht hr ?_
    simp [hg.count]
  | moveNew j c hc =>
    obtain ⟨m, k, sp, hm, hM⟩ := hg.live j c hc
    exact ⟨_, by rw [step, hm]; rfl, moveNew_ok hg hc hm⟩
  | destroy i c hc =>
    obtain ⟨l, k, sp, hl, hL⟩ := hg.live i c hc
    obtain ⟨w', h1, h2⟩ := destroy_ok fuel hg hc hl
    exact ⟨w', by rw [step, hl, Option.bind_some, h1], h2⟩
  | destroyMoved i hi =>
    obtain ⟨-, l, hl, -⟩ := hg.moved i hi
    obtain ⟨w', h1, h2⟩ := destroyMoved_ok fuel hg hi hl
    exact ⟨w', by rw [step, hl, Option.bind_some, h1], h2⟩
  | assimilate i x c hc ht hr =>
    obtain ⟨l, k, sp, hl, hL⟩ := hg.live i c hc
    exact ⟨_, by rw [step, hl]; rfl, assimilate_ok hg hc ht hr hl⟩
  | addTarget i x c hc ht hr =>
    obtain ⟨l, k, sp, hl, hL⟩ := hg.live i c hc
    rw [step, hl, Option.bind_some]
    exact add_ok fuel hg hc ht hr hl
  | clearTargets i c hc =>
    obtain ⟨l, k, sp, hl, hL⟩ := hg.live i c hc
    obtain ⟨io', h1, h2⟩ := clear_ok fuel hg hc hl
    exact ⟨_, by rw [step, hl, Option.bind_some, h1], h2⟩
  | setLevel i n t c hc h255 hn =>
    obtain ⟨l, k, sp, hl, hL⟩ := hg.live i c hc
    refine ⟨w.upd i (some { l with levels := (c.levels.take n ++ [t]).map some }), ?_, hg.conf hc hl rfl rfl rfl ⟨rfl, hL.conf.2⟩⟩
    rw [step, hl, Option.bind_some, hL.conf.1, setLevel_ok h255 hn]
    rfl
  | setMax i n c hc h0 h1 =>
    obtain ⟨l, k, sp, hl, hL⟩ := hg.live i c hc
    refine ⟨w.upd i (some { l with max := n }), ?_, hg.conf hc hl rfl rfl rfl ⟨hL.conf.1, rfl, hL.conf.2.2⟩⟩
    have : n.bmod 256 = n := Int.bmod_eq_of_le (by omega) (by omega)
    rw [step, hl, this]
    rfl
  | setFormat i t c hc =>
    obtain ⟨l, k, sp, hl, hL⟩ := hg.live i c hc
    exact ⟨w.upd i (some { l with format := t }), by rw [step, hl]; rfl, hg.conf hc hl rfl rfl rfl ⟨hL.conf.1, hL.conf.2.1, rfl, hL.conf.2.2.2⟩⟩
  | setNull i t c hc =>
    obtain ⟨l, k, sp, hl, hL⟩ := hg.live i c hc
    exact ⟨w.upd i (some { l with null := t }), by rw [step, hl]; rfl, hg.conf hc hl rfl rfl rfl ⟨hL.conf.1, hL.conf.2.1, hL.conf.2.2.1, rfl⟩⟩
  | put i t c hc =>
    obtain ⟨l, k, sp, hl, hL⟩ := hg.live i c hc
    obtain ⟨io', h1, h2⟩ := put_ok hg t hc hl hL
    exact ⟨_, by rw [step, hl, Option.bind_some, putLog, hL.buf, Option.bind_some, h1]; rfl, h2⟩
  | flush i c hc =>
    obtain ⟨l, k, sp, hl, hL⟩ := hg.live i c hc
    obtain ⟨w', h1, h2, -⟩ := flush_ok fuel hg hc hl
    exact ⟨w', by rw [step, hl, Option.bind_some, h1], h2⟩
  | print x t ht =>
    obtain ⟨io', h1, h2⟩ := print_ok hg t ht
    exact ⟨_, by rw [step, h1]; rfl, h2⟩
  | flushStream x =>
    cases hr : s.redir x with
    | none => exact ⟨w, by simp [step, flush, hg.own x hr], hg⟩
    | some i =>
      obtain ⟨c, hc⟩ := Option.ne_none_iff_exists'.mp (hg.redir x i hr)
      obtain ⟨l, k, sp, hl, hL⟩ := hg.live i c hc
      obtain ⟨io', e, hg', -⟩ := sync_ok fuel hg hc hl hL
      exact ⟨_, by simp only [step, flush, hL.redir x hr, e, Option.map_some], hg'⟩
  | skip i e c hc hle =>
    obtain ⟨l, k, sp, hl, hL⟩ := hg.live i c hc
    exact ⟨w, by rw [step, hl, Option.bind_some, if_pos (by rw [hL.conf.2.1]; exact hle)], hg⟩
  | log i e c t hc hlt ht =>
    obtain ⟨l, k, sp, hl, hL⟩ := hg.live i c hc
    obtain ⟨io', h1, h2⟩ := put_ok hg t hc hl hL
    obtain ⟨w', h3, h4, -⟩ := flush_ok fuel h2 (i := i) (c := c) hc hl
    refine ⟨w', ?_, h4⟩
    rw [step, hl, Option.bind_some, if_neg (by rw [hL.conf.2.1]; omega), entry_text htz hL.conf ht, Option.bind_some, putLog, hL.buf, Option.bind_some, h1, Option.map_some, Option.bind_some, h3]

theorem run_ok (fuel : Nat) {tz : Int} (htz : -1440 ≤ tz) {s s' : Spec} {ops : List Op} (h : Run tz s ops s') : ∀ w, Good w s → ∃ w', run (fuel + 1) tz w ops = some w' ∧ Good w' s' := by
  induction h with
  | nil s => intro w hg; exact ⟨w, rfl, hg⟩
  | cons s s' s'' op ops h _ ih =>
    intro w hg
    obtain ⟨w', h1, h2⟩ := step_ok fuel htz hg h
    obtain ⟨w'', h3, h4⟩ := ih w' h2
    exact ⟨w'', by rw [run, h1, Option.bind_some, h3], h4⟩

theorem good_empty : Good empty .empty :=
  ⟨rfl, fun _ _ h => (by cases h), fun _ h => (by cases h), fun _ _ _ => rfl, fun _ h => (by rcases h with h | h <;> [exact absurd rfl h; cases h]), fun _ _ => rfl, fun _ _ => rfl, fun _ _ h => (by cases h),
    fun _ _ h => (by cases h), fun _ _ _ _ _ h => (by cases h), fun _ h => absurd rfl h, fun _ _ => rfl⟩

end Verif.Log
