import Verif.Log.Refine

/-!
# Properties of loggers

`Run tz s ops s'` (Spec.lean) says which programs are allowed and which text each stream was given. `tz` is the time zone in minutes.
-/

namespace Verif.Log

/-! ## C132: the targets of a logger get its text -/

/-- After any program, a stream that is not a target contains exactly the text it was given; a target contains a first part of it (the rest is in the memory of its logger), and all of it after the logger is flushed. The program never
fails, and never calls a nested flush. Missing: streams that are both target and redirected, streams with two loggers, and the assignment of loggers, for which the code is wrong (see the counterexamples). -/
theorem C132_delivery_partial (fuel : Nat) (tz : Int) (htz : -1440 ≤ tz) (ops : List Op) (s : Spec) (h : Run tz .empty ops s) :
    ∃ w, run (fuel + 1) tz empty ops = some w ∧ (∀ x, s.target x = none → w.io.sink x = s.text x) ∧ (∀ x, w.io.sink x <+: s.text x) ∧
      ∀ i, (s.conf i).isSome → ∃ w', step (fuel + 1) tz w (.flush i) = some w' ∧ ∀ x, s.target x = some i → w'.io.sink x = s.text x := by
  obtain ⟨w, h1, hg⟩ := run_ok fuel htz h empty good_empty
  refine ⟨w, h1, fun x hx => (hg.plain x hx).symm, ?_, ?_⟩
  · intro x
    cases ht : s.target x with
    | none => rw [hg.plain x ht]; exact List.prefix_refl _
    | some i =>
      obtain ⟨c, hc⟩ := Option.ne_none_iff_exists'.mp (hg.target x i ht).1
      obtain ⟨l, k, sp, -, hL⟩ := hg.live i c hc
      exact ⟨sp.pending, (hL.text x ht).symm⟩
  · intro i hi
    obtain ⟨c, hc⟩ := Option.isSome_iff_exists.mp hi
    obtain ⟨l, k, sp, hl, -⟩ := hg.live i c hc
    obtain ⟨w', h2, -, h3⟩ := flush_ok fuel hg hc hl
    exact ⟨w', by rw [step, hl, Option.bind_some, h2], h3⟩

theorem run_snoc {fuel : Nat} {tz : Int} (ops : List Op) : ∀ (w0 w1 : World) (op : Op), run fuel tz w0 ops = some w1 → run fuel tz w0 (ops ++ [op]) = step fuel tz w1 op := by
  induction ops with
  | nil => intro w0 w1 op h; cases h; rw [List.nil_append, run]; cases step fuel tz w0 op <;> rfl
  | cons o os ih =>
    intro w0 w1 op h
    rw [run] at h
    obtain ⟨w2, h6, h7⟩ := Option.bind_eq_some_iff.mp h
    rw [List.cons_append, run, h6, Option.bind_some]
    exact ih w2 w1 op h7

theorem Run.snoc {tz : Int} {s0 s s' : Spec} {ops : List Op} {op : Op} (h : Run tz s0 ops s) (h' : Step tz s op s') : Run tz s0 (ops ++ [op]) s' := by
  induction h with
  | nil s => exact .cons _ _ _ _ _ h' (.nil _)
  | cons s s' s'' op ops h _ ih => exact .cons _ _ _ _ _ h (ih h')

/-- An entry is in all targets of the logger when the call returns, together with everything that was written before it. -/
theorem C132_log_delivers_partial (fuel : Nat) (tz : Int) (htz : -1440 ≤ tz) (ops : List Op) (s s' : Spec) (i : Nat) (e : Entry) (c : Conf) (h : Run tz .empty ops s) (hc : s.conf i = some c) (hlt : e.level < c.max)
    (hs : Step tz s (.log i e) s') :
    ∃ w, run (fuel + 1) tz empty (ops ++ [.log i e]) = some w ∧ ∀ x, s.target x = some i → w.io.sink x = s'.text x := by
  obtain ⟨w, h1, hg⟩ := run_ok fuel htz h empty good_empty
  cases hs with
  | skip _ _ c' hc' hle => rw [hc] at hc'; cases hc'; omega
  | log _ _ c' t hc' _ ht =>
    rw [hc] at hc'; cases hc'
    obtain ⟨l, k, sp, hl, hL⟩ := hg.live i c hc
    obtain ⟨io', h2, hg2⟩ := put_ok hg t hc hl hL
    obtain ⟨w', h3, h4, h5⟩ := flush_ok fuel hg2 (i := i) (c := c) hc hl
    refine ⟨w', ?_, h5⟩
    rw [run_snoc ops empty w _ h1, step, hl, Option.bind_some, if_neg (by rw [hL.conf.2.1]; omega), entry_text htz hL.conf ht, Option.bind_some, putLog, hL.buf, Option.bind_some, h2, Option.map_some, Option.bind_some, h3]

/-- A logger whose target is also redirected to it never returns from a flush, from a log or from its destruction: each call of `sync` writes to itself and calls itself, whatever the depth. -/
theorem C132_target_assimilated_counterexample (fuel : Nat) (tz : Int) (t : Txt) : run fuel tz empty [.new (some 0), .assimilate 0 0, .put 0 t, .flush 0] = none := by
  have loop : ∀ (fuel : Nat) (io : Sys) (p : Txt), io.split 0 = some ⟨p, [0]⟩ → io.buf 0 = .split 0 → sync fuel 0 io = none := by
    intro fuel
    induction fuel with
    | zero => intro io p _ _; rfl
    | succ fuel ih =>
      intro io p h1 h2
      rw [sync, h1, Option.bind_some]
      simp only [List.foldlM_cons, List.foldlM_nil, Sys.write, h2, Sys.writeTo, h1, Option.map_some, Option.bind_some]
      have : (io.put 0 (some ⟨p ++ p, [0]⟩)).buf 0 = .split 0 := h2
      rw [this]
      simp only
      rw [ih _ (p ++ p) (by simp [Sys.put]) this]
      rfl
  cases fuel with
  | zero => simp [run, step, new, levelDefaults_eq, addTarget, splitAdd, sync]
  | succ fuel =>
    have hd : levelDefaults = some (Conf.default.levels.map some) := levelDefaults_eq
    simp only [run, step, new, hd, Option.bind_some, addTarget, splitAdd, empty]
    rw [sync_own fuel 0 _ ⟨[], []⟩ (by simp [Sys.put]) (by simp) (by simp)]
    simp only [Option.bind_some, put_split, Option.map_some, if_true, assimilate, putLog, Sys.writeTo, flushLog, World.upd]
    simp only [Sys.put, if_true, Option.map_some, Option.bind_some, List.nil_append]
    rw [loop (fuel + 1) _ t (by simp) (by simp)]
    rfl

/-- A stream that is added twice gets everything twice. -/
theorem C132_added_twice_counterexample : (run 5 0 empty [.new (some 0), .addTarget 0 0, .put 0 [65], .flush 0]).map (fun w => w.io.sink 0) = some [65, 65] := by decide +kernel

/-! ## C133: streams that were redirected are restored -/

/-- After any program, each stream that is redirected to a logger writes to a splitter that exists, every other stream writes to its own buffer, and a redirected stream's text reaches the targets of that logger. Once every logger is
destroyed or moved from, no stream is redirected and no splitter is left. Missing: as in `C132_delivery_partial`. -/
theorem C133_restored_partial (fuel : Nat) (tz : Int) (htz : -1440 ≤ tz) (ops : List Op) (s : Spec) (h : Run tz .empty ops s) :
    ∃ w, run (fuel + 1) tz empty ops = some w ∧ (∀ x, s.redir x = none → w.io.buf x = .own) ∧ (∀ x k, w.io.buf x = .split k → (w.io.split k).isSome) ∧
      ((∀ i, s.conf i = none) → (∀ x, w.io.buf x = .own) ∧ (∀ k, w.io.split k = none) ∧ ∀ x, w.io.sink x = s.text x) := by
  obtain ⟨w, h1, hg⟩ := run_ok fuel htz h empty good_empty
  refine ⟨w, h1, hg.own, ?_, ?_⟩
  · intro x k hk
    cases hr : s.redir x with
    | none => rw [hg.own x hr] at hk; cases hk
    | some i =>
      obtain ⟨c, hc⟩ := Option.ne_none_iff_exists'.mp (hg.redir x i hr)
      obtain ⟨l, k', sp, hl, hL⟩ := hg.live i c hc
      rw [hL.redir x hr] at hk; cases hk
      rw [hL.get]; rfl
  · intro hn
    refine ⟨?_, ?_, ?_⟩
    · intro x
      cases hr : s.redir x with
      | none => exact hg.own x hr
      | some i => exact absurd (hn i) (hg.redir x i hr)
    · intro k
      cases hk : w.io.split k with
      | none => rfl
      | some sp =>
        obtain ⟨i, l, hl, h2⟩ := hg.used k (by rw [hk]; simp)
        cases hm : s.moved i with
        | false => rw [hg.gone i (hn i) hm] at hl; cases hl
        | true =>
          obtain ⟨-, l', hl', h3, -⟩ := hg.moved i hm
          rw [hl] at hl'; cases hl'
          rw [h2] at h3; cases h3
    · intro x
      cases ht : s.target x with
      | none => exact (hg.plain x ht).symm
      | some i => exact absurd (hn i) (hg.target x i ht).1

/-- A stream that is redirected twice is left with the deleted splitter when the logger is destroyed: the next write to it is undefined. -/
theorem C133_assimilated_twice_counterexample :
    (run 5 0 empty [.new none, .assimilate 0 0, .assimilate 0 0, .destroy 0]).map (fun w => (w.io.buf 0, (w.io.split 0).isSome)) = some (.split 0, false) ∧
    (run 5 0 empty [.new none, .assimilate 0 0, .assimilate 0 0, .destroy 0, .print 0 [65]]).isNone := by decide +kernel

/-- Two loggers that redirect one stream must be destroyed in the opposite order; else the stream is left with a deleted splitter. -/
theorem C133_destroyed_in_order_counterexample :
    (run 5 0 empty [.new none, .new none, .assimilate 0 0, .assimilate 1 0, .destroy 0, .destroy 1]).map (fun w => (w.io.buf 0, (w.io.split 0).isSome)) = some (.split 0, false) := by decide +kernel

/-- Assignment forgets the streams that the assigned logger had redirected and its splitter: the splitter is never deleted, and the stream stays redirected. The settings are not assigned. -/
theorem C133_assignment_counterexample :
    (run 5 0 empty [.new none, .new none, .assimilate 0 0, .setMax 1 3, .moveAssign 0 1, .destroy 1, .destroy 0]).map (fun w => (w.io.buf 0, (w.io.split 0).isSome, (w.io.split 1).isSome)) = some (.split 0, true, false) ∧
    (run 5 0 empty [.new none, .new none, .setMax 1 3, .moveAssign 0 1]).map (fun w => (w.log 0).map (·.max)) = some (some 127) := by decide +kernel

/-! ## C134: levels -/

/-- Naming the level after the last, or the last, changes that name and no other. Missing: every other level (see the counterexamples). -/
theorem C134_setLevel_partial (levels : List Txt) (n : Nat) (t : Txt) (h255 : n < 255) (hn : n = levels.length ∨ n + 1 = levels.length) :
    ∃ l, setLevel (levels.map some) n t = some l ∧ l.length = n + 1 ∧ l[n]? = some (some t) ∧ ∀ m, m ≠ n → l[m]? = (levels[m]?).map some := by
  refine ⟨_, setLevel_ok (c := ⟨levels, 0, [], none⟩) h255 hn, ?_, ?_, ?_⟩
  · simp; omega
  · rw [List.map_append, List.getElem?_append_right (by simp; omega)]
    have : n - (List.map some (List.take n levels)).length = 0 := by simp; omega
    rw [this]; rfl
  · intro m hm
    rcases Nat.lt_or_ge m n with h | h
    · rw [List.map_append, List.getElem?_append_left (by simp; omega)]
      simp [List.getElem?_take, h]
    · rw [List.getElem?_eq_none (by simp; omega), List.getElem?_eq_none (by omega)]
      rfl

/-- Naming any earlier level removes all levels after it. -/
theorem C134_truncates_counterexample (levels : List (Option Txt)) (n : Nat) (t : Txt) (hn : n + 1 < levels.length) (h255 : n < 255) :
    ∃ l, setLevel levels n t = some l ∧ l.length = n + 1 ∧ l.length < levels.length := by
  have hlen : (setCapacity levels ((n + 1) % 256)).length = n + 1 := by
    rw [Nat.mod_eq_of_lt (by omega), setCapacity]; simp; omega
  refine ⟨(setCapacity levels ((n + 1) % 256)).set n (some t), ?_, by simp [hlen], by simp [hlen]; omega⟩
  unfold setLevel
  simp only [if_pos (show n ≤ levels.length by omega), hlen, if_pos (Nat.lt_succ_self n)]

/-- Naming a level that is more than one after the last is out of bounds; so is level 255 when there are 255. -/
theorem C134_out_of_bounds_counterexample (levels : List (Option Txt)) (n : Nat) (t : Txt) (hn : levels.length < n ∨ (n = 255 ∧ levels.length = 255)) : setLevel levels n t = none := by
  rcases hn with hn | ⟨rfl, h⟩
  · simp only [setLevel, if_neg (show ¬n ≤ levels.length by omega), if_neg (show ¬n < levels.length by omega)]
  · simp [setLevel, h, setCapacity]

/-- Entries below the limit are written, others are not. Missing: limits of 128 and more. -/
theorem C134_limit_partial (fuel : Nat) (tz : Int) (htz : -1440 ≤ tz) (ops : List Op) (s : Spec) (i : Nat) (n : Int) (e : Entry) (h : Run tz .empty ops s) (hi : (s.conf i).isSome) (h0 : 0 ≤ n) (h1 : n < 128) (hle : n ≤ e.level) :
    ∃ w, run (fuel + 1) tz empty (ops ++ [.setMax i n]) = some w ∧ step (fuel + 1) tz w (.log i e) = some w := by
  obtain ⟨c, hc⟩ := Option.isSome_iff_exists.mp hi
  have hstep : Step tz s (.setMax i n) (s.set i (some { c with max := n })) := .setMax i n c hc h0 h1
  obtain ⟨w, h2, hg⟩ := run_ok fuel htz (h.snoc hstep) empty good_empty
  refine ⟨w, h2, ?_⟩
  obtain ⟨l, k, sp, hl, hL⟩ := hg.live i { c with max := n } (by simp [Spec.set])
  rw [step, hl, Option.bind_some, if_pos (by rw [hL.conf.2.1]; exact hle)]

/-- A limit of 128 or more becomes negative, and no entry with a level is written any more. -/
theorem C134_limit_counterexample (fuel : Nat) (tz : Int) (e : Entry) (n : Int) (h0 : 128 ≤ n) (h1 : n < 256) (he : 0 ≤ e.level) (w : World) (l : Logger) (hl : w.log 0 = some l) :
    ∃ w', step fuel tz w (.setMax 0 n) = some w' ∧ step fuel tz w' (.log 0 e) = some w' := by
  refine ⟨w.upd 0 (some { l with max := n - 256 }), ?_, ?_⟩
  · have : n.bmod 256 = n - 256 := by
      rw [Int.bmod_def]; omega
    rw [step, hl, this]; rfl
  · simp only [step, World.upd, if_true, Option.bind_some]
    rw [if_pos (by omega)]

/-! ## C135: the text of an entry -/

/-- The text of an entry is the format with its placeholders replaced: the source, the last part of the path, the line, the name of the level, the local time and the date, followed by the message and a new line. Missing: entries without
source whose format mentions it, and dates when the local day is not that of the clock. -/
theorem C135_entry_partial (tz : Int) (htz : -1440 ≤ tz) (c : Conf) (buf : Option Nat) (backup : List (Nat × Buf)) (e : Entry) (t : Txt) (h : IsEntry tz c e t) :
    entry tz ⟨buf, buf, backup, c.levels.map some, c.max, c.format, c.null⟩ e = some t :=
  entry_text htz ⟨rfl, rfl, rfl, rfl⟩ h

/-- Without a format for entries that have no source, the source that is missing is written. -/
theorem C135_null_source_counterexample (tz : Int) (clock : Clock) :
    entry tz ⟨none, none, [], [some []], 127, Text.lit "{0}", none⟩ ⟨clock, none, [97], 1, 0, .parts []⟩ = none := by
  have : (Text.format (Text.lit "{0}" ++ [0]) 0 0) = some [.arg 0] := by decide +kernel
  simp [entry, logHeader, Logger.fmt, this, texts, header]

/-- In a time zone west of Greenwich, the entry of half past midnight has the date of the next day and the hour of the day before. -/
theorem C135_date_counterexample :
    dateTime (-60) ⟨2018, 3, 1, 0, 30, 5⟩ false = Text.lit "2018-03-01 23:30:05" := by decide +kernel

/-! ## Examples -/

/-- No placeholder begins with this character. -/
theorem reads_char (c : Int) (t : Txt) (r : List (Int ⊕ Int)) (hc : c ≠ 123) (h : Text.Reads t r) : Text.Reads (c :: t) (.inl c :: r) :=
  .char c t r (by rintro h n t' (_ | _) <;> simp [hc]) h

theorem reads_arg (d : Int) (t : Txt) (r : List (Int ⊕ Int)) (hd : 48 ≤ d ∧ d ≤ 57) (h : Text.Reads t r) : Text.Reads (123 :: d :: 125 :: t) (.inr (d - 48) :: r) :=
  .arg [123, d, 125] t (d - 48) r (.one d hd) h

/-- A warning without source, at 00:30:05 UTC in a time zone of one hour to the west. -/
theorem example_entry : IsEntry (-60) .default ⟨⟨2018, 3, 1, 0, 30, 5⟩, none, Text.lit "src/a.cpp", 12, 2, .parts [Text.lit "disk ", Text.lit "full"]⟩ (Text.lit "23:30:05 (a.cpp:12) WARNING: disk full\n") := by
  have := IsEntry.mk (tz := -60) (c := .default) ⟨⟨2018, 3, 1, 0, 30, 5⟩, none, Text.lit "src/a.cpp", 12, 2, .parts [Text.lit "disk ", Text.lit "full"]⟩ (Text.lit "{4} ({1}:{2}) {3}") (Text.lit "WARNING: ") (Text.lit "a.cpp")
    (Text.lit "disk full\n") [.inr 4, .inl 32, .inl 40, .inr 1, .inl 58, .inr 2, .inl 41, .inl 32, .inr 3] (by decide +kernel) (by decide +kernel) (by decide +kernel)
    (reads_arg 52 _ _ (by decide) <| reads_char 32 _ _ (by decide) <| reads_char 40 _ _ (by decide) <| reads_arg 49 _ _ (by decide) <| reads_char 58 _ _ (by decide) <| reads_arg 50 _ _ (by decide) <|
      reads_char 41 _ _ (by decide) <| reads_char 32 _ _ (by decide) <| reads_arg 51 _ _ (by decide) .done)
    (by simp) (by simp) ⟨Text.lit "src/", by decide +kernel, by decide +kernel, .inr (.inl (by decide +kernel))⟩ (.parts [Text.lit "disk ", Text.lit "full"])
  refine Eq.mp (congrArg _ ?_) this
  decide +kernel

/-- A logger with target 0, to which stream 2 is redirected; stream 1 becomes a target later. -/
theorem example_run : ∃ s, Run (-60) .empty [.new (some 0), .assimilate 0 2, .print 2 (Text.lit "hi\n"), .addTarget 0 1,
    .log 0 ⟨⟨2018, 3, 1, 0, 30, 5⟩, none, Text.lit "src/a.cpp", 12, 2, .parts [Text.lit "disk ", Text.lit "full"]⟩] s ∧
    s.text 0 = Text.lit "hi\n23:30:05 (a.cpp:12) WARNING: disk full\n" ∧ s.text 1 = Text.lit "23:30:05 (a.cpp:12) WARNING: disk full\n" ∧ s.text 2 = [] ∧ s.redir 2 = some 0 :=
  ⟨_, .cons _ _ _ _ _ (.newTarget 0 rfl rfl) <| .cons _ _ _ _ _ (.assimilate 0 2 .default rfl rfl rfl) <| .cons _ _ _ _ _ (.print 2 _ rfl) <| .cons _ _ _ _ _ (.addTarget 0 1 .default rfl rfl rfl) <|
    .cons _ _ _ _ _ (.log 0 _ .default _ rfl (by decide +kernel) example_entry) (.nil _), by decide +kernel, by decide +kernel, by decide +kernel, by decide +kernel⟩

/-- What the model makes of it, and that everything is restored by the destruction. -/
example : (run 1 (-60) empty [.new (some 0), .assimilate 0 2, .print 2 (Text.lit "hi\n"), .addTarget 0 1,
    .log 0 ⟨⟨2018, 3, 1, 0, 30, 5⟩, none, Text.lit "src/a.cpp", 12, 2, .parts [Text.lit "disk ", Text.lit "full"]⟩, .destroy 0]).map (fun w => (w.io.sink 0, w.io.sink 1, w.io.buf 2, (w.io.split 0).isSome)) =
    some (Text.lit "hi\n23:30:05 (a.cpp:12) WARNING: disk full\n", Text.lit "23:30:05 (a.cpp:12) WARNING: disk full\n", .own, false) := by decide +kernel

/-- A new level can be named. -/
example : setLevel (Conf.default.levels.map some) 6 (Text.lit "TRACE: ") = some ((Conf.default.levels ++ [Text.lit "TRACE: "]).map some) := by decide +kernel

end Verif.Log
