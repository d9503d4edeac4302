import Verif.Text.Model

/-!
# `Logger` and `StreamSplitter`

Models `/repo/include/bss-util/stream.h:25-63`, `/repo/include/bss-util/Logger.h` and `/repo/bss-util/Logger.cpp`. Streams are numbered; each has a buffer of its own, which stands for the place where its text ends up (`sink`).
Anything that is undefined behaviour is `none`: use of a splitter that was deleted, access to a level outside of the array, a null string written to a stream. A file target is a stream; opening and closing of files and failures of streams are
not modelled.
-/

namespace Verif.Log

/-- Characters. -/
abbrev Txt := List Int

/-- What `rdbuf()` of a stream is: its own buffer, or the splitter of a logger. -/
inductive Buf
  | own
  | split (k : Nat)
  deriving DecidableEq, Repr

/-- `StreamSplitter`, `stream.h:25-63`: the characters between `pbase()` and `pptr()`, and `_targets`. -/
structure Split where
  pending : Txt
  targets : List Nat
  deriving DecidableEq, Repr

/-- All streams and splitters; `next` is the number of the next splitter. -/
structure Sys where
  sink : Nat → Txt
  buf : Nat → Buf
  split : Nat → Option Split
  next : Nat

/-- Replaces a splitter. -/
def Sys.put (io : Sys) (k : Nat) (sp : Option Split) : Sys := { io with split := fun j => if j = k then sp else io.split j }

/-- Characters for a buffer: into the memory of a splitter, or into the stream's own buffer. -/
def Sys.writeTo (io : Sys) (s : Nat) (t : Txt) : Buf → Option Sys
  | .own => some { io with sink := fun x => if x = s then io.sink x ++ t else io.sink x }
  | .split k => (io.split k).map fun sp => io.put k (some { sp with pending := sp.pending ++ t })

/-- `stream.write(t)`. -/
def Sys.write (io : Sys) (s : Nat) (t : Txt) : Option Sys := io.writeTo s t (io.buf s)

/-- `StreamSplitter::sync`, `stream.h:48-57`. Flushing a stream with a buffer of its own changes nothing here; `fuel` bounds the depth of nested calls. -/
def sync : Nat → Nat → Sys → Option Sys
  | 0, _, _ => none
  | fuel + 1, k, io => (io.split k).bind fun sp =>
    (sp.targets.foldlM (fun (io : Sys) s => (io.write s sp.pending).bind fun io => match io.buf s with
      | .own => some io
      | .split j => sync fuel j io) io).bind fun io => (io.split k).map fun sp => io.put k (some { sp with pending := [] })

/-- `stream.flush()`. -/
def flush (fuel s : Nat) (io : Sys) : Option Sys :=
  match io.buf s with
  | .own => some io
  | .split k => sync fuel k io

/-- `StreamSplitter::AddTarget`, `stream.h:34`. -/
def splitAdd (fuel k s : Nat) (io : Sys) : Option Sys :=
  (sync fuel k io).bind fun io => (io.split k).map fun sp => io.put k (some { sp with targets := sp.targets ++ [s] })

/-- `StreamSplitter::ClearTargets`, `stream.h:35`. -/
def splitClear (fuel k : Nat) (io : Sys) : Option Sys :=
  (sync fuel k io).bind fun io => (io.split k).map fun sp => io.put k (some { sp with targets := [] })

/-- The members of `Logger`, `Logger.h:107-125`; `buf` is the splitter that `_stream` writes to. A level that was never set is `none`. -/
structure Logger where
  split : Option Nat
  buf : Option Nat
  backup : List (Nat × Buf)
  levels : List (Option Txt)
  max : Int
  format : Txt
  null : Option Txt
  deriving DecidableEq, Repr

/-- `_levels.SetCapacity(n)` for an array of pointers (`ARRAY_SIMPLE`). -/
def setCapacity (l : List (Option Txt)) (n : Nat) : List (Option Txt) := l.take n ++ List.replicate (n - l.length) none

/-- `Logger::SetLevel`, `Logger.cpp:104-109`; `uint8_t` wraps in `level + 1`. -/
def setLevel (levels : List (Option Txt)) (level : Nat) (t : Txt) : Option (List (Option Txt)) :=
  let l := if level ≤ levels.length then setCapacity levels ((level + 1) % 256) else levels
  if level < l.length then some (l.set level (some t)) else none

/-- `_levelDefaults`, `Logger.cpp:159-167`, for the six levels of the constructor. -/
def levelDefaults : Option (List (Option Txt)) :=
  (setLevel (List.replicate 6 none) 0 (Text.lit "FATAL: ")).bind fun l => (setLevel l 1 (Text.lit "ERROR: ")).bind fun l => (setLevel l 2 (Text.lit "WARNING: ")).bind fun l =>
    (setLevel l 3 (Text.lit "NOTICE: ")).bind fun l => (setLevel l 4 (Text.lit "INFO: ")).bind fun l => setLevel l 5 (Text.lit "DEBUG: ")

/-- `DEFAULTFORMAT` and `DEFAULTNULLFORMAT`, `Logger.cpp:13-14`. -/
def defaultFormat : Txt := Text.lit "{4} [{0}] ({1}:{2}) {3}"

@[inherit_doc defaultFormat] def defaultNull : Txt := Text.lit "{4} ({1}:{2}) {3}"

/-! ## Entries -/

/-- What `gmtime` gives. -/
structure Clock where
  year : Nat
  month : Nat
  day : Nat
  hour : Nat
  min : Nat
  sec : Nat
  deriving DecidableEq, Repr

/-- A number that is not negative, with a width and zeros as fill. -/
def padded (width : Nat) (n : Int) : Txt :=
  let d := Text.lit (toString n)
  List.replicate (width - d.length) 48 ++ d

/-- `_writeDateTime`, `Logger.cpp:115-142`; `tz` in minutes. -/
def dateTime (tz : Int) (c : Clock) (timeonly : Bool) : Txt :=
  let m : Int := c.hour * 60 + c.min + 1440 + tz
  let h := (m.tdiv 60).tmod 24
  let m := m.tmod 60
  (if timeonly then [] else padded 4 c.year ++ [45] ++ padded 2 c.month ++ [45] ++ padded 2 c.day ++ [32]) ++
    padded 1 h ++ [58] ++ padded 2 m ++ [58] ++ padded 2 c.sec

/-- The last position of a character in a string, `strrchr`. -/
def lastOf (c : Int) : Txt → Option Nat
  | [] => none
  | x :: t => match lastOf c t with
    | some i => some (i + 1)
    | none => if x = c then some 0 else none

/-- `_trimPath`, `Logger.cpp:152-158`. -/
def trimPath (path : Txt) : Txt :=
  match lastOf 47 path, lastOf 92 path with
  | none, none => path
  | some i, none => path.drop (i + 1)
  | none, some j => path.drop (j + 1)
  | some i, some j => path.drop (Nat.max i j + 1)

/-- `_header`, `Logger.cpp:185-196`. -/
def header (tz : Int) (c : Clock) (source : Option Txt) (file line level : Txt) (n : Int) : Option Txt :=
  if n = 0 then source else if n = 1 then some file else if n = 2 then some line else if n = 3 then some level
  else if n = 4 then some (dateTime tz c true) else if n = 5 then some (dateTime tz c false) else some []

/-- The text of a list of writes. -/
def texts (f : Int → Option Txt) : List Text.Out → Option Txt
  | [] => some []
  | .text t :: r => (texts f r).map (t ++ ·)
  | .arg n :: r => (f n).bind fun a => (texts f r).map (a ++ ·)

/-- Which format is used, `Logger.cpp:201`. -/
def Logger.fmt (l : Logger) (source : Option Txt) : Txt :=
  match source, l.null with
  | none, some n => n
  | _, _ => l.format

/-- `_logHeader`, `Logger.cpp:198-203`: what is written to the stream. -/
def logHeader (tz : Int) (c : Clock) (l : Logger) (source : Option Txt) (file line level : Txt) : Option Txt :=
  (Text.format (l.fmt source ++ [0]) 0 0).bind (texts (header tz c source (trimPath file) line level))

/-- The arguments of `Log` and of `LogFormat`, as the texts that `operator<<` writes for them. A call of `PrintLog` is a `Log` of one text, that which `vsnprintf` makes. -/
inductive Msg
  | parts (ts : List Txt)
  | format (f : Txt) (args : List Txt)
  deriving DecidableEq, Repr

/-- What is written after the header, `Logger.h:71-87,101-103`. -/
def Msg.text : Msg → Option Txt
  | .parts ts => some (ts.flatten ++ [10])
  | .format f args => (Text.safeFormat args (f ++ [0]) 0).map (· ++ [10])

/-- An entry: the arguments of `Log`, `LogFormat` and `PrintLog`, and the time at which it is written. -/
structure Entry where
  clock : Clock
  source : Option Txt
  file : Txt
  line : Nat
  level : Int
  msg : Msg
  deriving DecidableEq, Repr

/-- `LogHeader` and what follows it, `Logger.h:71-93`: the text of an entry. -/
def entry (tz : Int) (l : Logger) (e : Entry) : Option Txt :=
  if (l.levels.length : Int) ≤ e.level then none else
    (if e.level < 0 then some [] else (l.levels[e.level.toNat]?).join).bind fun level =>
      (logHeader tz e.clock l e.source e.file (Text.lit (toString e.line)) level).bind fun h => e.msg.text.map fun m => h ++ m

/-! ## Programs -/

/-- All loggers, by number. -/
structure World where
  io : Sys
  count : Nat
  log : Nat → Option Logger

/-- Replaces a logger. -/
def World.upd (w : World) (i : Nat) (l : Option Logger) : World := { w with log := fun j => if j = i then l else w.log j }

/-- Calls. `print` and `flushStream` are writes to a stream by other code. -/
inductive Op
  | new (target : Option Nat)
  | moveNew (j : Nat)
  | moveAssign (i j : Nat)
  | destroy (i : Nat)
  | assimilate (i s : Nat)
  | addTarget (i s : Nat)
  | clearTargets (i : Nat)
  | setLevel (i level : Nat) (t : Txt)
  | setMax (i : Nat) (level : Int)
  | setFormat (i : Nat) (t : Txt)
  | setNull (i : Nat) (t : Option Txt)
  | put (i : Nat) (t : Txt)
  | flush (i : Nat)
  | print (s : Nat) (t : Txt)
  | flushStream (s : Nat)
  | log (i : Nat) (e : Entry)
  deriving DecidableEq, Repr

/-- `_stream.write(t)`. -/
def putLog (w : World) (l : Logger) (t : Txt) : Option World :=
  l.buf.bind fun k => (w.io.writeTo 0 t (.split k)).map fun io => { w with io := io }

/-- `_stream.flush()`. -/
def flushLog (fuel : Nat) (w : World) (l : Logger) : Option World := l.buf.bind fun k => (sync fuel k w.io).map fun io => { w with io := io }

/-- `Logger::AddTarget(std::ostream&)`, `Logger.cpp:61-64`. -/
def addTarget (fuel : Nat) (w : World) (l : Logger) (s : Nat) : Option World :=
  match l.split with
  | none => some w
  | some k => (splitAdd fuel k s w.io).map fun io => { w with io := io }

/-- `Logger::ClearTargets`, `Logger.cpp:86-96`, without the files. -/
def clearTargets (fuel : Nat) (w : World) (l : Logger) : Option World :=
  match l.split with
  | none => some w
  | some k => (splitClear fuel k w.io).map fun io => { w with io := io }

/-- `Logger(std::ostream*)`, `Logger.cpp:21-27`. -/
def new (fuel : Nat) (w : World) (target : Option Nat) : Option World :=
  levelDefaults.bind fun levels =>
    let k := w.io.next
    let l : Logger := ⟨some k, some k, [], levels, 127, defaultFormat, some defaultNull⟩
    let w' : World := { io := { w.io.put k (some ⟨[], []⟩) with next := k + 1 }, count := w.count + 1, log := fun j => if j = w.count then some l else w.log j }
    match target with
    | none => some w'
    | some s => addTarget fuel w' l s

/-- `~Logger`, `Logger.cpp:47-53`. -/
def destroy (fuel : Nat) (w : World) (i : Nat) (l : Logger) : Option World :=
  (clearTargets fuel w l).map fun w =>
    let io := l.backup.foldl (fun io (b : Nat × Buf) => { io with buf := fun x => if x = b.1 then b.2 else io.buf x }) w.io
    { w.upd i none with io := match l.split with
      | none => io
      | some k => io.put k none }

/-- `Assimilate`, `Logger.cpp:54-58`. -/
def assimilate (w : World) (i s : Nat) (l : Logger) : World :=
  let w' := w.upd i (some { l with backup := l.backup ++ [(s, w.io.buf s)] })
  match l.split with
  | none => w'
  | some k => { w' with io := { w.io with buf := fun x => if x = s then .split k else w.io.buf x } }

/-- One call. `Logger(Logger&&)`: `Logger.cpp:16-20`; `operator=`: `Logger.cpp:143-151`; `SetMaxLevel`: `Logger.cpp:110-113`, where the number becomes an `int8_t`; `Log`: `Logger.h:72-87`. -/
def step (fuel : Nat) (tz : Int) (w : World) : Op → Option World
  | .new target => new fuel w target
  | .moveNew j => (w.log j).map fun m =>
    let w := w.upd j (some { m with split := none, backup := [], levels := [] })
    { w with count := w.count + 1, log := fun i => if i = w.count then some { m with buf := m.split } else w.log i }
  | .moveAssign i j => (w.log i).bind fun l => (w.log j).map fun m =>
    (w.upd i (some { l with split := m.split, buf := m.split, backup := m.backup })).upd j (some { m with split := none, backup := [] })
  | .destroy i => (w.log i).bind (destroy fuel w i)
  | .assimilate i s => (w.log i).map (assimilate w i s)
  | .addTarget i s => (w.log i).bind fun l => addTarget fuel w l s
  | .clearTargets i => (w.log i).bind (clearTargets fuel w)
  | .setLevel i n t => (w.log i).bind fun l => (setLevel l.levels n t).map fun ls => w.upd i (some { l with levels := ls })
  | .setMax i n => (w.log i).map fun l => w.upd i (some { l with max := n.bmod 256 })
  | .setFormat i t => (w.log i).map fun l => w.upd i (some { l with format := t })
  | .setNull i t => (w.log i).map fun l => w.upd i (some { l with null := t })
  | .put i t => (w.log i).bind fun l => putLog w l t
  | .flush i => (w.log i).bind (flushLog fuel w)
  | .print s t => (w.io.write s t).map fun io => { w with io := io }
  | .flushStream s => (flush fuel s w.io).map fun io => { w with io := io }
  | .log i e => (w.log i).bind fun l => if l.max ≤ e.level then some w else
    (entry tz l e).bind fun t => (putLog w l t).bind fun w => flushLog fuel w l

/-- A program. -/
def run (fuel : Nat) (tz : Int) : World → List Op → Option World
  | w, [] => some w
  | w, op :: ops => (step fuel tz w op).bind fun w => run fuel tz w ops

/-- Before any logger exists. -/
def empty : World := ⟨⟨fun _ => [], fun _ => .own, fun _ => none, 0⟩, 0, fun _ => none⟩

end Verif.Log
