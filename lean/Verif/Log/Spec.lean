import Verif.Log.Model
import Verif.Text.Spec

/-!
# What loggers should do

Text that is written to a logger reaches its targets at once; streams are redirected to it until it is destroyed. The state knows of each stream which logger it is a target of, which logger it is redirected to,
and the text it was given. A call that is not described here is not allowed.
-/

namespace Verif.Log

/-- The settings of a logger. -/
structure Conf where
  levels : List Txt
  max : Int
  format : Txt
  null : Option Txt

/-- Loggers and streams. `moved` are the loggers that were moved from. -/
structure Spec where
  count : Nat
  conf : Nat → Option Conf
  moved : Nat → Bool
  target : Nat → Option Nat
  redir : Nat → Option Nat
  text : Nat → Txt

/-- The settings of a new logger. -/
def Conf.default : Conf :=
  ⟨[Text.lit "FATAL: ", Text.lit "ERROR: ", Text.lit "WARNING: ", Text.lit "NOTICE: ", Text.lit "INFO: ", Text.lit "DEBUG: "], 127,
    Text.lit "{4} [{0}] ({1}:{2}) {3}", some (Text.lit "{4} ({1}:{2}) {3}")⟩

/-- A change of the settings. -/
def Spec.set (s : Spec) (i : Nat) (c : Option Conf) : Spec := { s with conf := fun j => if j = i then c else s.conf j }

/-- Text for a logger reaches all its targets. -/
def Spec.put (s : Spec) (i : Nat) (t : Txt) : Spec := { s with text := fun x => if s.target x = some i then s.text x ++ t else s.text x }

/-- Text for a stream. -/
def Spec.print (s : Spec) (x : Nat) (t : Txt) : Spec :=
  match s.redir x with
  | some i => s.put i t
  | none => { s with text := fun y => if y = x then s.text y ++ t else s.text y }

/-- The last part of a path. -/
def IsName (path name : Txt) : Prop :=
  ∃ dir, path = dir ++ name ∧ (∀ c ∈ name, c ≠ 47 ∧ c ≠ 92) ∧ (dir = [] ∨ dir.getLast? = some 47 ∨ dir.getLast? = some 92)

/-- A number with at least two digits. -/
def two (n : Int) : Txt := if n < 10 then 48 :: Text.lit (toString n) else Text.lit (toString n)

/-- Minutes since midnight, local time. -/
def minutes (tz : Int) (c : Clock) : Int := (c.hour * 60 + c.min + tz) % 1440

/-- The time as hours, minutes and seconds. -/
def timeText (tz : Int) (c : Clock) : Txt := Text.lit (toString (minutes tz c / 60)) ++ [58] ++ two (minutes tz c % 60) ++ [58] ++ two c.sec

/-- The date. -/
def dateText (c : Clock) : Txt := Text.lit (toString c.year) ++ [45] ++ two c.month ++ [45] ++ two c.day

/-- What stands for a placeholder of the format. -/
def argText (tz : Int) (c : Clock) (source file line level : Txt) (n : Int) : Txt :=
  if n = 0 then source else if n = 1 then file else if n = 2 then line else if n = 3 then level else if n = 4 then timeText tz c
  else if n = 5 then dateText c ++ [32] ++ timeText tz c else []

/-- The name of a level. -/
def levelName (levels : List Txt) (level : Int) : Option Txt := if level < 0 then some [] else levels[level.toNat]?

/-- The text of a message. -/
inductive IsMsg : Msg → Txt → Prop
  | parts (ts : List Txt) : IsMsg (.parts ts) (ts.flatten ++ [10])
  | format (f : Txt) (args : List Txt) (r : List (Int ⊕ Int)) : 0 ∉ f → Text.Reads f r → IsMsg (.format f args) (r.flatMap (fun
      | .inl c => [c]
      | .inr n => (args[n.toNat]?).getD (Text.lit "{INVALID PARAMETER " ++ Text.lit (toString n) ++ Text.lit "}")) ++ [10])

/-- The text of an entry. The source may be left out if the format for such entries does not mention it. The date is that of the clock, so that the local time must be on the same day if the format mentions it. -/
inductive IsEntry (tz : Int) (c : Conf) : Entry → Txt → Prop
  | mk (e : Entry) (fmt level name m : Txt) (r : List (Int ⊕ Int)) : levelName c.levels e.level = some level → fmt = (if e.source.isNone then c.null.getD c.format else c.format) → 0 ∉ fmt → Text.Reads fmt r →
      (e.source.isNone → .inr 0 ∉ r) → (.inr 5 ∈ r → 0 ≤ e.clock.hour * 60 + e.clock.min + tz ∧ e.clock.hour * 60 + e.clock.min + tz < 1440 ∧ 1000 ≤ e.clock.year) →
      IsName e.file name → IsMsg e.msg m →
      IsEntry tz c e (r.flatMap (fun
        | .inl c => [c]
        | .inr n => argText tz e.clock (e.source.getD []) name (Text.lit (toString e.line)) level n) ++ m)

/-- Calls on loggers and streams. -/
inductive Step (tz : Int) (s : Spec) : Op → Spec → Prop
  | new : Step tz s (.new none) { s with count := s.count + 1, conf := fun j => if j = s.count then some .default else s.conf j }
  | newTarget (x : Nat) : s.target x = none → s.redir x = none → Step tz s (.new (some x))
      { s with count := s.count + 1, conf := fun j => if j = s.count then some .default else s.conf j, target := fun y => if y = x then some s.count else s.target y }
  | moveNew (j : Nat) (c : Conf) : s.conf j = some c → Step tz s (.moveNew j)
      { s with
        count := s.count + 1
        conf := fun i => if i = s.count then some c else if i = j then none else s.conf i
        moved := fun i => if i = j then true else s.moved i
        target := fun y => if s.target y = some j then some s.count else s.target y
        redir := fun y => if s.redir y = some j then some s.count else s.redir y }
  | destroy (i : Nat) (c : Conf) : s.conf i = some c → Step tz s (.destroy i)
      { s.set i none with target := fun y => if s.target y = some i then none else s.target y, redir := fun y => if s.redir y = some i then none else s.redir y }
  | destroyMoved (i : Nat) : s.moved i = true → Step tz s (.destroy i) { s with moved := fun j => if j = i then false else s.moved j }
  | assimilate (i x : Nat) (c : Conf) : s.conf i = some c → s.target x = none → s.redir x = none → Step tz s (.assimilate i x) { s with redir := fun y => if y = x then some i else s.redir y }
  | addTarget (i x : Nat) (c : Conf) : s.conf i = some c → s.target x = none → s.redir x = none → Step tz s (.addTarget i x) { s with target := fun y => if y = x then some i else s.target y }
  | clearTargets (i : Nat) (c : Conf) : s.conf i = some c → Step tz s (.clearTargets i) { s with target := fun y => if s.target y = some i then none else s.target y }
  | setLevel (i n : Nat) (t : Txt) (c : Conf) : s.conf i = some c → n < 255 → n = c.levels.length ∨ n + 1 = c.levels.length →
      Step tz s (.setLevel i n t) (s.set i (some { c with levels := c.levels.take n ++ [t] }))
  | setMax (i : Nat) (n : Int) (c : Conf) : s.conf i = some c → 0 ≤ n → n < 128 → Step tz s (.setMax i n) (s.set i (some { c with max := n }))
  | setFormat (i : Nat) (t : Txt) (c : Conf) : s.conf i = some c → Step tz s (.setFormat i t) (s.set i (some { c with format := t }))
  | setNull (i : Nat) (t : Option Txt) (c : Conf) : s.conf i = some c → Step tz s (.setNull i t) (s.set i (some { c with null := t }))
  | put (i : Nat) (t : Txt) (c : Conf) : s.conf i = some c → Step tz s (.put i t) (s.put i t)
  | flush (i : Nat) (c : Conf) : s.conf i = some c → Step tz s (.flush i) s
  | print (x : Nat) (t : Txt) : s.target x = none → Step tz s (.print x t) (s.print x t)
  | flushStream (x : Nat) : Step tz s (.flushStream x) s
  | skip (i : Nat) (e : Entry) (c : Conf) : s.conf i = some c → c.max ≤ e.level → Step tz s (.log i e) s
  | log (i : Nat) (e : Entry) (c : Conf) (t : Txt) : s.conf i = some c → e.level < c.max → IsEntry tz c e t → Step tz s (.log i e) (s.put i t)

/-- A program. -/
inductive Run (tz : Int) : Spec → List Op → Spec → Prop
  | nil (s : Spec) : Run tz s [] s
  | cons (s s' s'' : Spec) (op : Op) (ops : List Op) : Step tz s op s' → Run tz s' ops s'' → Run tz s (op :: ops) s''

/-- Before any logger exists. -/
def Spec.empty : Spec := ⟨0, fun _ => none, fun _ => false, fun _ => none, fun _ => none, fun _ => []⟩

end Verif.Log
