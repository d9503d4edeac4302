/-!
# Model of UBJSON values

`include/bss-util/UBJSON.h` (`.h`) and `bss-util/UBJSON.cpp` (`.cpp`). Bytes are naturals below 256 and an input stream is the list of
the bytes that are left: `!!s && s.peek() != -1` is that it is not empty, because a stream fails only after its end has been met.

`char` is signed, and the machine is little-endian (`BSS_ENDIAN_LITTLE`). Floating point values are their bit patterns. Allocation does
not fail. The copy, move and destruction of tuples and the `UBJSONEngine` part are not modelled.
-/

namespace Verif.Ubjson

/-- Outcomes: a value, an exception, a result with indeterminate contents (a read beyond the end of the stream), or not enough fuel (an artefact of the model). -/
inductive R (α : Type) where
  | ok (a : α)
  | reject
  | junk
  | fuel
  deriving DecidableEq, Repr

def R.bind {α β : Type} (r : R α) (f : α → R β) : R β :=
  match r with
  | .ok a => f a
  | .reject => .reject
  | .junk => .junk
  | .fuel => .fuel

/-- `UBJSONTuple`, `.h:18-41, 233-249`: the types with their payload. `char`, `Int8` etc. are integers, `String` is a list of bytes. -/
inductive V where
  | null | tru | fls | noop
  | chr (v : Int) | i8 (v : Int) | u8 (v : Int) | i16 (v : Int) | i32 (v : Int) | i64 (v : Int)
  | f32 (bits : Nat) | f64 (bits : Nat)
  | str (s : List Nat) | big (s : List Nat)
  | arr (l : List V)
  | obj (l : List (List Nat × V))

/-- `Type`, `.h:20-41`. -/
def V.tag : V → Nat
  | .null => 90 | .tru => 84 | .fls => 70 | .noop => 78
  | .chr _ => 67 | .i8 _ => 105 | .u8 _ => 85 | .i16 _ => 73 | .i32 _ => 108 | .i64 _ => 76
  | .f32 _ => 100 | .f64 _ => 68
  | .str _ => 83 | .big _ => 72
  | .arr _ => 91 | .obj _ => 123

/-! ## Integers -/

/-- The `w` bytes of an unsigned number in memory. -/
def le : Nat → Nat → List Nat
  | 0, _ => []
  | w + 1, n => (n % 256) :: le w (n / 256)

def ofLe : List Nat → Nat
  | [] => 0
  | b :: m => b + 256 * ofLe m

/-- `FlipEndian`, `bss_util.h`: the bytes of the object reversed. -/
def flip (m : List Nat) : List Nat := m.reverse

/-- `WriteInteger`, `.h:190-197`, for an integer of `w` bytes (two's complement). -/
def writeInt (w : Nat) (v : Int) : List Nat := flip (le w (v % 256 ^ w).toNat)

/-- `s.read(p, n)`. -/
def read (n : Nat) (s : List Nat) : R (List Nat × List Nat) := if n ≤ s.length then .ok (s.take n, s.drop n) else .junk

/-- The value of a signed or unsigned object of `w` bytes. -/
def toInt (signed : Bool) (w : Nat) (n : Nat) : Int := if signed ∧ 2 * n ≥ 256 ^ w then (n : Int) - 256 ^ w else n

/-- `ParseInteger`, `.h:84-93`. -/
def parseInt (signed : Bool) (w : Nat) (s : List Nat) : R (Int × List Nat) :=
  (read w s).bind fun r => .ok (toInt signed w (ofLe (flip r.1)), r.2)

/-! ## Lengths -/

/-- Conversion to an integer type of `w` bytes. -/
def cast (signed : Bool) (w : Nat) (v : Int) : Int := toInt signed w (v % 256 ^ w).toNat

/-- `std::numeric_limits::min` and `max`. -/
def minOf (signed : Bool) (w : Nat) : Int := if signed then -(256 ^ w / 2 : Nat) else 0
def maxOf (signed : Bool) (w : Nat) : Int := if signed then (256 ^ w / 2 : Nat) - 1 else (256 ^ w : Nat) - 1

/-- `CheckIntType<T, FROM>`, `.h:199-204`, with `FROM` given by `fs` and `fw` and `T` by `ts` and `tw`. -/
def checkInt (fs : Bool) (fw : Nat) (ts : Bool) (tw : Nat) (obj : Int) : Bool :=
  let lo := if !fs && fw == tw then minOf fs fw else minOf ts tw
  let hi := if fs && fw == tw then maxOf fs fw else maxOf ts tw
  obj ≥ cast fs fw lo && obj ≤ cast fs fw hi

/-- `GetIntType`, `.h:206-215`. -/
def intType (fs : Bool) (fw : Nat) (obj : Int) : Nat :=
  if checkInt fs fw false 1 obj then 85
  else if checkInt fs fw true 1 obj then 105
  else if checkInt fs fw true 2 obj then 73
  else if checkInt fs fw true 4 obj then 108
  else if checkInt fs fw true 8 obj then 76
  else 72

/-- The constructor `UBJSONTuple(TYPE_NONE, n)` for an `int64_t` (`.h:50-75`) followed by `Write(s, TYPE_NONE)` (`.cpp:142-143, 192-197`): `WriteLength`, `.h:217-221`. `TYPE_BIGNUM` does not occur (`C60_contains`). -/
def writeLength (n : Int) : List Nat :=
  let t := intType true 8 n
  t :: (if t = 85 then writeInt 1 (cast false 1 n) else if t = 105 then writeInt 1 (cast true 1 n) else if t = 73 then writeInt 2 (cast true 2 n)
    else if t = 108 then writeInt 4 (cast true 4 n) else writeInt 8 n)

/-- The check at the end of `ParseLength`, `.cpp:99-101`. -/
def nonneg (r : Int × List Nat) : R (Int × List Nat) := if r.1 < 0 then .reject else .ok r

/-- `ParseLength`, `.cpp:79-102`. -/
def parseLength : List Nat → R (Int × List Nat)
  | [] => .reject
  | b :: s =>
    if b = 67 ∨ b = 105 then (parseInt true 1 s).bind nonneg
    else if b = 85 then (parseInt false 1 s).bind nonneg
    else if b = 73 then (parseInt true 2 s).bind nonneg
    else if b = 108 then (parseInt true 4 s).bind nonneg
    else if b = 76 then (parseInt true 8 s).bind nonneg
    else if b = 78 then parseLength s
    else .reject

/-- The second half of `ParseTypeCount`, `.cpp:113-120`. -/
def parseCount (type : Nat) (s : List Nat) : R ((Nat × Int) × List Nat) :=
  if s.head? = some 35 then (parseLength s.tail).bind fun r => .ok ((type, r.1), r.2)
  else if type ≠ 0 then .reject
  else .ok ((0, -1), s)

/-- `ParseTypeCount`, `.cpp:104-121`. At the end of the stream `TYPE(s.get())` is `TYPE(-1)`, and the missing count makes it throw. -/
def parseTypeCount (s : List Nat) : R ((Nat × Int) × List Nat) :=
  if s.head? = some 36 then
    match s.tail with
    | [] => .reject
    | t :: s => parseCount t s
  else parseCount 0 s

/-- `WriteTypeCount`, `.cpp:123-138`, for a count that is not negative. -/
def writeTypeCount (type : Nat) (count : Nat) : List Nat := (if type ≠ 0 then [36, type] else []) ++ 35 :: writeLength count

/-! ## Writing -/

/-- The common type of the elements, or `TYPE_NONE` (`.cpp:162-168`, `:178-184`). -/
def common : List Nat → Nat
  | [] => 0
  | t :: m => if m.all (· == t) then t else 0

def tags (l : List V) : List Nat := l.map V.tag
def tagsO (l : List (List Nat × V)) : List Nat := l.map fun p => p.2.tag

mutual
/-- `Write`, `.cpp:140-207`; the assertion that the type is the expected one holds. -/
def write : V → Nat → List Nat
  | .null, type => if type = 0 then [90] else []
  | .tru, type => if type = 0 then [84] else []
  | .fls, type => if type = 0 then [70] else []
  | .noop, type => if type = 0 then [78] else []
  | .chr v, type => (if type = 0 then [67] else []) ++ writeInt 1 v
  | .i8 v, type => (if type = 0 then [105] else []) ++ writeInt 1 v
  | .u8 v, type => (if type = 0 then [85] else []) ++ writeInt 1 v
  | .i16 v, type => (if type = 0 then [73] else []) ++ writeInt 2 v
  | .i32 v, type => (if type = 0 then [108] else []) ++ writeInt 4 v
  | .i64 v, type => (if type = 0 then [76] else []) ++ writeInt 8 v
  | .f32 b, type => (if type = 0 then [100] else []) ++ writeInt 4 b
  | .f64 b, type => (if type = 0 then [68] else []) ++ writeInt 8 b
  | .str m, type => (if type = 0 then [83] else []) ++ (writeLength m.length ++ m)
  | .big m, type => (if type = 0 then [72] else []) ++ (writeLength m.length ++ m)
  | .arr l, type => (if type = 0 then [91] else []) ++
    (if l.isEmpty then [93] else writeTypeCount (common (tags l)) l.length ++ writeL l (common (tags l)))
  | .obj l, type => (if type = 0 then [123] else []) ++
    (if l.isEmpty then [125] else writeTypeCount (common (tagsO l)) l.length ++ writeO l (common (tagsO l)))

/-- `.cpp:170-171`. -/
def writeL : List V → Nat → List Nat
  | [], _ => []
  | v :: l, type => write v type ++ writeL l type

/-- `.cpp:186-191`. -/
def writeO : List (List Nat × V) → Nat → List Nat
  | [], _ => []
  | p :: l, type => writeP p type ++ writeO l type

def writeP : (List Nat × V) → Nat → List Nat
  | (k, v), type => writeLength k.length ++ (k ++ write v type)
end

/-! ## Parsing -/

/-- `.h:99-104`: the type, skipping no-ops. At the end `TYPE(s.get())` is `TYPE(-1)`, which is rejected by the switch. -/
def getType : List Nat → R (Nat × List Nat)
  | [] => .reject
  | [b] => .ok (b, [])
  | b :: c :: s => if b = 78 then getType (c :: s) else .ok (b, c :: s)

/-- `.h:177-185`. -/
def parseString (s : List Nat) : R (List Nat × List Nat) := (parseLength s).bind fun r => read r.1.toNat r.2

/-- The cases without nested values (`.h:106-113, 169-185`). -/
def leaf (t : Nat) (s : List Nat) : R (V × List Nat) :=
  if t = 78 then .ok (.noop, s)
  else if t = 90 then .ok (.null, s)
  else if t = 84 then .ok (.tru, s)
  else if t = 70 then .ok (.fls, s)
  else if t = 67 then (parseInt true 1 s).bind fun r => .ok (.chr r.1, r.2)
  else if t = 105 then (parseInt true 1 s).bind fun r => .ok (.i8 r.1, r.2)
  else if t = 85 then (parseInt false 1 s).bind fun r => .ok (.u8 r.1, r.2)
  else if t = 73 then (parseInt true 2 s).bind fun r => .ok (.i16 r.1, r.2)
  else if t = 108 then (parseInt true 4 s).bind fun r => .ok (.i32 r.1, r.2)
  else if t = 76 then (parseInt true 8 s).bind fun r => .ok (.i64 r.1, r.2)
  else if t = 100 then (parseInt false 4 s).bind fun r => .ok (.f32 r.1.toNat, r.2)
  else if t = 68 then (parseInt false 8 s).bind fun r => .ok (.f64 r.1.toNat, r.2)
  else if t = 72 then (parseString s).bind fun r => .ok (.big r.1, r.2)
  else if t = 83 then (parseString s).bind fun r => .ok (.str r.1, r.2)
  else .reject

/-- The condition of the loops over elements, `.h:121, 145`. -/
def more (count : Int) (stop : Nat) (s : List Nat) : Bool := !s.isEmpty && (count > 0 || count < 0) && (count > 0 || s.head? != some stop)

/-- `.h:135-136, 163-164`: eat the closing symbol. -/
def close (count : Int) (stop : Nat) (s : List Nat) : List Nat := if count < 0 ∧ s.head? = some stop then s.tail else s

mutual
/-- `Parse` without callbacks, `.h:95-188`; the first argument is fuel. -/
def parse : Nat → Nat → List Nat → R (V × List Nat)
  | 0, _, _ => .fuel
  | n + 1, ty, s => (if ty = 0 then getType s else .ok (ty, s)).bind fun r =>
    if r.1 = 91 then (parseTypeCount r.2).bind fun c => (elems n c.1.1 c.1.2 c.2).bind fun e => .ok (.arr e.1, e.2)
    else if r.1 = 123 then (parseTypeCount r.2).bind fun c => (fields n c.1.1 c.1.2 c.2).bind fun e => .ok (.obj e.1, e.2)
    else leaf r.1 r.2

/-- The loop of `.h:121-136`. -/
def elems : Nat → Nat → Int → List Nat → R (List V × List Nat)
  | 0, _, _, _ => .fuel
  | n + 1, ty, count, s =>
    if more count 93 s then (parse n ty s).bind fun r => (elems n ty (count - 1) r.2).bind fun e => .ok (r.1 :: e.1, e.2)
    else .ok ([], close count 93 s)

/-- The loop of `.h:145-164`. -/
def fields : Nat → Nat → Int → List Nat → R (List (List Nat × V) × List Nat)
  | 0, _, _, _ => .fuel
  | n + 1, ty, count, s =>
    if more count 125 s then
      (parseString s).bind fun k => (parse n ty k.2).bind fun r => (fields n ty (count - 1) r.2).bind fun e => .ok ((k.1, r.1) :: e.1, e.2)
    else .ok ([], close count 125 s)
end

end Verif.Ubjson
