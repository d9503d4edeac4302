import Verif.Arith.Pow2

/-!
# `Hash` (`include/bss-util/Hash.h`, with the macros of `include/bss-util/khash.h`)

Buckets are indexed by natural numbers; every index used is `… & mask` with `mask = n_buckets - 1` and `n_buckets` a power
of two, written `… % n`.  A bucket's flag byte and its key/value are one `Slot` (flag 2 is empty, 1 is deleted, 0 is in
use); during `_resize`, where the code has two flag arrays over one key array, the model has them too.  Keys and values are
abstract (construction, moving and destruction of them is not modelled), allocation does not fail.  Loops carry a bound on
the number of their iterations; `none` means the loop was still running at the bound (or read a key that is not there).
The table holds at most `2^31` buckets (`kroundup32` wraps beyond that).
-/

namespace Verif.Hash

/-- One bucket: `khash.h:167-173`. -/
inductive Slot (κ δ : Type) where
  | empty
  | del
  | full (k : κ) (v : δ)
deriving DecidableEq, Repr

variable {κ δ : Type}

/-- The key and value of a bucket in use (`__ac_iseither` is 0). -/
def Slot.kv : Slot κ δ → Option (κ × δ)
  | .full k v => some (k, v)
  | _ => none

/-- `!__ac_isempty`. -/
def Slot.used : Slot κ δ → Bool
  | .empty => false
  | _ => true

/-- `Hash.h:636-639`. -/
structure Tbl (κ δ : Type) where
  n : Nat
  size : Nat
  occ : Nat
  upper : Nat
  slot : Nat → Slot κ δ

/-- `(khint_t)(n * 0.77 + 0.5)` (`Hash.h:458`, `:523`).  For powers of two up to `2^31` the floating-point result is this
quotient: `77 n / 100` is never within `1/100` of a half-integer, and the rounding error is below `10^-6`. -/
def upperBound (n : Nat) : Nat := (77 * n + 50) / 100

/-- Array store. -/
def upd {β : Type} (f : Nat → β) (i : Nat) (v : β) : Nat → β := fun j => if j = i then v else f j

/-- The loop at `Hash.h:495`: the first bucket on the probe sequence that is empty in the new flags. -/
def probeEmpty (used : Nat → Bool) (m : Nat) : Nat → Nat → Nat → Option Nat
  | 0, _, _ => none
  | f + 1, i, step => if used i then probeEmpty used m f ((i + (step + 1)) % m) (step + 1) else some i

/-- The arrays during a rehash: keys and values, old flags (`live` is "in use"), new flags. -/
structure R (κ δ : Type) where
  keys : Nat → Option (κ × δ)
  live : Nat → Bool
  used : Nat → Bool

/-- `Hash.h:490-509`: the kick-out loop; `n` old buckets, `m` new ones, `kv` in hand. -/
def kick (H : κ → Nat) (n m : Nat) : Nat → R κ δ → κ × δ → Option (R κ δ)
  | 0, _, _ => none
  | f + 1, r, kv =>
    (probeEmpty r.used m m (H kv.1 % m) 0).bind fun i =>
      if i < n ∧ r.live i = true then
        (r.keys i).bind fun kv' =>
          kick H n m f ⟨upd r.keys i (some kv), upd r.live i false, upd r.used i true⟩ kv'
      else some ⟨upd r.keys i (some kv), r.live, upd r.used i true⟩

/-- `Hash.h:480-511`: the loop over the old buckets. -/
def rehash (H : κ → Nat) (n m : Nat) : List Nat → R κ δ → Option (R κ δ)
  | [], r => some r
  | j :: js, r =>
    if r.live j = true then
      (r.keys j).bind fun kv =>
        (kick H n m (n + 1) ⟨r.keys, upd r.live j false, r.used⟩ kv).bind fun r => rehash H n m js r
    else rehash H n m js r

/-- The number of buckets `_resize` goes for (`Hash.h:456-457`). -/
def target (c : Nat) : Nat := if Arith.nextPow2 5 c < 4 then 32 else Arith.nextPow2 5 c

/-- A bucket after the rehash. -/
def slotOf (used : Bool) (kv : Option (κ × δ)) : Slot κ δ :=
  if used then (kv.map fun p => Slot.full p.1 p.2).getD .empty else .empty

/-- `Hash.h:451-526` `_resize`. -/
def resize (H : κ → Nat) (c : Nat) (t : Tbl κ δ) : Option (Tbl κ δ) :=
  if t.size ≥ upperBound (target c) then some t
  else
    (rehash H t.n (target c) (List.range t.n)
      ⟨fun i => (t.slot i).kv, fun i => (t.slot i).kv.isSome, fun _ => false⟩).map fun r =>
      ⟨target c, t.size, t.size, upperBound (target c), fun i => slotOf (r.used i) (r.keys i)⟩

/-- The bucket holds a key that `HashEqual` calls equal. -/
def Slot.holds (eq : κ → κ → Bool) (k : κ) : Slot κ δ → Bool
  | .full k' _ => eq k' k
  | _ => false

/-- `Hash.h:592-596`: the loop of `_get`; returns `n` for "not found" (`:597`). -/
def getLoop (eq : κ → κ → Bool) (k : κ) (t : Tbl κ δ) (last : Nat) : Nat → Nat → Nat → Option Nat
  | 0, _, _ => none
  | f + 1, i, step =>
    if (t.slot i).used = false ∨ (t.slot i).holds eq k = true then
      some (if (t.slot i).kv.isSome then i else t.n)
    else if (i + (step + 1)) % t.n = last then some t.n
    else getLoop eq k t last f ((i + (step + 1)) % t.n) (step + 1)

/-- `Hash.h:584-600` `_get`, `Iterator` (`:225`). -/
def iter (H : κ → Nat) (eq : κ → κ → Bool) (k : κ) (t : Tbl κ δ) : Option Nat :=
  if t.n = 0 then some 0 else getLoop eq k t (H k % t.n) t.n (H k % t.n) 0

/-- `Hash.h:548-565`: where `_put` puts a key (`site` is the last deleted bucket passed). -/
def putLoop (eq : κ → κ → Bool) (k : κ) (t : Tbl κ δ) (last : Nat) : Nat → Nat → Nat → Nat → Option Nat
  | 0, _, _, _ => none
  | f + 1, i, step, site =>
    if (t.slot i).used = false ∨ (t.slot i).holds eq k = true then
      some (if (t.slot i).used = false ∧ site ≠ t.n then site else i)
    else
      if (i + (step + 1)) % t.n = last then
        some (if (if (t.slot i).kv.isNone then i else site) = t.n then (i + (step + 1)) % t.n
          else if (t.slot i).kv.isNone then i else site)
      else putLoop eq k t last f ((i + (step + 1)) % t.n) (step + 1) (if (t.slot i).kv.isNone then i else site)

/-- `Hash.h:532-545`: making room. -/
def room (H : κ → Nat) (t : Tbl κ δ) : Option (Tbl κ δ) :=
  if t.occ ≥ t.upper then
    if t.n > t.size * 2 then resize H (t.n - 1) t else resize H (t.n + 1) t
  else some t

/-- `Hash.h:567-581` and `_insert` (`:438-448`): filling bucket `x`. -/
def fill (k : κ) (v : δ) (t : Tbl κ δ) (x : Nat) : Tbl κ δ :=
  match t.slot x with
  | .empty => ⟨t.n, t.size + 1, t.occ + 1, t.upper, upd t.slot x (.full k v)⟩
  | .del => ⟨t.n, t.size + 1, t.occ, t.upper, upd t.slot x (.full k v)⟩
  | .full k' _ => { t with slot := upd t.slot x (.full k' v) }

/-- `Hash.h:194-205` `Insert`, `_insert` (`:438-448`) with `_put` (`:529-583`); also returns the iterator. -/
def insert (H : κ → Nat) (eq : κ → κ → Bool) (k : κ) (v : δ) (t : Tbl κ δ) : Option (Tbl κ δ × Nat) :=
  (room H t).bind fun t =>
    (putLoop eq k t (H k % t.n) t.n (H k % t.n) 0 t.n).map fun x => (fill k v t x, x)

/-- `Hash.h:289` `ExistsIter`. -/
def existsIter (i : Nat) (t : Tbl κ δ) : Bool := i < t.n ∧ (t.slot i).kv.isSome

/-- `Hash.h:290` `Exists`. -/
def exist (H : κ → Nat) (eq : κ → κ → Bool) (k : κ) (t : Tbl κ δ) : Option Bool := (iter H eq k t).map fun i => existsIter i t

/-- `Hash.h:227-247` `Get`; `none` inside stands for the "not found" value. -/
def get (H : κ → Nat) (eq : κ → κ → Bool) (k : κ) (t : Tbl κ δ) : Option (Option δ) :=
  (iter H eq k t).map fun i => if existsIter i t then (t.slot i).kv.map (·.2) else none

/-- Storing a value in a bucket in use. -/
def setAt (i : Nat) (v : δ) (t : Tbl κ δ) : Tbl κ δ :=
  match t.slot i with
  | .full k _ => { t with slot := upd t.slot i (.full k v) }
  | _ => t

/-- `Hash.h:263-266` `Set`, `_setvalue` (`:450`). -/
def set (H : κ → Nat) (eq : κ → κ → Bool) (k : κ) (v : δ) (t : Tbl κ δ) : Option (Tbl κ δ × Bool) :=
  (iter H eq k t).map fun i => if existsIter i t then (setAt i v t, true) else (t, false)

/-- `Hash.h:601-611` `_delete`. -/
def delete (x : Nat) (t : Tbl κ δ) : Tbl κ δ :=
  if x ≠ t.n ∧ (t.slot x).kv.isSome then ⟨t.n, t.size - 1, t.occ, t.upper, upd t.slot x .del⟩ else t

/-- `Hash.h:268-276` `Remove`. -/
def remove (H : κ → Nat) (eq : κ → κ → Bool) (k : κ) (t : Tbl κ δ) : Option (Tbl κ δ × Bool) :=
  (iter H eq k t).map fun i => if t.n = i then (t, false) else (delete i t, true)

/-- `Hash.h:277-284` `RemoveIter`. -/
def removeIter (i : Nat) (t : Tbl κ δ) : Tbl κ δ × Bool := if existsIter i t then (delete i t, true) else (t, false)

/-- `Hash.h:207-224` `Clear`. -/
def clear (t : Tbl κ δ) : Tbl κ δ := ⟨t.n, 0, 0, t.upper, fun _ => .empty⟩

/-- `Hash.h:267` `SetCapacity`. -/
def setCapacity (H : κ → Nat) (c : Nat) (t : Tbl κ δ) : Option (Tbl κ δ) := if t.n < c then resize H c t else some t

/-- `Hash.h:183-187`: a new table. -/
def new : Tbl κ δ := ⟨0, 0, 0, 0, fun _ => .empty⟩

/-- `Hash.h:412-436` `_docopy`: size the table, copy the flags and the buckets in use. -/
def docopy (H : κ → Nat) (src t : Tbl κ δ) : Option (Tbl κ δ) :=
  (resize H src.n t).map fun t => ⟨t.n, src.size, src.occ, src.upper, src.slot⟩

/-- `Hash.h:306-317`: copy assignment from another table. -/
def assign (H : κ → Nat) (src t : Tbl κ δ) : Option (Tbl κ δ) :=
  if src.n = 0 then some new else docopy H src (clear t)

/-- `Hash.h:306-317` when `this == &copy`: the table is cleared before it is read. -/
def assignSelf (H : κ → Nat) (t : Tbl κ δ) : Option (Tbl κ δ) :=
  if (clear t).n = 0 then some new else docopy H (clear t) (clear t)

/-- `Hash.h:330-372`: the buckets visited by iteration, in order. -/
def entries {β : Type} (f : Nat → Option β) (n : Nat) : List β := (List.range n).filterMap f

/-- Iteration over a table. -/
def Tbl.entries (t : Tbl κ δ) : List (κ × δ) := Hash.entries (fun i => (t.slot i).kv) t.n

end Verif.Hash
