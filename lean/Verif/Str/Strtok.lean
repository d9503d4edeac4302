import Verif.Common.Mem

/-!
# Model of `strtok_r` (`/repo/bss-util/bss_util_c.c:291-332`)

The string is an array of characters (natural numbers), pointers into it are indices, a null pointer is `none`. Reading or writing outside an array is undefined
behaviour (`none`). `delim` is an array that ends with 0.
-/

namespace Verif.Str

/-- `for(spanp = delim; (sc = *spanp++) != 0;) if(c == sc) goto cont;`, `:302-306`: whether it jumps. -/
def isDelim : List Nat → Nat → Option Bool
  | [], _ => none
  | sc :: delim, c => if sc ≠ 0 then (if c = sc then some true else isDelim delim c) else some false

/-- The `do … while(sc != 0)` of `:319-330`: whether `c` is found, the final 0 included. -/
def isEnd : List Nat → Nat → Option Bool
  | [], _ => none
  | sc :: delim, c => if sc = c then some true else if sc ≠ 0 then isEnd delim c else some false

/-- From `cont:`, `:300-306`: the character after the leading delimiters and the position behind it. -/
def skip (buf delim : List Nat) (s : Nat) : Option (Nat × Nat) :=
  if _h : s < buf.length then (isDelim delim buf[s]).bind fun d => if d then skip buf delim (s + 1) else some (buf[s], s + 1)
  else none
termination_by buf.length - s

/-- The loop that scans the token, `:315-331`: the string and `*lasts` afterwards. -/
def scan (buf delim : List Nat) (s : Nat) : Option (List Nat × Option Nat) :=
  if _h : s < buf.length then (isEnd delim buf[s]).bind fun e =>
    if e then (if buf[s] = 0 then some (buf, none) else some (buf.set s 0, some (s + 1)))
    else scan buf delim (s + 1)
  else none
termination_by buf.length - s

/-- `strtok_r`, `:291-332`: the string, `*lasts` and the token returned. -/
def strtok (buf delim : List Nat) (s lasts : Option Nat) : Option (List Nat × Option Nat × Option Nat) :=
  match s.or lasts with
  | none => some (buf, lasts, none)
  | some s => (skip buf delim s).bind fun (c, s) =>
    if c = 0 then some (buf, none, none)
    else (scan buf delim s).map fun (buf, lasts) => (buf, lasts, some (s - 1))

/-- `for(t = strtok_r(s, delim, &lasts); t; t = strtok_r(nullptr, delim, &lasts))`, at most `k` calls: the tokens, the string and `lasts` afterwards. -/
def tokenize (delim : List Nat) : Nat → List Nat → Option Nat → Option Nat → Option (List Nat × List Nat × Option Nat)
  | 0, _, _, _ => none
  | k + 1, buf, s, lasts => (strtok buf delim s lasts).bind fun (buf, lasts, t) =>
    match t with
    | none => some ([], buf, lasts)
    | some t => (tokenize delim k buf none lasts).map fun (ts, r) => (t :: ts, r)

/-- The C string at a position. -/
def cstr (buf : List Nat) (p : Nat) : List Nat := (buf.drop p).takeWhile (· ≠ 0)

end Verif.Str
