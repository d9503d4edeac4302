/-!
# Specification vocabulary for sorted arrays and maps (independent of the model)
-/

namespace Verif.Sorted.Spec

/-- The slots `lo ≤ i < hi` of `l` are in ascending order. -/
def SortedIn {α : Type _} (cmp : α → α → Int) (l : List α) (lo hi : Nat) : Prop :=
  ∀ i j x y, lo ≤ i → i < j → j < hi → l[i]? = some x → l[j]? = some y → cmp x y ≤ 0

/-- The whole list is ascending. -/
def Sorted {α : Type _} (cmp : α → α → Int) (l : List α) : Prop := l.Pairwise (fun x y => cmp x y ≤ 0)

/-- Comparison results are exactly -1, 0 or 1 (what `SGNCOMPARE` yields). -/
def Sgn {α β : Type _} (cmp : α → β → Int) : Prop := ∀ a b, cmp a b = -1 ∨ cmp a b = 0 ∨ cmp a b = 1

/-- Public operations of `ArraySort`. -/
inductive Op (α : Type _)
  | insert (v : α)
  | remove (i : Nat)
  | replace (i : Nat) (v : α)
  | discard (n : Nat)
  | clear

inductive Out
  | idx (i : Nat)
  | ok (b : Bool)
  deriving DecidableEq

/-- Effect of each operation on the sequence the user sees through `operator[]`. -/
inductive Step {α : Type _} : List α → Op α → Out → List α → Prop
  | insert {s} (v loc) : loc ≤ s.length → Step s (.insert v) (.idx loc) (s.take loc ++ v :: s.drop loc)
  | remove {s} (i) : i < s.length → Step s (.remove i) (.ok true) (s.take i ++ s.drop (i + 1))
  | removeBad {s} (i) : s.length ≤ i → Step s (.remove i) (.ok false) s
  | replace {s s'} (i v j) : i < s.length → s'.Perm (s.take i ++ v :: s.drop (i + 1)) → s'[j]? = some v →
      Step s (.replace i v) (.idx j) s'
  | discard {s} (n) : Step s (.discard n) (.ok true) (s.take (s.length - n))
  | clear {s} : Step s .clear (.ok true) []

inductive Run {α : Type _} : List α → List (Op α) → List Out → List α → Prop
  | nil {s} : Run s [] [] s
  | cons {s s' s'' op o ops os} : Step s op o s' → Run s' ops os s'' → Run s (op :: ops) (o :: os) s''

/-- Precondition on a history: `ReplaceData` gets a valid index. -/
def Valid {α : Type _} : Nat → List (Op α) → Prop
  | _, [] => True
  | n, .insert _ :: ops => Valid (n + 1) ops
  | n, .remove i :: ops => Valid (if i < n then n - 1 else n) ops
  | n, .replace i _ :: ops => i < n ∧ Valid n ops
  | n, .discard m :: ops => Valid (n - m) ops
  | _, .clear :: ops => Valid 0 ops

/-! ## Maps -/

/-- Public operations of `Map`. `get` is `Get` followed by reading the data at the returned index. -/
inductive MOp (κ ν : Type _)
  | insert (k : κ) (v : ν)
  | set (k : κ) (v : ν)
  | remove (k : κ)
  | get (k : κ)

/-- An abstract map: for each key, its value if present. -/
abbrev AMap (κ ν : Type _) := κ → Option ν

/-- Associate every key equal to `k` with `o`. -/
def upd {κ ν : Type _} (cmp : κ → κ → Int) (f : AMap κ ν) (k : κ) (o : Option ν) : AMap κ ν :=
  fun k' => if cmp k k' = 0 then o else f k'

/-- Abstract behaviour; the second component is what the caller learns (the value for `get`, whether the
key was found, as a value, for `remove`; nothing otherwise). -/
def mstep {κ ν : Type _} (cmp : κ → κ → Int) (f : AMap κ ν) : MOp κ ν → AMap κ ν × Option ν
  | .insert k v => (upd cmp f k (some v), none)
  | .set k v => (if (f k).isSome then upd cmp f k (some v) else f, none)
  | .remove k => (upd cmp f k none, f k)
  | .get k => (f, f k)

def mrun {κ ν : Type _} (cmp : κ → κ → Int) : AMap κ ν → List (MOp κ ν) → AMap κ ν × List (Option ν)
  | f, [] => (f, [])
  | f, op :: ops =>
    let (f', o) := mstep cmp f op
    let (f'', os) := mrun cmp f' ops
    (f'', o :: os)

/-- Precondition: the caller keeps keys distinct, i.e. inserts only absent keys. -/
def MValid {κ ν : Type _} (cmp : κ → κ → Int) : AMap κ ν → List (MOp κ ν) → Prop
  | _, [] => True
  | f, op :: ops => (match op with | .insert k _ => f k = none | _ => True) ∧ MValid cmp (mstep cmp f op).1 ops

end Verif.Sorted.Spec
