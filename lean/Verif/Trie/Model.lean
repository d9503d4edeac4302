import Verif.Heap.Model
import Verif.Sorted.Model

/-!
# `Trie` (`include/bss-util/Trie.h`)

Words are lists of bytes without the terminating zero.  `fold` is `tolower` for `IGNORECASE` and the identity otherwise.
The pair of a pointer to a word and the current `level` is the rest of the word from that level; reading at the end gives
the terminator 0, going past it is undefined (`none`).  `T` is an unsigned type of `w` bits narrower than `int` (`w = 8` by
default), so that `r + 1` is computed in `int`; every other operation on `T` is reduced modulo `2^w`.  Array accesses are
checked against the capacity.  `assert`s are not modelled.
-/

namespace Verif.Trie

/-- `Trie.h:15-21`. -/
structure Node where
  chr : Nat
  child : Nat
  clen : Nat
  word : Nat
deriving DecidableEq, Repr

/-- `Trie.h:129-132`: a node after `_fill`. -/
def blank (w : Nat) : Node := ⟨0, 2 ^ w - 1, 0, 2 ^ w - 1⟩

/-- The array of nodes: capacity and contents. -/
structure Mem where
  cap : Nat
  node : Nat → Node

/-- A checked store. -/
def wr (m : Mem) (i : Nat) (x : Node) : Option Mem :=
  if i < m.cap then some ⟨m.cap, fun j => if j = i then x else m.node j⟩ else none

/-- A checked load. -/
def rd (m : Mem) (i : Nat) : Option Node := if i < m.cap then some (m.node i) else none

/-- `Trie.h:125-134` `_fill`. -/
def fill (w s e : Nat) (f : Nat → Node) : Nat → Node := fun i => if s ≤ i ∧ i < e then blank w else f i

/-- `Trie.h:135` `_checkSize`. -/
def checkSize (w r : Nat) (m : Mem) : Mem :=
  if r ≥ m.cap then ⟨2 * m.cap % 2 ^ w, fill w m.cap (2 * m.cap % 2 ^ w) m.node⟩ else m

/-- A word to insert: its index and the rest of its letters. -/
abbrev Word := Nat × List Nat

/-- `str[i].second[level]`, folded. -/
def letter (fold : Nat → Nat) (s : Word) : Nat := fold (s.2.headD 0)

/-- `Trie.h:152-159`: the first pass; `l` is the last letter. -/
def pass1 (w : Nat) (fold : Nat → Nat) : List Word → Nat → Nat → Mem → Option (Mem × Nat)
  | [], _, r, m => some (m, r)
  | s :: ss, l, r, m =>
    if l ≠ letter fold s then
      (rd (checkSize w ((r + 1) % 2 ^ w) m) ((r + 1) % 2 ^ w)).bind fun x =>
        (wr (checkSize w ((r + 1) % 2 ^ w) m) ((r + 1) % 2 ^ w) { x with chr := letter fold s, clen := (x.clen + 1) % 2 ^ w }).bind fun m =>
          pass1 w fold ss (letter fold s) ((r + 1) % 2 ^ w) m
    else
      (rd m r).bind fun x => (wr m r { x with clen := (x.clen + 1) % 2 ^ w }).bind fun m => pass1 w fold ss l r m

/-- Advancing a level. -/
def advance : List Word → Option (List Word)
  | [] => some []
  | (ix, _ :: s) :: ss => (advance ss).map ((ix, s) :: ·)
  | (_, []) :: _ => none

/-- `Trie.h:165-170`: the second pass over `k` nodes from `i`; `go` is the recursive call.  A node that counts more words than
are left is an error here (the code would go on with words that belong elsewhere). -/
def pass2 (go : List Word → Nat → Mem → Option (Mem × Nat)) : Nat → Nat → List Word → Nat → Mem → Option (Mem × Nat)
  | 0, _, _, r, m => some (m, r)
  | k + 1, i, ss, r, m =>
    (rd m i).bind fun x => (wr m i { x with child := r }).bind fun m =>
      (if x.clen ≤ ss.length then advance (ss.take x.clen) else none).bind fun sub => (go sub r m).bind fun p =>
        (rd p.1 i).bind fun y => pass2 go k (i + 1) (ss.drop y.clen) p.2 p.1

/-- `Trie.h:143-149`: a word that ends here. -/
def ending (w : Nat) (fold : Nat → Nat) (ss : List Word) (r : Nat) (m : Mem) : Option (Mem × List Word) :=
  match ss with
  | [] => none
  | s :: ss =>
    if letter fold s = 0 then
      (rd (checkSize w ((r + 1) % 2 ^ w) m) (r + 1)).bind fun x =>
        (wr (checkSize w ((r + 1) % 2 ^ w) m) (r + 1) { x with word := s.1 }).map fun m => (m, ss)
    else some (m, s :: ss)

/-- `Trie.h:136-174` `_init`, with a bound on the depth of recursion. -/
def init (w : Nat) (fold : Nat → Nat) : Nat → List Word → Nat → Mem → Option (Mem × Nat)
  | 0, _, _, _ => none
  | f + 1, ss, cnt, m =>
    (ending w fold ss ((cnt + 2 ^ w - 1) % 2 ^ w) m).bind fun p =>
      (pass1 w fold p.2 0 ((cnt + 2 ^ w - 1) % 2 ^ w) p.1).bind fun q =>
        (pass2 (init w fold f) ((q.2 + 1) % 2 ^ w - cnt) cnt p.2 ((q.2 + 1) % 2 ^ w) q.1).bind fun t =>
          (rd t.1 cnt).bind fun x =>
            (wr t.1 cnt { x with clen := (q.2 + 1) % 2 ^ w - cnt }).map fun m =>
              (m, if (q.2 + 1) % 2 ^ w - cnt = 0 then 1 + t.2 else t.2)

/-- `strcmp` (unsigned bytes, `compare.h:46-50`) after folding (`strcasecmp`, `compare.h:52-56`). -/
def cmpStr (fold : Nat → Nat) : List Nat → List Nat → Int
  | [], [] => 0
  | [], _ :: _ => -1
  | _ :: _, [] => 1
  | a :: s, b :: t => if fold a < fold b then -1 else if fold b < fold a then 1 else cmpStr fold s t

/-- `CompTSecond` (`compare.h:37`). -/
def cmpWord (fold : Nat → Nat) (a b : Word) : Int := cmpStr fold a.2 b.2

/-- The pairs of index and word (`Trie.h:116-120`). -/
def number : Nat → List (List Nat) → List Word
  | _, [] => []
  | i, s :: ss => (i, s) :: number (i + 1) ss

/-- `Trie.h:38-48`, `:49`, `:111-124`: the constructors (`f` bounds the depth of recursion). -/
def build (w : Nat) (fold : Nat → Nat) (f : Nat) (words : List (List Nat)) : Option Mem :=
  (Heap.heapSort (cmpWord fold) (number 0 words) words.length).bind fun ss =>
    (init w fold f ss 0 ⟨words.length, fun _ => blank w⟩).map (·.1)

/-- A `char`: signed. -/
def sgn (c : Nat) : Int := if c < 128 then c else (c : Int) - 256

/-- `_CompTNode` (`Trie.h:108`). -/
def cmpNode (a b : Nat) : Int := icmp (sgn a) (sgn b)

/-- The letters of the siblings from `cur`. -/
def letters (m : Mem) (cur n : Nat) : Option (List Nat) :=
  if cur + n ≤ m.cap then some ((List.range n).map fun j => (m.node (cur + j)).chr) else none

/-- `Trie.h:64-69`: which sibling of the node at `cur` has letter `c`; `-1` for none. -/
def sibling (m : Mem) (cur c : Nat) : Option Int :=
  (rd m cur).bind fun x =>
    if x.clen > 1 then (letters m cur x.clen).bind fun l => Sorted.searchExact cmpNode l c 0 x.clen
    else if x.clen = 1 then some (if x.chr ≠ c then -1 else 0)
    else some (-1)

/-- `Trie.h:77-101` `Get(word, len)`, and `Get(word)` (`:53-76`) for a word without zero bytes; the answer `2^w - 1` is "not
found". -/
def lookup (w : Nat) (fold : Nat → Nat) (m : Mem) : List Nat → Nat → Option Nat
  | [], cur => (rd m cur).map (·.word)
  | c :: q, cur =>
    (sibling m cur (fold c)).bind fun r =>
      if r < 0 then some (2 ^ w - 1) else (rd m (cur + r.toNat)).bind fun x => lookup w fold m q x.child

/-- `Get`. -/
def get (w : Nat) (fold : Nat → Nat) (m : Mem) (q : List Nat) : Option Nat := lookup w fold m q 0

end Verif.Trie
