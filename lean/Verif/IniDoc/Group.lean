import Verif.Ini.Spec

/-!
# Model of the node lists of an INI storage (`/repo/bss-util/INIstorage.cpp:84-101`, `:136-198`, `:244-269`, `:352-385`; `/repo/bss-util/INIsection.cpp:45-99`, `:125-144`)

The same code is written twice, for the sections of a storage and for the entries of a section: a list of nodes, a hash from names (ignoring case) to the first node of each
name, and in that node an array of the others of its name. Nodes are numbers; the memory maps them to their contents, freed nodes to nothing, and reading those is the outcome
`none`. The list is the sequence of its nodes (the link operations are the ones of `Verif.Linked`). The hash is a map (its buckets are the ones of `Verif.Hash`) from lower-case
names to the node and whether the key is gone: the hash keeps a pointer to the characters of the name of the first node; when a name longer than 15 characters, which a
`std::string` does not keep in itself, is overwritten, they are freed, and a further look-up of the name compares with them. (A look-up of another name may compare with them too,
if it meets this bucket; that is left out.) The hash holds no null pointers. Allocation does not fail.
-/

namespace Verif.IniDoc

open Verif.Ini.Spec (fold)

/-- `_INInode`, `INIsection.h:22-26`, with the name and the index (which entries do not have) of its value. -/
structure Node (V : Type) where
  key : List Int
  val : V
  idx : Nat
  inst : List Nat

/-- The members `_root`, `_last`, `_sections` of `INIstorage`, `INIstorage.h:75-81`, or `_root`, `_last`, `_entries` of `INIsection`, `INIsection.h:82-84`; `fresh` is the next node
allocated. -/
structure Grp (V : Type) where
  mem : Nat → Option (Node V)
  order : List Nat
  table : List Int → Option (Nat × Bool)
  fresh : Nat

variable {V : Type}

/-- Changes a function at one place. -/
def upd {A B : Type} [DecidableEq A] (f : A → B) (a : A) (b : B) : A → B := fun x => if x = a then b else f x

/-- An empty storage or section. -/
def Grp.empty : Grp V := ⟨fun _ => none, [], fun _ => none, 0⟩

/-- `_sections.Iterator(name)` and `_sections.Value(iter)`: `none` if a freed key is compared, `some none` if the name is not in the hash. -/
def Grp.find (g : Grp V) (name : List Int) : Option (Option Nat) :=
  match g.table (fold name) with
  | none => some none
  | some (r, gone) => if gone = true then none else some (some r)

/-- `LLInsertAfter`, `LLBase.h:63-70`. -/
def insAfter (p t : Nat) : List Nat → List Nat
  | [] => []
  | x :: l => if x = t then x :: p :: l else x :: insAfter p t l

/-- `_addSection`, `INIstorage.cpp:136-163`, and `_addEntry`, `INIsection.cpp:76-99`: the new state and node. -/
def Grp.add (g : Grp V) (name : List Int) (v : V) : Option (Grp V × Nat) :=
  match g.find name with
  | none => none
  | some none =>
    some (⟨upd g.mem g.fresh (some ⟨name, v, 0, []⟩), g.order ++ [g.fresh], upd g.table (fold name) (some (g.fresh, false)), g.fresh + 1⟩, g.fresh)
  | some (some r) =>
    match g.mem r with
    | none => none
    | some n =>
      let t := n.inst.getLast?.getD r
      let inst := n.inst ++ [g.fresh]
      some (⟨upd (upd g.mem r (some { n with inst := inst })) g.fresh (some ⟨name, v, inst.length, []⟩), insAfter g.fresh t g.order, g.table, g.fresh + 1⟩, g.fresh)

/-- `GetSectionNode`, `INIstorage.cpp:84-90`, and `GetEntryNode`, `INIsection.cpp:125-131`; `some none` is the null pointer. -/
def Grp.getNode (g : Grp V) (name : List Int) (instance_ : Nat) : Option (Option Nat) :=
  match g.find name with
  | none => none
  | some none => some none
  | some (some r) =>
    match g.mem r with
    | none => none
    | some n => if instance_ = 0 then some (some r) else if instance_ > n.inst.length then some none else some n.inst[instance_ - 1]?

/-- `GetSection`, `INIstorage.cpp:91-95`, and `GetEntryPtr`, `INIsection.cpp:133-137`. -/
def Grp.get (g : Grp V) (name : List Int) (instance_ : Nat) : Option (Option V) :=
  match g.getNode name instance_ with
  | none => none
  | some none => some none
  | some (some p) => (g.mem p).map fun n => some n.val

/-- `GetNumSections`, `INIstorage.cpp:96-101`, and `GetNumEntries`, `INIsection.cpp:139-144`. -/
def Grp.count (g : Grp V) (name : List Int) : Option Nat :=
  match g.find name with
  | none => none
  | some none => some 0
  | some (some r) => (g.mem r).map fun n => n.inst.length + 1

/-- Assigns the value of a node. -/
def Grp.setVal (g : Grp V) (p : Nat) (v : V) : Option (Grp V) := (g.mem p).map fun n => { g with mem := upd g.mem p (some { n with val := v }) }

/-- The loop over the later instances, `INIstorage.cpp:194`. -/
def shiftIdx (mem : Nat → Option (Node V)) : List Nat → Option (Nat → Option (Node V))
  | [] => some mem
  | p :: l => match mem p with
    | none => none
    | some n => shiftIdx (upd mem p (some { n with idx := n.idx - 1 })) l

/-- The node after `p` in the list. -/
def nextOf (p : Nat) : List Nat → Option Nat
  | [] => none
  | x :: l => if x = p then l.head? else nextOf p l

/-- The part of `RemoveSection`, `INIstorage.cpp:173-198`, and of `EditEntry`, `:244-248` and `:254-269`, that removes a node: `some none` if there is no such instance. The first
node of a name with others takes over the value of the next node, which is removed in its place. -/
def Grp.remove (g : Grp V) (name : List Int) (instance_ : Nat) : Option (Option (Grp V)) :=
  match g.find name with
  | none => none
  | some none => some none
  | some (some root) =>
    match g.mem root with
    | none => none
    | some n =>
      if instance_ > n.inst.length then some none
      else if instance_ = 0 ∧ n.inst.length > 0 then
        match nextOf root g.order with
        | none => none
        | some nx =>
          match g.mem nx with
          | none => none
          | some m =>
            let inst := n.inst.eraseIdx 0
            let mem := upd g.mem root (some ⟨m.key, m.val, 0, inst⟩)
            (shiftIdx mem inst).map fun mem => some ⟨upd mem nx none, g.order.erase nx, upd g.table (fold name) (some (root, decide (15 < n.key.length))), g.fresh⟩
      else if instance_ = 0 then some (some ⟨upd g.mem root none, g.order.erase root, upd g.table (fold name) none, g.fresh⟩)
      else
        match n.inst[instance_ - 1]? with
        | none => none
        | some p =>
          let inst := n.inst.eraseIdx (instance_ - 1)
          let mem := upd g.mem root (some { n with inst := inst })
          (shiftIdx mem (inst.drop (instance_ - 1))).map fun mem => some ⟨upd mem p none, g.order.erase p, g.table, g.fresh⟩

/-- The loop of `_copy`, `INIstorage.cpp:358-384` and `INIsection.cpp:51-73`: the rest of the list copied, the memory, the list and hash of the copy, the next free node, `last`
and `c`. The array of a copied node is allocated and not written: its elements are `junk`. `last` is a node of the source. -/
def copyLoop (junk : Nat) : List Nat → Grp V → Option Nat → Nat → Option (Grp V)
  | [], g, _, _ => some g
  | t :: ts, g, last, c =>
    match g.mem t with
    | none => none
    | some n =>
      let p := g.fresh
      let order := g.order ++ [p]
      let mem := upd g.mem p (some ⟨n.key, n.val, n.idx, List.replicate n.inst.length junk⟩)
      if n.inst.length ≠ 0 then copyLoop junk ts ⟨mem, order, upd g.table (fold n.key) (some (p, false)), p + 1⟩ (some t) (n.inst.length - 1)
      else if c > 0 then
        match last with
        | none => none
        | some l => match mem l with
          | none => none
          | some m => copyLoop junk ts ⟨upd mem l (some { m with inst := m.inst.set (m.inst.length - c - 1) p }), order, g.table, p + 1⟩ last (c - 1)
      else copyLoop junk ts ⟨mem, order, upd g.table (fold n.key) (some (p, false)), p + 1⟩ last c

/-- `_copy`, `INIstorage.cpp:352-385` and `INIsection.cpp:45-74`, of a storage or section into an empty one: the source afterwards, and the copy. Both use the same memory. `Insert`
assigns the value if the key is there. -/
def Grp.copy (g : Grp V) (junk : Nat) : Option (Grp V × Grp V) :=
  (copyLoop junk g.order ⟨g.mem, [], fun _ => none, g.fresh⟩ none 0).map fun d => ({ g with mem := d.mem, fresh := d.fresh }, d)

/-- Operations on the sections of a storage or the entries of a section. -/
inductive Op (V : Type) where
  | add (name : List Int) (x : V)
  | remove (name : List Int) (i : Nat)
  | set (name : List Int) (i : Nat) (x : V)

/-- The name an operation is about. -/
def Op.name : Op V → List Int
  | .add n _ => n
  | .remove n _ => n
  | .set n _ _ => n

/-- One operation; removing or setting what is not there changes nothing. -/
def Grp.step (g : Grp V) : Op V → Option (Grp V)
  | .add n x => (g.add n x).map Prod.fst
  | .remove n i => (g.remove n i).map fun o => o.getD g
  | .set n i x => match g.getNode n i with
    | none => none
    | some none => some g
    | some (some p) => g.setVal p x

end Verif.IniDoc
