/-!
# What a hash table is meant to be

A finite map from keys to values, as a list of associations with pairwise different keys; the order is irrelevant.
-/

namespace Verif.Hash.Spec

variable {κ δ : Type}

/-- Store `v` for `k`: replace the value if the key is present, else add the association. -/
def insert (eq : κ → κ → Bool) (k : κ) (v : δ) (s : List (κ × δ)) : List (κ × δ) :=
  if s.any (fun e => eq e.1 k) then s.map fun e => if eq e.1 k then (e.1, v) else e else s ++ [(k, v)]

/-- Drop the association of `k`. -/
def remove (eq : κ → κ → Bool) (k : κ) (s : List (κ × δ)) : List (κ × δ) := s.filter fun e => !eq e.1 k

/-- The value of `k`. -/
def get (eq : κ → κ → Bool) (k : κ) (s : List (κ × δ)) : Option δ := (s.find? fun e => eq e.1 k).map (·.2)

/-- Is `k` present? -/
def has (eq : κ → κ → Bool) (k : κ) (s : List (κ × δ)) : Bool := s.any fun e => eq e.1 k

/-- The calls. -/
inductive Op (κ δ : Type)
  | insert (k : κ) (v : δ)
  | set (k : κ) (v : δ)
  | remove (k : κ)
  | get (k : κ)
  | has (k : κ)
  | length
  | clear
  | setCapacity (c : Nat)

/-- What a call returns. -/
inductive Res (δ : Type)
  | unit
  | bool (b : Bool)
  | nat (n : Nat)
  | val (v : Option δ)
  deriving DecidableEq

/-- One call. Only two calls are not always allowed: a new entry when there are 2^29 already, and asking for more than
2^31 buckets (bucket indices are 32 bits wide). -/
def step (eq : κ → κ → Bool) : Op κ δ → List (κ × δ) → Option (List (κ × δ) × Res δ)
  | .insert k v, s => if s.length < 2 ^ 29 then some (insert eq k v s, .unit) else none
  | .set k v, s => if has eq k s then some (insert eq k v s, .bool true) else some (s, .bool false)
  | .remove k, s => some (remove eq k s, .bool (has eq k s))
  | .get k, s => some (s, .val (get eq k s))
  | .has k, s => some (s, .bool (has eq k s))
  | .length, s => some (s, .nat s.length)
  | .clear, _ => some ([], .unit)
  | .setCapacity c, s => if c ≤ 2 ^ 31 then some (s, .unit) else none

end Verif.Hash.Spec
