import Verif.Common.Mem

/-!
# Model of `BreadthFirstTree` (`/repo/include/bss-util/algo.h:295-323`)

A pointer to a node is an element of a type `A`; the null pointer is `none`. The queue is the list of the slots of the array, which start uninitialised (`junk`). The calls of
`FACTION` are recorded. `none` is undefined behaviour: an access outside the array or a call with a null pointer.
-/

namespace Verif.TreeBfs

variable {A : Type}

/-- The loop, `:312-322`, for at most `fuel` rounds. `act` tells for which nodes `FACTION` returns true. -/
def loop (act : A → Bool) (lchild rchild : A → Option A) (n : Nat) : Nat → List (Option A) → Nat → Nat → Option (List A)
  | 0, _, _, _ => none
  | fuel + 1, queue, i, l =>
    if i = l then some []
    else
      match queue[i]? with
      | some (some a) =>
        if act a then some [a]
        else if l < queue.length then
          let queue := queue.set l (lchild a)
          let l := (l + if (lchild a).isSome then 1 else 0) % n
          match queue[i]? with
          | some (some b) =>
            if l < queue.length then
              let r := rchild b
              let queue := queue.set l r
              let l := (l + if r.isSome then 1 else 0) % n
              (loop act lchild rchild n fuel queue ((i + 1) % n) l).map (a :: ·)
            else none
          | _ => none
        else none
      | _ => none

/-- `BreadthFirstTree`, `:297-311`. -/
def breadthFirstTree (act : A → Bool) (lchild rchild : A → Option A) (junk : Nat → Option A) (root : A) (n : Nat) : Option (List A) :=
  if n = 0 then some []
  else if n = 1 then some [root]
  else
    let m := n / 2 + 1
    loop act lchild rchild m (n + 1) ((some root) :: (List.range (m - 1)).map junk) 0 1

end Verif.TreeBfs
