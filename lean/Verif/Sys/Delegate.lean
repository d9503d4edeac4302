/-!
# `Delegate` (C162), stored and deferred calls (C163), `/repo/include/bss-util/Delegate.h`

Objects are known by their address, 0 is the null pointer. A function may depend on the state of the program and change it: `R` stands for its whole effect.
-/

namespace Verif.Sys

variable {A R : Type}

/-- `Delegate`, `Delegate.h:56-57`: `_src` and `_stub`. -/
structure Delegate (A R : Type) where
  src : Nat
  stub : Option (Nat → A → R)

/-- What a delegate can be made from. -/
inductive Callee (A R : Type) where
  /-- A member function (constant or not) of an object. -/
  | method (obj : Nat) (f : Nat → A → R)
  /-- A function that gets the object as its first argument. -/
  | func (obj : Nat) (f : Nat → A → R)
  /-- A function without an object. -/
  | stateless (f : A → R)
  /-- A `std::function`, known by its address; calling it is the call of what it holds. -/
  | lambda (fn : Nat) (f : A → R)

/-- `From`, `FromC` and the constructor for `std::function`, `Delegate.h:22`, `30-39` with the stubs of `41-53`. -/
def Delegate.make : Callee A R → Delegate A R
  | .method obj f => ⟨obj, some fun src a => f src a⟩
  | .func obj f => ⟨obj, some fun src a => f src a⟩
  | .stateless f => ⟨0, some fun _ a => f a⟩
  | .lambda fn f => ⟨fn, some fun _ a => f a⟩

/-- `Delegate()`, `Delegate.h:23`. -/
def Delegate.empty : Delegate A R := ⟨0, none⟩

/-- `operator()`, `Delegate.h:24`: the call through a null pointer is undefined. -/
def Delegate.call (d : Delegate A R) (a : A) : Option R := d.stub.map fun f => f d.src a

/-- `IsEmpty`, `Delegate.h:26`. -/
def Delegate.isEmpty (d : Delegate A R) : Bool := d.src == 0 || d.stub.isNone

/-- What is meant by a call. -/
def Callee.call : Callee A R → A → R
  | .method obj f, a => f obj a
  | .func obj f, a => f obj a
  | .stateless f, a => f a
  | .lambda _ f, a => f a

/-- It has an object (also a `std::function` is one). -/
def Callee.hasObject : Callee A R → Bool
  | .method obj _ => obj != 0
  | .func obj _ => obj != 0
  | .stateless _ => false
  | .lambda fn _ => fn != 0

/-- Variables of the type `Delegate`. -/
inductive DOp (A R : Type) where
  | set (x : Nat) (c : Callee A R)
  | clear (x : Nat)
  | assign (x y : Nat)

/-- Making, clearing (`x = Delegate()`) and assigning or copying, `Delegate.h:20` and `25`. -/
def dstep (v : Nat → Delegate A R) : DOp A R → Nat → Delegate A R
  | .set x c => fun z => if z = x then Delegate.make c else v z
  | .clear x => fun z => if z = x then Delegate.empty else v z
  | .assign x y => fun z => if z = x then ⟨(v y).src, (v y).stub⟩ else v z

/-- Specification: what each variable stands for. -/
def dspec (v : Nat → Option (Callee A R)) : DOp A R → Nat → Option (Callee A R)
  | .set x c => fun z => if z = x then some c else v z
  | .clear x => fun z => if z = x then none else v z
  | .assign x y => fun z => if z = x then v y else v z

def Means (d : Delegate A R) : Option (Callee A R) → Prop
  | none => d = Delegate.empty
  | some c => d = Delegate.make c

theorem run_means (ops : List (DOp A R)) (v : Nat → Delegate A R) (w : Nat → Option (Callee A R)) (h : ∀ x, Means (v x) (w x)) (x : Nat) :
    Means (ops.foldl dstep v x) (ops.foldl dspec w x) := by
  induction ops generalizing v w with
  | nil => exact h x
  | cons op ops ih =>
    apply ih
    intro z
    cases op with
    | set y c => simp only [dstep, dspec]; split <;> first | exact h z | rfl
    | clear y => simp only [dstep, dspec]; split <;> first | exact h z | rfl
    | assign y y' => simp only [dstep, dspec]; split <;> first | exact h z | exact h y'

/-- C162: after any assignments, calling a delegate is calling what was last assigned to it, with the object and arguments given; calling one without a target is undefined. One that has an object is not empty, one without a target is. -/
theorem C162_call_partial (ops : List (DOp A R)) (x : Nat) :
    (∀ a, (ops.foldl dstep (fun _ => Delegate.empty) x).call a = (ops.foldl dspec (fun _ => none) x).map fun c => c.call a) ∧
    (∀ c, ops.foldl dspec (fun _ => none) x = some c → c.hasObject = true → (ops.foldl dstep (fun _ => Delegate.empty) x).isEmpty = false) ∧
    (ops.foldl dspec (fun _ => none) x = none → (ops.foldl dstep (fun _ => Delegate.empty) x).isEmpty = true) := by
  have h := run_means ops (fun _ => Delegate.empty) (fun _ => none) (fun _ => rfl) x
  generalize ops.foldl dstep (fun _ => Delegate.empty) x = d at *
  generalize ops.foldl dspec (fun _ => none) x = c at *
  cases c with
  | none => subst h; exact ⟨fun a => rfl, (fun c hc => by cases hc), fun _ => rfl⟩
  | some c =>
    subst h
    refine ⟨fun a => by cases c <;> rfl, ?_, fun hc => by cases hc⟩
    intro c' hc ho
    cases hc
    cases c <;> simp_all [Callee.hasObject, Delegate.isEmpty, Delegate.make]

/-- C162 fails: a delegate of a function without an object can be called, but says it is empty. -/
theorem C162_stateless_false (f : A → R) : (Delegate.make (.stateless f)).isEmpty = true ∧ ∀ a, (Delegate.make (.stateless f)).call a = some (f a) := ⟨rfl, fun _ => rfl⟩

example : ([DOp.set 1 (.method 5 (fun o a => o + a)), .assign 2 1, .set 1 (.stateless (fun a => a))].foldl dstep (fun _ => Delegate.empty) 2).call 3 = some 8 := by decide

/-! ## Deferred calls -/

/-- Objects of the types `DeferFunction` and `DeferDelegate` with automatic storage: the open scopes, innermost first, each with its objects, latest first. An object is the call it will make (the function with
its stored arguments, `Delegate.h:60-100`). -/
abbrev Scopes (C : Type) := List (List C)

inductive SOp (C : Type) where
  /-- `{`. -/
  | enter
  /-- `auto x = defer(f, args...);`, `Delegate.h:102-105` (with the copy elided, as C++17 requires). -/
  | defer (c : C)
  /-- `auto y = x;`, with `x` the `i`-th latest object of the scope: the implicit copy constructor of `Delegate.h:86-100`. -/
  | copy (i : Nat)
  /-- `}`: the destructors, `Delegate.h:90` and `98`. -/
  | leave

/-- What is called, in order, and the scopes afterwards. -/
def sstep {C : Type} : List C × Scopes C → SOp C → List C × Scopes C
  | (log, ss), .enter => (log, [] :: ss)
  | (log, s :: ss), .defer c => (log, (c :: s) :: ss)
  | (log, s :: ss), .copy i => (log, (match s[i]? with | some c => c :: s | none => s) :: ss)
  | (log, s :: ss), .leave => (log ++ s, ss)
  | (log, []), _ => (log, [])

/-- Programs with matching braces: a block is a list of statements. -/
inductive Stmt (C : Type) where
  | defer (c : C)
  | block (body : List (Stmt C))

mutual
/-- The steps of a statement. -/
def Stmt.ops {C : Type} : Stmt C → List (SOp C)
  | .defer c => [.defer c]
  | .block b => .enter :: (opsOf b ++ [.leave])
def opsOf {C : Type} : List (Stmt C) → List (SOp C)
  | [] => []
  | s :: b => s.ops ++ opsOf b
end

mutual
/-- Specification: what a statement calls at once, and what it leaves to the end of the block it is in. -/
def Stmt.now {C : Type} : Stmt C → List C
  | .defer _ => []
  | .block b => nowOf b ++ laterOf b
def nowOf {C : Type} : List (Stmt C) → List C
  | [] => []
  | s :: b => s.now ++ nowOf b
/-- The deferred calls of a block, the latest first. -/
def laterOf {C : Type} : List (Stmt C) → List C
  | [] => []
  | .defer c :: b => laterOf b ++ [c]
  | .block _ :: b => laterOf b
end

mutual
/-- The calls a program defers. -/
def Stmt.calls {C : Type} : Stmt C → List C
  | .defer c => [c]
  | .block b => callsOf b
def callsOf {C : Type} : List (Stmt C) → List C
  | [] => []
  | s :: b => s.calls ++ callsOf b
end

mutual
theorem run_stmt {C : Type} (s : Stmt C) (log : List C) (sc : List C) (ss : Scopes C) :
    s.ops.foldl sstep (log, sc :: ss) = (log ++ s.now, (laterOf [s] ++ sc) :: ss) := by
  cases s with
  | defer c => simp [Stmt.ops, sstep, Stmt.now, laterOf]
  | block b =>
    simp only [Stmt.ops, List.foldl_cons, List.foldl_append, List.foldl_nil]
    have e : sstep (log, sc :: ss) .enter = (log, [] :: sc :: ss) := rfl
    rw [e, run_list b log [] (sc :: ss)]
    simp [sstep, Stmt.now, laterOf]
theorem run_list {C : Type} (b : List (Stmt C)) (log : List C) (sc : List C) (ss : Scopes C) :
    (opsOf b).foldl sstep (log, sc :: ss) = (log ++ nowOf b, (laterOf b ++ sc) :: ss) := by
  cases b with
  | nil => simp [opsOf, nowOf, laterOf]
  | cons s b =>
    rw [opsOf, List.foldl_append, run_stmt s log sc ss, run_list b _ _ ss]
    cases s with
    | defer c => simp [nowOf, laterOf, Stmt.now]
    | block b' => simp [nowOf, laterOf, Stmt.now]
end

mutual
theorem perm_stmt {C : Type} (s : Stmt C) : (s.now ++ laterOf [s]).Perm s.calls := by
  cases s with
  | defer c => simp [Stmt.now, laterOf, Stmt.calls]
  | block b => simpa [Stmt.now, laterOf, Stmt.calls] using perm_list b
theorem perm_list {C : Type} (b : List (Stmt C)) : (nowOf b ++ laterOf b).Perm (callsOf b) := by
  cases b with
  | nil => simp [nowOf, laterOf, callsOf]
  | cons s b =>
    have h1 := perm_stmt s
    have h2 := perm_list b
    rw [nowOf, callsOf]
    have e : laterOf (s :: b) = laterOf b ++ laterOf [s] := by cases s <;> simp [laterOf]
    rw [e]
    have : (s.now ++ nowOf b ++ (laterOf b ++ laterOf [s])).Perm ((s.now ++ laterOf [s]) ++ (nowOf b ++ laterOf b)) := by
      simp only [List.append_assoc]
      apply List.Perm.append_left
      rw [← List.append_assoc (nowOf b)]
      exact List.perm_append_comm
    exact this.trans (h1.append h2)
end

/-- C163: at the end of a block its deferred calls are made, each once, the latest first, after those of the blocks inside it; nothing is left over. -/
theorem C163_defer_partial {C : Type} (b : List (Stmt C)) :
    (Stmt.block b).ops.foldl sstep ([], []) = (nowOf b ++ laterOf b, []) ∧ (nowOf b ++ laterOf b).Perm (callsOf b) := by
  refine ⟨?_, perm_list b⟩
  simp only [Stmt.ops, List.foldl_cons, List.foldl_append, List.foldl_nil]
  have e : sstep (([], []) : List C × Scopes C) .enter = ([], [[]]) := rfl
  rw [e, run_list b [] [] []]
  simp [sstep]

example : ((Stmt.block [.defer 1, .block [.defer 2, .defer 3], .defer 4]).ops.foldl sstep ([], [])).1 = [3, 2, 4, 1] := by decide

/-- C163 fails for copies: the call is made once for each copy. -/
theorem C163_copy_counterexample (c : Nat) : [SOp.enter, .defer c, .copy 0, .leave].foldl sstep ([], []) = ([c, c], []) := rfl

end Verif.Sys
