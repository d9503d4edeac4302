import Mathlib.Data.List.Nodup

/-!
# `Singleton`: the one registered object of a class

`include/bss-util/Singleton.h:10-26`.
-/

namespace Verif.Own.Singleton

/-- `_instance` (`Singleton.h:25`, `none` for null) and the addresses of the objects that exist. -/
structure St where
  inst : Option Nat
  live : List Nat

/-- What is called: the default constructor, the move constructor, `operator=(&&)` and the destructor, with the address of the object and of the source. -/
inductive Op where
  | new (a : Nat)
  | moveNew (a b : Nat)
  | assign (a b : Nat)
  | del (a : Nat)

/-- `Singleton.h:16`, `:22`: the object takes the place of the one it is moved from. -/
def take (a b : Nat) (i : Option Nat) : Option Nat := if i = some b then some a else i

/-- One call, `Singleton.h:16-18`, `:22`. `none`: the object does not exist, or there is one at the address already. -/
def step (s : St) : Op → Option St
  | .new a => if a ∈ s.live then none else some ⟨some a, a :: s.live⟩
  | .moveNew a b => if a ∈ s.live ∨ b ∉ s.live then none else some ⟨take a b s.inst, a :: s.live⟩
  | .assign a b => if a ∈ s.live ∧ b ∈ s.live then some ⟨take a b s.inst, s.live⟩ else none
  | .del a => if a ∈ s.live then some ⟨if s.inst = some a then none else s.inst, s.live.erase a⟩ else none

/-- A program before the first object, and a sequence of calls. -/
def run : List Op → St → Option St
  | [], s => some s
  | o :: l, s => (step s o).bind (run l)

/-! ## Specification -/

/-- The program starts. -/
def start : St := ⟨none, []⟩


/-- Programs that have one object at a time: it is made, moved to a new address (which ends with the destruction of the source), moved onto itself and destroyed. -/
inductive One : List Op → Option Nat → Prop
  | start : One [] none
  | new {l} (a : Nat) : One l none → One (l ++ [.new a]) (some a)
  | relocate {l b} (a : Nat) : a ≠ b → One l (some b) → One (l ++ [.moveNew a b, .del b]) (some a)
  | self {l a} : One l (some a) → One (l ++ [.assign a a]) (some a)
  | del {l a} : One l (some a) → One (l ++ [.del a]) none

/-! ## Proofs -/

theorem run_append (l m : List Op) : ∀ s, run (l ++ m) s = (run l s).bind (run m) := by
  induction l with
  | nil => exact fun _ => rfl
  | cons o l ih =>
    intro s
    show (step s o).bind (run (l ++ m)) = ((step s o).bind (run l)).bind (run m)
    cases step s o with
    | none => rfl
    | some t => exact ih t

/-- The invariant: addresses differ and the registered object exists. -/
def Inv (s : St) : Prop := s.live.Nodup ∧ ∀ a, s.inst = some a → a ∈ s.live

theorem take_cases {a b c : Nat} {i : Option Nat} (h : take a b i = some c) : c = a ∨ i = some c := by
  rw [take] at h
  split at h
  · exact .inl (Option.some.inj h).symm
  · exact .inr h

theorem step_inv {s t : St} {o : Op} (hi : Inv s) (h : step s o = some t) : Inv t := by
  obtain ⟨hn, hl⟩ := hi
  cases o with
  | new a =>
    rw [step] at h
    split at h
    · cases h
    · next ha =>
      cases h
      exact ⟨List.nodup_cons.2 ⟨ha, hn⟩, fun c hc => by cases hc; exact List.mem_cons_self ..⟩
  | moveNew a b =>
    rw [step] at h
    split at h
    · cases h
    · next ha =>
      cases h
      refine ⟨List.nodup_cons.2 ⟨fun h => ha (.inl h), hn⟩, fun c hc => ?_⟩
      rcases take_cases hc with rfl | hc
      · exact List.mem_cons_self ..
      · exact List.mem_cons_of_mem _ (hl c hc)
  | assign a b =>
    rw [step] at h
    split at h
    · next ha =>
      cases h
      refine ⟨hn, fun c hc => ?_⟩
      rcases take_cases hc with rfl | hc
      · exact ha.1
      · exact hl c hc
    · cases h
  | del a =>
    rw [step] at h
    split at h
    · cases h
      refine ⟨hn.erase a, fun c hc => ?_⟩
      replace hc : (if s.inst = some a then none else s.inst) = some c := hc
      split at hc
      · cases hc
      · next hne =>
        refine (List.mem_erase_of_ne ?_).2 (hl c hc)
        rintro rfl
        exact hne hc
    · cases h

theorem run_inv : ∀ {l : List Op} {s t : St}, Inv s → run l s = some t → Inv t
  | [], _, _, hi, h => by cases h; exact hi
  | o :: l, s, t, hi, h => by
    rw [run] at h
    cases he : step s o with
    | none => rw [he] at h; cases h
    | some u => rw [he] at h; exact run_inv (step_inv hi he) h

/-- The registered object always exists: it was constructed, and it is not registered any more once it is destroyed, in whatever way objects are made, moved and destroyed. -/
theorem C213_exists {l : List Op} {s : St} (h : run l start = some s) {a : Nat} (ha : s.inst = some a) : a ∈ s.live :=
  (run_inv (s := start) ⟨List.nodup_nil, fun _ h => nomatch h⟩ h).2 a ha

/-- Destroying the registered object leaves nothing registered, destroying another one changes nothing; a new object is registered; an object that is moved hands its place on, and only then. -/
theorem C213_calls {l : List Op} {s t : St} {o : Op} (h : run l start = some s) (ho : step s o = some t) :
    (∀ a, o = .new a → t.inst = some a) ∧
    (∀ a b, o = .moveNew a b ∨ o = .assign a b → (s.inst = some b → t.inst = some a) ∧ (s.inst ≠ some b → t.inst = s.inst)) ∧
    (∀ a, o = .del a → a ∉ t.live ∧ (s.inst = some a → t.inst = none) ∧ (s.inst ≠ some a → t.inst = s.inst)) := by
  have hn := (run_inv (s := start) ⟨List.nodup_nil, fun _ h => nomatch h⟩ h).1
  refine ⟨?_, ?_, ?_⟩
  · rintro a rfl
    rw [step] at ho
    split at ho
    · cases ho
    · cases ho; rfl
  · rintro a b (rfl | rfl)
    · rw [step] at ho
      split at ho
      · cases ho
      · cases ho
        exact ⟨fun h => if_pos h, fun h => if_neg h⟩
    · rw [step] at ho
      split at ho
      · cases ho
        exact ⟨fun h => if_pos h, fun h => if_neg h⟩
      · cases ho
  · rintro a rfl
    rw [step] at ho
    split at ho
    · cases ho
      exact ⟨hn.not_mem_erase, fun h => if_pos h, fun h => if_neg h⟩
    · cases ho

/-- In a program that has one object at a time, wherever it is moved to, the registered object is that object; without one there is none. -/
theorem C213_one {l : List Op} {i : Option Nat} (h : One l i) : ∃ s, run l start = some s ∧ s.inst = i ∧ s.live = i.toList := by
  induction h with
  | start => exact ⟨start, rfl, rfl, rfl⟩
  | @new l a _ ih =>
    obtain ⟨⟨_, _⟩, hr, rfl, rfl⟩ := ih
    refine ⟨⟨some a, [a]⟩, ?_, rfl, rfl⟩
    rw [run_append, hr]
    simp [run, step]
  | @relocate l b a hab _ ih =>
    obtain ⟨⟨_, _⟩, hr, rfl, rfl⟩ := ih
    refine ⟨⟨some a, [a]⟩, ?_, rfl, rfl⟩
    rw [run_append, hr]
    simp [run, step, take, hab]
  | @self l a _ ih =>
    obtain ⟨⟨_, _⟩, hr, rfl, rfl⟩ := ih
    refine ⟨⟨some a, [a]⟩, ?_, rfl, rfl⟩
    rw [run_append, hr]
    simp [run, step, take]
  | @del l a _ ih =>
    obtain ⟨⟨_, _⟩, hr, rfl, rfl⟩ := ih
    refine ⟨⟨none, []⟩, ?_, rfl, rfl⟩
    rw [run_append, hr]
    simp [run, step]

/-- If a second object was made in between, its destruction leaves nothing registered, although the first one still exists: for every history and every two addresses. -/
theorem C213_second_counterexample {l : List Op} {s : St} {a b : Nat} (hr : run l start = some s) (ha : a ∈ s.live) (hb : b ∉ s.live) :
    ∃ t, run (l ++ [.new b, .del b]) start = some t ∧ a ∈ t.live ∧ t.inst = none := by
  refine ⟨⟨none, s.live⟩, ?_, ha, rfl⟩
  rw [run_append, hr]
  simp [run, step, hb]

/-- The hypotheses can be met: an object is made, moved twice and another one made and destroyed. -/
example : One ([] ++ [.new 10] ++ [.moveNew 20 10, .del 10] ++ [.moveNew 10 20, .del 20]) (some 10) :=
  .relocate 10 (by decide) (.relocate 20 (by decide) (.new 10 .start))

example : (run [.new 10, .moveNew 20 10, .new 30, .assign 10 30, .del 30] start).map (fun s => (s.inst, s.live)) = some (some 10, [20, 10]) := rfl

end Verif.Own.Singleton
