import Verif.Common.Mem

/-!
# The initial values of an animation (C202)

`AniState::GetValues` and `SetValues`, `/repo/include/bss-util/Animation.h:83, 114-115, 123-146`. The template arguments are the states, each a type of its own (otherwise `std::get<X>` does
not compile), some of which have no value (`VALUE` is `void`). `VALUES` is the tuple of the values of the others.
-/

namespace Verif.Ani.Values

variable {V : Type}

/-- A template argument: the type of the state and whether it has a value. -/
structure Arg where
  ty : Nat
  isVoid : Bool

/-- The number of elements of `VALUES`, `Animation.h:83`. -/
def count (args : List Arg) : Nat := (args.filter fun a => !a.isVoid).length

/-- `_getvalues<I, X, Xs...>`, `Animation.h:123-134`; `none` is an element that the tuple does not have. -/
def getvalues (st : Nat → V) : Nat → List Arg → List V → Option (List V)
  | _, [], v => some v
  | i, x :: xs, v =>
    if !xs.isEmpty && x.isVoid then getvalues st i xs v
    else if !x.isVoid then
      (wr v i (st x.ty)).bind fun v => if !xs.isEmpty then getvalues st (i + 1) xs v else some v
    else some v

/-- `GetValues`, `Animation.h:114`; the tuple is constructed with the values `v`. -/
def getValues (args : List Arg) (st : Nat → V) (v : List V) : Option (List V) := getvalues st 0 args v

/-- `SetInit` on the state of type `t`. -/
def upd (st : Nat → V) (t : Nat) (x : V) : Nat → V := fun u => if u = t then x else st u

/-- `_setvalues<I, X, Xs...>`, `Animation.h:135-146`. -/
def setvalues (v : List V) : Nat → List Arg → (Nat → V) → Option (Nat → V)
  | _, [], st => some st
  | i, x :: xs, st =>
    if !xs.isEmpty && x.isVoid then setvalues v i xs st
    else if !x.isVoid then
      (rd v i).bind fun a => if !xs.isEmpty then setvalues v (i + 1) xs (upd st x.ty a) else some (upd st x.ty a)
    else some st

/-- `SetValues`, `Animation.h:115`. -/
def setValues (args : List Arg) (v : List V) (st : Nat → V) : Option (Nat → V) := setvalues v 0 args st

/-! ## Specification -/

/-- The types of the states with a value, in their order. -/
def Spec.types (args : List Arg) : List Nat := (args.filter fun a => !a.isVoid).map Arg.ty

/-- Each state has a type of its own. -/
def Distinct (args : List Arg) : Prop := (args.map Arg.ty).Nodup

/-! ## Lemmas -/

theorem getvalues_cons_void (st : Nat → V) (i : Nat) (x : Arg) (xs : List Arg) (v : List V) (h : x.isVoid = true) : getvalues st i (x :: xs) v = getvalues st i xs v := by
  cases xs <;> simp [getvalues, h]

theorem getvalues_cons (st : Nat → V) (i : Nat) (x : Arg) (xs : List Arg) (v : List V) (h : x.isVoid = false) :
    getvalues st i (x :: xs) v = (wr v i (st x.ty)).bind fun v => getvalues st (i + 1) xs v := by
  cases xs <;> simp [getvalues, h]

theorem setvalues_cons_void (st : Nat → V) (i : Nat) (x : Arg) (xs : List Arg) (v : List V) (h : x.isVoid = true) : setvalues v i (x :: xs) st = setvalues v i xs st := by
  cases xs <;> simp [setvalues, h]

theorem setvalues_cons (st : Nat → V) (i : Nat) (x : Arg) (xs : List Arg) (v : List V) (h : x.isVoid = false) :
    setvalues v i (x :: xs) st = (rd v i).bind fun a => setvalues v (i + 1) xs (upd st x.ty a) := by
  cases xs <;> simp [setvalues, h]

theorem getvalues_spec (st : Nat → V) : ∀ (args : List Arg) (pre v : List V), v.length = count args →
    getvalues st pre.length args (pre ++ v) = some (pre ++ (Spec.types args).map st)
  | [], pre, v, h => by
    have : v = [] := by simpa [count] using h
    simp [getvalues, this, Spec.types]
  | x :: xs, pre, v, h => by
    by_cases hx : x.isVoid = true
    · rw [getvalues_cons_void st _ x xs _ hx, getvalues_spec st xs pre v (by simpa [count, hx] using h)]
      simp [Spec.types, hx]
    · have hx : x.isVoid = false := by simpa using hx
      cases v with
      | nil => simp [count, hx] at h
      | cons a v =>
        rw [getvalues_cons st _ x xs _ hx, wr_of_lt (by simp)]
        have e : (pre ++ a :: v).set pre.length (st x.ty) = (pre ++ [st x.ty]) ++ v := by simp
        have := getvalues_spec st xs (pre ++ [st x.ty]) v (by simpa [count, hx] using h)
        simp only [Option.bind_some, e]
        rw [List.length_append, List.length_singleton] at this
        rw [this]
        simp [Spec.types, hx]

theorem mem_types {args : List Arg} {t : Nat} (h : t ∈ Spec.types args) : t ∈ args.map Arg.ty := by
  simp only [Spec.types, List.mem_map, List.mem_filter] at h ⊢
  obtain ⟨a, ha, rfl⟩ := h
  exact ⟨a, ha.1, rfl⟩

theorem setvalues_spec : ∀ (args : List Arg) (pre v : List V) (st : Nat → V), v.length = count args → Distinct args →
    ∃ st', setvalues (pre ++ v) pre.length args st = some st' ∧ (Spec.types args).map st' = v ∧ ∀ t, t ∉ Spec.types args → st' t = st t
  | [], pre, v, st, h, _ => ⟨st, rfl, by have : v = [] := by simpa [count] using h
                                         simp [this, Spec.types], fun _ _ => rfl⟩
  | x :: xs, pre, v, st, h, hd => by
    have hd' : x.ty ∉ xs.map Arg.ty ∧ Distinct xs := by simpa [Distinct] using hd
    by_cases hx : x.isVoid = true
    · obtain ⟨st', h1, h2, h3⟩ := setvalues_spec xs pre v st (by simpa [count, hx] using h) hd'.2
      refine ⟨st', by rw [setvalues_cons_void st _ x xs _ hx, h1], by simpa [Spec.types, hx] using h2, fun t ht => h3 t (by simpa [Spec.types, hx] using ht)⟩
    · have hx : x.isVoid = false := by simpa using hx
      cases v with
      | nil => simp [count, hx] at h
      | cons a v =>
        obtain ⟨st', h1, h2, h3⟩ := setvalues_spec xs (pre ++ [a]) v (upd st x.ty a) (by simpa [count, hx] using h) hd'.2
        have hn : x.ty ∉ Spec.types xs := fun hc => hd'.1 (mem_types hc)
        have ht : Spec.types (x :: xs) = x.ty :: Spec.types xs := by simp [Spec.types, hx]
        refine ⟨st', ?_, ?_, fun t htt => ?_⟩
        · rw [setvalues_cons st _ x xs _ hx]
          simp only [rd, List.getElem?_append_right (Nat.le_refl _), Nat.sub_self, List.getElem?_cons_zero, Option.bind_some]
          simpa using h1
        · rw [ht, List.map_cons, h2, h3 _ hn]; simp [upd]
        · rw [ht, List.mem_cons, not_or] at htt
          rw [h3 t htt.2]; simp [upd, htt.1]

/-! ## C202 -/

/-- **C202**: `GetValues` gives the values of the states that have one, in their order. -/
theorem C202_get (args : List Arg) (st : Nat → V) (v : List V) (h : v.length = count args) : getValues args st v = some ((Spec.types args).map st) := by
  simpa [getValues] using getvalues_spec st args [] v h

/-- **C202**: `SetValues` gives each state with a value the one at its place, and changes no other state. -/
theorem C202_set (args : List Arg) (st : Nat → V) (v : List V) (h : v.length = count args) (hd : Distinct args) :
    ∃ st', setValues args v st = some st' ∧ (∀ i (hi : i < (Spec.types args).length), v[i]? = some (st' ((Spec.types args)[i]))) ∧
      ∀ t, t ∉ Spec.types args → st' t = st t := by
  obtain ⟨st', h1, h2, h3⟩ := setvalues_spec args [] v st h hd
  refine ⟨st', by simpa [setValues] using h1, fun i hi => ?_, h3⟩
  rw [← h2]; simp [hi]

/-- **C202**: the values that were set are those that are got, and setting the values that were got changes nothing. -/
theorem C202_roundtrip (args : List Arg) (st : Nat → V) (v w : List V) (h : v.length = count args) (hw : w.length = count args) (hd : Distinct args) :
    (∃ st', setValues args v st = some st' ∧ getValues args st' w = some v) ∧
    (∃ u, getValues args st w = some u ∧ setValues args u st = some st) := by
  refine ⟨?_, (Spec.types args).map st, C202_get args st w hw, ?_⟩
  · obtain ⟨st', h1, h2, _⟩ := setvalues_spec args [] v st h hd
    exact ⟨st', by simpa [setValues] using h1, by rw [C202_get args st' w hw, h2]⟩
  · obtain ⟨st', h1, h2, h3⟩ := setvalues_spec args [] ((Spec.types args).map st) st (by simp [Spec.types, count]) hd
    have : st' = st := by
      funext t
      by_cases ht : t ∈ Spec.types args
      · exact List.map_inj_left.1 h2 t ht
      · exact h3 t ht
    rw [this] at h1
    simpa [setValues] using h1

/-- Four states, two of them without value, among them the last. -/
example : Distinct [⟨1, false⟩, ⟨2, true⟩, ⟨3, false⟩, ⟨4, true⟩] ∧ count [⟨1, false⟩, ⟨2, true⟩, ⟨3, false⟩, ⟨4, true⟩] = 2 ∧
    getValues [⟨1, false⟩, ⟨2, true⟩, ⟨3, false⟩, ⟨4, true⟩] (fun n => 10 * n) [0, 0] = some [10, 30] := by
  refine ⟨by simp [Distinct], by decide, by decide⟩

end Verif.Ani.Values
