import Verif.Var.Model

/-!
# Variants through a serializer (C200)

`Variant::Serialize`, `/repo/include/bss-util/Variant.h:114-119`, and `Action<Engine, ActionVariantRef>`, `/repo/include/bss-util/Serializer.h:188-230`: a variant is written as
a structure with the members `t`, the tag, and `o`, the value. How the engine writes and reads a value of each type is a parameter. The model keeps which object is in the
storage, and the objects that were overwritten without having been destroyed.
-/

namespace Verif.Var.Serial

variable {V P : Type}

/-- The members of the structure in the text: the tag, the value, or one of another name. -/
inductive Member (P : Type)
  | t (n : Int)
  | o (p : P)
  | other
  deriving DecidableEq

/-- A variant: the tag, the object in the storage with its type, and the objects whose memory was reused while they existed. -/
structure St (V : Type) where
  tag : Int
  store : Option (Nat × V)
  lost : List (Nat × V)
  deriving DecidableEq

/-- `_serialize`, `Serializer.h:211-220`: the member `o` for the type that has the tag, none if there is no such type. -/
def writeValue (ser : Nat → V → P) (all : List Nat) (x : St V) : List Nat → Option (List (Member P))
  | [] => some []
  | a :: l =>
    if getpos a all = x.tag then
      match x.store with
      | some (b, v) => if b = a then some [.o (ser a v)] else none
      | none => none
    else writeValue ser all x l

/-- `Variant::Serialize` for writing, `Variant.h:115-119`, `Serializer.h:226-229`; `none` is an access to an object that is not there. -/
def write (ser : Nat → V → P) (all : List Nat) (x : St V) : Option (List (Member P)) :=
  (writeValue ser all x all).map (.t x.tag :: ·)

/-- `_parse`, `Serializer.h:199-210`: an empty variant is constructed over the old one, then a value of the type, which is parsed. `none`: no type has the tag, and the value stays
unread in the text. -/
def parseValue (parse : Nat → P → V) (all : List Nat) (p : P) (x : St V) : List Nat → Option (St V)
  | [] => none
  | a :: l =>
    if getpos a all = x.tag then some ⟨getpos a all, some (a, parse a p), x.store.toList ++ x.lost⟩
    else parseValue parse all p x l

/-- `FindParse` for one member of the text, `Serializer.h:283, 249-286`, with `t` bound to the tag and `o` to the value, `Variant.h:118`. -/
def member (parse : Nat → P → V) (all : List Nat) (x : St V) : Member P → Option (St V)
  | .t n => some { x with tag := n }
  | .o p => parseValue parse all p x all
  | .other => some x

/-- `ParseMany` over the members in the order of the text. -/
def read (parse : Nat → P → V) (all : List Nat) : St V → List (Member P) → Option (St V)
  | x, [] => some x
  | x, m :: ms => (member parse all x m).bind fun y => read parse all y ms

/-- `get<T>`, `Variant.h:75-81`; `none` is an access to an object that is not there. -/
def get (all : List Nat) (x : St V) (a : Nat) : Option V :=
  if getpos a all ≠ x.tag then none
  else match x.store with
    | some (b, v) => if b = a then some v else none
    | none => none

/-- `_destroy`, `Variant.h:168-182`: the object that is destroyed, if any; `none` is the destructor of a type run on memory without such an object. -/
def destroy (all : List Nat) (x : St V) : List Nat → Option (Option (Nat × V))
  | [] => some none
  | a :: l =>
    if getpos a all = x.tag then
      match x.store with
      | some (b, v) => if b = a then some (some (a, v)) else none
      | none => none
    else destroy all x l

/-! ## Specification -/

/-- A variant that is empty, or has a value of one of its types and the tag of that type. -/
def Holds (all : List Nat) (x : St V) : Option (Nat × V) → Prop
  | none => x.tag = -1 ∧ x.store = none
  | some (a, v) => a ∈ all ∧ x.tag = getpos a all ∧ x.store = some (a, v)

def WF (all : List Nat) (x : St V) : Prop := ∃ c, Holds all x c

/-! ## Lemmas -/

theorem getpos_nonneg {a : Nat} {l : List Nat} (h : a ∈ l) : 0 ≤ getpos a l := by
  induction l with
  | nil => simp at h
  | cons b l ih =>
    simp only [getpos]
    by_cases hb : a = b
    · simp [hb]
    · rw [if_neg hb]
      have := ih (by simpa [hb] using h)
      rw [if_pos (by omega)]; omega

theorem getpos_inj {a b : Nat} {l : List Nat} (ha : a ∈ l) (hb : b ∈ l) (h : getpos a l = getpos b l) : a = b := by
  induction l with
  | nil => simp at ha
  | cons c l ih =>
    simp only [getpos] at h
    by_cases h1 : a = c <;> by_cases h2 : b = c
    · omega
    · rw [if_pos h1, if_neg h2] at h
      have := getpos_nonneg (show b ∈ l by simpa [h2] using hb)
      rw [if_pos (by omega)] at h; omega
    · rw [if_neg h1, if_pos h2] at h
      have := getpos_nonneg (show a ∈ l by simpa [h1] using ha)
      rw [if_pos (by omega)] at h; omega
    · rw [if_neg h1, if_neg h2] at h
      have ha' : a ∈ l := by simpa [h1] using ha
      have hb' : b ∈ l := by simpa [h2] using hb
      have := getpos_nonneg ha'
      have := getpos_nonneg hb'
      rw [if_pos (by omega), if_pos (by omega)] at h
      exact ih ha' hb' (by omega)

theorem writeValue_some (ser : Nat → V → P) (all : List Nat) (x : St V) (a : Nat) (v : V) (h : Holds all x (some (a, v))) :
    ∀ l, a ∈ l → (∀ b ∈ l, b ∈ all) → writeValue ser all x l = some [.o (ser a v)] := by
  obtain ⟨h1, h2, h3⟩ := h
  intro l
  induction l with
  | nil => intro h; simp at h
  | cons b l ih =>
    intro hm hs
    simp only [writeValue, h3]
    by_cases hb : getpos b all = x.tag
    · have : b = a := getpos_inj (hs b (by simp)) h1 (by rw [hb, h2])
      subst this
      rw [if_pos hb]; simp
    · rw [if_neg hb]
      refine ih ?_ fun c hc => hs c (by simp [hc])
      have : b ≠ a := by rintro rfl; exact hb h2.symm
      simpa [Ne.symm this] using hm

theorem writeValue_none (ser : Nat → V → P) (all : List Nat) (x : St V) (h : x.tag = -1) :
    ∀ l, (∀ b ∈ l, b ∈ all) → writeValue ser all x l = some [] := by
  intro l
  induction l with
  | nil => intro _; rfl
  | cons b l ih =>
    intro hs
    have := getpos_nonneg (hs b (by simp))
    rw [writeValue, if_neg (by omega)]
    exact ih fun c hc => hs c (by simp [hc])

theorem parseValue_some (parse : Nat → P → V) (all : List Nat) (p : P) (x : St V) (a : Nat) (h1 : a ∈ all) (h2 : x.tag = getpos a all) :
    ∀ l, a ∈ l → (∀ b ∈ l, b ∈ all) → parseValue parse all p x l = some ⟨getpos a all, some (a, parse a p), x.store.toList ++ x.lost⟩ := by
  intro l
  induction l with
  | nil => intro h; simp at h
  | cons b l ih =>
    intro hm hs
    by_cases hb : getpos b all = x.tag
    · have : b = a := getpos_inj (hs b (by simp)) h1 (by rw [hb, h2])
      subst this
      rw [parseValue, if_pos hb]
    · rw [parseValue, if_neg hb]
      refine ih ?_ fun c hc => hs c (by simp [hc])
      have : b ≠ a := by rintro rfl; exact hb h2.symm
      simpa [Ne.symm this] using hm

theorem parseValue_holds (parse : Nat → P → V) (all : List Nat) (p : P) (x y : St V) :
    ∀ l, (∀ b ∈ l, b ∈ all) → parseValue parse all p x l = some y → ∃ a, Holds all y (some (a, parse a p)) ∧ x.tag = getpos a all := by
  intro l
  induction l with
  | nil => intro _ h; simp [parseValue] at h
  | cons b l ih =>
    intro hs h
    by_cases hb : getpos b all = x.tag
    · rw [parseValue, if_pos hb, Option.some.injEq] at h
      subst h
      exact ⟨b, ⟨hs b (by simp), rfl, rfl⟩, hb.symm⟩
    · rw [parseValue, if_neg hb] at h
      exact ih (fun c hc => hs c (by simp [hc])) h

theorem read_append (parse : Nat → P → V) (all : List Nat) (ms ns : List (Member P)) (x : St V) :
    read parse all x (ms ++ ns) = (read parse all x ms).bind fun y => read parse all y ns := by
  induction ms generalizing x with
  | nil => rfl
  | cons m ms ih => simp only [List.cons_append, read, Option.bind_assoc, ih]

theorem read_others (parse : Nat → P → V) (all : List Nat) (ns : List (Member P)) (h : ∀ m ∈ ns, m = .other) (x : St V) : read parse all x ns = some x := by
  induction ns with
  | nil => rfl
  | cons m ns ih =>
    rw [h m (by simp)]
    exact ih fun k hk => h k (by simp [hk])

theorem destroy_wf (all : List Nat) (x : St V) (c : Option (Nat × V)) (h : Holds all x c) :
    ∀ l, (∀ a v, c = some (a, v) → a ∈ l) → (∀ b ∈ l, b ∈ all) → destroy all x l = some c := by
  intro l
  induction l with
  | nil =>
    intro hm _
    match c with
    | none => rfl
    | some (a, v) => exact absurd (hm a v rfl) (by simp)
  | cons b l ih =>
    intro hm hs
    match c, h with
    | none, h =>
      have := getpos_nonneg (hs b (by simp))
      rw [destroy, if_neg (by have := h.1; omega)]
      exact ih (fun a v hc => by simp at hc) fun c hc => hs c (by simp [hc])
    | some (a, v), ⟨h1, h2, h3⟩ =>
      by_cases hb : getpos b all = x.tag
      · have : b = a := getpos_inj (hs b (by simp)) h1 (by rw [hb, h2])
        subst this
        rw [destroy, if_pos hb, h3]; simp
      · rw [destroy, if_neg hb]
        refine ih (fun a' v' hc => ?_) fun c hc => hs c (by simp [hc])
        have hm' := hm a v rfl
        have : b ≠ a := by rintro rfl; exact hb h2.symm
        simp only [Option.some.injEq, Prod.mk.injEq] at hc
        rw [← hc.1]
        simpa [Ne.symm this] using hm'

/-! ## C200 -/

/-- **C200**: a variant that has a value is written, and is read back into any variant as the same value of the same type; members of other names, wherever they are, do not matter. -/
theorem C200_roundtrip (ser : Nat → V → P) (parse : Nat → P → V) (all : List Nat) (x y : St V) (a : Nat) (v : V) (hx : Holds all x (some (a, v)))
    (hv : parse a (ser a v) = v) :
    ∃ p, write ser all x = some [.t x.tag, .o p] ∧
      ∀ l1 l2 l3, (∀ m ∈ l1 ++ l2 ++ l3, m = .other) →
        ∃ z, read parse all y (l1 ++ .t x.tag :: (l2 ++ .o p :: l3)) = some z ∧ Holds all z (some (a, v)) ∧ get all z a = some v ∧ destroy all z all = some (some (a, v)) := by
  refine ⟨ser a v, ?_, fun l1 l2 l3 hl => ?_⟩
  · rw [write, writeValue_some ser all x a v hx all hx.1 fun b hb => hb]; rfl
  · have r1 := read_others parse all l1 (fun m hm => hl m (by simp [hm]))
    have r2 := read_others parse all l2 (fun m hm => hl m (by simp [hm]))
    have r3 := read_others parse all l3 (fun m hm => hl m (by simp [hm]))
    have e := parseValue_some parse all (ser a v) { y with tag := x.tag } a hx.1 hx.2.1 all hx.1 fun b hb => hb
    rw [hv] at e
    have hh : Holds all (⟨getpos a all, some (a, v), y.store.toList ++ y.lost⟩ : St V) (some (a, v)) := ⟨hx.1, rfl, rfl⟩
    refine ⟨⟨getpos a all, some (a, v), y.store.toList ++ y.lost⟩, ?_, hh, ?_, ?_⟩
    · rw [read_append, r1, Option.bind_some, read, member, Option.bind_some, read_append, r2, Option.bind_some, read, member, e, Option.bind_some, r3]
    · simp [get]
    · exact destroy_wf all _ _ hh all (fun a' v' hc => by simp at hc; exact hc.1 ▸ hx.1) fun b hb => hb

/-- **C200**: an empty variant is written without value; read into an empty variant it stays empty. -/
theorem C200_empty (ser : Nat → V → P) (parse : Nat → P → V) (all : List Nat) (x y : St V) (hx : Holds all x none) (hy : Holds all y none) :
    write ser all x = some [.t (-1)] ∧ read parse all y [.t (-1)] = some y := by
  refine ⟨?_, ?_⟩
  · rw [write, writeValue_none ser all x hx.1 all fun b hb => hb, hx.1]; rfl
  · obtain ⟨h1, h2⟩ := hy
    cases y
    simp_all [read, member]

/-- **C200**: whatever the text is, if it can be read and the value is the last of the two members, the variant has a value of one of its types and the tag of that type, and
it can be destroyed. -/
theorem C200_valid (parse : Nat → P → V) (all : List Nat) (ms ns : List (Member P)) (p : P) (hn : ∀ m ∈ ns, m = .other) (y z : St V)
    (h : read parse all y (ms ++ .o p :: ns) = some z) : ∃ a, Holds all z (some (a, parse a p)) ∧ destroy all z all = some (some (a, parse a p)) := by
  rw [read_append] at h
  cases hm : read parse all y ms with
  | none => simp [hm] at h
  | some w =>
    rw [hm, Option.bind_some, read, member] at h
    cases hp : parseValue parse all p w all with
    | none => simp [hp] at h
    | some u =>
      rw [hp, Option.bind_some, read_others parse all ns hn, Option.some.injEq] at h
      subst h
      obtain ⟨a, ha, _⟩ := parseValue_holds parse all p w u all (fun b hb => hb) hp
      exact ⟨a, ha, destroy_wf all u _ ha all (fun a' v' hc => by simp at hc; exact hc.1 ▸ ha.1) fun b hb => hb⟩

/-- The object that a variant had is never destroyed if another is read into it, whatever it was. -/
theorem C200_lost_counterexample (ser : Nat → V → P) (parse : Nat → P → V) (all : List Nat) (x y : St V) (a b : Nat) (v u : V) (hx : Holds all x (some (a, v)))
    (hy : Holds all y (some (b, u))) :
    ∃ ms z, write ser all x = some ms ∧ read parse all y ms = some z ∧ (b, u) ∈ z.lost := by
  refine ⟨[.t x.tag, .o (ser a v)], ⟨getpos a all, some (a, parse a (ser a v)), y.store.toList ++ y.lost⟩, ?_, ?_, by rw [hy.2.2]; simp⟩
  · rw [write, writeValue_some ser all x a v hx all hx.1 fun b hb => hb]; rfl
  · have e := parseValue_some parse all (ser a v) { y with tag := x.tag } a hx.1 hx.2.1 all hx.1 fun b hb => hb
    simp only [read, member, Option.bind_some, e]

/-- With the value before the tag the variant has the tag of another type than its object: its destructor runs on the wrong object. -/
theorem C200_order_counterexample (parse : Nat → P → V) (all : List Nat) (y : St V) (a b : Nat) (u : V) (p : P) (ha : a ∈ all) (hab : a ≠ b) (hy : Holds all y (some (b, u))) :
    ∃ z, read parse all y [.o p, .t (getpos a all)] = some z ∧ z.tag = getpos a all ∧ get all z a = none ∧ destroy all z all = none := by
  have e := parseValue_some parse all p y b hy.1 hy.2.1 all hy.1 fun b hb => hb
  refine ⟨⟨getpos a all, some (b, parse b p), y.store.toList ++ y.lost⟩, by simp [read, member, e], rfl, by simp [get, Ne.symm hab], ?_⟩
  have key : ∀ l, a ∈ l → (∀ c ∈ l, c ∈ all) → destroy all (⟨getpos a all, some (b, parse b p), y.store.toList ++ y.lost⟩ : St V) l = none := by
    intro l
    induction l with
    | nil => intro h; simp at h
    | cons c l ih =>
      intro hm hs
      by_cases hc : getpos c all = getpos a all
      · have : c = a := getpos_inj (hs c (by simp)) ha hc
        subst this
        simp [destroy, Ne.symm hab]
      · rw [destroy, if_neg hc]
        have : c ≠ a := by rintro rfl; exact hc rfl
        exact ih (by simpa [Ne.symm this] using hm) fun d hd => hs d (by simp [hd])
  exact key all ha fun c hc => hc

/-- A tag without a value makes an empty variant one that has no object of its type. -/
theorem C200_missing_counterexample (parse : Nat → P → V) (all : List Nat) (y : St V) (a : Nat) (hy : Holds all y none) :
    ∃ z, read parse all y [.t (getpos a all)] = some z ∧ z.tag = getpos a all ∧ get all z a = none := by
  refine ⟨{ y with tag := getpos a all }, by simp [read, member], rfl, ?_⟩
  simp [get, hy.2]

/-- A variant of the types 10, 20 and 30 with a value of type 20, read into one with a value of type 10. -/
example : Holds [10, 20, 30] (⟨1, some (20, "v"), []⟩ : St String) (some (20, "v")) ∧
    write (fun a v => (a, v)) [10, 20, 30] (⟨1, some (20, "v"), []⟩ : St String) = some [.t 1, .o (20, "v")] ∧
    read (fun _ p => p.2) [10, 20, 30] ⟨0, some (10, "w"), []⟩ [.t 1, .o (20, "v"), .other] = some ⟨1, some (20, "v"), [(10, "w")]⟩ := by
  refine ⟨⟨by decide, by decide, rfl⟩, by decide, by decide⟩

end Verif.Var.Serial
