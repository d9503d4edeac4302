import Mathlib.Order.Defs.LinearOrder
import Mathlib.Order.Nat
import Verif.Common.Cmp

/-!
# Comparison functions (C57), `compare.h:11-57`

`T` is any type with a linear order (the integers, for instance; floating point NaN is outside the model).
-/

namespace Verif.Arith

variable {α β : Type} [LinearOrder α] [LinearOrder β]

/-- C++ `bool` to `int`. -/
def b2i (p : Prop) [Decidable p] : Int := if p then 1 else 0

/-- `SGNCOMPARE` / `CompT`, `compare.h:11,16`. -/
def compT (l r : α) : Int := b2i (l > r) - b2i (l < r)

/-- `CompTInv`, `compare.h:19`. -/
def compTInv (l r : α) : Int := b2i (r > l) - b2i (r < l)

/-- `CompT_LT`, `compare.h:22`. -/
def compT_LT (l r : α) : Int := - b2i (l < r)

/-- `CompT_GT`, `compare.h:25`. -/
def compT_GT (l r : α) : Int := b2i (l > r)

/-- `CompTFirst`, `compare.h:34`. -/
def compTFirst {γ δ : Type} (f : γ → γ → Int) (l r : γ × δ) : Int := f l.1 r.1

/-- `CompTSecond`, `compare.h:37`. -/
def compTSecond {γ δ : Type} (s : δ → δ → Int) (l r : γ × δ) : Int := s l.2 r.2

/-- `CompTBoth`, `compare.h:40`. -/
def compTBoth {γ δ : Type} (f : γ → γ → Int) (s : δ → δ → Int) (l r : γ × δ) : Int :=
  let c := f l.1 r.1
  if c = 0 then s l.2 r.2 else c

/-- The C library's `strcmp` on the bytes before the terminator: the difference of the first pair of different
bytes, the terminator counting as 0 (external function; its contract is the model). -/
def strcmp : List Nat → List Nat → Int
  | [], [] => 0
  | [], b :: _ => - (b : Int)
  | a :: _, [] => (a : Int)
  | a :: as, b :: bs => if a = b then strcmp as bs else (a : Int) - b

/-- `CompStr`, `compare.h:46-50`. -/
def compStr (l r : List Nat) : Int := b2i (strcmp l r > 0) - b2i (strcmp l r < 0)

/-! ### properties -/

/-- C57: `CompT` tells the three cases apart with -1, 0, 1. -/
theorem C57_compT (l r : α) :
    (compT l r = -1 ↔ l < r) ∧ (compT l r = 0 ↔ l = r) ∧ (compT l r = 1 ↔ r < l) := by
  unfold compT b2i
  rcases lt_trichotomy l r with h | h | h
  · have h1 := not_lt_of_gt h; have h2 := ne_of_lt h; simp [h, h1, h2]
  · subst h; simp
  · have h1 := not_lt_of_gt h; have h2 := (ne_of_lt h).symm; simp [h, h1, h2]

/-- C57: it is a total preorder in the sense every ordered container of the library needs. -/
theorem C57_compT_ord : CmpOrd (compT (α := α)) := by
  have key : ∀ l r : α, (compT l r < 0 ↔ l < r) ∧ (0 < compT l r ↔ r < l) := by
    intro l r
    unfold compT b2i
    rcases lt_trichotomy l r with h | h | h
    · have h1 := not_lt_of_gt h; simp [h, h1]
    · subst h; simp
    · have h1 := not_lt_of_gt h; simp [h, h1]
  refine ⟨fun a b => ?_, fun a b c h1 h2 => ?_⟩
  · rw [(key a b).1, (key b a).2]
  · have e : ∀ l r : α, compT l r ≤ 0 ↔ l ≤ r := by
      intro l r
      have := (key l r).2
      constructor
      · intro h
        apply le_of_not_gt
        intro h'
        have := this.2 h'
        omega
      · intro h
        have := mt this.1 (not_lt_of_ge h)
        omega
    rw [e] at *
    exact le_trans h1 h2

/-- C57: `CompTInv` is the reverse order. -/
theorem C57_compTInv (l r : α) :
    (compTInv l r = -1 ↔ r < l) ∧ (compTInv l r = 0 ↔ l = r) ∧ (compTInv l r = 1 ↔ l < r) := by
  have h := C57_compT r l
  have e : compTInv l r = compT r l := rfl
  rw [e]
  exact ⟨h.1, h.2.1.trans eq_comm, h.2.2⟩

theorem C57_compTInv_ord : CmpOrd (compTInv (α := α)) :=
  ⟨fun a b => C57_compT_ord.sym b a, fun a b c h1 h2 => C57_compT_ord.trans c b a h2 h1⟩

/-- C57: `CompT_LT` and `CompT_GT` flag exactly the strict relations. -/
theorem C57_compT_LT_GT (l r : α) :
    (compT_LT l r = if l < r then -1 else 0) ∧ (compT_GT l r = if r < l then 1 else 0) := by
  unfold compT_LT compT_GT b2i
  refine ⟨?_, rfl⟩
  split <;> rfl

/-- C57: `CompTFirst` / `CompTSecond` are total preorders if the component comparison is. -/
theorem C57_component_ord {γ δ : Type} (f : γ → γ → Int) (s : δ → δ → Int) (hf : CmpOrd f) (hs : CmpOrd s) :
    CmpOrd (compTFirst (δ := δ) f) ∧ CmpOrd (compTSecond (γ := γ) s) :=
  ⟨⟨fun a b => hf.sym _ _, fun a b c => hf.trans _ _ _⟩, ⟨fun a b => hs.sym _ _, fun a b c => hs.trans _ _ _⟩⟩

/-- C57: `CompTBoth` decides lexicographically, first component first. -/
theorem C57_both_lex {γ δ : Type} (f : γ → γ → Int) (s : δ → δ → Int) (l r : γ × δ) :
    (compTBoth f s l r < 0 ↔ f l.1 r.1 < 0 ∨ (f l.1 r.1 = 0 ∧ s l.2 r.2 < 0)) ∧
    (compTBoth f s l r = 0 ↔ f l.1 r.1 = 0 ∧ s l.2 r.2 = 0) ∧
    (0 < compTBoth f s l r ↔ 0 < f l.1 r.1 ∨ (f l.1 r.1 = 0 ∧ 0 < s l.2 r.2)) := by
  unfold compTBoth
  simp only
  split <;> omega

/-- C57: … and is a total preorder when the two comparisons are. -/
theorem C57_both_ord {γ δ : Type} (f : γ → γ → Int) (s : δ → δ → Int) (hf : CmpOrd f) (hs : CmpOrd s) :
    CmpOrd (compTBoth f s) := by
  refine ⟨fun a b => ?_, fun a b c h1 h2 => ?_⟩
  · have k1 := (C57_both_lex f s a b).1
    have k2 := (C57_both_lex f s b a).2.2
    rw [k1, k2, hf.sym, hs.sym, hf.swap_eq]
  · have hle : ∀ x y, compTBoth f s x y ≤ 0 ↔ (f x.1 y.1 < 0 ∨ (f x.1 y.1 = 0 ∧ s x.2 y.2 ≤ 0)) := by
      intro x y
      have k1 := (C57_both_lex f s x y).1
      have k2 := (C57_both_lex f s x y).2.1
      omega
    rw [hle] at *
    rcases h1 with h1 | ⟨h1, h1'⟩
    · rcases h2 with h2 | ⟨h2, h2'⟩
      · exact .inl (hf.lt_trans h1 h2)
      · exact .inl (hf.lt_of_lt_of_le h1 (by omega))
    · rcases h2 with h2 | ⟨h2, h2'⟩
      · exact .inl (hf.lt_of_le_of_lt (by omega) h2)
      · exact .inr ⟨hf.eq_trans h1 h2, hs.trans _ _ _ h1' h2'⟩

/-- With the default component comparisons: zero only for equal pairs. -/
theorem C57_both_eq (l r : α × β) : compTBoth compT compT l r = 0 ↔ l = r := by
  rw [(C57_both_lex _ _ _ _).2.1, (C57_compT _ _).2.1, (C57_compT _ _).2.1, Prod.ext_iff]

/-- Strings without embedded terminator. -/
def CStr (l : List Nat) : Prop := ∀ b ∈ l, b ≠ 0

theorem strcmp_spec : ∀ l r : List Nat, CStr l → CStr r →
    (strcmp l r < 0 ↔ l < r) ∧ (0 < strcmp l r ↔ r < l)
  | [], [], _, _ => by simp [strcmp]
  | [], b :: bs, _, h => by
    have := h b (by simp)
    simp only [strcmp, List.nil_lt_cons, iff_true, List.not_lt_nil, iff_false]
    omega
  | a :: as, [], h, _ => by
    have := h a (by simp)
    simp only [strcmp, List.nil_lt_cons, iff_true, List.not_lt_nil, iff_false]
    omega
  | a :: as, b :: bs, ha, hb => by
    have ih := strcmp_spec as bs (fun x hx => ha x (List.mem_cons_of_mem _ hx)) (fun x hx => hb x (List.mem_cons_of_mem _ hx))
    simp only [strcmp, List.cons_lt_cons_iff]
    split
    · next h => subst h; simp [ih]
    · next h => have h' : ¬ b = a := fun e => h e.symm; simp [h, h']; omega

/-- C57: `CompStr` is the lexicographic order of the bytes with values -1, 0, 1. -/
theorem C57_compStr (l r : List Nat) (hl : CStr l) (hr : CStr r) :
    (compStr l r = -1 ↔ l < r) ∧ (compStr l r = 1 ↔ r < l) ∧ (compStr l r = 0 ↔ l = r) := by
  have h := strcmp_spec l r hl hr
  have h1 : compStr l r = -1 ↔ strcmp l r < 0 := by unfold compStr b2i; split <;> split <;> omega
  have h2 : compStr l r = 1 ↔ 0 < strcmp l r := by unfold compStr b2i; split <;> split <;> omega
  have h3 : compStr l r = 0 ↔ strcmp l r = 0 := by unfold compStr b2i; split <;> split <;> omega
  refine ⟨h1.trans h.1, h2.trans h.2, ?_⟩
  rw [h3]
  have key : ∀ l r : List Nat, CStr l → CStr r → (strcmp l r = 0 ↔ l = r) := by
    intro l
    induction l with
    | nil =>
      intro r _ hr
      cases r with
      | nil => simp [strcmp]
      | cons b bs => have := hr b (by simp); simp [strcmp]; omega
    | cons a as ih =>
      intro r ha hr
      cases r with
      | nil => have := ha a (by simp); simp [strcmp]; omega
      | cons b bs =>
        have := ih bs (fun x hx => ha x (List.mem_cons_of_mem _ hx)) (fun x hx => hr x (List.mem_cons_of_mem _ hx))
        simp only [strcmp]
        split
        · next h => simp [h, this]
        · next h => simp [h]; omega
  exact key l r hl hr

example : CmpOrd (compTBoth (compT (α := Nat)) (compTInv (α := Nat))) := C57_both_ord _ _ C57_compT_ord C57_compTInv_ord
example : CStr [97, 98] ∧ CStr [97, 200] ∧ compStr [97, 98] [97, 200] = -1 := by
  refine ⟨?_, ?_, by decide⟩ <;> (unfold CStr; decide)

end Verif.Arith
