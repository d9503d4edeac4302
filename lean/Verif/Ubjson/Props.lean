import Verif.Ubjson.Lemmas

/-! # UBJSON: properties -/

namespace Verif.Ubjson

/-! ## Specification -/

mutual
/-- The values of the data model: numbers within the range of their type, lengths below `2 ^ 63`, and no no-ops (which are not values). -/
def Ok : V → Prop
  | .null => True | .tru => True | .fls => True | .noop => False
  | .chr v => -128 ≤ v ∧ v ≤ 127
  | .i8 v => -128 ≤ v ∧ v ≤ 127
  | .u8 v => 0 ≤ v ∧ v ≤ 255
  | .i16 v => -2 ^ 15 ≤ v ∧ v < 2 ^ 15
  | .i32 v => -2 ^ 31 ≤ v ∧ v < 2 ^ 31
  | .i64 v => -2 ^ 63 ≤ v ∧ v < 2 ^ 63
  | .f32 b => b < 2 ^ 32
  | .f64 b => b < 2 ^ 64
  | .str s => s.length < 2 ^ 63
  | .big s => s.length < 2 ^ 63
  | .arr l => l.length < 2 ^ 63 ∧ OkL l
  | .obj l => l.length < 2 ^ 63 ∧ OkO l
def OkL : List V → Prop
  | [] => True
  | v :: l => Ok v ∧ OkL l
def OkO : List (List Nat × V) → Prop
  | [] => True
  | p :: l => OkP p ∧ OkO l
def OkP : (List Nat × V) → Prop
  | (k, v) => k.length < 2 ^ 63 ∧ Ok v
end

/-- All nulls, all true or all false: the elements take no bytes. -/
def Units (l : List V) : Prop := l ≠ [] ∧ ((∀ v ∈ l, v = .null) ∨ (∀ v ∈ l, v = .tru) ∨ (∀ v ∈ l, v = .fls))

/-- The value is, or its last element is (and so on), an array of equal nulls or booleans. -/
inductive UnitTail : V → Prop where
  | here {l : List V} : Units l → UnitTail (.arr l)
  | arr {l : List V} {v : V} : UnitTail v → UnitTail (.arr (l ++ [v]))
  | obj {l : List (List Nat × V)} {k : List Nat} {v : V} : UnitTail v → UnitTail (.obj (l ++ [(k, v)]))

mutual
/-- Enough fuel for the parser. -/
def size : V → Nat
  | .arr l => 1 + sizeL l
  | .obj l => 1 + sizeO l
  | _ => 1
def sizeL : List V → Nat
  | [] => 1
  | v :: l => 1 + size v + sizeL l
def sizeO : List (List Nat × V) → Nat
  | [] => 1
  | p :: l => 1 + sizeP p + sizeO l
def sizeP : (List Nat × V) → Nat
  | (_, v) => size v
end

/-! ## Lemmas -/

def isUnit (t : Nat) : Bool := t == 90 || t == 84 || t == 70

mutual
def lastUnit : V → Bool
  | .arr l => isUnit (common (tags l)) || lastUnitL l
  | .obj l => lastUnitO l
  | _ => false
def lastUnitL : List V → Bool
  | [] => false
  | v :: l => if l.isEmpty then lastUnit v else lastUnitL l
def lastUnitO : List (List Nat × V) → Bool
  | [] => false
  | p :: l => if l.isEmpty then lastUnitP p else lastUnitO l
def lastUnitP : (List Nat × V) → Bool
  | (_, v) => lastUnit v
end

theorem common_eq (l : List Nat) : common l = 0 ∨ (l ≠ [] ∧ ∀ t ∈ l, t = common l) := by
  cases l with
  | nil => exact .inl rfl
  | cons t l =>
    rw [common]
    split
    · next h =>
      refine .inr ⟨by simp, fun x hx => ?_⟩
      rcases List.mem_cons.1 hx with rfl | hx
      · rfl
      · simpa using List.all_eq_true.1 h x hx
    · exact .inl rfl

theorem tag_pos (v : V) : v.tag ≠ 0 := by cases v <;> simp [V.tag]

theorem tag_ok {v : V} (h : Ok v) : v.tag ≠ 78 := by cases v <;> simp [V.tag, Ok] at *

theorem getType_cons {b : Nat} (h : b ≠ 78) (s : List Nat) : getType (b :: s) = .ok (b, s) := by
  cases s with
  | nil => rfl
  | cons c s => rw [getType, if_neg h]

/-- The first step of the parser on a value written with the same expectation. -/
theorem head_eq {ty t : Nat} (h0 : t ≠ 78) (hty : ty = 0 ∨ ty = t) (s : List Nat) :
    (if ty = 0 then getType ((if ty = 0 then [t] else []) ++ s) else .ok (ty, (if ty = 0 then [t] else []) ++ s)) = .ok (t, s) := by
  by_cases h : ty = 0
  · rw [if_pos h, if_pos h]; exact getType_cons h0 s
  · rcases hty with e | e
    · exact absurd e h
    · rw [if_neg h, if_neg h, e]; rfl

theorem parse_head {n ty t : Nat} (h0 : t ≠ 78) (hty : ty = 0 ∨ ty = t) (s : List Nat) : parse (n + 1) ty ((if ty = 0 then [t] else []) ++ s) =
    if t = 91 then (parseTypeCount s).bind fun c => (elems n c.1.1 c.1.2 c.2).bind fun e => .ok (.arr e.1, e.2)
    else if t = 123 then (parseTypeCount s).bind fun c => (fields n c.1.1 c.1.2 c.2).bind fun e => .ok (.obj e.1, e.2)
    else leaf t s := by
  rw [parse, head_eq h0 hty]; rfl

theorem parseTypeCount_write (t k : Nat) (hk : k < 2 ^ 63) (s : List Nat) : parseTypeCount (writeTypeCount t k ++ s) = .ok ((t, k), s) := by
  unfold writeTypeCount
  by_cases h : t = 0
  · subst h
    simp only [parseTypeCount, parseCount, ne_eq, not_true, if_false, List.nil_append, List.cons_append, List.head?_cons, List.tail_cons, Option.some.injEq]
    rw [if_neg (by decide), if_pos trivial, parseLength_write (by omega) (by omega)]
    rfl
  · simp only [parseTypeCount, parseCount, ne_eq, h, not_false_eq_true, if_true, List.nil_append, List.cons_append, List.head?_cons, List.tail_cons, Option.some.injEq]
    rw [parseLength_write (by omega) (by omega)]
    rfl

theorem writeTypeCount_ne (t k : Nat) : writeTypeCount t k ≠ [] := by simp [writeTypeCount]

theorem write_ne {v : V} {ty : Nat} (hv : Ok v) (h : ty = 0 ∨ (isUnit ty = false ∧ ty = v.tag)) : write v ty ≠ [] := by
  rcases h with rfl | ⟨h1, rfl⟩
  · cases v <;> simp [write]
  · intro e
    have := congrArg List.length e
    cases v <;> simp [write, V.tag, isUnit, writeInt_length, Ok, writeLength] at *
    · split at e <;> simp [writeTypeCount] at e
    · split at e <;> simp [writeTypeCount] at e

theorem more_pos {k stop : Nat} {s : List Nat} (h : s ≠ []) : more ((k + 1 : Nat) : Int) stop s = true := by
  unfold more
  cases s with
  | nil => exact absurd rfl h
  | cons b s =>
    have : ((k + 1 : Nat) : Int) > 0 := by omega
    simp [this]

theorem more_zero {stop : Nat} {s : List Nat} : more 0 stop s = false := by simp [more]

theorem close_zero {stop : Nat} {s : List Nat} : close 0 stop s = s := by simp [close]

theorem leaf_ok {v : V} (hv : Ok v) {ty n : Nat} (hty : ty = 0 ∨ ty = v.tag) {s p rest : List Nat} (h1 : v.tag ≠ 91) (h2 : v.tag ≠ 123)
    (hw : s = (if ty = 0 then [v.tag] else []) ++ p) (hl : leaf v.tag p = .ok (v, rest)) : parse (n + 1) ty s = .ok (v, rest) := by
  rw [hw, parse_head (tag_ok hv) hty, if_neg h1, if_neg h2, hl]

mutual
theorem parse_write : ∀ (v : V), Ok v → ∀ (ty : Nat), (ty = 0 ∨ ty = v.tag) → ∀ (rest : List Nat), (rest ≠ [] ∨ lastUnit v = false) →
    ∀ n, size v ≤ n → parse n ty (write v ty ++ rest) = .ok (v, rest)
  | v, hv, ty, hty, rest, hr, 0, hn => by cases v <;> simp [size] at hn
  | .null, hv, ty, hty, rest, hr, n + 1, hn => leaf_ok hv hty (by decide) (by decide) rfl rfl
  | .tru, hv, ty, hty, rest, hr, n + 1, hn => leaf_ok hv hty (by decide) (by decide) rfl rfl
  | .fls, hv, ty, hty, rest, hr, n + 1, hn => leaf_ok hv hty (by decide) (by decide) rfl rfl
  | .noop, hv, ty, hty, rest, hr, n + 1, hn => absurd hv id
  | .chr v, hv, ty, hty, rest, hr, n + 1, hn => by
    refine leaf_ok hv hty (by simp [V.tag]) (by simp [V.tag]) (by rw [write, List.append_assoc]; rfl) ?_
    simp only [Ok] at hv
    have := parseInt_write (signed := true) (w := 1) (by omega) (v := v) (by simp [minOf]; omega) (by simp [maxOf]; omega) rest
    simp [leaf, V.tag, this, R.bind]
  | .i8 v, hv, ty, hty, rest, hr, n + 1, hn => by
    refine leaf_ok hv hty (by simp [V.tag]) (by simp [V.tag]) (by rw [write, List.append_assoc]; rfl) ?_
    simp only [Ok] at hv
    have := parseInt_write (signed := true) (w := 1) (by omega) (v := v) (by simp [minOf]; omega) (by simp [maxOf]; omega) rest
    simp [leaf, V.tag, this, R.bind]
  | .u8 v, hv, ty, hty, rest, hr, n + 1, hn => by
    refine leaf_ok hv hty (by simp [V.tag]) (by simp [V.tag]) (by rw [write, List.append_assoc]; rfl) ?_
    simp only [Ok] at hv
    have := parseInt_write (signed := false) (w := 1) (by omega) (v := v) (by simp [minOf]; omega) (by simp [maxOf]; omega) rest
    simp [leaf, V.tag, this, R.bind]
  | .i16 v, hv, ty, hty, rest, hr, n + 1, hn => by
    refine leaf_ok hv hty (by simp [V.tag]) (by simp [V.tag]) (by rw [write, List.append_assoc]; rfl) ?_
    simp only [Ok] at hv
    have := parseInt_write (signed := true) (w := 2) (by omega) (v := v) (by simp [minOf]; omega) (by simp [maxOf]; omega) rest
    simp [leaf, V.tag, this, R.bind]
  | .i32 v, hv, ty, hty, rest, hr, n + 1, hn => by
    refine leaf_ok hv hty (by simp [V.tag]) (by simp [V.tag]) (by rw [write, List.append_assoc]; rfl) ?_
    simp only [Ok] at hv
    have := parseInt_write (signed := true) (w := 4) (by omega) (v := v) (by simp [minOf]; omega) (by simp [maxOf]; omega) rest
    simp [leaf, V.tag, this, R.bind]
  | .i64 v, hv, ty, hty, rest, hr, n + 1, hn => by
    refine leaf_ok hv hty (by simp [V.tag]) (by simp [V.tag]) (by rw [write, List.append_assoc]; rfl) ?_
    simp only [Ok] at hv
    have := parseInt_write (signed := true) (w := 8) (by omega) (v := v) (by simp [minOf]; omega) (by simp [maxOf]; omega) rest
    simp [leaf, V.tag, this, R.bind]
  | .f32 b, hv, ty, hty, rest, hr, n + 1, hn => by
    refine leaf_ok hv hty (by simp [V.tag]) (by simp [V.tag]) (by rw [write, List.append_assoc]; rfl) ?_
    simp only [Ok] at hv
    have := parseInt_write (signed := false) (w := 4) (by omega) (v := b) (by simp [minOf]) (by simp [maxOf]; omega) rest
    simp [leaf, V.tag, this, R.bind]
  | .f64 b, hv, ty, hty, rest, hr, n + 1, hn => by
    refine leaf_ok hv hty (by simp [V.tag]) (by simp [V.tag]) (by rw [write, List.append_assoc]; rfl) ?_
    simp only [Ok] at hv
    have := parseInt_write (signed := false) (w := 8) (by omega) (v := b) (by simp [minOf]) (by simp [maxOf]; omega) rest
    simp [leaf, V.tag, this, R.bind]
  | .str m, hv, ty, hty, rest, hr, n + 1, hn => by
    refine leaf_ok hv hty (by simp [V.tag]) (by simp [V.tag]) (by rw [write, List.append_assoc]; rfl) ?_
    simp only [Ok] at hv
    rw [List.append_assoc]
    simp [leaf, V.tag, parseString_write hv, R.bind]
  | .big m, hv, ty, hty, rest, hr, n + 1, hn => by
    refine leaf_ok hv hty (by simp [V.tag]) (by simp [V.tag]) (by rw [write, List.append_assoc]; rfl) ?_
    simp only [Ok] at hv
    rw [List.append_assoc]
    simp [leaf, V.tag, parseString_write hv, R.bind]
  | .arr [], hv, ty, hty, rest, hr, n + 1, hn => by
    rw [write, List.append_assoc, parse_head (t := 91) (by decide) hty, if_pos rfl]
    simp [size, sizeL] at hn
    obtain ⟨k, rfl⟩ : ∃ k, n = k + 1 := ⟨n - 1, by omega⟩
    simp [parseTypeCount, parseCount, R.bind, elems, more, close]
  | .arr (v :: l), hv, ty, hty, rest, hr, n + 1, hn => by
    rw [write, List.append_assoc, parse_head (t := 91) (by decide) hty, if_pos rfl, if_neg (by simp), List.append_assoc]
    simp only [Ok] at hv
    rw [parseTypeCount_write _ _ hv.1]
    simp only [R.bind]
    have hc := common_eq (tags (v :: l))
    rw [elems_write (v :: l) hv.2 (common (tags (v :: l))) ?_ rest ?_ n (by simp only [size] at hn; omega)]
    · rcases hc with hc | ⟨-, hc⟩
      · exact .inl hc
      · exact .inr fun w hw => hc _ (List.mem_map_of_mem hw)
    · rcases hr with hr | hr
      · exact .inl hr
      · rw [lastUnit, Bool.or_eq_false_iff] at hr
        exact .inr hr
  | .obj [], hv, ty, hty, rest, hr, n + 1, hn => by
    rw [write, List.append_assoc, parse_head (t := 123) (by decide) hty, if_neg (by decide), if_pos rfl]
    simp [size, sizeO] at hn
    obtain ⟨k, rfl⟩ : ∃ k, n = k + 1 := ⟨n - 1, by omega⟩
    simp [parseTypeCount, parseCount, R.bind, fields, more, close]
  | .obj (p :: l), hv, ty, hty, rest, hr, n + 1, hn => by
    rw [write, List.append_assoc, parse_head (t := 123) (by decide) hty, if_neg (by decide), if_pos rfl, if_neg (by simp), List.append_assoc]
    simp only [Ok] at hv
    rw [parseTypeCount_write _ _ hv.1]
    simp only [R.bind]
    have hc := common_eq (tagsO (p :: l))
    rw [fields_write (p :: l) hv.2 (common (tagsO (p :: l))) ?_ rest ?_ n (by simp only [size] at hn; omega)]
    · rcases hc with hc | ⟨-, hc⟩
      · exact .inl hc
      · exact .inr fun w hw => hc _ (List.mem_map_of_mem (f := fun p : List Nat × V => p.2.tag) hw)
    · rcases hr with hr | hr
      · exact .inl hr
      · rw [lastUnit] at hr
        exact .inr hr

theorem elems_write : ∀ (l : List V), OkL l → ∀ (ty : Nat), (ty = 0 ∨ ∀ v ∈ l, v.tag = ty) → ∀ (rest : List Nat), (rest ≠ [] ∨ (isUnit ty = false ∧ lastUnitL l = false)) →
    ∀ n, sizeL l ≤ n → elems n ty l.length (writeL l ty ++ rest) = .ok (l, rest)
  | [], hv, ty, hty, rest, hr, 0, hn => by simp [sizeL] at hn
  | [], hv, ty, hty, rest, hr, n + 1, hn => by
    simp only [elems, writeL, List.length_nil, List.nil_append, Int.natCast_zero, more_zero, close_zero]
    rfl
  | v :: l, hv, ty, hty, rest, hr, 0, hn => by simp [sizeL] at hn
  | v :: l, hv, ty, hty, rest, hr, n + 1, hn => by
    simp only [OkL] at hv
    have hn' : size v ≤ n ∧ sizeL l ≤ n := by simp only [sizeL] at hn; omega
    have hty1 : ty = 0 ∨ ty = v.tag := hty.imp id fun h => (h v (by simp)).symm
    have hty2 : ty = 0 ∨ ∀ v ∈ l, v.tag = ty := hty.imp id fun h w hw => h w (by simp [hw])
    have hne : write v ty ++ (writeL l ty ++ rest) ≠ [] := by
      rcases hr with hr | ⟨hu, -⟩
      · simp [hr]
      · have := write_ne hv.1 (hty1.imp id fun h => ⟨hu, h⟩)
        simp [this]
    have hr1 : writeL l ty ++ rest ≠ [] ∨ lastUnit v = false := by
      rcases hr with hr | ⟨hu, hl⟩
      · exact .inl (by simp [hr])
      · cases l with
        | nil => exact .inr (by simpa [lastUnitL] using hl)
        | cons w l =>
          have := write_ne (v := w) hv.2.1 (hty2.imp id fun h => ⟨hu, (h w (by simp)).symm⟩)
          exact .inl (by rw [writeL]; simp [this])
    have hr2 : rest ≠ [] ∨ (isUnit ty = false ∧ lastUnitL l = false) := by
      refine hr.imp id fun h => ⟨h.1, ?_⟩
      cases l with
      | nil => rfl
      | cons w l => simpa [lastUnitL] using h.2
    have ih1 := parse_write v hv.1 ty hty1 (writeL l ty ++ rest) hr1 n hn'.1
    have ih2 := elems_write l hv.2 ty hty2 rest hr2 n hn'.2
    rw [elems, writeL, List.append_assoc, List.length_cons, if_pos (more_pos hne), ih1]
    simp only [R.bind]
    rw [show ((l.length + 1 : Nat) : Int) - 1 = l.length by omega, ih2]

theorem fields_write : ∀ (l : List (List Nat × V)), OkO l → ∀ (ty : Nat), (ty = 0 ∨ ∀ p ∈ l, p.2.tag = ty) → ∀ (rest : List Nat), (rest ≠ [] ∨ lastUnitO l = false) →
    ∀ n, sizeO l ≤ n → fields n ty l.length (writeO l ty ++ rest) = .ok (l, rest)
  | [], hv, ty, hty, rest, hr, 0, hn => by simp [sizeO] at hn
  | [], hv, ty, hty, rest, hr, n + 1, hn => by
    simp only [fields, writeO, List.length_nil, List.nil_append, Int.natCast_zero, more_zero, close_zero]
    rfl
  | p :: l, hv, ty, hty, rest, hr, 0, hn => by simp [sizeO] at hn
  | (k, v) :: l, hv, ty, hty, rest, hr, n + 1, hn => by
    simp only [OkO, OkP] at hv
    have hn' : size v ≤ n ∧ sizeO l ≤ n := by simp only [sizeO, sizeP] at hn; omega
    have hty1 : ty = 0 ∨ ty = v.tag := hty.imp id fun h => (h (k, v) (by simp)).symm
    have hty2 : ty = 0 ∨ ∀ p ∈ l, p.2.tag = ty := hty.imp id fun h w hw => h w (by simp [hw])
    have hne : ∀ (m : List Nat) (i : Int) (t : List Nat), writeLength i ++ (m ++ t) ≠ [] := by
      intro m i t; simp [writeLength]
    have hr1 : writeO l ty ++ rest ≠ [] ∨ lastUnit v = false := by
      rcases hr with hr | hl
      · exact .inl (by simp [hr])
      · cases l with
        | nil => exact .inr (by simpa [lastUnitO, lastUnitP] using hl)
        | cons w l =>
          obtain ⟨k', w⟩ := w
          exact .inl (by rw [writeO, writeP]; simp [writeLength])
    have hr2 : rest ≠ [] ∨ lastUnitO l = false := by
      refine hr.imp id fun h => ?_
      cases l with
      | nil => rfl
      | cons w l => simpa [lastUnitO] using h
    have ih1 := parse_write v hv.1.2 ty hty1 (writeO l ty ++ rest) hr1 n hn'.1
    have ih2 := fields_write l hv.2 ty hty2 rest hr2 n hn'.2
    rw [fields, writeO, writeP, List.length_cons, List.append_assoc, List.append_assoc, List.append_assoc, if_pos (more_pos (hne _ _ _)), parseString_write hv.1.1]
    simp only [R.bind]
    rw [ih1]
    simp only
    rw [show ((l.length + 1 : Nat) : Int) - 1 = l.length by omega, ih2]
end

theorem tag_unit {v : V} {t : Nat} (h : v.tag = t) : (t = 90 → v = .null) ∧ (t = 84 → v = .tru) ∧ (t = 70 → v = .fls) := by
  subst h
  cases v <;> simp [V.tag]

mutual
theorem unitTail_of : ∀ (v : V), lastUnit v = true → UnitTail v
  | .arr l, h => by
    rw [lastUnit, Bool.or_eq_true] at h
    rcases h with h | h
    · rcases common_eq (tags l) with hc | ⟨hne, hc⟩
      · rw [hc] at h; simp [isUnit] at h
      · refine .here ⟨fun e => hne (by rw [e]; rfl), ?_⟩
        have hv : ∀ v ∈ l, v.tag = common (tags l) := fun v hv => hc _ (List.mem_map_of_mem hv)
        generalize common (tags l) = t at h hv
        simp only [isUnit, Bool.or_eq_true, beq_iff_eq] at h
        rcases h with (h | h) | h
        · exact .inl fun v m => (tag_unit (hv v m)).1 h
        · exact .inr (.inl fun v m => (tag_unit (hv v m)).2.1 h)
        · exact .inr (.inr fun v m => (tag_unit (hv v m)).2.2 h)
    · obtain ⟨m, v, rfl, hv⟩ := unitTailL_of l h
      exact .arr hv
  | .obj l, h => by
    rw [lastUnit] at h
    obtain ⟨m, k, v, rfl, hv⟩ := unitTailO_of l h
    exact .obj hv
  | .null, h | .tru, h | .fls, h | .noop, h | .chr _, h | .i8 _, h | .u8 _, h | .i16 _, h | .i32 _, h | .i64 _, h | .f32 _, h | .f64 _, h | .str _, h | .big _, h => by
    simp [lastUnit] at h
theorem unitTailL_of : ∀ (l : List V), lastUnitL l = true → ∃ m v, l = m ++ [v] ∧ UnitTail v
  | [], h => by simp [lastUnitL] at h
  | [v], h => ⟨[], v, rfl, unitTail_of v (by simpa [lastUnitL] using h)⟩
  | v :: w :: l, h => by
    obtain ⟨m, x, e, hx⟩ := unitTailL_of (w :: l) (by simpa [lastUnitL] using h)
    exact ⟨v :: m, x, by rw [e]; rfl, hx⟩
theorem unitTailO_of : ∀ (l : List (List Nat × V)), lastUnitO l = true → ∃ m k v, l = m ++ [(k, v)] ∧ UnitTail v
  | [], h => by simp [lastUnitO] at h
  | [(k, v)], h => ⟨[], k, v, rfl, unitTail_of v (by simpa [lastUnitO, lastUnitP] using h)⟩
  | v :: w :: l, h => by
    obtain ⟨m, k, x, e, hx⟩ := unitTailO_of (w :: l) (by simpa [lastUnitO] using h)
    exact ⟨v :: m, k, x, by rw [e]; rfl, hx⟩
end

/-! ## C59 -/

/-- **C59.** Parsing what was written gives the same value and stops exactly at the end of it, for every value, of any depth and size, as long as
something follows it in the stream or it does not end with an array of equal nulls or booleans. -/
theorem C59_roundtrip_partial {v : V} (hv : Ok v) {rest : List Nat} (hr : rest ≠ [] ∨ ¬UnitTail v) {n : Nat} (hn : size v ≤ n) :
    parse n 0 (write v 0 ++ rest) = .ok (v, rest) :=
  parse_write v hv 0 (.inl rfl) rest (hr.imp id fun h => by
    cases hl : lastUnit v with
    | false => rfl
    | true => exact absurd (unitTail_of v hl) h) n hn

/-- A nested value: an object with an array of mixed values, an array of strings, an empty object and an array of nulls, followed by something. -/
example : Ok (.obj [([97], .arr [.i16 (-300), .f32 0x7F800001, .tru]), ([], .arr [.str [104, 105], .str []]), ([98], .obj []), ([99, 0], .arr [.null, .null])]) ∧
    ([0] : List Nat) ≠ [] := by
  refine ⟨?_, by decide⟩
  simp [Ok, OkO, OkP, OkL]

/-- **Where it fails:** the loop over the elements stops at the end of the stream, even when elements without bytes are still to come. -/
theorem C59_units_counterexample : write (.arr [.tru, .tru]) 0 = [91, 36, 84, 35, 85, 2] ∧ parse 10 0 [91, 36, 84, 35, 85, 2] = .ok (.arr [], []) :=
  ⟨by rfl, by rfl⟩

theorem ofLe_reverse (m : List Nat) : m.reverse.foldl (fun a b => 256 * a + b) 0 = ofLe m := by
  rw [List.foldl_reverse]
  induction m with
  | nil => rfl
  | cons b m ih => rw [List.foldr_cons, ih, ofLe]; omega

/-- **C59, byte order.** Numbers are written in two's complement with the most significant byte first. -/
theorem C59_big_endian (w : Nat) (v : Int) : (writeInt w v).length = w ∧ (∀ b ∈ writeInt w v, b < 256) ∧
    (((writeInt w v).foldl (fun a b => 256 * a + b) 0 : Nat) : Int) = v % 256 ^ w := by
  refine ⟨writeInt_length w v, ?_, ?_⟩
  · have : ∀ w n, ∀ b ∈ le w n, b < 256 := by
      intro w
      induction w with
      | zero => intro n b hb; simp [le] at hb
      | succ w ih =>
        intro n b hb
        rw [le] at hb
        rcases List.mem_cons.1 hb with rfl | hb
        · omega
        · exact ih _ b hb
    intro b hb
    simp only [writeInt, flip, List.mem_reverse] at hb
    exact this _ _ b hb
  · have hp : (0 : Int) < 256 ^ w := Int.pow_pos (by omega)
    have h3 := Int.emod_lt_of_pos v hp
    have h4 := Int.emod_nonneg v (show (256 : Int) ^ w ≠ 0 by omega)
    have h5 : ((256 ^ w : Nat) : Int) = 256 ^ w := by simp
    unfold writeInt flip
    rw [ofLe_reverse, ofLe_le, Nat.mod_eq_of_lt (by omega)]
    omega

/-! ## C60 -/

/-- The range of the integer types by their markers. -/
def InRange (t : Nat) (v : Int) : Prop :=
  (t = 'U'.toNat ∧ 0 ≤ v ∧ v ≤ 255) ∨ (t = 'i'.toNat ∧ -128 ≤ v ∧ v ≤ 127) ∨ (t = 'I'.toNat ∧ -2 ^ 15 ≤ v ∧ v < 2 ^ 15) ∨
    (t = 'l'.toNat ∧ -2 ^ 31 ≤ v ∧ v < 2 ^ 31) ∨ (t = 'L'.toNat ∧ -2 ^ 63 ≤ v ∧ v < 2 ^ 63)

/-- The number of bytes of the payload. -/
def bytesOf (t : Nat) : Nat := if t = 'U'.toNat ∨ t = 'i'.toNat then 1 else if t = 'I'.toNat then 2 else if t = 'l'.toNat then 4 else 8

/-- **C60.** The type chosen for a length (any 64-bit integer) contains the value, and no type with a shorter payload does. -/
theorem C60_contains {n : Int} (h1 : -2 ^ 63 ≤ n) (h2 : n < 2 ^ 63) :
    InRange (intType true 8 n) n ∧ (∀ t, InRange t n → bytesOf (intType true 8 n) ≤ bytesOf t) ∧ (writeLength n).length = 1 + bytesOf (intType true 8 n) := by
  unfold writeLength
  rw [intType_eq]
  unfold InRange bytesOf
  simp only [Char.reduceToNat]
  refine ⟨?_, fun t ht => ?_, ?_⟩
  · repeat' split
    all_goals omega
  · repeat' split
    all_goals omega
  · repeat' split
    all_goals first
      | (simp [writeInt_length]; done)
      | (simp_all; done)
      | omega

/-- **C60, the other integer types.** Whatever type the number has, the chosen type contains it, unless it is an unsigned 64-bit number of at least `2 ^ 63`. -/
theorem C60_contains_all {fs : Bool} {fw : Nat} (hw : fw = 1 ∨ fw = 2 ∨ fw = 4 ∨ fw = 8) {v : Int} (h1 : minOf fs fw ≤ v) (h2 : v ≤ maxOf fs fw) :
    InRange (intType fs fw v) v ∨ (fs = false ∧ fw = 8 ∧ 2 ^ 63 ≤ v) := by
  unfold InRange
  simp only [Char.reduceToNat]
  generalize ht : intType fs fw v = t
  rcases hw with rfl | rfl | rfl | rfl <;> cases fs <;> simp [minOf, maxOf] at h1 h2 <;> simp [intType, checkInt, cast, toInt, minOf, maxOf] at ht
  all_goals (repeat' split at ht)
  all_goals first | omega | exact .inr ⟨rfl, rfl, by omega⟩

/-- **C60.** A length that was written is read back, and nothing more is consumed. -/
theorem C60_roundtrip {n : Int} (h0 : 0 ≤ n) (h1 : n < 2 ^ 63) (rest : List Nat) : parseLength (writeLength n ++ rest) = .ok (n, rest) := parseLength_write h0 h1 rest

/-- **C60.** On any stream a length that is accepted is not negative and was read behind an integer marker, possibly after no-ops. -/
theorem C60_accepts {s : List Nat} {n : Int} {rest : List Nat} (h : parseLength s = .ok (n, rest)) :
    0 ≤ n ∧ ∃ k b t, s = List.replicate k 'N'.toNat ++ b :: t ∧ b ∈ ['C', 'i', 'U', 'I', 'l', 'L'].map Char.toNat := by
  have key : ∀ {r : R (Int × List Nat)}, r.bind nonneg = .ok (n, rest) → 0 ≤ n := by
    intro r h
    cases r with
    | ok a =>
      unfold R.bind nonneg at h
      simp only at h
      split at h
      · cases h
      · next hn => cases h; exact Int.not_lt.1 hn
    | reject => cases h
    | junk => cases h
    | fuel => cases h
  induction s with
  | nil => simp [parseLength] at h
  | cons b s ih =>
    rw [parseLength] at h
    split at h
    · next hb => exact ⟨key h, 0, b, s, rfl, by rcases hb with rfl | rfl <;> decide⟩
    split at h
    · next hb => exact ⟨key h, 0, b, s, rfl, by subst hb; decide⟩
    split at h
    · next hb => exact ⟨key h, 0, b, s, rfl, by subst hb; decide⟩
    split at h
    · next hb => exact ⟨key h, 0, b, s, rfl, by subst hb; decide⟩
    split at h
    · next hb => exact ⟨key h, 0, b, s, rfl, by subst hb; decide⟩
    split at h
    · next hb =>
      obtain ⟨h0, k, c, t, e, hc⟩ := ih h
      exact ⟨h0, k + 1, c, t, by rw [e, hb]; rfl, hc⟩
    · cases h

/-- **C60.** Anything else at the position of the marker is rejected, and so is a complete negative number (of any of the signed types). -/
theorem C60_rejects (k : Nat) :
    (∀ b s, b ∉ ['C', 'i', 'U', 'I', 'l', 'L', 'N'].map Char.toNat → parseLength (List.replicate k 'N'.toNat ++ b :: s) = .reject) ∧
    parseLength (List.replicate k 'N'.toNat) = .reject ∧
    ∀ (n : Int) (s : List Nat), n < 0 → (-2 ^ 7 ≤ n → parseLength (List.replicate k 'N'.toNat ++ 'C'.toNat :: (writeInt 1 n ++ s)) = .reject ∧
        parseLength (List.replicate k 'N'.toNat ++ 'i'.toNat :: (writeInt 1 n ++ s)) = .reject) ∧
      (-2 ^ 15 ≤ n → parseLength (List.replicate k 'N'.toNat ++ 'I'.toNat :: (writeInt 2 n ++ s)) = .reject) ∧
      (-2 ^ 31 ≤ n → parseLength (List.replicate k 'N'.toNat ++ 'l'.toNat :: (writeInt 4 n ++ s)) = .reject) ∧
      (-2 ^ 63 ≤ n → parseLength (List.replicate k 'N'.toNat ++ 'L'.toNat :: (writeInt 8 n ++ s)) = .reject) := by
  have skip : ∀ s, parseLength (List.replicate k 'N'.toNat ++ s) = parseLength s := by
    intro s
    induction k with
    | zero => rfl
    | succ k ih => rw [List.replicate_succ, List.cons_append, parseLength]; simpa using ih
  refine ⟨fun b s hb => ?_, ?_, fun n s hn => ⟨fun h => ?_, fun h => ?_, fun h => ?_, fun h => ?_⟩⟩
  · rw [skip, parseLength]
    simp at hb
    obtain ⟨h1, h2, h3, h4, h5, h6, h7⟩ := hb
    simp [h1, h2, h3, h4, h5, h6, h7]
  · have := skip []
    rw [List.append_nil] at this
    rw [this]; rfl
  · rw [skip, skip]
    have := parseInt_write (signed := true) (w := 1) (by omega) (v := n) (by simp [minOf]; omega) (by simp [maxOf]; omega) s
    simp [parseLength, this, R.bind, nonneg, hn]
  · rw [skip]
    have := parseInt_write (signed := true) (w := 2) (by omega) (v := n) (by simp [minOf]; omega) (by simp [maxOf]; omega) s
    simp [parseLength, this, R.bind, nonneg, hn]
  · rw [skip]
    have := parseInt_write (signed := true) (w := 4) (by omega) (v := n) (by simp [minOf]; omega) (by simp [maxOf]; omega) s
    simp [parseLength, this, R.bind, nonneg, hn]
  · rw [skip]
    have := parseInt_write (signed := true) (w := 8) (by omega) (v := n) (by simp [minOf]; omega) (by simp [maxOf]; omega) s
    simp [parseLength, this, R.bind, nonneg, hn]

example : writeLength 300 = [73, 1, 44] ∧ parseLength [78, 73, 1, 44, 7] = .ok (300, [7]) ∧ parseLength [105, 255] = .reject := ⟨by rfl, by rfl, by rfl⟩

/-- For unsigned types other than that of the length the type need not be the shortest: `(uint64_t)300` becomes an `int64_t`. -/
theorem C60_minimal_unsigned_counterexample : intType false 8 300 = 'L'.toNat := by rfl

end Verif.Ubjson
