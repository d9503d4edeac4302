import Verif.Ubjson.Typed

/-! # Typed objects through UBJSON: properties (C198) -/

namespace Verif.UbjsonTyped

open Verif.Ubjson (R V toInt minOf maxOf intType writeInt writeLength writeTypeCount ofLe flip parseTypeCount parseString getType more close InRange leaf)

theorem bind_ok {α β : Type} (a : α) (f : α → R β) : (R.ok a).bind f = f a := rfl

/-! ## Numbers -/

theorem payload_ok {t : Nat} {i : Int} (h : InRange t i) :
    ∃ b v, payload t i = .ok b ∧ b ≠ [] ∧ (∀ rest, leaf t (b ++ rest) = .ok (v, rest)) ∧ (∀ sg w old, toNum sg w old v = .ok (Ubjson.cast sg w i)) ∧
      (∀ old, toStr old v = .ok (text i)) ∧ (∀ old, toBool old v = .ok (i != 0)) ∧ t ≠ 91 ∧ t ≠ 123 ∧ t ≠ 78 ∧ t ≠ 0 := by
  have ne : ∀ w, 0 < w → writeInt w i ≠ [] := fun w hw e => by
    have := Ubjson.writeInt_length w i
    rw [e] at this
    simp at this
    omega
  unfold InRange at h
  simp only [Char.reduceToNat] at h
  rcases h with ⟨rfl, h1, h2⟩ | ⟨rfl, h1, h2⟩ | ⟨rfl, h1, h2⟩ | ⟨rfl, h1, h2⟩ | ⟨rfl, h1, h2⟩
  · refine ⟨writeInt 1 i, .u8 i, rfl, ne 1 (by omega), fun rest => ?_, fun _ _ _ => rfl, fun _ => rfl, fun _ => rfl, by decide⟩
    simp only [leaf, Nat.reduceEqDiff, if_false, if_true]
    rw [Ubjson.parseInt_write (by omega) (by simpa [minOf] using h1) (by simpa [maxOf] using h2)]; rfl
  · refine ⟨writeInt 1 i, .i8 i, rfl, ne 1 (by omega), fun rest => ?_, fun _ _ _ => rfl, fun _ => rfl, fun _ => rfl, by decide⟩
    simp only [leaf, Nat.reduceEqDiff, if_false, if_true]
    rw [Ubjson.parseInt_write (by omega) (by simpa [minOf] using h1) (by simpa [maxOf] using h2)]; rfl
  · refine ⟨writeInt 2 i, .i16 i, rfl, ne 2 (by omega), fun rest => ?_, fun _ _ _ => rfl, fun _ => rfl, fun _ => rfl, by decide⟩
    simp only [leaf, Nat.reduceEqDiff, if_false, if_true]
    rw [Ubjson.parseInt_write (by omega) (by simp [minOf]; omega) (by simp [maxOf]; omega)]; rfl
  · refine ⟨writeInt 4 i, .i32 i, rfl, ne 4 (by omega), fun rest => ?_, fun _ _ _ => rfl, fun _ => rfl, fun _ => rfl, by decide⟩
    simp only [leaf, Nat.reduceEqDiff, if_false, if_true]
    rw [Ubjson.parseInt_write (by omega) (by simp [minOf]; omega) (by simp [maxOf]; omega)]; rfl
  · refine ⟨writeInt 8 i, .i64 i, rfl, ne 8 (by omega), fun rest => ?_, fun _ _ _ => rfl, fun _ => rfl, fun _ => rfl, by decide⟩
    simp only [leaf, Nat.reduceEqDiff, if_false, if_true]
    rw [Ubjson.parseInt_write (by omega) (by simp [minOf]; omega) (by simp [maxOf]; omega)]; rfl

theorem fine_int {sg : Bool} {w : Nat} {i : Int} (h : Fine (.int sg w) i) :
    (if sg = true then (-2 ^ (8 * w - 1) : Int) ≤ i ∧ i < (2 ^ (8 * w - 1) : Int) else (0 : Int) ≤ i ∧ i < (2 ^ (8 * w) : Int)) ∧ i < (2 ^ 63 : Int) := by
  rw [Fine] at h
  exact h

theorem fine_flt {d : Bool} {b : Nat} (h : Fine (.flt d) b) : b < 2 ^ (if d = true then 64 else 32) := by
  rw [Fine] at h
  exact h

theorem flt_max {d : Bool} {b : Nat} (h : b < 2 ^ (if d = true then 64 else 32)) : (b : Int) ≤ maxOf false (if d = true then 8 else 4) := by
  cases d <;> simp [maxOf] at h ⊢ <;> omega

theorem fine_range {sg : Bool} {w : Nat} {i : Int} (hw : w = 1 ∨ w = 2 ∨ w = 4 ∨ w = 8) (h : Fine (.int sg w) i) : minOf sg w ≤ i ∧ i ≤ maxOf sg w := by
  have h := fine_int h
  rcases hw with rfl | rfl | rfl | rfl <;> cases sg <;> simp [minOf, maxOf] at h ⊢ <;> omega

/-- A number written without an expected type has a marker that contains it. -/
theorem intType_ok {sg : Bool} {w : Nat} {i : Int} (hw : w = 1 ∨ w = 2 ∨ w = 4 ∨ w = 8) (h : Fine (.int sg w) i) : InRange (intType sg w i) i := by
  have hr := fine_range hw h
  rcases Ubjson.C60_contains_all hw hr.1 hr.2 with h1 | ⟨_, _, h1⟩
  · exact h1
  · have h := (fine_int h).2
    omega

/-- The type that the value is expected to have. -/
def Expect (ty : Nat) (t : Ty) : Prop := ty = 0 ∨ ∃ k, Elem k t ∧ ty = elemTag k t

theorem elemTag_int {sg : Bool} {w : Nat} {i : Int} {k : Kind} (hw : w = 1 ∨ w = 2 ∨ w = 4 ∨ w = 8) (he : Elem k (.int sg w)) (h : Fine (.int sg w) i) :
    InRange (elemTag k (.int sg w)) i := by
  rw [Elem] at he
  have h := fine_int h
  rcases hw with rfl | rfl | rfl | rfl <;> cases sg <;> cases k <;> simp [InRange, elemTag] at h he ⊢ <;> omega

theorem parse_leaf {n ty t : Nat} {s p : List Nat} {r : V × List Nat} (hn : 0 < n) (h0 : t ≠ 78) (h1 : t ≠ 91) (h2 : t ≠ 123) (hty : ty = 0 ∨ ty = t)
    (hs : s = (if ty = 0 then [t] else []) ++ p) (hl : leaf t p = .ok r) : Ubjson.parse n ty s = .ok r := by
  obtain ⟨n, rfl⟩ : ∃ m, n = m + 1 := ⟨n - 1, by omega⟩
  rw [hs, Ubjson.parse_head h0 hty, if_neg h1, if_neg h2, hl]

theorem int_ok {sg : Bool} {w : Nat} {i : Int} {ty : Nat} (hg : (Ty.int sg w).Good) (h : Fine (.int sg w) i) (he : Expect ty (.int sg w)) :
    ∃ b, ser (.int sg w) i none ty = .ok b ∧ b ≠ [] ∧ ∀ n rest, b.length < n → ∃ v, Ubjson.parse n ty (b ++ rest) = .ok (v, rest) ∧
      (∀ sg w old, toNum sg w old v = .ok (Ubjson.cast sg w i)) ∧ (∀ old, toStr old v = .ok (text i)) ∧ (∀ old, toBool old v = .ok (i != 0)) := by
  rw [Ty.Good] at hg
  by_cases h0 : ty = 0
  · obtain ⟨b, v, e1, e2, e3, e4, e5, e6, e7, e8, e9, e10⟩ := payload_ok (intType_ok hg h)
    refine ⟨intType sg w i :: b, ?_, by simp, fun n rest hn => ⟨v, ?_, e4, e5, e6⟩⟩
    · rw [ser, serInt, if_pos h0, e1, bind_ok, bind_ok, if_pos h0]; rfl
    · exact parse_leaf (by omega) e9 e7 e8 (.inl h0) (by rw [if_pos h0]; rfl) (e3 rest)
  · rcases he with he | ⟨k, hk, he⟩
    · exact absurd he h0
    · have hr := elemTag_int hg hk h
      rw [← he] at hr
      obtain ⟨b, v, e1, e2, e3, e4, e5, e6, e7, e8, e9, e10⟩ := payload_ok hr
      refine ⟨b, ?_, e2, fun n rest hn => ⟨v, ?_, e4, e5, e6⟩⟩
      · rw [ser, serInt, if_neg h0, e1, bind_ok, bind_ok, if_neg h0]; rfl
      · exact parse_leaf (by omega) e9 e7 e8 (.inr rfl) (by rw [if_neg h0]; rfl) (e3 rest)

/-! ## Headers and loops -/

theorem mark_ok {ty tag : Nat} {x : R (List Nat)} (h : ty = 0 ∨ ty = tag) : mark ty tag x = .ok (if ty = 0 then [tag] else []) := by
  unfold mark
  by_cases h0 : ty = 0
  · rw [if_pos h0, if_pos h0]
  · rw [if_neg h0, if_pos (h.resolve_left h0), if_neg h0]

theorem header_ok {n want ty : Nat} (h0 : want ≠ 78) (h : ty = 0 ∨ ty = want) (s : List Nat) : header n want ty ((if ty = 0 then [want] else []) ++ s) = parseTypeCount s := by
  unfold header
  rw [Ubjson.head_eq h0 h, bind_ok, if_pos rfl]

theorem count_other {b : Nat} (h1 : b ≠ 36) (h2 : b ≠ 35) (s : List Nat) : parseTypeCount (b :: s) = .ok ((0, -1), b :: s) := by
  simp [parseTypeCount, Ubjson.parseCount, h1, h2]

theorem ser_id (t : Ty) (v : Val t) (id : Option (List Nat)) (ty : Nat) : ser t v id ty = (ser t v none ty).bind fun b => .ok (writeId id ++ b) := by
  cases t with
  | bool => rw [ser, ser]; rfl
  | int sg w => rw [ser, ser]; cases serInt sg w v ty <;> rfl
  | flt d => rw [ser, ser]; cases mark ty (if d then 68 else 100) .junk <;> rfl
  | str => rw [ser, ser]; cases mark ty 83 .junk <;> rfl
  | arr k t =>
    rw [ser, ser]
    cases mark ty 91 .junk with
    | ok m =>
      rw [bind_ok, bind_ok]
      split
      · rfl
      · cases cat (v.map fun v => ser t v none (elemTag k t)) <;> rfl
    | reject => rfl
    | junk => rfl
    | fuel => rfl
  | tup ts =>
    rw [ser, ser]
    cases mark ty 91 .junk with
    | ok m => cases serAll ts v <;> rfl
    | reject => rfl
    | junk => rfl
    | fuel => rfl
  | obj fs =>
    rw [ser, ser]
    cases mark ty 123 .reject with
    | ok m => cases serF fs v <;> rfl
    | reject => rfl
    | junk => rfl
    | fuel => rfl

theorem more_neg {c : Int} {stop b : Nat} {s : List Nat} (hc : c < 0) (hb : b ≠ stop) : more c stop (b :: s) = true := by
  simp [more, hc, hb]

theorem loop_stop {σ : Type} {f : σ → List Nat → R (σ × List Nat)} {stop m : Nat} {c : Int} (hc : c < 0) (hm : 0 < m) (o : σ) (rest : List Nat) :
    loop f stop m c o (stop :: rest) = .ok (o, rest) := by
  obtain ⟨m, rfl⟩ : ∃ k, m = k + 1 := ⟨m - 1, by omega⟩
  have h1 : more c stop (stop :: rest) = false := by simp [more]; omega
  rw [loop, h1, if_neg (by decide)]
  simp [close, hc]

theorem loop_zero {σ : Type} {f : σ → List Nat → R (σ × List Nat)} {stop m : Nat} (hm : 0 < m) (o : σ) (rest : List Nat) :
    loop f stop m 0 o rest = .ok (o, rest) := by
  obtain ⟨m, rfl⟩ : ∃ k, m = k + 1 := ⟨m - 1, by omega⟩
  rw [loop, Ubjson.more_zero, if_neg (by decide), Ubjson.close_zero]

theorem loop_pos {σ : Type} {f : σ → List Nat → R (σ × List Nat)} {stop m k : Nat} {o o' : σ} {b s : List Nat} (hm : b.length < m) (hb : b ≠ []) (h : f o (b ++ s) = .ok (o', s)) :
    loop f stop m ((k + 1 : Nat) : Int) o (b ++ s) = loop f stop (m - 1) (k : Int) o' s := by
  obtain ⟨m, rfl⟩ : ∃ k, m = k + 1 := ⟨m - 1, by omega⟩
  rw [loop, Ubjson.more_pos (by simp [hb]), if_pos rfl, h, bind_ok]
  congr 1
  omega

/-- What has to hold for a value as an element. -/
def Round (t : Ty) (v : Val t) (ty : Nat) : Prop :=
  ∃ b, ser t v none ty = .ok b ∧ b ≠ [] ∧ ∀ n old rest, b.length < n → Fresh t old → parse n t old ty (b ++ rest) = .ok (v, rest)

theorem cat_ok {t : Ty} {ty : Nat} : ∀ {l : List (Val t)}, (∀ v ∈ l, Round t v ty) → ∃ B, cat (l.map fun v => ser t v none ty) = .ok B ∧ l.length ≤ B.length
  | [], _ => ⟨[], rfl, Nat.le_refl _⟩
  | v :: l, h => by
    obtain ⟨b, e1, e2, -⟩ := h v (by simp)
    obtain ⟨B, e3, e4⟩ := cat_ok (l := l) fun v hv => h v (by simp [hv])
    refine ⟨b ++ B, by rw [List.map_cons, cat, e1, bind_ok, e3]; rfl, ?_⟩
    have := List.length_pos_iff.2 e2
    simp
    omega

theorem cat_cons {t : Ty} {ty : Nat} {v : Val t} {l : List (Val t)} {b B : List Nat} (h1 : ser t v none ty = .ok b) (h2 : cat (l.map fun v => ser t v none ty) = .ok B) :
    cat ((v :: l).map fun v => ser t v none ty) = .ok (b ++ B) := by rw [List.map_cons, cat, h1, bind_ok, h2]; rfl

theorem loop_vec {t : Ty} {ty n : Nat} (hb : Fresh t (blank t)) : ∀ {l : List (Val t)} {B : List Nat}, (∀ v ∈ l, Round t v ty) → cat (l.map fun v => ser t v none ty) = .ok B →
    ∀ (m : Nat) (o : List (Val t)) (rest : List Nat), B.length < m → B.length < n →
    loop (fun o s => (parse n t (blank t) ty s).bind fun r => .ok (o ++ [r.1], r.2)) 93 m l.length o (B ++ rest) = .ok (o ++ l, rest)
  | [], B, _, hB, m, o, rest, hm, hn => by
    cases hB
    rw [List.append_nil]
    exact loop_zero (by omega) o rest
  | v :: l, B, h, hB, m, o, rest, hm, hn => by
    obtain ⟨b, e1, e2, e3⟩ := h v (by simp)
    obtain ⟨B', e4, -⟩ := cat_ok (l := l) fun v hv => h v (by simp [hv])
    rw [cat_cons e1 e4] at hB
    cases hB
    rw [List.length_append] at hm hn
    have hp := List.length_pos_iff.2 e2
    rw [List.append_assoc, List.length_cons, loop_pos (o' := o ++ [v]) (by omega) e2 (by rw [e3 n _ _ (by omega) hb, bind_ok]),
      loop_vec hb (fun v hv => h v (by simp [hv])) e4 (m - 1) (o ++ [v]) rest (by omega) (by omega)]
    simp

theorem loop_fixed {t : Ty} {ty n : Nat} : ∀ {l : List (Val t)} {B : List Nat}, (∀ v ∈ l, Round t v ty) → cat (l.map fun v => ser t v none ty) = .ok B →
    ∀ (m : Nat) (pre o : List (Val t)) (rest : List Nat), o.length = l.length → (∀ x ∈ o, Fresh t x) → B.length < m → B.length < n →
    loop (fun (o : List (Val t) × Nat) s =>
        if o.2 < o.1.length then (parse n t (o.1.getD o.2 (blank t)) ty s).bind fun r => .ok ((o.1.set o.2 r.1, o.2 + 1), r.2) else .ok (o, s))
      93 m l.length (pre ++ o, pre.length) (B ++ rest) = .ok ((pre ++ l, pre.length + l.length), rest)
  | [], B, _, hB, m, pre, o, rest, ho, hf, hm, hn => by
    cases hB
    cases List.length_eq_zero_iff.1 ho
    exact loop_zero (by omega) _ rest
  | v :: l, B, h, hB, m, pre, o, rest, ho, hf, hm, hn => by
    obtain ⟨b, e1, e2, e3⟩ := h v (by simp)
    obtain ⟨B', e4, -⟩ := cat_ok (l := l) fun v hv => h v (by simp [hv])
    rw [cat_cons e1 e4] at hB
    cases hB
    rw [List.length_append] at hm hn
    have hp := List.length_pos_iff.2 e2
    cases o with
    | nil => simp at ho
    | cons x o =>
      rw [List.append_assoc, List.length_cons, loop_pos (o' := (pre ++ v :: o, pre.length + 1)) (by omega) e2 (by
          dsimp only
          rw [if_pos (by simp)]
          have : (pre ++ x :: o).getD pre.length (blank t) = x := by simp
          rw [this, e3 n _ _ (by omega) (hf x (by simp)), bind_ok]
          simp)]
      have := loop_fixed (fun v hv => h v (by simp [hv])) e4 (m - 1) (pre ++ [v]) o rest (by simpa using ho) (fun x hx => hf x (by simp [hx])) (by omega) (by omega) (n := n)
      simp only [List.append_assoc, List.length_append, List.length_cons, List.length_nil, List.cons_append, List.nil_append] at this
      rw [this]
      simp
      omega

/-! ## Bytes at once -/

theorem chunks_one {sg : Bool} {k : Kind} : ∀ {l : List Int} {B : List Nat}, (∀ v ∈ l, Fine (.int sg 1) v) → cat (l.map fun v => ser (.int sg 1) v none (elemTag k (.int sg 1))) = .ok B →
    B.length = l.length ∧ chunks 1 (fun b => toInt sg 1 (ofLe b)) l.length B = l
  | [], B, _, hB => by cases hB; exact ⟨rfl, rfl⟩
  | v :: l, B, h, hB => by
    have e1 : ser (.int sg 1) v none (elemTag k (.int sg 1)) = .ok (writeInt 1 v) := by cases sg <;> cases k <;> rfl
    rw [List.map_cons, cat, e1, bind_ok] at hB
    generalize hc : cat (l.map fun v => ser (.int sg 1) v none (elemTag k (.int sg 1))) = C at hB
    cases C with
    | ok B' =>
      cases hB
      obtain ⟨i1, i2⟩ := chunks_one (fun v hv => h v (by simp [hv])) hc
      have hr := fine_range (.inl rfl) (h v (by simp))
      have hv : toInt sg 1 (ofLe (writeInt 1 v)) = v := by
        have := Ubjson.toInt_mod (Nat.le_refl 1) hr.1 hr.2
        have hp : (v % 256 ^ 1).toNat % 256 = (v % 256 ^ 1).toNat := Nat.mod_eq_of_lt (by omega)
        rw [show ofLe (writeInt 1 v) = (v % 256 ^ 1).toNat by
          simp [writeInt, Ubjson.flip, Ubjson.le, ofLe]
          try omega]
        exact this
      have hl := Ubjson.writeInt_length 1 v
      refine ⟨by rw [List.length_append, hl, i1, List.length_cons]; omega, ?_⟩
      rw [List.length_cons, chunks]
      have t1 : (writeInt 1 v ++ B').take 1 = writeInt 1 v := by rw [List.take_append_of_le_length (by omega), List.take_of_length_le (by omega)]
      have t2 : (writeInt 1 v ++ B').drop 1 = B' := by rw [List.drop_append_of_le_length (by omega), List.drop_of_length_le (by omega)]; rfl
      rw [t1, t2, i2, hv]
    | reject => cases hB
    | junk => cases hB
    | fuel => cases hB

theorem bulk_bytes {sg : Bool} {k : Kind} (hk : k ≠ .vec) {l old : List Int} (hl : l ≠ []) (ho : Fresh (.arr k (.int sg 1)) old) (hs : k.Size l.length) (h : ∀ v ∈ l, Fine (.int sg 1) v)
    {B : List Nat} (hB : cat (l.map fun v => ser (.int sg 1) v none (elemTag k (.int sg 1))) = .ok B) (rest : List Nat) :
    bulk k (.int sg 1) old (elemTag k (.int sg 1)) l.length (B ++ rest) = .ok (true, l, rest) := by
  obtain ⟨h1, h2⟩ := chunks_one h hB
  have hpos := List.length_pos_iff.2 hl
  have hr := Ubjson.read_append B rest
  rw [h1] at hr
  have htag : elemTag k (.int sg 1) = 67 ∨ elemTag k (.int sg 1) = 85 ∨ elemTag k (.int sg 1) = 105 := by cases sg <;> cases k <;> simp [elemTag]
  unfold bulk
  rw [if_pos ⟨by omega, htag⟩]
  cases k with
  | vec => exact absurd rfl hk
  | dyn =>
    rw [Fresh] at ho
    · subst ho
      have hc : (resize (blank (.int sg 1)) ([] : List Int) l.length).length = l.length := by simp [resize]
      simp only [raw, if_true, Int.toNat_natCast]
      rw [if_neg (by rw [List.isEmpty_iff]; intro e; rw [e] at hc; simp at hc; omega), hc, Nat.min_self, Nat.mul_one, hr, bind_ok, h2, List.drop_of_length_le (by omega), List.append_nil]
    · intro n hn; cases hn
  | fixed n =>
    rw [Fresh] at ho
    have hc : old.length = l.length := by rw [ho.1]; exact hs.symm
    simp only [raw, Int.toNat_natCast, reduceCtorEq, if_false]
    rw [if_neg (by rw [List.isEmpty_iff]; intro e; rw [e] at hc; simp at hc; omega), hc, Nat.min_self, Nat.mul_one, hr, bind_ok, h2, List.drop_of_length_le (by omega), List.append_nil]

theorem elemTag_other {k : Kind} {t : Ty} (hg : t.Good) (h : ∀ sg, t ≠ .int sg 1) : ¬(elemTag k t = 67 ∨ elemTag k t = 85 ∨ elemTag k t = 105) := by
  cases t with
  | int sg w =>
    rw [Ty.Good] at hg
    rcases hg with rfl | rfl | rfl | rfl
    · exact absurd rfl (h sg)
    all_goals (cases sg <;> cases k <;> simp [elemTag])
  | bool => cases k <;> simp [elemTag]
  | flt d => cases d <;> cases k <;> simp [elemTag]
  | str => cases k <;> simp [elemTag]
  | arr k' t => cases k' <;> cases k <;> simp [elemTag]
  | tup ts => cases k <;> simp [elemTag]
  | obj fs => cases k <;> simp [elemTag]

theorem bulk_none {k : Kind} {t : Ty} {old : List (Val t)} {ty : Nat} {c : Int} (h : ¬(0 ≤ c ∧ (ty = 67 ∨ ty = 85 ∨ ty = 105))) (s : List Nat) : bulk k t old ty c s = .ok (false, old, s) := by
  unfold bulk
  rw [if_neg h]

/-! ## New objects -/

mutual
theorem blank_fresh : ∀ t : Ty, Fresh t (blank t)
  | .bool => by simp [Fresh]
  | .int sg w => by simp [Fresh]
  | .flt d => by simp [Fresh]
  | .str => by simp [Fresh]
  | .arr .vec t => by simp [Fresh, blank]
  | .arr .dyn t => by simp [Fresh, blank]
  | .arr (.fixed n) t => by
    rw [Fresh, blank]
    refine ⟨by simp, fun o ho => ?_⟩
    rw [List.eq_of_mem_replicate ho]
    exact blank_fresh t
  | .tup ts => by rw [Fresh, blank]; exact blanks_fresh ts
  | .obj fs => by rw [Fresh, blank]; exact fblanks_fresh fs
theorem blanks_fresh : ∀ ts : Tys, FreshA ts (blanks ts)
  | .nil => by simp [FreshA]
  | .cons t ts => by rw [FreshA, blanks]; exact ⟨blank_fresh t, blanks_fresh ts⟩
theorem fblanks_fresh : ∀ fs : Fields, FreshF fs (fblanks fs)
  | .nil => by simp [FreshF]
  | .cons n t fs => by rw [FreshF, fblanks]; exact ⟨blank_fresh t, fblanks_fresh fs⟩
end

/-! ## The round trip -/

theorem cstr_eq {k : List Nat} (h : 0 ∉ k) : cstr k = k := by
  unfold cstr
  induction k with
  | nil => rfl
  | cons a k ih =>
    rw [List.mem_cons, not_or] at h
    rw [List.takeWhile_cons_of_pos (by rw [bne_iff_ne]; exact fun e => h.1 e.symm), ih h.2]

theorem expect_arr {ty : Nat} {k : Kind} {t : Ty} (h : Expect ty (.arr k t)) : ty = 0 ∨ ty = 91 := by
  rcases h with h | ⟨k', h1, h2⟩
  · exact .inl h
  · rw [Elem] at h1
    subst h1
    right
    rw [h2]
    cases k' <;> rfl

/-- The part of the claim for arrays once it holds for their elements. -/
theorem arr_ok {k : Kind} {t : Ty} {l : List (Val t)} {ty : Nat} (hg : (Ty.arr k t).Good) (hv : Fine (.arr k t) l) (hty : ty = 0 ∨ ty = 91) (ih : ∀ v ∈ l, Round t v (elemTag k t)) :
    Round (.arr k t) l ty := by
  rw [Ty.Good] at hg
  rw [Fine] at hv
  have hm := mark_ok (tag := 91) (x := .junk) hty
  by_cases hl : l = []
  · subst hl
    refine ⟨(if ty = 0 then [91] else []) ++ [93], by rw [ser, hm]; rfl, by simp, fun n old rest hn ho => ?_⟩
    have ho' : old = [] := by
      cases k with
      | vec => simpa [Fresh] using ho
      | dyn => simpa [Fresh] using ho
      | fixed N =>
        rw [Fresh] at ho
        have := hv.2.1
        simp only [Kind.Size, List.length_nil] at this
        rw [← this] at ho
        exact List.length_eq_zero_iff.1 ho.1
    subst ho'
    have hn : 0 < n := by omega
    rw [parse, List.append_assoc, header_ok (by decide) hty, List.cons_append, count_other (by decide) (by decide), bind_ok, bulk_none (by simp), bind_ok, if_neg (by simp)]
    split
    · rw [loop_stop (by simp) hn]; rfl
    · rw [loop_stop (by simp) hn]
      rfl
  · obtain ⟨B, hB, hlen⟩ := cat_ok ih
    refine ⟨(if ty = 0 then [91] else []) ++ (writeTypeCount (elemTag k t) l.length ++ B), ?_, ?_, fun n old rest hn ho => ?_⟩
    · rw [ser, hm, bind_ok, if_neg (by simpa using hl), hB]; rfl
    · simp [Ubjson.writeTypeCount_ne]
    · simp only [List.length_append] at hn
      rw [parse, List.append_assoc, header_ok (by decide) hty, List.append_assoc, Ubjson.parseTypeCount_write _ _ hv.1, bind_ok]
      by_cases hb : ∃ sg, t = .int sg 1
      · obtain ⟨sg, rfl⟩ := hb
        have hk : k ≠ .vec := by
          have := hg.1
          rw [Elem] at this
          exact fun e => this.2 ⟨e, rfl⟩
        dsimp only
        rw [bulk_bytes hk hl ho hv.2.1 hv.2.2 hB rest, bind_ok, if_pos rfl]
      · dsimp only
        rw [bulk_none (fun e => elemTag_other hg.2 (fun sg e => hb ⟨sg, e⟩) e.2), bind_ok, if_neg (by simp)]
        by_cases hk : k.isFixed = true
        · rw [if_pos hk]
          cases k with
          | vec => cases hk
          | dyn => cases hk
          | fixed N =>
            rw [Fresh] at ho
            have := loop_fixed (n := n) ih hB n [] old rest (by rw [ho.1]; exact hv.2.1.symm) ho.2 (by omega) (by omega)
            simp only [List.nil_append, List.length_nil] at this
            dsimp only
            rw [this]
            rfl
        · rw [if_neg hk]
          have ho' : old = [] := by
            cases k with
            | vec => simpa [Fresh] using ho
            | dyn => simpa [Fresh] using ho
            | fixed N => exact absurd rfl hk
          subst ho'
          dsimp only
          rw [loop_vec (blank_fresh t) ih hB n [] rest (by omega) (by omega)]
          rfl

theorem writeLength_head (n : Int) : ∃ b m, writeLength n = b :: m ∧ b ≠ 125 := by
  refine ⟨intType true 8 n, _, rfl, ?_⟩
  unfold intType
  repeat' split
  all_goals decide

mutual
theorem round : ∀ (t : Ty) (v : Val t), t.Good → Fine t v → ∀ ty, Expect ty t → Round t v ty
  | .bool, v, _, _, ty, he => by
    have h0 : ty = 0 := by
      rcases he with h | ⟨k, h1, h2⟩
      · exact h
      · rw [Elem] at h1
        rw [h2]
        cases k with
        | vec => cases h1
        | dyn => cases h1
        | fixed n => rfl
    subst h0
    refine ⟨[if v = true then 84 else 70], rfl, by simp, fun n old rest hn _ => ?_⟩
    have hn' : 0 < n := by omega
    rw [parse]
    cases v with
    | true =>
      show (Ubjson.parse n 0 (84 :: rest)).bind _ = _
      rw [parse_leaf (s := 84 :: rest) (t := 84) (p := rest) (r := (.tru, rest)) hn' (by decide) (by decide) (by decide) (.inl rfl) rfl rfl]; rfl
    | false =>
      show (Ubjson.parse n 0 (70 :: rest)).bind _ = _
      rw [parse_leaf (s := 70 :: rest) (t := 70) (p := rest) (r := (.fls, rest)) hn' (by decide) (by decide) (by decide) (.inl rfl) rfl rfl]; rfl
  | .int sg w, v, hg, hv, ty, he => by
    obtain ⟨b, e1, e2, e3⟩ := int_ok hg hv he
    refine ⟨b, e1, e2, fun n old rest hn _ => ?_⟩
    obtain ⟨x, e4, e5, -⟩ := e3 n rest hn
    have hw : 1 ≤ w := by rw [Ty.Good] at hg; omega
    have hr := fine_range (by rw [Ty.Good] at hg; exact hg) hv
    rw [parse, e4, bind_ok, e5, bind_ok, Ubjson.cast_eq hw hr.1 hr.2]
  | .flt d, v, hg, hv, ty, he => by
    have hty : ty = 0 ∨ ty = if d then 68 else 100 := by
      rcases he with h | ⟨k, h1, h2⟩
      · exact .inl h
      · right
        rw [h2]
        cases d <;> cases k <;> rfl
    have hv := fine_flt hv
    refine ⟨(if ty = 0 then [if d then 68 else 100] else []) ++ writeInt (if d then 8 else 4) v, by rw [ser, mark_ok hty]; rfl, ?_, fun n old rest hn _ => ?_⟩
    · intro e
      have := congrArg List.length e
      rw [List.length_append, Ubjson.writeInt_length] at this
      cases d <;> simp at this
    · have hp : ∀ w, 1 ≤ w → (v : Int) ≤ maxOf false w → Ubjson.parseInt false w (writeInt w v ++ rest) = .ok ((v : Int), rest) :=
        fun w hw h => Ubjson.parseInt_write hw (by simp [minOf]) h rest
      cases d with
      | false =>
        rw [parse, parse_leaf (t := 100) (p := writeInt 4 v ++ rest) (r := (.f32 v, rest)) (by omega) (by decide) (by decide) (by decide) hty (by simp) (by
          simp only [leaf, Nat.reduceEqDiff, if_false, if_true]
          rw [hp 4 (by omega) (flt_max hv)]; rfl)]
        rfl
      | true =>
        rw [parse, parse_leaf (t := 68) (p := writeInt 8 v ++ rest) (r := (.f64 v, rest)) (by omega) (by decide) (by decide) (by decide) hty (by simp) (by
          simp only [leaf, Nat.reduceEqDiff, if_false, if_true]
          rw [hp 8 (by omega) (flt_max hv)]; rfl)]
        rfl
  | .str, v, hg, hv, ty, he => by
    have hty : ty = 0 ∨ ty = 83 := by
      rcases he with h | ⟨k, h1, h2⟩
      · exact .inl h
      · right
        rw [h2]
        cases k <;> rfl
    rw [Fine] at hv
    refine ⟨(if ty = 0 then [83] else []) ++ (writeLength v.length ++ v), by rw [ser, mark_ok hty]; rfl, by simp [writeLength], fun n old rest hn _ => ?_⟩
    rw [parse, parse_leaf (t := 83) (p := writeLength v.length ++ (v ++ rest)) (r := (.str v, rest)) (by omega) (by decide) (by decide) (by decide) hty (by simp) (by
      simp only [leaf, Nat.reduceEqDiff, if_false, if_true]
      rw [Ubjson.parseString_write hv.2]; rfl), bind_ok]
    show (R.ok (cstr v)).bind _ = _
    rw [cstr_eq hv.1]
    rfl
  | .arr k t, l, hg, hv, ty, he =>
    arr_ok hg hv (expect_arr he) fun v h => round t v (by rw [Ty.Good] at hg; exact hg.2) (by rw [Fine] at hv; exact hv.2.2 v h) _ (.inr ⟨k, by rw [Ty.Good] at hg; exact hg.1, rfl⟩)
  | .tup ts, v, hg, hv, ty, he => by
    rw [Ty.Good] at hg
    rw [Fine] at hv
    have h0 : ty = 0 := by
      rcases he with h | ⟨k, h1, h2⟩
      · exact h
      · rw [Elem] at h1
        exact h1.elim
    obtain ⟨B, e1, e2, e3⟩ := roundA ts v hg.2 hv
    refine ⟨[91] ++ (writeTypeCount 0 ts.length ++ B), by rw [ser, mark_ok (.inl h0), if_pos h0, bind_ok, e1]; rfl, by simp, fun n old rest hn ho => ?_⟩
    simp only [List.length_append] at hn
    have hh := header_ok (n := n) (want := 91) (ty := ty) (by decide) (.inl h0) (writeTypeCount 0 ts.length ++ (B ++ rest))
    rw [if_pos h0] at hh
    rw [Fresh] at ho
    rw [parse, List.append_assoc, List.append_assoc, hh, Ubjson.parseTypeCount_write _ _ hg.1, bind_ok]
    dsimp only
    have := e3 n n 0 (Vals ts) (fun o => o) (fun (o : Vals ts × Nat) s => (parseAt n ts o.1 o.2 0 s).bind fun r => .ok ((r.1, o.2 + 1), r.2)) (fun o i s => by simp only [Nat.zero_add]) old rest ho (by omega) (by omega)
    rw [this]
    rfl
  | .obj fs, v, hg, hv, ty, he => by
    rw [Ty.Good] at hg
    rw [Fine] at hv
    have hty : ty = 0 ∨ ty = 123 := by
      rcases he with h | ⟨k, h1, h2⟩
      · exact .inl h
      · right
        rw [h2]
        cases k <;> rfl
    obtain ⟨B, e1, e2⟩ := roundF fs v hg.2.2 hg.1 hg.2.1 hv
    refine ⟨(if ty = 0 then [123] else []) ++ (B ++ [125]), by rw [ser, mark_ok hty, bind_ok, e1]; rfl, by simp, fun n old rest hn ho => ?_⟩
    simp only [List.length_append] at hn
    rw [Fresh] at ho
    have hc : parseTypeCount (B ++ 125 :: rest) = .ok ((0, -1), B ++ 125 :: rest) := by
      cases fs with
      | nil =>
        rw [serF] at e1
        cases e1
        exact count_other (by decide) (by decide) _
      | cons m t fs =>
        rw [serF, ser_id] at e1
        cases hx : ser t v.1 none 0 with
        | ok x =>
          rw [hx, bind_ok, bind_ok] at e1
          cases hy : serF fs v.2 with
          | ok y =>
            rw [hy, bind_ok] at e1
            cases e1
            simp only [writeId, writeLength, List.cons_append]
            refine count_other ?_ ?_ _
            all_goals (unfold intType; repeat' split)
            all_goals decide
          | reject => rw [hy] at e1; cases e1
          | junk => rw [hy] at e1; cases e1
          | fuel => rw [hy] at e1; cases e1
        | reject => rw [hx] at e1; cases e1
        | junk => rw [hx] at e1; cases e1
        | fuel => rw [hx] at e1; cases e1
    rw [parse, List.append_assoc, header_ok (by decide) hty, List.append_assoc]
    show (parseTypeCount (B ++ 125 :: rest)).bind _ = _
    rw [hc, bind_ok]
    exact e2 n n (-1) (FVals fs) id (fun o k s => step n fs o k 0 s) (by omega) (fun o k s _ => by simp only [id]; cases step n fs o k 0 s <;> rfl) old rest ho (by omega) (by omega)

theorem roundA : ∀ (ts : Tys) (v : Vals ts), ts.Good → FineA ts v → ∃ B, serAll ts v = .ok B ∧ ts.length ≤ B.length ∧
    ∀ (n m j : Nat) (σ : Type) (put : Vals ts → σ) (F : σ × Nat → List Nat → R ((σ × Nat) × List Nat))
      (_ : ∀ o i s, F (put o, j + i) s = (parseAt n ts o i 0 s).bind fun r => .ok ((put r.1, j + i + 1), r.2)) (old : Vals ts) (rest : List Nat),
      FreshA ts old → B.length < n → B.length < m → loop F 93 m ts.length (put old, j) (B ++ rest) = .ok ((put v, j + ts.length), rest)
  | .nil, v, _, _ => ⟨[], rfl, Nat.le_refl _, fun n m j σ put F hF old rest ho hn hm => loop_zero (by omega) _ rest⟩
  | .cons t ts, v, hg, hv => by
    rw [Tys.Good] at hg
    rw [FineA] at hv
    obtain ⟨b, e1, e2, e3⟩ := round t v.1 hg.1 hv.1 0 (.inl rfl)
    obtain ⟨B, e4, e5, e6⟩ := roundA ts v.2 hg.2 hv.2
    have hp := List.length_pos_iff.2 e2
    refine ⟨b ++ B, by rw [serAll, e1, bind_ok, e4]; rfl, by rw [List.length_append, Tys.length]; omega, fun n m j σ put F hF old rest ho hn hm => ?_⟩
    rw [FreshA] at ho
    rw [List.length_append] at hn hm
    rw [List.append_assoc, Tys.length, loop_pos (o' := (put (v.1, old.2), j + 1)) (by omega) e2 (by
      have := hF old 0 (b ++ (B ++ rest))
      rw [Nat.add_zero] at this
      rw [this, parseAt, e3 n _ _ (by omega) ho.1]
      rfl)]
    rw [e6 n (m - 1) (j + 1) σ (fun o => put (v.1, o)) F (fun o i s => by
      have := hF (v.1, o) (i + 1) s
      rw [parseAt] at this
      rw [show j + 1 + i = j + (i + 1) by omega, this]
      cases parseAt n ts o i 0 s <;> rfl) old.2 rest ho.2 (by omega) (by omega)]
    rw [show j + 1 + ts.length = j + (ts.length + 1) by omega]

theorem roundF : ∀ (fs : Fields) (v : FVals fs), fs.Good → fs.names.Nodup → (∀ n ∈ fs.names, 0 ∉ n ∧ n.length < 2 ^ 63) → FineF fs v → ∃ B, serF fs v = .ok B ∧
    ∀ (n m : Nat) (c : Int) (σ : Type) (put : FVals fs → σ) (G : σ → List Nat → List Nat → R (σ × List Nat)), c < 0 →
      (∀ o k s, k ∈ fs.names → G (put o) k s = (step n fs o k 0 s).bind fun r => .ok (put r.1, r.2)) → ∀ (old : FVals fs) (rest : List Nat),
      FreshF fs old → B.length < n → B.length < m →
      loop (fun o s => (parseString s).bind fun k => G o (cstr k.1) k.2) 125 m c (put old) (B ++ 125 :: rest) = .ok (put v, rest)
  | .nil, v, _, _, _, _ => ⟨[], rfl, fun n m c σ put G hc hG old rest ho hn hm => loop_stop hc (by omega) _ rest⟩
  | .cons k t fs, v, hg, hd, hk, hv => by
    rw [Fields.Good] at hg
    rw [FineF] at hv
    rw [Fields.names, List.nodup_cons] at hd
    obtain ⟨b, e1, e2, e3⟩ := round t v.1 hg.1 hv.1 0 (.inl rfl)
    obtain ⟨B, e4, e6⟩ := roundF fs v.2 hg.2 hd.2 (fun n hn => hk n (by simp [Fields.names, hn])) hv.2
    obtain ⟨k1, k2⟩ := hk k (by simp [Fields.names])
    refine ⟨(writeLength k.length ++ k ++ b) ++ B, by rw [serF, ser_id, e1, bind_ok, bind_ok, e4]; rfl, fun n m c σ put G hc hG old rest ho hn hm => ?_⟩
    rw [FreshF] at ho
    simp only [List.length_append] at hn hm
    obtain ⟨x, xs, hx, hx'⟩ := writeLength_head k.length
    obtain ⟨m, rfl⟩ : ∃ p, m = p + 1 := ⟨m - 1, by omega⟩
    have hlen : 0 < (writeLength k.length).length := by rw [hx]; simp
    have hmore : more c 125 (((writeLength k.length ++ k ++ b) ++ B) ++ 125 :: rest) = true := by rw [hx]; exact more_neg hc hx'
    rw [loop, hmore, if_pos rfl]
    simp only [List.append_assoc]
    rw [Ubjson.parseString_write k2, bind_ok]
    dsimp only
    rw [cstr_eq k1, hG old k _ (by simp [Fields.names]), step, if_pos rfl, e3 n _ _ (by omega) ho.1, bind_ok, bind_ok, bind_ok]
    exact e6 n m (c - 1) σ (fun o => put (v.1, o)) G (by omega) (fun o k' s hk' => by
      rw [hG (v.1, o) k' s (by simp [Fields.names, hk']), step, if_neg (fun e => hd.1 (by rw [e]; exact hk'))]
      cases step n fs o k' 0 s <;> rfl) old.2 rest ho.2 (by omega) (by omega)
end

/-- **C198.** An object that is written without a name is read back, and nothing more is consumed. -/
theorem C198_roundtrip_partial {t : Ty} {v : Val t} (hg : t.Good) (hv : Fine t v) :
    ∃ b, write t v none = .ok b ∧ ∀ (n : Nat) (old : Val t) (rest : List Nat), b.length < n → Fresh t old → read n t old (b ++ rest) = .ok (v, rest) := by
  obtain ⟨b, e1, -, e2⟩ := round t v hg hv 0 (.inl rfl)
  exact ⟨b, e1, fun n old rest hn ho => e2 n old rest hn ho⟩

/-- **C198.** A number that was written as one integer type is read into another as by a cast, into a string as its decimal text and into a `bool` as whether it is not zero. -/
theorem C198_convert {sg : Bool} {w : Nat} {i : Int} (hg : (Ty.int sg w).Good) (hv : Fine (.int sg w) i) :
    ∃ b, write (.int sg w) i none = .ok b ∧ ∀ (n : Nat) (rest : List Nat), b.length < n →
      (∀ sg' w' old, read n (.int sg' w') old (b ++ rest) = .ok (Ubjson.cast sg' w' i, rest)) ∧
      (∀ sg' w' old, Fine (.int sg' w') i → (Ty.int sg' w').Good → read n (.int sg' w') old (b ++ rest) = .ok (i, rest)) ∧
      (∀ old, read n .str old (b ++ rest) = .ok ((toString i).toList.map Char.toNat, rest)) ∧
      ∀ old, read n .bool old (b ++ rest) = .ok (decide (i ≠ 0), rest) := by
  obtain ⟨b, e1, -, e3⟩ := int_ok (ty := 0) hg hv (.inl rfl)
  refine ⟨b, e1, fun n rest hn => ?_⟩
  obtain ⟨x, e4, e5, e6, e7⟩ := e3 n rest hn
  have hc : ∀ sg' w' old, read n (.int sg' w') old (b ++ rest) = .ok (Ubjson.cast sg' w' i, rest) := fun sg' w' old => by
    rw [read, parse, e4, bind_ok, e5, bind_ok]
  refine ⟨hc, fun sg' w' old hf hg' => ?_, fun old => ?_, fun old => ?_⟩
  · have hw : 1 ≤ w' := by rw [Ty.Good] at hg'; omega
    have hr := fine_range (by rw [Ty.Good] at hg'; exact hg') hf
    rw [hc, Ubjson.cast_eq hw hr.1 hr.2]
  · rw [read, parse, e4, bind_ok, e6, bind_ok]
    rfl
  · rw [read, parse, e4, bind_ok, e7, bind_ok]
    simp [bne, BEq.beq]

/-! ## Examples and counterexamples -/

/-- A structure with an integer, a string, a structure, bytes, an array of arrays, a vector of structures and a pair. -/
def sample : Ty := .obj (.cons [97] (.int false 4) (.cons [115] .str (.cons [111] (.obj (.cons [98] .bool .nil)) (.cons [102] (.arr .dyn (.int false 1))
  (.cons [103] (.arr .vec (.arr .dyn (.int true 2))) (.cons [104] (.arr .vec (.obj (.cons [98] (.arr (.fixed 2) .bool) .nil))) (.cons [112] (.tup (.cons (.flt true) (.cons .str .nil))) .nil)))))))

def sampleV : Val sample := ((70000 : Int), [120, 32], (true, ()), ([1, 255] : List Int), ([[-5], []] : List (List Int)), ([([true, false], ())] : List (List Bool × Unit)), ((7 : Nat), [65], ()), ())

example : sample.Good ∧ Fine sample sampleV ∧ Fresh sample (blank sample) := by
  refine ⟨?_, ?_, blank_fresh _⟩
  · simp [sample, Ty.Good, Fields.Good, Tys.Good, Elem, Fields.names, Tys.length, Kind.isFixed]
  · simp [sample, sampleV, Fine, FineF, FineA, Kind.Size]

/-- A vector of bytes is read as so many zeros before the bytes. -/
theorem C198_bytes_counterexample : write (.arr .vec (.int false 1)) ([1, 2] : List Int) none = .ok [91, 36, 85, 35, 85, 2, 1, 2] ∧
    read 9 (.arr .vec (.int false 1)) ([] : List Int) [91, 36, 85, 35, 85, 2, 1, 2] = .ok (([0, 0, 1, 2] : List Int), []) := by
  decide +kernel

/-- Arrays of unsigned integers of more than one byte, of vectors and of tuples cannot be written. -/
theorem C198_elements_counterexample : write (.arr .dyn (.int false 4)) ([1] : List Int) none = .junk ∧ write (.arr .dyn (.arr .vec (.int true 4))) ([[1]] : List (List Int)) none = .junk ∧
    write (.arr .dyn (.tup (.cons .bool .nil))) ([(true, ())] : List (Bool × Unit)) none = .junk := by
  decide +kernel

/-- The bits of `DynArray<bool>` are not written: only their number is, and at the end of the stream none is read. -/
theorem C198_bits_counterexample : write (.arr .dyn .bool) ([true] : List Bool) none = .ok [91, 36, 123, 35, 85, 1] ∧
    ∀ n, 0 < n → read n (.arr .dyn .bool) ([] : List Bool) [91, 36, 123, 35, 85, 1] = .ok ([], []) := by
  refine ⟨by decide +kernel, fun n hn => ?_⟩
  obtain ⟨n, rfl⟩ : ∃ m, n = m + 1 := ⟨n - 1, by omega⟩
  rfl

/-- Unsigned numbers of at least `2 ^ 63` cannot be written. -/
theorem C198_big_counterexample : write (.int false 8) (2 ^ 63 : Int) none = .junk := by decide +kernel

/-- Strings end at their first zero. -/
theorem C198_zero_counterexample : write .str [65, 0, 66] none = .ok [83, 85, 3, 65, 0, 66] ∧ read 7 .str [] [83, 85, 3, 65, 0, 66] = .ok ([65], []) := by
  decide +kernel

/-- What is written under a name cannot be read. -/
theorem C198_name_counterexample : write (.int true 4) (5 : Int) (some [97]) = .ok [85, 1, 97, 85, 5] ∧ read 6 (.int true 4) (0 : Int) [85, 1, 97, 85, 5] = .ok ((1 : Int), [97, 85, 5]) := by
  decide +kernel

/-- The value of a member that the structure does not have is not skipped: it is taken for the next name. -/
theorem C198_unknown_counterexample : let t := Ty.obj (.cons [97] (.int true 4) (.cons [98] (.int true 4) .nil))
    let u := Ty.obj (.cons [98] (.int true 4) .nil)
    write t ((1 : Int), (2 : Int), ()) none = .ok [123, 85, 1, 97, 85, 1, 85, 1, 98, 85, 2, 125] ∧
    read 20 u ((0 : Int), ()) [123, 85, 1, 97, 85, 1, 85, 1, 98, 85, 2, 125] = .reject := by
  decide +kernel

/-- An array without a count that has more elements than a fixed array is read for ever. -/
theorem C198_hang_counterexample (n : Nat) : read n (.arr (.fixed 1) (.int true 4)) ([0] : List Int) [91, 85, 1, 85, 2, 93] = .fuel := by
  have key : ∀ n m c (l : List Int), l.length = 1 → c < 0 → loop (fun (o : List Int × Nat) s =>
        if o.2 < o.1.length then (parse n (.int true 4) (o.1.getD o.2 (blank (.int true 4))) 0 s).bind fun r => .ok ((o.1.set o.2 r.1, o.2 + 1), r.2) else .ok (o, s))
        93 m c (l, 1) [85, 2, 93] = .fuel := by
    intro n m
    induction m with
    | zero => intros; rfl
    | succ m ih =>
      intro c l hl hc
      rw [loop, more_neg hc (by decide), if_pos rfl]
      dsimp only
      rw [if_neg (by omega), bind_ok]
      exact ih (c - 1) l hl (by omega)
  cases n with
  | zero => rfl
  | succ n =>
    rw [read, parse]
    show ((loop _ 93 (n + 1) (-1) (([0] : List Int), 0) [85, 1, 85, 2, 93]).bind _) = _
    rw [loop, more_neg (by decide) (by decide), if_pos rfl]
    show ((loop _ 93 n (-2) (([1] : List Int), 1) [85, 2, 93]).bind _) = _
    rw [key (n + 1) n (-2) [1] rfl (by decide)]
    rfl

end Verif.UbjsonTyped
