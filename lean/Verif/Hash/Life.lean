import Verif.Hash.Props

/-!
# The life of keys in a hash table (C204)

How many key objects `Hash` constructs and destroys, `/repo/include/bss-util/Hash.h`. The table itself is `Verif/Hash/Model`; here the constructions and destructions of keys
are counted call by call (the values of a map are treated the same in the code). Keys in the arguments of calls belong to the caller and do not count.
-/

namespace Verif.Hash

variable {κ δ : Type}

/-- The number of rounds of the loop at `Hash.h:480-511` that find a bucket in use. Each constructs the local `key` and one key in the table (`:505`), and destroys `key`. -/
def rounds (H : κ → Nat) (n m : Nat) : List Nat → R κ δ → Nat
  | [], _ => 0
  | j :: js, r =>
    if r.live j = true then
      match (r.keys j).bind fun kv => kick H n m (n + 1) ⟨r.keys, upd r.live j false, r.used⟩ kv with
      | some r' => rounds H n m js r' + 1
      | none => 0
    else rounds H n m js r

/-- Constructed and destroyed keys. -/
abbrev Count := Nat × Nat

/-- `_resize`, `Hash.h:451-526`; `safe` is `ARRAY_SAFE` or `ARRAY_MOVE`, for which `_realloc` (`:612-633`) constructs a key in the new memory for each in the old and destroys none. When the
table shrinks all buckets are marked as deleted by then, and `_realloc` constructs none. -/
def resizeCount (safe : Bool) (H : κ → Nat) (c : Nat) (t : Tbl κ δ) : Count :=
  if t.size ≥ upperBound (target c) then (0, 0)
  else
    let k := rounds H t.n (target c) (List.range t.n) ⟨fun i => (t.slot i).kv, fun i => (t.slot i).kv.isSome, fun _ => false⟩
    ((if safe = true ∧ t.n < target c then t.entries.length else 0) + 2 * k, k)

/-- `Hash.h:532-545`. -/
def roomCount (safe : Bool) (H : κ → Nat) (t : Tbl κ δ) : Count :=
  if t.occ ≥ t.upper then
    if t.n > t.size * 2 then resizeCount safe H (t.n - 1) t else resizeCount safe H (t.n + 1) t
  else (0, 0)

/-- `Hash.h:567-581`: a key is constructed in a bucket that is not in use. -/
def fillCount (t : Tbl κ δ) (x : Nat) : Count := if (t.slot x).kv.isSome then (0, 0) else (1, 0)

/-- The keys that a call constructs and destroys: `Insert` (`Hash.h:438-448, 529-583`), `Remove` (`:268-276`, `_delete` `:601-611`), `Clear` (`:207-224`), `SetCapacity` (`:267`). -/
def count (safe : Bool) (H : κ → Nat) (eq : κ → κ → Bool) : Spec.Op κ δ → Tbl κ δ → Count
  | .insert k _, t =>
    ((room H t).bind fun t1 => (putLoop eq k t1 (H k % t1.n) t1.n (H k % t1.n) 0 t1.n).map fun x =>
      ((roomCount safe H t).1 + (fillCount t1 x).1, (roomCount safe H t).2 + (fillCount t1 x).2)).getD (0, 0)
  | .remove k, t => ((iter H eq k t).map fun i => if t.n ≠ i ∧ (t.slot i).kv.isSome then (0, 1) else (0, 0)).getD (0, 0)
  | .clear, t => (0, t.entries.length)
  | .setCapacity c, t => if t.n < c then resizeCount safe H c t else (0, 0)
  | _, _ => (0, 0)

/-- A history of calls, with the number of keys that were constructed and destroyed. -/
def life (safe : Bool) (H : κ → Nat) (eq : κ → κ → Bool) : List (Spec.Op κ δ) → Tbl κ δ → Option (Tbl κ δ × Count)
  | [], t => some (t, (0, 0))
  | o :: os, t => (step H eq o t).bind fun r => (life safe H eq os r.1).map fun q =>
    (q.1, ((count safe H eq o t).1 + q.2.1, (count safe H eq o t).2 + q.2.2))

/-- A table from its construction to its destruction, `Hash.h:183-193`: the destructor is `Clear`, and then frees the memory. -/
def wholeLife (safe : Bool) (H : κ → Nat) (eq : κ → κ → Bool) (ops : List (Spec.Op κ δ)) : Option Count :=
  (life safe H eq ops new).map fun q => (q.2.1, q.2.2 + (count safe H eq .clear q.1).2)

/-! ## Lemmas -/

theorem resize_size {H : κ → Nat} {c : Nat} {t t' : Tbl κ δ} (h : resize H c t = some t') : t'.size = t.size := by
  unfold resize at h
  split at h
  · cases h; rfl
  · cases hr : rehash H t.n (target c) (List.range t.n) ⟨fun i => (t.slot i).kv, fun i => (t.slot i).kv.isSome, fun _ => false⟩ with
    | none => rw [hr] at h; cases h
    | some r => rw [hr] at h; cases h; rfl

theorem room_size {H : κ → Nat} {t t' : Tbl κ δ} (h : room H t = some t') : t'.size = t.size := by
  unfold room at h
  split at h
  · split at h <;> exact resize_size h
  · cases h; rfl

theorem resizeCount_le (safe : Bool) (H : κ → Nat) (c : Nat) (t : Tbl κ δ) : (resizeCount safe H c t).2 ≤ (resizeCount safe H c t).1 := by
  unfold resizeCount
  split
  · exact Nat.le_refl _
  · simp only; omega

theorem roomCount_le (safe : Bool) (H : κ → Nat) (t : Tbl κ δ) : (roomCount safe H t).2 ≤ (roomCount safe H t).1 := by
  unfold roomCount
  split
  · split <;> exact resizeCount_le _ _ _ _
  · exact Nat.le_refl _

theorem fill_size (k : κ) (v : δ) (t : Tbl κ δ) (x : Nat) : (fill k v t x).size = t.size + (fillCount t x).1 := by
  unfold fill fillCount
  cases t.slot x <;> simp [Slot.kv]

/-- The keys that a call loses. -/
def lost (safe : Bool) (H : κ → Nat) : Spec.Op κ δ → Tbl κ δ → Nat
  | .insert _ _, t => (roomCount safe H t).1 - (roomCount safe H t).2
  | .setCapacity c, t => if t.n < c then (resizeCount safe H c t).1 - (resizeCount safe H c t).2 else 0
  | _, _ => 0

/-- One call: the keys in the table are balanced, except for those that a rehash loses. -/
theorem count_step {H : κ → Nat} {eq : κ → κ → Bool} (safe : Bool) (o : Spec.Op κ δ) (t t' : Tbl κ δ) (r : Spec.Res δ) (hI : Inv H eq t) (he : HashOK H eq)
    (h : step H eq o t = some (t', r)) :
    (count safe H eq o t).1 + t.size = (count safe H eq o t).2 + t'.size + lost safe H o t := by
  cases o with
  | insert k v =>
    simp only [step, insert] at h
    cases h1 : room H t with
    | none => simp [h1] at h
    | some t1 =>
      cases h2 : putLoop eq k t1 (H k % t1.n) t1.n (H k % t1.n) 0 t1.n with
      | none => simp [h1, h2] at h
      | some x =>
        simp only [h1, h2, Option.bind_some, Option.map_some, Option.some.injEq, Prod.mk.injEq] at h
        have hs : t'.size = t1.size + (fillCount t1 x).1 := by rw [← h.1]; exact fill_size k v t1 x
        have hr := room_size h1
        have hl := roomCount_le safe H t
        have hf : (fillCount t1 x).2 = 0 := by unfold fillCount; split <;> rfl
        simp only [count, lost, h1, h2, Option.bind_some, Option.map_some, Option.getD_some]
        omega
  | set k v =>
    simp only [step, set] at h
    cases h1 : iter H eq k t with
    | none => simp [h1] at h
    | some i =>
      simp only [h1, Option.map_some, Option.some.injEq, Prod.mk.injEq] at h
      have : t'.size = t.size := by
        rw [← h.1]
        split
        · simp only [setAt]; cases t.slot i <;> rfl
        · rfl
      simp only [count, lost]; omega
  | remove k =>
    simp only [step, remove] at h
    cases h1 : iter H eq k t with
    | none => simp [h1] at h
    | some i =>
      simp only [h1, Option.map_some, Option.some.injEq, Prod.mk.injEq] at h
      simp only [count, lost, h1, Option.map_some, Option.getD_some]
      by_cases hn : t.n = i
      · rw [if_pos hn] at h
        simp only [hn, ne_eq, not_true_eq_false, false_and, if_false]
        rw [← h.1]; simp
      · rw [if_neg hn] at h
        simp only at h
        by_cases hk : (t.slot i).kv.isSome = true
        · rw [if_pos ⟨hn, hk⟩]
          have hd : t'.size = t.size - 1 := by
            rw [← h.1, delete, if_pos ⟨fun hc => hn hc.symm, hk⟩]
          have hpos : 0 < t.size := by
            obtain ⟨j, e1, e2⟩ := iter_entries he hI k
            rw [h1] at e1
            cases e1
            rcases e2 with ⟨k', w, g1, g2, g3, g4⟩ | ⟨g1, g2⟩
            · rw [hI.size]; exact List.length_pos_iff.2 (List.ne_nil_of_mem g4)
            · exact absurd g1.symm hn
          simp only; omega
        · rw [if_neg (fun hc => hk hc.2)]
          have hd : t'.size = t.size := by
            rw [← h.1, delete, if_neg (fun hc => hk hc.2)]
          simp only; omega
  | get k =>
    simp only [step] at h
    cases h1 : get H eq k t with
    | none => simp [h1] at h
    | some x => simp only [h1, Option.map_some, Option.some.injEq, Prod.mk.injEq] at h; rw [← h.1]; simp [count, lost]
  | has k =>
    simp only [step] at h
    cases h1 : exist H eq k t with
    | none => simp [h1] at h
    | some x => simp only [h1, Option.map_some, Option.some.injEq, Prod.mk.injEq] at h; rw [← h.1]; simp [count, lost]
  | length => simp only [step, Option.some.injEq, Prod.mk.injEq] at h; rw [← h.1]; simp [count, lost]
  | clear =>
    simp only [step, Option.some.injEq, Prod.mk.injEq] at h
    rw [← h.1]
    simp only [count, clear, lost, hI.size]
    omega
  | setCapacity c =>
    simp only [step, setCapacity] at h
    simp only [count, lost]
    by_cases hc : t.n < c
    · rw [if_pos hc] at h
      simp only [if_pos hc]
      cases h1 : resize H c t with
      | none => simp [h1] at h
      | some t1 =>
        simp only [h1, Option.map_some, Option.some.injEq, Prod.mk.injEq] at h
        have := resize_size h1
        have := resizeCount_le safe H c t
        rw [← h.1]; omega
    · rw [if_neg hc] at h
      simp only [if_neg hc]
      simp only [Option.map_some, Option.some.injEq, Prod.mk.injEq] at h
      rw [← h.1]; omega

theorem life_sim {H : κ → Nat} {eq : κ → κ → Bool} (he : HashOK H eq) (safe : Bool) :
    ∀ (ops : List (Spec.Op κ δ)) (s : List (κ × δ)) (t : Tbl κ δ) (s' : List (κ × δ)) (rs : List (Spec.Res δ)), Rel H eq s t →
      runAll (Spec.step eq) ops s = some (s', rs) →
      ∃ t' n, life safe H eq ops t = some (t', n) ∧ Rel H eq s' t' ∧ n.2 + t'.size ≤ n.1 + t.size := by
  intro ops
  induction ops with
  | nil =>
    intro s t s' rs hR h
    simp only [runAll, Option.some.injEq, Prod.mk.injEq] at h
    exact ⟨t, (0, 0), rfl, h.1 ▸ hR, Nat.le_refl _⟩
  | cons o os ih =>
    intro s t s' rs hR h
    simp only [runAll] at h
    cases h1 : Spec.step eq o s with
    | none => simp [h1] at h
    | some p =>
      simp only [h1, Option.bind_some] at h
      cases h2 : runAll (Spec.step eq) os p.1 with
      | none => simp [h2] at h
      | some q =>
        simp only [h2, Option.map_some, Option.some.injEq, Prod.mk.injEq] at h
        obtain ⟨t1, e1, e2⟩ := step_sim he o s t p.1 p.2 hR h1
        obtain ⟨t2, n, f1, f2, f3⟩ := ih p.1 t1 q.1 q.2 e2 h2
        have g1 := count_step safe o t t1 p.2 hR.1 he e1
        refine ⟨t2, _, by simp only [life, e1, Option.bind_some, f1, Option.map_some]; rfl, h.1 ▸ f2, ?_⟩
        simp only; omega

/-! ## C204 -/

/-- **C204**: in every history no more keys are destroyed than constructed, and the keys of all entries are there: they are never destroyed early. -/
theorem C204_alive {H : κ → Nat} {eq : κ → κ → Bool} (he : HashOK H eq) (safe : Bool) (ops : List (Spec.Op κ δ)) (s : List (κ × δ)) (rs : List (Spec.Res δ))
    (hs : runAll (Spec.step eq) ops [] = some (s, rs)) :
    ∃ t n, life safe H eq ops new = some (t, n) ∧ t.entries.Perm s ∧ n.2 + s.length ≤ n.1 := by
  obtain ⟨t, n, e1, e2, e3⟩ := life_sim he safe ops [] new s rs ⟨new_inv H eq, List.Perm.refl _⟩ hs
  refine ⟨t, n, e1, e2.2, ?_⟩
  have := e2.1.size
  rw [e2.2.length_eq] at this
  have h0 : (new : Tbl κ δ).size = 0 := rfl
  omega

/-- The insertions in a history. -/
def inserts : List (Spec.Op κ δ) → Nat
  | [] => 0
  | .insert _ _ :: os => inserts os + 1
  | _ :: os => inserts os

theorem step_occ {H : κ → Nat} {eq : κ → κ → Bool} (o : Spec.Op κ δ) (t t' : Tbl κ δ) (r : Spec.Res δ) (h : step H eq o t = some (t', r))
    (hc : ∀ c, o ≠ .setCapacity c) (ho : ∀ k v, o = .insert k v → t.occ < t.upper) :
    t'.upper = t.upper ∧ t'.occ ≤ t.occ + inserts [o] := by
  cases o with
  | insert k v =>
    have hr : room H t = some t := by rw [room, if_neg (by have := ho k v rfl; omega)]
    simp only [step, insert, hr, Option.bind_some] at h
    cases h2 : putLoop eq k t (H k % t.n) t.n (H k % t.n) 0 t.n with
    | none => simp [h2] at h
    | some x =>
      simp only [h2, Option.map_some, Option.some.injEq, Prod.mk.injEq] at h
      rw [← h.1]
      simp only [fill, inserts]
      cases t.slot x <;> simp
  | set k v =>
    simp only [step, set] at h
    cases h1 : iter H eq k t with
    | none => simp [h1] at h
    | some i =>
      simp only [h1, Option.map_some, Option.some.injEq, Prod.mk.injEq] at h
      rw [← h.1]
      by_cases hx : existsIter i t = true
      · simp only [hx, if_true, setAt]; cases t.slot i <;> simp
      · simp [hx]
  | remove k =>
    simp only [step, remove] at h
    cases h1 : iter H eq k t with
    | none => simp [h1] at h
    | some i =>
      simp only [h1, Option.map_some, Option.some.injEq, Prod.mk.injEq] at h
      rw [← h.1]
      by_cases hx : t.n = i
      · simp [hx]
      · simp only [if_neg hx, delete]; split <;> simp
  | get k =>
    simp only [step] at h
    cases h1 : get H eq k t with
    | none => simp [h1] at h
    | some x => simp only [h1, Option.map_some, Option.some.injEq, Prod.mk.injEq] at h; rw [← h.1]; simp
  | has k =>
    simp only [step] at h
    cases h1 : exist H eq k t with
    | none => simp [h1] at h
    | some x => simp only [h1, Option.map_some, Option.some.injEq, Prod.mk.injEq] at h; rw [← h.1]; simp
  | length => simp only [step, Option.some.injEq, Prod.mk.injEq] at h; rw [← h.1]; simp
  | clear => simp only [step, Option.some.injEq, Prod.mk.injEq] at h; rw [← h.1]; simp [clear]
  | setCapacity c => exact absurd rfl (hc c)

theorem life_room {H : κ → Nat} {eq : κ → κ → Bool} (he : HashOK H eq) (safe : Bool) :
    ∀ (ops : List (Spec.Op κ δ)) (s : List (κ × δ)) (t : Tbl κ δ) (s' : List (κ × δ)) (rs : List (Spec.Res δ)), Rel H eq s t →
      runAll (Spec.step eq) ops s = some (s', rs) → (∀ c, Spec.Op.setCapacity c ∉ ops) → t.occ + inserts ops ≤ t.upper →
      ∃ t' n, life safe H eq ops t = some (t', n) ∧ Rel H eq s' t' ∧ n.2 + t'.size = n.1 + t.size := by
  intro ops
  induction ops with
  | nil =>
    intro s t s' rs hR h _ _
    simp only [runAll, Option.some.injEq, Prod.mk.injEq] at h
    exact ⟨t, (0, 0), rfl, h.1 ▸ hR, rfl⟩
  | cons o os ih =>
    intro s t s' rs hR h hc hocc
    simp only [runAll] at h
    cases h1 : Spec.step eq o s with
    | none => simp [h1] at h
    | some p =>
      simp only [h1, Option.bind_some] at h
      cases h2 : runAll (Spec.step eq) os p.1 with
      | none => simp [h2] at h
      | some q =>
        simp only [h2, Option.map_some, Option.some.injEq, Prod.mk.injEq] at h
        obtain ⟨t1, e1, e2⟩ := step_sim he o s t p.1 p.2 hR h1
        have hins : inserts (o :: os) = inserts [o] + inserts os := by cases o <;> simp [inserts]; omega
        have hlt : ∀ k v, o = .insert k v → t.occ < t.upper := by
          rintro k v rfl
          simp only [inserts] at hocc hins
          omega
        obtain ⟨o1, o2⟩ := step_occ o t t1 p.2 e1 (fun c hoc => hc c (by simp [hoc])) hlt
        obtain ⟨t2, n, f1, f2, f3⟩ := ih p.1 t1 q.1 q.2 e2 h2 (fun c hm => hc c (by simp [hm])) (by omega)
        have g1 := count_step safe o t t1 p.2 hR.1 he e1
        have hl : lost safe H o t = 0 := by
          cases o with
          | insert k v => simp only [lost, roomCount]; rw [if_neg (by have := hlt k v rfl; omega)]; rfl
          | setCapacity c => exact absurd (by simp) (hc c)
          | _ => rfl
        refine ⟨t2, _, by simp only [life, e1, Option.bind_some, f1, Option.map_some]; rfl, h.1 ▸ f2, ?_⟩
        simp only; omega

/-- **C204**, for tables that never rehash entries: if the capacity is set first, and at most three quarters as many insertions are made, every key that was constructed has been destroyed when
the table is. Missing because the code does not do it: the keys of a table that is rehashed. -/
theorem C204_balanced_partial {H : κ → Nat} {eq : κ → κ → Bool} (he : HashOK H eq) (safe : Bool) (c : Nat) (hc1 : 1 ≤ c) (hc2 : c ≤ 2 ^ 31) (ops : List (Spec.Op κ δ)) (s : List (κ × δ))
    (rs : List (Spec.Res δ)) (hs : runAll (Spec.step eq) ops [] = some (s, rs)) (hno : ∀ c, Spec.Op.setCapacity c ∉ ops) (hins : 4 * inserts ops ≤ 3 * c) :
    ∃ n, wholeLife safe H eq (.setCapacity c :: ops) = some (n, n) := by
  obtain ⟨k, k1, k2, k3, k4, _⟩ := target_spec hc1 hc2
  have hup : 0 < upperBound (target c) := by unfold upperBound; omega
  obtain ⟨t, e1, e2, e3, e4, e5, e6⟩ := resize_spec he (new_inv (δ := δ) H eq) hc1 hc2 (by exact hup)
  have hR : Rel H eq [] t := ⟨e2, by rw [show (new : Tbl κ δ).entries = [] from rfl] at e3; exact e3⟩
  have hu : t.upper = upperBound (target c) := by rw [e2.upper, e4]
  have h6 : t.occ = 0 := e6
  obtain ⟨t', n, f1, f2, f3⟩ := life_room he safe ops [] t s rs hR hs hno (by rw [hu, h6]; unfold upperBound; omega)
  have hcnt : count safe H eq (.setCapacity c) (new : Tbl κ δ) = (0, 0) := by
    have : (new : Tbl κ δ).n < c := hc1
    simp only [count, if_pos this, resizeCount]
    rw [if_neg (by show ¬(0 : Nat) ≥ _; omega)]
    have hz : ∀ (p : Prop) [Decidable p], (if p then (new : Tbl κ δ).entries.length else 0) = 0 := by intro p _; split <;> rfl
    simp only [hz]
    rfl
  have hstep : step H eq (.setCapacity c) (new : Tbl κ δ) = some (t, .unit) := by
    have : (new : Tbl κ δ).n < c := hc1
    simp only [step, setCapacity, if_pos this, e1, Option.map_some]
  refine ⟨n.1, ?_⟩
  simp only [wholeLife, life, hstep, Option.bind_some, f1, Option.map_some, hcnt, Option.some.injEq, Prod.mk.injEq, Nat.zero_add]
  refine ⟨trivial, ?_⟩
  have h5 : t.size = 0 := e5
  simp only [count, ← f2.1.size]
  omega

theorem rounds_pos {H : κ → Nat} {n m : Nat} : ∀ (js : List Nat) (r r' : R κ δ), rehash H n m js r = some r' → (∃ j ∈ js, r.live j = true) → 0 < rounds H n m js r := by
  intro js
  induction js with
  | nil => rintro r r' _ ⟨j, hj, _⟩; cases hj
  | cons j js ih =>
    rintro r r' h ⟨i, hi, hl⟩
    simp only [rehash] at h
    simp only [rounds]
    by_cases hj : r.live j = true
    · rw [if_pos hj] at h ⊢
      cases h1 : r.keys j with
      | none => simp [h1] at h
      | some kv =>
        simp only [h1, Option.bind_some] at h ⊢
        cases h2 : kick H n m (n + 1) ⟨r.keys, upd r.live j false, r.used⟩ kv with
        | none => simp [h2] at h
        | some r1 => simp
    · rw [if_neg hj] at h ⊢
      rcases List.mem_cons.1 hi with rfl | hi
      · exact absurd hl hj
      · exact ih r r' h ⟨i, hi, hl⟩

/-- Every rehash of a table with entries loses keys, whatever the kind of array: more keys are constructed than destroyed although the entries are the same. -/
theorem C204_rehash_loses {H : κ → Nat} {eq : κ → κ → Bool} (he : HashOK H eq) (safe : Bool) (t : Tbl κ δ) (hI : Inv H eq t) (hne : t.entries ≠ []) (c : Nat) (h1 : 1 ≤ c) (h2 : c ≤ 2 ^ 31)
    (hsz : t.size < upperBound (target c)) :
    ∃ t', resize H c t = some t' ∧ t'.entries.Perm t.entries ∧ (resizeCount safe H c t).2 < (resizeCount safe H c t).1 := by
  obtain ⟨t', e1, e2, e3, _⟩ := resize_spec he hI h1 h2 hsz
  refine ⟨t', e1, e3, ?_⟩
  unfold resize at e1
  rw [if_neg (by omega)] at e1
  cases hr : rehash H t.n (target c) (List.range t.n) ⟨fun i => (t.slot i).kv, fun i => (t.slot i).kv.isSome, fun _ => false⟩ with
  | none => rw [hr] at e1; cases e1
  | some r =>
    obtain ⟨e, he'⟩ := List.exists_mem_of_ne_nil _ hne
    obtain ⟨i, hi, hs⟩ := mem_entries.1 he'
    have := rounds_pos (List.range t.n) _ r hr ⟨i, List.mem_range.2 hi, by show (t.slot i).kv.isSome = true; rw [hs]; rfl⟩
    unfold resizeCount
    rw [if_neg (by omega)]
    simp only
    omega

/-- Twenty-six insertions into a new table with `ARRAY_SAFE`: 101 keys are constructed, and 51 destroyed in the end. -/
theorem C204_lost_counterexample : wholeLife true (fun k : Nat => k) (fun a b => a == b) ((List.range 26).map fun k => .insert k ()) = some (101, 51) ∧
    wholeLife false (fun k : Nat => k) (fun a b => a == b) ((List.range 26).map fun k => .insert k ()) = some (76, 51) := by
  decide +kernel

example := C204_balanced_partial ex_hash true 100 (by decide) (by decide) [.insert 1 10, .insert 3 30, .insert 101 11, .remove 3, .insert 5 50] [(1, 11), (5, 50)]
  [.unit, .unit, .unit, .bool true, .unit] (by decide +kernel) (by simp) (by decide)

example : wholeLife true (fun k : Nat => k % 2) (fun a b => a % 100 == b % 100) [.setCapacity 100, .insert 1 10, .insert 3 30, .insert 101 11, .remove 3, .insert 5 50] = some (3, 3) := by
  decide +kernel

end Verif.Hash
