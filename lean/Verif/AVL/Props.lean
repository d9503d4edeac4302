import Verif.AVL.Lemmas
import Verif.Common.Run
import Mathlib.Data.Nat.Fib.Basic
import Mathlib.Tactic.Linarith

/-!
# C20, C21, C75, C76: the AVL tree

The specification of C20 is a partial map from keys to data.  Keys that the comparison calls equal are the same key.
-/

namespace Verif.AVL

variable {κ δ : Type}

/-! ## Specification: a map -/

/-- A map from keys to data. -/
abbrev Map (κ δ : Type) := κ → Option δ

/-- Change the entry of `k`. -/
def Map.upd (cmp : κ → κ → Int) (m : Map κ δ) (k : κ) (v : Option δ) : Map κ δ := fun q => if cmp k q = 0 then v else m q

/-- The calls of a history. -/
inductive Op (κ δ : Type) where
  | insert (k : κ) (d : δ)
  | remove (k : κ)
  | get (k : κ)
  | replaceKey (old new : κ)
  | clear

/-- What a call returns. -/
inductive Res (δ : Type) where
  | unit
  | ok (b : Bool)
  | data (d : Option δ)
deriving DecidableEq

/-- What the calls mean on a map.  `ReplaceKey` takes the entry of the old key out and enters its data (or default data)
under the new key unless that exists. -/
def spec (cmp : κ → κ → Int) (dflt : δ) : Op κ δ → Map κ δ → Map κ δ × Res δ
  | .insert k d, m => if (m k).isSome then (m, .ok false) else (m.upd cmp k (some d), .ok true)
  | .remove k, m => (m.upd cmp k none, .ok (m k).isSome)
  | .get k, m => (m, .data (m k))
  | .replaceKey old new, m =>
    let m' := m.upd cmp old none
    if (m' new).isSome then (m', .ok false) else (m'.upd cmp new (some ((m old).getD dflt)), .ok true)
  | .clear, _ => (fun _ => none, .unit)

/-- The calls on the tree. -/
def exec (cmp : κ → κ → Int) (dflt : δ) : Op κ δ → Tree κ δ → Option (Tree κ δ × Res δ)
  | .insert k d, t => (insert cmp k d t).map fun (t, _, ins) => (t, .ok ins)
  | .remove k, t => (removeKey cmp k t).map fun (t, b) => (t, .ok b)
  | .get k, t => some (t, .data (get cmp k t))
  | .replaceKey old new, t => (replaceKey cmp dflt old new t).map fun (t, b) => (t, .ok b)
  | .clear, _ => some (.leaf, .unit)

/-- The tree satisfies its invariants and stands for the map. -/
def Rep (cmp : κ → κ → Int) (m : Map κ δ) (t : Tree κ δ) : Prop :=
  Inv t ∧ Desc cmp (toList t) ∧ ∀ q, get cmp q t = m q

section
variable {cmp : κ → κ → Int} (ho : CmpOrd cmp) (hs : Sgn cmp)
include ho hs

theorem get_spec {t : Tree κ δ} (h : Desc cmp (toList t)) (q : κ) (d : δ) :
    get cmp q t = some d ↔ ∃ k, (k, d) ∈ toList t ∧ cmp k q = 0 := by
  unfold get
  rw [Option.map_eq_some_iff]
  constructor
  · rintro ⟨⟨k, d'⟩, h1, rfl⟩
    exact ⟨k, (find_spec ho hs q t h _).1 h1⟩
  · rintro ⟨k, h1⟩
    exact ⟨(k, d), (find_spec ho hs q t h _).2 h1, rfl⟩

theorem get_none {t : Tree κ δ} (h : Desc cmp (toList t)) (q : κ) :
    get cmp q t = none ↔ ∀ e ∈ toList t, cmp e.1 q ≠ 0 := by
  constructor
  · intro h1 e he h2
    have := (get_spec ho hs h q e.2).2 ⟨e.1, he, h2⟩
    rw [h1] at this
    cases this
  · intro h1
    cases h2 : get cmp q t with
    | none => rfl
    | some d =>
      obtain ⟨k, h3, h4⟩ := (get_spec ho hs h q d).1 h2
      exact absurd h4 (h1 _ h3)

theorem insert_rep {m : Map κ δ} {t : Tree κ δ} (h : Rep cmp m t) (k : κ) (d : δ) :
    ∃ t' c, insert cmp k d t = some (t', c, !(m k).isSome) ∧ ((m k).isSome → t' = t) ∧
      Rep cmp (if (m k).isSome then m else m.upd cmp k (some d)) t' := by
  obtain ⟨h1, h2, h3⟩ := h
  obtain ⟨t', c, ins, e1, e2, e3, e4, e5⟩ := insert_spec ho hs k d t h1 h2
  rcases e5 with ⟨g1, g2, g3, e, g4, g5⟩ | ⟨g1, A, B, g2, g3, g4, g5⟩
  · have hk : (m k).isSome := by
      rw [← h3 k, (get_spec ho hs h2 k e.2).2 ⟨e.1, g4, g5⟩]; rfl
    refine ⟨t', c, by rw [e1, hk, g1]; rfl, fun _ => g3, ?_⟩
    rw [if_pos hk, g3]
    exact ⟨h1, h2, h3⟩
  · have hk : m k = none := by
      rw [← h3 k, get_none ho hs h2]
      intro e he
      rw [g2, List.mem_append] at he
      rcases he with he | he
      · have h6 := g4 e he
        have := ho.sym k e.1
        omega
      · have := g5 e he
        omega
    have hd : Desc cmp (toList t') := by
      unfold Desc at h2 ⊢
      rw [g2, List.pairwise_append] at h2
      rw [g3, List.pairwise_append, List.pairwise_cons]
      refine ⟨h2.1, ⟨g5, h2.2.1⟩, ?_⟩
      intro a ha b hb
      rcases List.mem_cons.1 hb with rfl | hb
      · exact g4 a ha
      · exact h2.2.2 a ha b hb
    refine ⟨t', c, by rw [e1, hk, g1]; rfl, by simp [hk], ?_⟩
    rw [if_neg (by simp [hk])]
    refine ⟨e2, hd, ?_⟩
    intro q
    unfold Map.upd
    by_cases hq : cmp k q = 0
    · rw [if_pos hq]
      exact (get_spec ho hs hd q d).2 ⟨k, by rw [g3]; simp, hq⟩
    · rw [if_neg hq, ← h3 q]
      apply Option.ext
      intro v
      rw [get_spec ho hs hd, get_spec ho hs h2, g2, g3]
      constructor
      · rintro ⟨k', h4, h5⟩
        simp only [List.mem_append, List.mem_cons, Prod.mk.injEq] at h4
        rcases h4 with h4 | ⟨rfl, _⟩ | h4
        · exact ⟨k', by simp [h4], h5⟩
        · exact absurd h5 hq
        · exact ⟨k', by simp [h4], h5⟩
      · rintro ⟨k', h4, h5⟩
        exact ⟨k', by simp at h4 ⊢; tauto, h5⟩

theorem remove_rep {m : Map κ δ} {t : Tree κ δ} (h : Rep cmp m t) (k : κ) :
    ∃ t' c ret, remove cmp k t = some (t', c, ret) ∧ ret.map (·.2) = m k ∧ (m k = none → t' = t) ∧
      Rep cmp (m.upd cmp k none) t' := by
  obtain ⟨h1, h2, h3⟩ := h
  obtain ⟨t', c, ret, e1, e2, e3, e4, e5⟩ := remove_spec ho hs t k h1 h2
  rcases e5 with ⟨g1, g2, g3, g4⟩ | ⟨A, B, k0, d0, k1, g2, g3, g4, g5⟩
  · have hk : m k = none := by rw [← h3 k, get_none ho hs h2]; exact g4
    refine ⟨t', c, ret, e1, by simp [g1, hk], fun _ => g3, ?_⟩
    rw [g3]
    refine ⟨h1, h2, ?_⟩
    intro q
    unfold Map.upd
    by_cases hq : cmp k q = 0
    · rw [if_pos hq, get_none ho hs h2]
      intro e he h0
      exact g4 e he (ho.eq_trans h0 (ho.swap_eq.1 hq))
    · rw [if_neg hq, h3]
  · have hk : m k = some d0 := by
      rw [← h3 k]
      exact (get_spec ho hs h2 k d0).2 ⟨k0, by rw [g2]; simp, g3⟩
    have hd : Desc cmp (toList t') := by
      unfold Desc at h2 ⊢
      rw [g2, List.pairwise_append, List.pairwise_cons] at h2
      rw [g4, List.pairwise_append]
      exact ⟨h2.1, h2.2.1.2, fun a ha b hb => h2.2.2 a ha b (by simp [hb])⟩
    refine ⟨t', c, ret, e1, by simp [g5, hk], by simp [hk], e2, hd, ?_⟩
    have hA : ∀ e ∈ A, cmp e.1 k0 ≠ 0 := by
      intro e he h0
      unfold Desc at h2
      rw [g2, List.pairwise_append] at h2
      have := h2.2.2 e he (k0, d0) (by simp)
      have h6 := ho.sym k0 e.1
      simp only at this
      omega
    have hB : ∀ e ∈ B, cmp e.1 k0 ≠ 0 := by
      intro e he h0
      unfold Desc at h2
      rw [g2, List.pairwise_append, List.pairwise_cons] at h2
      have := h2.2.1.1 e he
      simp only at this
      omega
    intro q
    unfold Map.upd
    by_cases hq : cmp k q = 0
    · rw [if_pos hq, get_none ho hs hd]
      intro e he h0
      have h7 : cmp e.1 k0 = 0 := ho.eq_trans h0 (ho.eq_trans (ho.swap_eq.1 hq) (ho.swap_eq.1 g3))
      rw [g4, List.mem_append] at he
      rcases he with he | he
      · exact hA e he h7
      · exact hB e he h7
    · rw [if_neg hq, ← h3 q]
      apply Option.ext
      intro v
      rw [get_spec ho hs hd, get_spec ho hs h2, g2, g4]
      constructor
      · rintro ⟨k', h4, h5⟩
        exact ⟨k', by simp at h4 ⊢; tauto, h5⟩
      · rintro ⟨k', h4, h5⟩
        simp only [List.mem_append, List.mem_cons, Prod.mk.injEq] at h4
        rcases h4 with h4 | ⟨rfl, _⟩ | h4
        · exact ⟨k', by simp [h4], h5⟩
        · exact absurd (ho.eq_trans (ho.swap_eq.1 g3) h5) hq
        · exact ⟨k', by simp [h4], h5⟩

theorem exec_sim (dflt : δ) (o : Op κ δ) (m : Map κ δ) (t : Tree κ δ) (h : Rep cmp m t) :
    ∃ t', exec cmp dflt o t = some (t', (spec cmp dflt o m).2) ∧ Rep cmp (spec cmp dflt o m).1 t' := by
  cases o with
  | insert k d =>
    obtain ⟨t', c, e1, _, e2⟩ := insert_rep ho hs h k d
    refine ⟨t', ?_, ?_⟩
    · simp only [exec, e1, Option.map_some, spec]
      cases (m k).isSome <;> rfl
    · simp only [spec]
      split <;> simp_all
  | remove k =>
    obtain ⟨t', c, ret, e1, e2, _, e3⟩ := remove_rep ho hs h k
    refine ⟨t', ?_, e3⟩
    simp only [exec, removeKey, e1, Option.map_some, spec, ← e2, Option.isSome_map]
  | get k => exact ⟨t, by simp [exec, spec, h.2.2 k], h⟩
  | replaceKey old new =>
    obtain ⟨t1, c, ret, e1, e2, _, e3⟩ := remove_rep ho hs h old
    obtain ⟨t2, c2, f1, _, f2⟩ := insert_rep ho hs e3 new ((m old).getD dflt)
    refine ⟨t2, ?_, ?_⟩
    · simp only [exec, replaceKey, e1, Option.bind_some, e2, f1, Option.map_some, spec]
      cases (m.upd cmp old none new).isSome <;> rfl
    · simp only [spec]
      split <;> simp_all
  | clear => exact ⟨.leaf, rfl, trivial, List.Pairwise.nil, fun _ => rfl⟩

/-- C20: any history of calls on an empty tree runs without following a null pointer, every call returns what the same
call on a map returns, and at the end `Get` of every key is the map's entry. -/
theorem C20_map_refinement (dflt : δ) (os : List (Op κ δ)) :
    ∃ t, runAll (exec cmp dflt) os .leaf = some (t, (runSpec (spec cmp dflt) os (fun _ => none)).2) ∧
      ∀ q, get cmp q t = (runSpec (spec cmp dflt) os (fun _ => none)).1 q := by
  obtain ⟨t, h1, h2⟩ := runSpec_sim (R := Rep cmp) (exec_sim ho hs dflt) os (fun _ => none) .leaf
    ⟨trivial, List.Pairwise.nil, fun _ => rfl⟩
  exact ⟨t, h1, h2.2.2⟩

/-- A tree produced by some history. -/
def Reach (cmp : κ → κ → Int) (dflt : δ) (t : Tree κ δ) : Prop := ∃ os rs, runAll (exec cmp dflt) os .leaf = some (t, rs)

theorem Reach.rep {dflt : δ} {t : Tree κ δ} (h : Reach cmp dflt t) : Rep cmp (fun q => get cmp q t) t := by
  obtain ⟨os, rs, h⟩ := h
  obtain ⟨t', h1, h2⟩ := runSpec_sim (R := Rep cmp) (exec_sim ho hs dflt) os (fun _ => none) .leaf
    ⟨trivial, List.Pairwise.nil, fun _ => rfl⟩
  rw [h] at h1
  simp only [Option.some.injEq, Prod.mk.injEq] at h1
  obtain ⟨rfl, _⟩ := h1
  exact ⟨h2.1, h2.2.1, fun _ => rfl⟩

/-- C20: inserting an existing key returns null and leaves the tree exactly as it was; removing an absent key likewise. -/
theorem C20_rejected_calls_change_nothing {dflt : δ} {t : Tree κ δ} (h : Reach cmp dflt t) (k : κ) (d : δ) :
    ((get cmp k t).isSome → ∃ c, insert cmp k d t = some (t, c, false)) ∧
    (get cmp k t = none → removeKey cmp k t = some (t, false)) := by
  have hr := Reach.rep ho hs h
  constructor
  · intro h1
    obtain ⟨t', c, e1, e2, _⟩ := insert_rep ho hs hr k d
    refine ⟨c, ?_⟩
    rw [e1, e2 h1, h1]; rfl
  · intro h1
    obtain ⟨t', c, ret, e1, e2, e3, _⟩ := remove_rep ho hs hr k
    rw [removeKey, e1, e3 h1]
    cases ret with
    | none => rfl
    | some x => simp [h1] at e2

/-- C76: `ReplaceKey` moves the data when the old key is present and the new one is not. -/
theorem C76_replace_key_partial {dflt : δ} {t : Tree κ δ} (h : Reach cmp dflt t) {old new : κ} {d : δ}
    (h1 : get cmp old t = some d) (h2 : get cmp new t = none) :
    ∃ t', replaceKey cmp dflt old new t = some (t', true) ∧
      ∀ q, get cmp q t' = if cmp new q = 0 then some d else if cmp old q = 0 then none else get cmp q t := by
  have hr := Reach.rep ho hs h
  obtain ⟨t', e1, e2⟩ := exec_sim ho hs dflt (.replaceKey old new) _ t hr
  have h3 : (Map.upd cmp (fun q => get cmp q t) old none new) = none := by
    unfold Map.upd; split <;> simp [h2]
  simp only [spec, h3, Option.isSome_none, Bool.false_eq_true, if_false, h1, Option.getD_some, exec,
    Option.map_eq_some_iff] at e1 e2
  obtain ⟨⟨t1, b⟩, e3, e4⟩ := e1
  simp only [Prod.mk.injEq, Res.ok.injEq] at e4
  obtain ⟨rfl, rfl⟩ := e4
  exact ⟨t1, e3, fun q => by rw [e2.2.2 q]; rfl⟩

/-- C20: traversal calls the lambda on exactly the entries of the map. -/
theorem C20_traverse {dflt : δ} {t : Tree κ δ} (h : Reach cmp dflt t) (q : κ) (d : δ) :
    get cmp q t = some d ↔ ∃ k, (k, d) ∈ toList t ∧ cmp k q = 0 :=
  get_spec ho hs (Reach.rep ho hs h).2.1 q d

end

/-! ## C21 -/

/-- `s` is a subtree of `t`. -/
inductive Sub : Tree κ δ → Tree κ δ → Prop
  | refl (t) : Sub t t
  | left {s l k d b r} : Sub s l → Sub s (.node l k d b r)
  | right {s l k d b r} : Sub s r → Sub s (.node l k d b r)

theorem Inv.sub {s t : Tree κ δ} (h : Sub s t) (hi : Inv t) : Inv s := by
  induction h with
  | refl => exact hi
  | left _ ih => exact ih hi.1
  | right _ ih => exact ih hi.2.1

theorem inv_fib : ∀ (t : Tree κ δ), Inv t → Nat.fib (height t + 2) ≤ (toList t).length + 1 := by
  intro t
  induction t with
  | leaf => intro _; simp [height, toList]
  | node l k d b r ihl ihr =>
    intro h
    obtain ⟨hl, hr, hb, h1, h2⟩ := h
    have e1 := ihl hl
    have e2 := ihr hr
    simp only [toList, List.length_append, List.length_cons, height]
    have key : ∀ a c : Nat, c ≤ a → a ≤ c + 1 → ∀ x y, Nat.fib (a + 2) ≤ x + 1 → Nat.fib (c + 2) ≤ y + 1 →
        Nat.fib (a + 3) ≤ x + y + 2 := by
      intro a c hc ha x y hx hy
      have hf : Nat.fib (a + 1 + 2) = Nat.fib (a + 1) + Nat.fib (a + 1 + 1) := Nat.fib_add_two
      have hf' : Nat.fib (a + 3) = Nat.fib (a + 1) + Nat.fib (a + 2) := hf
      have hm : Nat.fib (a + 1) ≤ Nat.fib (c + 2) := Nat.fib_mono (by omega)
      omega
    rcases Nat.le_total (height l) (height r) with hc | hc
    · have := key (height r) (height l) hc (by omega) _ _ e2 e1
      rw [Nat.max_eq_right hc, show 1 + height r + 2 = height r + 3 by omega]
      omega
    · have := key (height l) (height r) hc (by omega) _ _ e1 e2
      rw [Nat.max_eq_left hc, show 1 + height l + 2 = height l + 3 by omega]
      omega

theorem inv_pow : ∀ (t : Tree κ δ), Inv t → 2 ^ height t ≤ ((toList t).length + 1) ^ 2 := by
  intro t
  induction t with
  | leaf => intro _; simp [height, toList]
  | node l k d b r ihl ihr =>
    intro h
    obtain ⟨hl, hr, hb, h1, h2⟩ := h
    have e1 := ihl hl
    have e2 := ihr hr
    simp only [toList, List.length_append, List.length_cons, height]
    have key : ∀ a c : Nat, c ≤ a → a ≤ c + 1 → ∀ x y, 2 ^ a ≤ (x + 1) ^ 2 → 2 ^ c ≤ (y + 1) ^ 2 →
        2 ^ (1 + a) ≤ (x + 1 + (y + 1)) ^ 2 := by
      intro a c hc ha x y hx hy
      generalize x + 1 = X at *
      generalize y + 1 = Y at *
      have hpos : 0 < 2 ^ c := Nat.two_pow_pos c
      have hXY : 2 ^ c ≤ X * Y := by
        have h3 : (2 ^ c) * (2 ^ c) ≤ (X * Y) * (X * Y) := by
          have h4 : 2 ^ c ≤ 2 ^ a := Nat.pow_le_pow_right (by decide) hc
          calc (2 ^ c) * (2 ^ c) ≤ X ^ 2 * Y ^ 2 := Nat.mul_le_mul (Nat.le_trans h4 hx) hy
            _ = (X * Y) * (X * Y) := by ring
        exact Nat.mul_self_le_mul_self_iff.1 h3
      have h5 : (X + Y) ^ 2 = X ^ 2 + 2 * (X * Y) + Y ^ 2 := by ring
      have h6 : 2 ^ (1 + a) = 2 * 2 ^ a := by rw [Nat.pow_add]
      have h7 : 2 ^ a ≤ 2 * 2 ^ c := by
        calc 2 ^ a ≤ 2 ^ (c + 1) := Nat.pow_le_pow_right (by decide) ha
          _ = 2 * 2 ^ c := by ring
      rw [h5, h6]
      omega
    rcases Nat.le_total (height l) (height r) with hc | hc
    · have := key (height r) (height l) hc (by omega) _ _ e2 e1
      rw [Nat.max_eq_right hc]
      refine Nat.le_trans this (Nat.le_of_eq ?_)
      congr 1; omega
    · have := key (height l) (height r) hc (by omega) _ _ e1 e2
      rw [Nat.max_eq_left hc]
      refine Nat.le_trans this (Nat.le_of_eq ?_)
      congr 1; omega

/-- C21: at every node of every tree produced by a history the stored balance is the height of the right subtree minus
that of the left one and lies in {-1, 0, 1}. -/
theorem C21_balance {cmp : κ → κ → Int} (ho : CmpOrd cmp) (hs : Sgn cmp) {dflt : δ} {t : Tree κ δ} (h : Reach cmp dflt t)
    {l r : Tree κ δ} {k : κ} {d : δ} {b : Int} (hsub : Sub (.node l k d b r) t) :
    b = (height r : Int) - height l ∧ (b = -1 ∨ b = 0 ∨ b = 1) := by
  obtain ⟨_, _, h3, h4, h5⟩ := Inv.sub hsub (Reach.rep ho hs h).1
  exact ⟨h3, by omega⟩

/-- C21: the height of a tree of n keys is logarithmic: `fib (height + 2) ≤ n + 1` and `2 ^ height ≤ (n + 1) ^ 2`. -/
theorem C21_height {cmp : κ → κ → Int} (ho : CmpOrd cmp) (hs : Sgn cmp) {dflt : δ} {t : Tree κ δ} (h : Reach cmp dflt t) :
    Nat.fib (height t + 2) ≤ (toList t).length + 1 ∧ 2 ^ height t ≤ ((toList t).length + 1) ^ 2 :=
  ⟨inv_fib t (Reach.rep ho hs h).1, inv_pow t (Reach.rep ho hs h).1⟩

/-- C21: the traversal visits the keys in strictly descending order. -/
theorem C21_traverse_sorted {cmp : κ → κ → Int} (ho : CmpOrd cmp) (hs : Sgn cmp) {dflt : δ} {t : Tree κ δ}
    (h : Reach cmp dflt t) : (toList t).Pairwise fun a b => cmp b.1 a.1 < 0 :=
  (Reach.rep ho hs h).2.1

/-! ## C75: `Near` -/

theorem near_spec {cmp : κ → κ → Int} (ho : CmpOrd cmp) (hs : Sgn cmp) (key : κ) :
    ∀ (t : Tree κ δ) (prev : Option (κ × δ)), t ≠ .leaf → Desc cmp (toList t) →
    ∃ e, near cmp key prev t = some e ∧ e ∈ toList t ∧
      (cmp e.1 key < 0 → ∀ x ∈ toList t, cmp e.1 x.1 < 0 → cmp key x.1 < 0) ∧
      (cmp key e.1 < 0 → ∀ x ∈ toList t, cmp x.1 e.1 < 0 → cmp x.1 key < 0) := by
  intro t
  induction t with
  | leaf => intro _ h; exact absurd rfl h
  | node l k d b r ihl ihr =>
    intro prev _ hd
    obtain ⟨dl, dr, kl, kr⟩ := desc_node hd
    unfold near
    rcases hs k key with h | h | h
    · rw [if_pos h]
      by_cases hl : l = .leaf
      · subst hl
        refine ⟨(k, d), rfl, by simp [toList], ?_, ?_⟩
        · intro _ x hx h2
          simp only [toList, List.nil_append, List.mem_cons] at hx
          rcases hx with rfl | hx
          · have := ho.refl k; simp only at h2; omega
          · have := kr x hx; have h6 := ho.sym x.1 k; simp only at h2; omega
        · intro h1; have h6 := ho.sym key k; simp only at h1; omega
      · obtain ⟨e, e1, e2, e3, e4⟩ := ihl (some (k, d)) hl dl
        refine ⟨e, e1, by simp [toList, e2], ?_, ?_⟩
        · intro h1 x hx h2
          simp only [toList, List.mem_append, List.mem_cons] at hx
          rcases hx with hx | rfl | hx
          · exact e3 h1 x hx h2
          · have := kl e e2; have h6 := ho.sym k e.1; simp only at h2; omega
          · have := ho.lt_trans (kr x hx) (kl e e2); have h6 := ho.sym x.1 e.1; omega
        · intro h1 x hx h2
          simp only [toList, List.mem_append, List.mem_cons] at hx
          rcases hx with hx | rfl | hx
          · exact e4 h1 x hx h2
          · show cmp k key < 0
            omega
          · exact ho.lt_trans (kr x hx) (show cmp k key < 0 by omega)
    · rw [if_neg (by omega), if_neg (by omega)]
      refine ⟨(k, d), rfl, by simp [toList], ?_, ?_⟩
      · intro h1; simp only at h1; omega
      · intro h1; have := ho.swap_eq.1 h; simp only at h1; omega
    · rw [if_neg (by omega), if_pos h]
      have hk : cmp key k < 0 := (ho.sym key k).2 (by omega)
      by_cases hl : r = .leaf
      · subst hl
        refine ⟨(k, d), rfl, by simp [toList], ?_, ?_⟩
        · intro h1; simp only at h1; omega
        · intro _ x hx h2
          simp only [toList, List.mem_append, List.mem_cons, List.not_mem_nil, or_false] at hx
          rcases hx with hx | rfl
          · have := kl x hx; have h6 := ho.sym k x.1; simp only at h2; omega
          · have := ho.refl k; simp only at h2; omega
      · obtain ⟨e, e1, e2, e3, e4⟩ := ihr (some (k, d)) hl dr
        refine ⟨e, e1, by simp [toList, e2], ?_, ?_⟩
        · intro h1 x hx h2
          simp only [toList, List.mem_append, List.mem_cons] at hx
          rcases hx with hx | rfl | hx
          · exact ho.lt_trans hk (kl x hx)
          · exact hk
          · exact e3 h1 x hx h2
        · intro h1 x hx h2
          simp only [toList, List.mem_append, List.mem_cons] at hx
          rcases hx with hx | rfl | hx
          · have := ho.lt_trans (kr e e2) (kl x hx); have h6 := ho.sym e.1 x.1; omega
          · have := kr e e2; have h6 := ho.sym e.1 k; simp only at h2; omega
          · exact e4 h1 x hx h2

/-- C75: on a tree that is not empty `Near` returns an entry, and no key of the tree lies between that entry's key and
the key asked for (if the entry is below the key, every larger entry is above the key; and the other way round). -/
theorem C75_near {cmp : κ → κ → Int} (ho : CmpOrd cmp) (hs : Sgn cmp) {dflt : δ} {t : Tree κ δ} (h : Reach cmp dflt t)
    (hne : toList t ≠ []) (key : κ) :
    ∃ e, near cmp key none t = some e ∧ e ∈ toList t ∧
      (cmp e.1 key < 0 → ∀ x ∈ toList t, cmp e.1 x.1 < 0 → cmp key x.1 < 0) ∧
      (cmp key e.1 < 0 → ∀ x ∈ toList t, cmp x.1 e.1 < 0 → cmp x.1 key < 0) :=
  near_spec ho hs key t none (by rintro rfl; simp [toList] at hne) (Reach.rep ho hs h).2.1

/-- C75: if the key is in the tree, `Near` returns its entry. -/
theorem C75_near_exact {cmp : κ → κ → Int} (ho : CmpOrd cmp) (hs : Sgn cmp) {dflt : δ} {t : Tree κ δ} (h : Reach cmp dflt t)
    (key : κ) {d : δ} (hg : get cmp key t = some d) :
    ∃ k, near cmp key none t = some (k, d) ∧ cmp k key = 0 := by
  have hd := (Reach.rep ho hs h).2.1
  obtain ⟨k, h1, h2⟩ := (get_spec ho hs hd key d).1 hg
  have hf := (find_spec ho hs key t hd (k, d)).2 ⟨h1, h2⟩
  refine ⟨k, ?_, h2⟩
  clear h hg hd h1
  revert hf
  generalize (none : Option (κ × δ)) = prev
  induction t generalizing prev with
  | leaf => intro hf; simp [find] at hf
  | node l k' d' b r ihl ihr =>
    intro hf
    unfold find at hf
    unfold near
    split at hf
    · next h => rw [if_pos h]; exact ihl _ hf
    · next h =>
      rw [if_neg h]
      split at hf
      · next h => rw [if_pos h]; exact ihr _ hf
      · next h => rw [if_neg h]; exact hf

/-! ## Counterexamples and examples -/

theorem icmp_sgn : Sgn icmp := by
  intro a b
  unfold icmp
  split
  · simp
  · split <;> simp

/-- C76: `ReplaceKey` onto an existing key destroys the old entry although it reports failure, and with an absent old
key it creates an entry. -/
theorem C76_replace_key_counterexample :
    ((runAll (exec icmp 'z') [.insert 1 'a', .insert 2 'b', .replaceKey 1 2, .get 1, .get 2, .replaceKey 7 8, .get 8]
      .leaf).map (·.2)) =
    some [.ok true, .ok true, .ok false, .data none, .data (some 'b'), .ok true, .data (some 'z')] := by
  decide +kernel

/-- A history with rotations of every kind, removals of every kind, and its result. -/
example : ∃ t rs, runAll (exec icmp 'z') [.insert 5 'a', .insert 3 'b', .insert 4 'c', .insert 8 'd', .insert 6 'e',
      .insert 7 'f', .insert 2 'g', .insert 1 'h', .insert 3 'x', .remove 5, .remove 4, .remove 9, .get 6, .remove 8] .leaf =
    some (t, rs) ∧ (toList t).map (·.1) = [7, 6, 3, 2, 1] ∧ height t = 3 := ⟨_, _, rfl, by decide, by decide⟩

/-- The hypotheses of the theorems about reached trees are met. -/
example : Reach icmp 'z' (.node (.node .leaf 3 'c' 0 .leaf) 2 'b' 0 (.node .leaf 1 'a' 0 .leaf)) ∧
    get icmp 2 (.node (.node .leaf 3 'c' 0 .leaf) 2 'b' 0 (.node .leaf (1 : Int) 'a' 0 .leaf)) = some 'b' :=
  ⟨⟨[.insert 1 'a', .insert 2 'b', .insert 3 'c'], _, rfl⟩, rfl⟩

end Verif.AVL
