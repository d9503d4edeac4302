import Verif.Var.Spec

/-! # Properties of `Variant` -/

namespace Verif.Var

theorem getpos_ge (x : Nat) (ts : List Nat) : -1 ≤ getpos x ts := by
  induction ts with
  | nil => simp [getpos]
  | cons t ts ih => rw [getpos]; split; · omega
                    split <;> omega

theorem getpos_mem {x : Nat} {ts : List Nat} : getpos x ts ≠ -1 ↔ x ∈ ts := by
  induction ts with
  | nil => simp [getpos]
  | cons t ts ih =>
    have := getpos_ge x ts
    rw [getpos]
    by_cases e : x = t
    · simp [e]
    · rw [if_neg e]
      by_cases h : getpos x ts ≠ -1
      · rw [if_pos h]; simp [e, ih.mp h]; omega
      · rw [if_neg h]
        have : x ∉ ts := fun hx => h (ih.mpr hx)
        simp [e, this]

/-- The position determines the type. -/
theorem getpos_get {x : Nat} {ts : List Nat} (hx : x ∈ ts) : ts[(getpos x ts).toNat]? = some x := by
  induction ts with
  | nil => cases hx
  | cons t ts ih =>
    rw [getpos]
    by_cases e : x = t
    · simp [e]
    · rw [if_neg e]
      have hx : x ∈ ts := by simpa [e] using hx
      have h := getpos_mem.mpr hx
      rw [if_pos h]
      have := getpos_ge x ts
      have e2 : (getpos x ts + 1).toNat = (getpos x ts).toNat + 1 := by omega
      rw [e2, List.getElem?_cons_succ]
      exact ih hx

theorem getpos_inj {x y : Nat} {ts : List Nat} (hx : x ∈ ts) (hy : y ∈ ts) (h : getpos x ts = getpos y ts) : x = y := by
  have h1 := getpos_get hx
  have h2 := getpos_get hy
  rw [h] at h1
  exact Option.some.inj (h1.symm.trans h2)

/-- A variant and what it holds. -/
def Rep (all : List Nat) (x : Var) : Held → Prop
  | none => x = ⟨-1, .raw, 0⟩
  | some (t, v) => t ∈ all ∧ x = ⟨getpos t all, .live t v, 1⟩

theorem destroyU_ok {all : List Nat} {x : Var} {h : Held} (hx : Rep all x h) (ts : List Nat) (hts : ts ≠ []) (hsub : ∀ t ∈ ts, t ∈ all) (hin : ∀ t v, h = some (t, v) → t ∈ ts) :
    ∃ tag, destroyU all x ts = some ⟨tag, .raw, 0⟩ := by
  induction ts with
  | nil => exact absurd rfl hts
  | cons t ts ih =>
    rw [destroyU]
    cases h with
    | none =>
      have hx : x = ⟨-1, .raw, 0⟩ := hx
      subst hx
      rw [if_neg (by have := getpos_mem.mpr (hsub t (by simp)); exact fun e => this e.symm)]
      by_cases e : ts = []
      · subst e; exact ⟨-1, by simp⟩
      · rw [if_pos e]; exact ih e (fun u hu => hsub u (by simp [hu])) (fun _ _ h => (by cases h))
    | some p =>
      obtain ⟨u, v⟩ := p
      obtain ⟨hu, hx⟩ : u ∈ all ∧ x = ⟨getpos u all, .live u v, 1⟩ := hx
      subst hx
      by_cases e : getpos u all = getpos t all
      · have := getpos_inj hu (hsub t (by simp)) e
        subst this
        exact ⟨getpos u all, by simp [Var.destruct]⟩
      · rw [if_neg e]
        have hut : u ≠ t := fun h => e (by rw [h])
        have hin' : u ∈ ts := by have := hin u v rfl; simpa [hut] using this
        have hne : ts ≠ [] := by rintro rfl; cases hin'
        rw [if_pos hne]
        exact ih hne (fun u hu => hsub u (by simp [hu])) (fun t' v' h => by cases h; exact hin')

theorem destroy_ok {all : List Nat} (hall : all ≠ []) {x : Var} {h : Held} (hx : Rep all x h) : ∃ tag, destroyU all x all = some ⟨tag, .raw, 0⟩ :=
  destroyU_ok hx all hall (fun _ h => h) (by
    rintro t v rfl
    exact hx.1)

theorem constructU_ok {all : List Nat} (move : Bool) {v : Var} {h : Held} (hv : Rep all v h) (ts : List Nat) (hts : ts ≠ []) (hsub : ∀ t ∈ ts, t ∈ all) (hin : ∀ t a, h = some (t, a) → t ∈ ts) :
    ∃ x v', constructU all move ⟨v.tag, .raw, 0⟩ v ts = some (x, v') ∧ Rep all x h ∧ Rep all v' (if move then moved h else h) := by
  induction ts with
  | nil => exact absurd rfl hts
  | cons t ts ih =>
    rw [constructU]
    cases h with
    | none =>
      have hv : v = ⟨-1, .raw, 0⟩ := hv
      subst hv
      dsimp only at ih ⊢
      rw [if_neg (by have := getpos_mem.mpr (hsub t (by simp)); exact fun e => this e.symm)]
      by_cases e : ts = []
      · subst e; exact ⟨⟨-1, .raw, 0⟩, ⟨-1, .raw, 0⟩, by simp, rfl, by cases move <;> rfl⟩
      · rw [if_pos e]; exact ih e (fun u hu => hsub u (by simp [hu])) (fun _ _ h => (by cases h))
    | some p =>
      obtain ⟨u, a⟩ := p
      obtain ⟨hu, hv⟩ : u ∈ all ∧ v = ⟨getpos u all, .live u a, 1⟩ := hv
      subst hv
      dsimp only at ih ⊢
      by_cases e : getpos u all = getpos t all
      · have := getpos_inj hu (hsub t (by simp)) e
        subst this
        cases move
        · exact ⟨_, _, by simp [Slot.read, Var.construct], ⟨hu, rfl⟩, ⟨hu, rfl⟩⟩
        · exact ⟨_, _, by simp [Slot.read, Var.construct, Slot.write], ⟨hu, rfl⟩, ⟨hu, rfl⟩⟩
      · rw [if_neg e]
        have hut : u ≠ t := fun h => e (by rw [h])
        have hin' : u ∈ ts := by have := hin u a rfl; simpa [hut] using this
        have hne : ts ≠ [] := by rintro rfl; cases hin'
        rw [if_pos hne]
        exact ih hne (fun u hu => hsub u (by simp [hu])) (fun t' v' h => by cases h; exact hin')

theorem construct_ok {all : List Nat} (hall : all ≠ []) (move : Bool) {v : Var} {h : Held} (hv : Rep all v h) :
    ∃ x v', constructU all move ⟨v.tag, .raw, 0⟩ v all = some (x, v') ∧ Rep all x h ∧ Rep all v' (if move then moved h else h) :=
  constructU_ok move hv all hall (fun _ h => h) (by
    rintro t v rfl
    exact hv.1)

theorem assignU_ok {all : List Nat} (move : Bool) {t : Nat} {a b : Option Int} (ht : t ∈ all) (ts : List Nat) (hsub : ∀ t ∈ ts, t ∈ all) (hin : t ∈ ts) :
    assignU all move ⟨getpos t all, .live t a, 1⟩ ⟨getpos t all, .live t b, 1⟩ ts = some (⟨getpos t all, .live t b, 1⟩, ⟨getpos t all, .live t (if move then none else b), 1⟩) := by
  induction ts with
  | nil => cases hin
  | cons u ts ih =>
    rw [assignU]
    dsimp only
    by_cases e : getpos t all = getpos u all
    · have := getpos_inj ht (hsub u (by simp)) e
      subst this
      cases move <;> simp [Slot.read, Slot.write]
    · rw [if_neg e]
      have hut : t ≠ u := fun h => e (by rw [h])
      have hin' : t ∈ ts := by simpa [hut] using hin
      have hne : ts ≠ [] := by rintro rfl; cases hin'
      rw [if_pos hne]
      exact ih (fun u hu => hsub u (by simp [hu])) hin'

theorem Rep.tag {all : List Nat} {x y : Var} {g h : Held} (hx : Rep all x g) (hy : Rep all y h) : x.tag = y.tag ↔ g.map (·.1) = h.map (·.1) := by
  rcases g with _ | ⟨t, a⟩ <;> rcases h with _ | ⟨u, b⟩
  · have hx : x = _ := hx; have hy : y = _ := hy; rw [hx, hy]; simp
  · have hx : x = _ := hx; obtain ⟨hu, hy⟩ : u ∈ all ∧ y = _ := hy; rw [hx, hy]
    have := getpos_mem.mpr hu
    simp; exact fun h => this h.symm
  · obtain ⟨hu, hx⟩ : t ∈ all ∧ x = _ := hx; have hy : y = _ := hy; rw [hx, hy]
    have := getpos_mem.mpr hu
    simp; exact this
  · obtain ⟨ht, hx⟩ : t ∈ all ∧ x = _ := hx; obtain ⟨hu, hy⟩ : u ∈ all ∧ y = _ := hy; rw [hx, hy]
    simp only [Option.map_some, Option.some.injEq]
    exact ⟨getpos_inj ht hu, fun h => by rw [h]⟩

theorem assignVar_ok {all : List Nat} (hall : all ≠ []) (move : Bool) {x v : Var} {g h : Held} (hx : Rep all x g) (hv : Rep all v h) (hne : g ≠ none ∨ h ≠ none) :
    ∃ x' v', assignVar all move x v = some (x', v') ∧ Rep all x' h ∧ Rep all v' (if move then moved h else h) := by
  rw [assignVar]
  by_cases e : x.tag = v.tag
  · rw [if_pos e]
    have e' := (hx.tag hv).mp e
    rcases g with _ | ⟨t, a⟩ <;> rcases h with _ | ⟨u, b⟩
    · rcases hne with h | h <;> exact absurd rfl h
    · cases e'
    · cases e'
    · have e' : t = u := by simpa using e'
      subst e'
      obtain ⟨ht, hx⟩ : t ∈ all ∧ x = _ := hx
      obtain ⟨hu, hv⟩ : t ∈ all ∧ v = _ := hv
      subst hx; subst hv
      refine ⟨_, _, assignU_ok move ht all (fun _ h => h) ht, ⟨ht, rfl⟩, ?_⟩
      cases move <;> exact ⟨ht, rfl⟩
  · rw [if_neg e]
    obtain ⟨tag, hd⟩ := destroy_ok hall hx
    rw [hd, Option.bind_some]
    exact construct_ok hall move hv

theorem constructVal_ok {all : List Nat} {t : Nat} (ht : t ∈ all) (v : Option Int) (tag : Int) : ∃ x, construct all t v ⟨tag, .raw, 0⟩ = some x ∧ Rep all x (some (t, v)) :=
  ⟨_, by rw [construct, if_neg (getpos_mem.mpr ht)]; rfl, ht, rfl⟩

/-- A world and its description. -/
def Good (all : List Nat) (w : World) (s : Spec) : Prop :=
  (w.count = s.count ∧ w.left = 0) ∧ ∀ i, match s.var i with
    | none => w.var i = none
    | some h => ∃ x, w.var i = some x ∧ Rep all x h

theorem Good.get {all : List Nat} {w : World} {s : Spec} (hg : Good all w s) {i : Nat} {h : Held} (hi : s.var i = some h) : ∃ x, w.var i = some x ∧ Rep all x h := by
  have := hg.2 i
  rw [hi] at this
  exact this

theorem Good.upd {all : List Nat} {w : World} {s : Spec} (hg : Good all w s) (i : Nat) {x : Var} {h : Held} (hx : Rep all x h) : Good all (w.upd i (some x)) (s.set i (some h)) := by
  refine ⟨hg.1, fun j => ?_⟩
  simp only [World.upd, Spec.set]
  by_cases e : j = i
  · rw [if_pos e, if_pos e]; exact ⟨x, rfl, hx⟩
  · rw [if_neg e, if_neg e]; exact hg.2 j

theorem Good.del {all : List Nat} {w : World} {s : Spec} (hg : Good all w s) (i : Nat) : Good all { w.upd i none with left := w.left + 0 } (s.set i none) := by
  refine ⟨⟨hg.1.1, by simp [hg.1.2]⟩, fun j => ?_⟩
  simp only [World.upd, Spec.set]
  by_cases e : j = i
  · rw [if_pos e, if_pos e]
  · rw [if_neg e, if_neg e]; exact hg.2 j

theorem Good.add {all : List Nat} {w : World} {s : Spec} (hg : Good all w s) {x : Var} {h : Held} (hx : Rep all x h) : Good all ⟨w.count + 1, fun j => if j = w.count then some x else w.var j, w.left⟩ (s.add h) := by
  refine ⟨⟨by simp [Spec.add, hg.1.1], hg.1.2⟩, fun j => ?_⟩
  simp only [Spec.add, hg.1.1]
  by_cases e : j = s.count
  · rw [if_pos e, if_pos e]; exact ⟨x, rfl, hx⟩
  · rw [if_neg e, if_neg e]; exact hg.2 j

theorem step_ok {all : List Nat} (hall : all ≠ []) {dflt : Nat → Int} {w : World} {s s' : Spec} {op : Op} (hg : Good all w s) (h : Step all dflt s op s') : ∃ w', step all dflt w op = some w' ∧ Good all w' s' := by
  cases h with
  | new => exact ⟨_, rfl, hg.add (h := none) rfl⟩
  | newValue t v ht =>
    obtain ⟨x, h1, h2⟩ := constructVal_ok ht v 0
    exact ⟨_, by rw [step, h1]; rfl, hg.add h2⟩
  | newCopy j h hj =>
    obtain ⟨v, hv, hr⟩ := hg.get hj
    obtain ⟨x, v', h1, h2, -⟩ := construct_ok hall false hr
    exact ⟨_, by rw [step, hv, Option.bind_some, h1]; rfl, hg.add h2⟩
  | newMove j h hj =>
    obtain ⟨v, hv, hr⟩ := hg.get hj
    obtain ⟨x, v', h1, h2, h3⟩ := construct_ok hall true hr
    exact ⟨_, by rw [step, hv, Option.bind_some, h1]; rfl, (hg.upd j h3).add h2⟩
  | assign i j g h hi hj hne =>
    obtain ⟨x, hx, hr⟩ := hg.get hi
    obtain ⟨v, hv, hr'⟩ := hg.get hj
    obtain ⟨x', v', h1, h2, -⟩ := assignVar_ok hall false hr hr' hne
    exact ⟨_, by rw [step, hx, Option.bind_some, hv, Option.bind_some, h1]; rfl, hg.upd i h2⟩
  | moveAssign i j g h hi hj hne hij =>
    obtain ⟨x, hx, hr⟩ := hg.get hi
    obtain ⟨v, hv, hr'⟩ := hg.get hj
    obtain ⟨x', v', h1, h2, h3⟩ := assignVar_ok hall true hr hr' hne
    exact ⟨_, by rw [step, hx, Option.bind_some, hv, Option.bind_some, h1]; rfl, (hg.upd j h3).upd i h2⟩
  | assignValue i t v g hi ht =>
    obtain ⟨x, hx, hr⟩ := hg.get hi
    have : ∃ x', assign all t v x = some x' ∧ Rep all x' (some (t, v)) := by
      rw [assign, if_neg (getpos_mem.mpr ht)]
      by_cases e : x.tag = getpos t all
      · rw [if_pos e]
        rcases g with _ | ⟨u, b⟩
        · have hr : x = _ := hr
          rw [hr] at e
          exact absurd e.symm (getpos_mem.mpr ht)
        · obtain ⟨hu, hr⟩ : u ∈ all ∧ x = _ := hr
          subst hr
          have := getpos_inj hu ht e
          subst this
          exact ⟨_, by simp only [Slot.write, if_true, Option.map_some], hu, rfl⟩
      · rw [if_neg e]
        obtain ⟨tag, hd⟩ := destroy_ok hall hr
        rw [hd, Option.bind_some]
        exact constructVal_ok ht v tag
    obtain ⟨x', h1, h2⟩ := this
    exact ⟨_, by rw [step, hx, Option.bind_some, h1]; rfl, hg.upd i h2⟩
  | typeset i t g hi ht =>
    obtain ⟨x, hx, hr⟩ := hg.get hi
    obtain ⟨tag, hd⟩ := destroy_ok hall hr
    exact ⟨_, by rw [step, hx, Option.bind_some, if_neg (getpos_mem.mpr ht), hd]; rfl, hg.upd i (h := some (t, some (dflt t))) ⟨ht, rfl⟩⟩
  | put i t v o hi =>
    obtain ⟨x, hx, hr⟩ := hg.get hi
    obtain ⟨hu, hr⟩ : t ∈ all ∧ x = _ := hr
    subst hr
    refine ⟨w.upd i (some ⟨getpos t all, .live t (some v), 1⟩), ?_, hg.upd i (h := some (t, some v)) ⟨hu, rfl⟩⟩
    rw [step, hx, Option.bind_some, if_pos ⟨getpos_mem.mpr hu, rfl⟩]
    simp [Slot.write]
  | destroy i g hi =>
    obtain ⟨x, hx, hr⟩ := hg.get hi
    obtain ⟨tag, hd⟩ := destroy_ok hall hr
    exact ⟨_, by rw [step, hx, Option.bind_some, hd]; rfl, hg.del i⟩

theorem run_ok {all : List Nat} (hall : all ≠ []) {dflt : Nat → Int} {s s' : Spec} {ops : List Op} (h : Run all dflt s ops s') : ∀ w, Good all w s → ∃ w', run all dflt w ops = some w' ∧ Good all w' s' := by
  induction h with
  | nil s => intro w hg; exact ⟨w, rfl, hg⟩
  | cons s s' s'' op ops h _ ih =>
    intro w hg
    obtain ⟨w', h1, h2⟩ := step_ok hall hg h
    obtain ⟨w'', h3, h4⟩ := ih w' h2
    exact ⟨w'', by rw [run, h1, Option.bind_some, h3], h4⟩

theorem convertU_ok {all : List Nat} {t : Nat} {a : Option Int} (ht : t ∈ all) (ts : List Nat) (hsub : ∀ t ∈ ts, t ∈ all) (hin : t ∈ ts) : convertU all ⟨getpos t all, .live t a, 1⟩ ts = some (t, a) := by
  induction ts with
  | nil => cases hin
  | cons u ts ih =>
    rw [convertU]
    dsimp only
    by_cases e : getpos t all = getpos u all
    · have := getpos_inj ht (hsub u (by simp)) e
      subst this
      simp [Slot.read]
    · rw [if_neg e]
      have hut : t ≠ u := fun h => e (by rw [h])
      have hin' : t ∈ ts := by simpa [hut] using hin
      have hne : ts ≠ [] := by rintro rfl; cases hin'
      rw [if_pos hne]
      exact ih (fun u hu => hsub u (by simp [hu])) hin'

/-! ## C136: a variant holds one value, of the type it says -/

/-- Any program of allowed calls runs without an error, that is, objects are constructed in raw memory, destroyed once and only used as what they are. After it each variant holds what the description says: `is` is true for that type only,
`get` and `convert` give its value, an empty variant is of no type, as many destructors as constructors were run in a variant that is empty or was destroyed, and one less in a variant that holds a value. The list of types may contain repetitions. Missing: assignments between two empty variants, which fail an
assertion, and of a value from inside of the variant. -/
theorem C136_variants_partial (all : List Nat) (hall : all ≠ []) (dflt : Nat → Int) (ops : List Op) (s : Spec) (h : Run all dflt .empty ops s) :
    ∃ w, run all dflt empty ops = some w ∧ w.left = 0 ∧ ∀ i, match s.var i with
      | none => w.var i = none
      | some none => ∃ x, w.var i = some x ∧ x.store = .raw ∧ x.objs = 0 ∧ x.tag = -1 ∧ ∀ t ∈ all, is all x t = false ∧ get all x t = none
      | some (some (t, v)) => ∃ x, w.var i = some x ∧ x.objs = 1 ∧ t ∈ all ∧ all[x.tag.toNat]? = some t ∧ (∀ u ∈ all, is all x u = true ↔ u = t) ∧ get all x t = some v ∧ (∀ u, u ≠ t → get all x u = none) ∧ convertU all x all = some (t, v) := by
  obtain ⟨w, h1, hg⟩ := run_ok hall h empty ⟨⟨rfl, rfl⟩, fun _ => rfl⟩
  refine ⟨w, h1, hg.1.2, fun i => ?_⟩
  have := hg.2 i
  split
  · rename_i e; rw [e] at this; exact this
  · rename_i e; rw [e] at this
    obtain ⟨x, hx, hr⟩ := this
    have hr : x = _ := hr
    subst hr
    refine ⟨_, hx, rfl, rfl, rfl, fun t ht => ?_⟩
    have := getpos_mem.mpr ht
    exact ⟨by simp [is, this], by simp [get, Slot.read]⟩
  · rename_i t v e; rw [e] at this
    obtain ⟨x, hx, ht, hr⟩ := this
    subst hr
    refine ⟨_, hx, rfl, ht, getpos_get ht, fun u hu => ?_, ?_, ?_, convertU_ok ht all (fun _ h => h) ht⟩
    · simp only [is, decide_eq_true_eq]
      exact ⟨getpos_inj hu ht, fun h => by rw [h]⟩
    · simp [get, getpos_mem.mpr ht, Slot.read]
    · intro u hu
      simp only [get, Slot.read, if_neg hu]
      split <;> rfl

/-- The assignment of an empty variant to an empty variant fails an assertion, for every list of types. -/
theorem C136_empty_counterexample (all : List Nat) (dflt : Nat → Int) : run all dflt empty [.new, .new, .assign 0 1] = none := by
  have : ∀ ts : List Nat, (∀ t ∈ ts, t ∈ all) → assignU all false ⟨-1, .raw, 0⟩ ⟨-1, .raw, 0⟩ ts = none := by
    intro ts
    induction ts with
    | nil => intro _; rfl
    | cons t ts ih =>
      intro hsub
      rw [assignU, if_neg (by have := getpos_mem.mpr (hsub t (by simp)); exact fun e => this e.symm)]
      split
      · exact ih fun u hu => hsub u (by simp [hu])
      · rfl
  simp [run, step, empty, assignVar, this all (fun _ h => h)]

/-- The assignment of a value that is a part of the object in the variant reads it after the object is destroyed, whenever it has another type. -/
theorem C136_inner_counterexample (all : List Nat) (dflt : Nat → Int) (t u : Nat) (v : Option Int) (ht : t ∈ all) (htu : t ≠ u) (hu : u ∈ all) : run all dflt empty [.newValue t v, .assignInner 0 u] = none := by
  have h1 : getpos t all ≠ -1 := getpos_mem.mpr ht
  have h2 : getpos t all ≠ getpos u all := fun h => htu (getpos_inj ht hu h)
  have hall : all ≠ [] := by rintro rfl; cases ht
  obtain ⟨tag, hd⟩ := destroy_ok (x := ⟨getpos t all, .live t v, 1⟩) (h := some (t, v)) hall ⟨ht, rfl⟩
  simp [run, step, empty, construct, h1, h2, Var.construct, hd]

/-- An example of a program: three variants over two types, of which one is repeated. -/
example : ∃ s, Run [7, 8, 7] (fun _ => 0) .empty [.new, .newValue 8 (some 5), .newCopy 1, .assign 0 1, .moveAssign 2 0, .assignValue 1 7 (some 3), .typeset 0 7, .put 1 7 4, .destroy 2] s ∧
    s.var 0 = some (some (7, some 0)) ∧ s.var 1 = some (some (7, some 4)) ∧ s.var 2 = none :=
  ⟨_, .cons _ _ _ _ _ .new <| .cons _ _ _ _ _ (.newValue 8 (some 5) (by simp)) <| .cons _ _ _ _ _ (.newCopy 1 _ rfl) <| .cons _ _ _ _ _ (.assign 0 1 none (some (8, some 5)) rfl rfl (by simp)) <|
    .cons _ _ _ _ _ (.moveAssign 2 0 (some (8, some 5)) (some (8, some 5)) rfl rfl (by simp) (by simp)) <| .cons _ _ _ _ _ (.assignValue 1 7 (some 3) (some (8, some 5)) rfl (by simp)) <|
    .cons _ _ _ _ _ (.typeset 0 7 (some (8, none)) rfl (by simp)) <| .cons _ _ _ _ _ (.put 1 7 4 (some 3) rfl) <| .cons _ _ _ _ _ (.destroy 2 (some (8, some 5)) rfl) (.nil _), rfl, rfl, rfl⟩

/-! ## C137: the storage fits every type -/

theorem maxSize_ge (ts : List Shape) : ∀ a ∈ ts, a.size ≤ maxSize ts := by
  induction ts with
  | nil => intro a h; cases h
  | cons b ts ih =>
    intro a ha
    cases ts with
    | nil => simp at ha; subst ha; exact Nat.le_refl _
    | cons c r =>
      rw [maxSize]
      rcases List.mem_cons.mp ha with rfl | ha
      · split <;> omega
      · have := ih a ha
        split <;> omega

theorem roundUp_ge {n a : Nat} (ha : 0 < a) : n ≤ roundUp n a := by
  unfold roundUp
  have := Nat.div_add_mod (n + a - 1) a
  have := Nat.mod_lt (n + a - 1) ha
  rw [Nat.mul_comm]
  omega

theorem roundUp_dvd (n a : Nat) : a ∣ roundUp n a := ⟨_, Nat.mul_comm _ _⟩

/-- The storage lies within the variant and is large enough for each type. -/
theorem C137_size (ts : List Shape) (hts : ts ≠ []) (hpos : ∀ t ∈ ts, 0 < t.align) (t : Shape) (ht : t ∈ ts) : 4 ≤ (layout ts).offset ∧ (layout ts).offset + t.size ≤ (layout ts).size := by
  have ha : 0 < (alignType ts).align := by
    cases ts with
    | nil => cases ht
    | cons a r => cases r with
      | nil => exact hpos a (by simp)
      | cons b r => exact Nat.one_pos
  refine ⟨roundUp_ge ha, ?_⟩
  have h1 := maxSize_ge ts t ht
  have h2 := roundUp_ge (n := max (maxSize ts) (alignType ts).size) ha
  have h3 := roundUp_ge (n := roundUp 4 (alignType ts).align + roundUp (max (maxSize ts) (alignType ts).size) (alignType ts).align) (a := max 4 (alignType ts).align) (by omega)
  simp only [layout]
  omega

theorem offset_two (a b : Shape) (r : List Shape) : (layout (a :: b :: r)).offset = 4 := by
  show roundUp 4 1 = 4
  decide

/-- The storage is aligned for each type, if there is one type or if all alignments divide 4. Missing: larger alignments among several types. -/
theorem C137_aligned_partial (ts : List Shape) (h : (∃ a, ts = [a] ∧ 0 < a.align ∧ (a.align ∣ 4 ∨ 4 ∣ a.align)) ∨ ∀ t ∈ ts, t.align ∣ 4) (addr : Nat) (haddr : (layout ts).align ∣ addr) (t : Shape) (ht : t ∈ ts) :
    t.align ∣ addr + (layout ts).offset := by
  have key : ∀ {ts : List Shape}, (layout ts).align ∣ addr → t.align ∣ 4 → t.align ∣ (layout ts).offset → (alignType ts).align ∣ 4 → t.align ∣ addr + (layout ts).offset := by
    intro ts h1 h2 h3 h4
    have : (layout ts).align = 4 := by simp only [layout]; have := Nat.le_of_dvd (by omega) h4; omega
    rw [this] at h1
    exact Nat.dvd_add (Nat.dvd_trans h2 h1) h3
  rcases h with ⟨a, rfl, h0, h⟩ | h
  · have : t = a := by simpa using ht
    subst this
    have h3 : t.align ∣ (layout [t]).offset := roundUp_dvd _ _
    rcases h with h | h
    · exact key haddr h h3 h
    · refine Nat.dvd_add (Nat.dvd_trans ?_ haddr) h3
      have e : alignType [t] = t := rfl
      simp only [layout, e]
      rw [Nat.max_eq_right (Nat.le_of_dvd h0 h)]
      exact Nat.dvd_refl _
  · have h4 : (alignType ts).align ∣ 4 := by
      cases ts with
      | nil => cases ht
      | cons a r => cases r with
        | nil => exact h a (by simp)
        | cons b r => exact ⟨4, rfl⟩
    refine key haddr (h t ht) ?_ h4
    cases ts with
    | nil => cases ht
    | cons a r => cases r with
      | nil => have : t = a := by simpa using ht
               subst this; exact roundUp_dvd _ _
      | cons b r => rw [offset_two]; exact h t ht

/-- With several types the offset is 4 and the variant itself is aligned to 4 only: in a variant at a multiple of 8, an object with alignment 8 is misaligned. -/
theorem C137_aligned_counterexample (a b t : Shape) (r : List Shape) (h8 : 8 ∣ t.align) (addr : Nat) (haddr : 8 ∣ addr) : (layout (a :: b :: r)).align = 4 ∧ ¬t.align ∣ addr + (layout (a :: b :: r)).offset := by
  refine ⟨rfl, fun h => ?_⟩
  rw [offset_two] at h
  have h1 : 8 ∣ addr + 4 := Nat.dvd_trans h8 h
  omega

/-- `Variant<int, char[6], short>`. -/
example : layout [⟨4, 4⟩, ⟨6, 1⟩, ⟨2, 2⟩] = ⟨4, 12, 4⟩ := by decide

/-- `Variant<int, double>`. -/
example : layout [⟨4, 4⟩, ⟨8, 8⟩] = ⟨4, 12, 4⟩ ∧ ¬(8 ∣ 0 + 4) := by decide

/-- `Variant<double>`. -/
example : layout [⟨8, 8⟩] = ⟨8, 16, 8⟩ := by decide

end Verif.Var
